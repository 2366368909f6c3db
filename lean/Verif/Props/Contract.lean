import Verif.Spec.Contract
import Verif.Props.Syntax
import Verif.Props.UserLevel
import Verif.Props.Lower
import Verif.Props.Entries
import Verif.Props.Text
import Verif.Props.Reports
import Verif.Props.Idents
import Verif.Props.Space

/-! # C83: the contract of `parser!` -/

namespace Parsegen

section

variable {X Ty V W Tok E : Type} [DecidableEq Ty]
variable {U : IdentChars} {S : Syn X Ty} {ts : List TokTree} {items : List (GrammarItem X Ty)}
  {defs : List (AstNonTerminal X Ty)} {te : TokenEnum Ty} {toR : Tok → RVal} {code : UserCode X V W}

omit [DecidableEq Ty] in
theorem Contract.macro_items (C : Contract U S ts items defs te toR code) :
    macroItems items = .ok (defs, te) :=
  (macroItems_iff _ _ _).2 ⟨C.definitions.symm, C.tokenEnum, C.state⟩

omit [DecidableEq Ty] in
theorem Contract.lowers (C : Contract U S ts items defs te toR code) :
    ∃ g, lower code.mkPath defs te.conversions = .ok g :=
  (c26_rejects_iff C.size C.sizeT).2 ⟨C.terminals, fun a ha p hp => ⟨C.actions a ha p hp, C.symbols a ha p hp⟩⟩

omit [DecidableEq Ty] in
theorem Contract.pub_names (C : Contract U S ts items defs te toR code) : (pubDefNames defs).Nodup :=
  C.names.sublist ((List.filter_sublist).map _)

/-- What is promised is kept by every compiled program with such items. -/
theorem Contract.kept (C : Contract U S ts items defs te toR code) {P : Compiled X Ty V W Tok}
    (hd : P.defs = defs) (hc : P.code = code) {lc : String → String}
    {m : EModule X Ty} (hm : P.Emits lc m) {d : AstNonTerminal X Ty} (hmem : d ∈ defs)
    (hpub : d.isPub = true) : Kept P m d.name := by
  obtain ⟨ep, hep, hn⟩ : ∃ ep ∈ P.gen.entries, ep.name = d.name := by
    have := (c15_entries P (by rw [hd]; exact C.size)).mem_iff (a := d.name)
    have h := this.2 (List.mem_map.2 ⟨d, by rw [hd]; exact List.mem_filter.2 ⟨hmem, hpub⟩, rfl⟩)
    obtain ⟨ep, h1, h2⟩ := List.mem_map.1 h
    exact ⟨ep, h1, h2⟩
  have hR : P.Regular := Compiled.regular_of_user hep (by rw [hd]; exact C.names) (by rw [hd]; exact C.lr1)
    (by rw [hd]; exact C.harmless)
  have hP : P.Productive := by unfold Compiled.Productive; rw [hd]; exact C.productive
  have hT : P.Total := by unfold Compiled.Total; rw [hd, hc]; exact C.total
  have hb : ¬ IsBinder P.defs "value_stack" := by rw [hd]; exact C.binders
  have hp : (pubDefNames P.defs).Nodup := by rw [hd]; exact C.pub_names
  have text : ∀ (E : Type) (input : Nat → Option (Except E Tok)) w, _ :=
    fun E input w => c58_text P hm hb hp hep input w
  rw [← hn]
  refine ⟨fun E input w => (text E input w).2, fun E input w o n => ?_, fun E input w v w' n => ?_,
    fun E input w k hk => ?_, fun E input w o w' n o' w'' n' h h' => ?_⟩
  · rw [← c79_iff (w := w) hR hP hT hep]
    constructor
    · rintro ⟨o', w', h1, h2⟩; exact ⟨o', w', ((text E input w).1 _ _ _).1 h1, h2⟩
    · rintro ⟨o', w', h1, h2⟩; exact ⟨o', w', ((text E input w).1 _ _ _).2 h1, h2⟩
  · rw [(text E input w).1]
    constructor
    · intro h
      obtain ⟨toks, h1, h2, h3⟩ := c02_value hep h
      have h4 := c04_value hR hep ⟨h1, h2⟩ h3
      exact ⟨toks, ⟨h1, h2⟩, (returns_unique h h4).2.2, h3⟩
    · rintro ⟨toks, h1, rfl, h2⟩
      exact c04_value hR hep h1 h2
  · obtain ⟨o, w', n, h⟩ := c07_productive (w := w) hP hR.names hR.first hep hk
    exact ⟨o, w', n, ((text E input w).1 _ _ _).2 h⟩
  · exact returns_unique (((text E input w).1 _ _ _).1 h) (((text E input w).1 _ _ _).1 h')

/-- **C83.** If the writer keeps the contract, then, in whatever order hash containers are iterated, the
macro either panics because the grammar is too large, or accepts the invocation and emits a module; and
the `parse` function in it of every `pub` definition keeps what is promised: everything executed compiles,
the outcome without its value, and the number of tokens read, is what `Reports` says about the language of
the definition, the value and effects are those of the derivation, and the function returns. -/
theorem c83_contract (C : Contract U S ts items defs te toR code) (order : HashOrder)
    {lc : String → String} (hlc : Lowercase U lc) (inj : RVal → V) :
    TooLarge S order code.mkPath ts ∨
    ∃ (P : Compiled X Ty V W Tok) (m : EModule X Ty),
      P.order = order ∧ P.code = code ∧ P.toR = toR ∧ P.inj = inj ∧ P.defs = defs ∧ P.tokens = te ∧
      parserMacroTokens S order code.mkPath ts = .ok (P.gen, te) ∧
      emitMacroI U order lc code.mkPath items = .ok m ∧
      ∀ d ∈ defs, d.isPub = true → Kept P m d.name := by
  have hr : readItems S ts = .ok items := c43_accepts_iff.2 C.written
  obtain ⟨g, hg⟩ := C.lowers
  have hd := C.definitions
  have key := c23_user_accepted (h := order) (mkPath := code.mkPath) (items := items) (t := te) (g := g)
    (by rw [hd]; exact C.size) (by rw [hd]; exact C.names) (by rw [hd]; exact C.lr1)
    (by rw [hd]; exact C.macro_items) (by rw [hd]; exact hg)
  rcases key with ⟨gen, h⟩ | h | h
  · right
    have hok : (parserMacro order code.mkPath items).isOk = true := by rw [h]; rfl
    let P : Compiled X Ty V W Tok :=
      .ofItems order code items te toR inj hok C.tokenEnum C.patterns C.covers
    obtain ⟨m, hm⟩ := P.emits lc
    have hPd : P.defs = defs := hd
    refine ⟨P, m, rfl, rfl, rfl, rfl, hPd, rfl, ?_, ?_, fun d h1 h2 => C.kept hPd rfl hm h1 h2⟩
    · unfold parserMacroTokens
      rw [hr]
      have := P.accepted
      have e : parserMacro order code.mkPath items = .ok (P.gen, te) := this
      simp only [e]
    · have hraw : ∀ s, U.isIdent s = true → ¬ IsRaw U s := by
        intro s hs hw
        rw [IdentChars.not_hash hw.hash] at hs; cases hs
      refine (c65_accepts hlc order code.mkPath (items := items) (by rw [hd]; exact C.size) ?_ ?_ m).2
        ⟨hm, ?_, ?_⟩
      · rw [hd]; exact fun d h => .inl (C.identifiers.1 d h)
      · rw [C.tokenEnum]; simp only [List.mem_singleton]; rintro t rfl; exact .inl C.identifiers.2
      · rw [hd]; exact fun d h _ => hraw _ (C.identifiers.1 d h)
      · rw [C.tokenEnum]; simp only [List.mem_singleton]; rintro t rfl; exact hraw _ C.identifiers.2
  · left; left; simp only [parserMacroTokens, hr, h]
  · left; right; simp only [parserMacroTokens, hr, h]

/-- **C83**, without conditions on the grammar.  Whenever `parser!` accepts tokens, they are a writing of
some items; and if no binder is called `value_stack`, `pub` definitions have different names, and token
patterns contain no one-element tuple and cover all tokens, it expands to a module in which the `parse`
function of every `pub` definition is safe. -/
theorem c83_accepted {order : HashOrder} {lc : String → String} (inj : RVal → V) {gen : Generated X}
    (h : parserMacroTokens S order code.mkPath ts = .ok (gen, te))
    (patterns : ∀ c ∈ te.conversions, NoOneTuple c.to)
    (covers : ∀ t, (classify te.conversions (toR t)).isSome = true) :
    ∃ items, ItemsIn S Actual ts items ∧ ∃ P : Compiled X Ty V W Tok,
      P.order = order ∧ P.code = code ∧ P.items = items ∧ P.toR = toR ∧ P.inj = inj ∧ P.tokens = te ∧
      P.gen = gen ∧
      (¬ IsBinder P.defs "value_stack" → (pubDefNames P.defs).Nodup → loweredCount P.defs ≤ 4294967296 →
        ∃ m, P.Emits lc m ∧ ∀ d ∈ P.defs, d.isPub = true → Safe P m d.name) := by
  obtain ⟨items, hi, ha⟩ := c46_accepts_iff.1 h
  have hok : (parserMacro order code.mkPath items).isOk = true := by rw [ha]; rfl
  let P : Compiled X Ty V W Tok :=
    .ofItems order code items te toR inj hok (parserMacro_tokens ha) patterns covers
  have hg : P.gen = gen := by
    have e : parserMacro order code.mkPath items = .ok (P.gen, te) := P.accepted
    rw [ha] at e
    exact (congrArg Prod.fst (Except.ok.inj e)).symm
  refine ⟨items, hi, P, rfl, rfl, rfl, rfl, rfl, rfl, hg, fun hb hp hsz => ?_⟩
  obtain ⟨m, hm⟩ := P.emits lc
  refine ⟨m, hm, fun d hd hpub => ?_⟩
  obtain ⟨ep, hep, hn⟩ : ∃ ep ∈ P.gen.entries, ep.name = d.name := by
    have h := ((c15_entries P hsz).mem_iff (a := d.name)).2
      (List.mem_map.2 ⟨d, List.mem_filter.2 ⟨hd, hpub⟩, rfl⟩)
    obtain ⟨ep, h1, h2⟩ := List.mem_map.1 h
    exact ⟨ep, h1, h2⟩
  rw [← hn]
  have text : ∀ (E : Type) (input : Nat → Option (Except E Tok)) w, _ :=
    fun E input w => c58_text P hm hb hp hep input w
  refine ⟨fun E input w => (text E input w).2, fun E input w o w' n o' w'' n' h h' =>
    returns_unique (((text E input w).1 _ _ _).1 h) (((text E input w).1 _ _ _).1 h'),
    fun E input w o w' n h => c13_lazy hep (((text E input w).1 _ _ _).1 h),
    fun E input w v w' n h => ?_, fun E input w e w' n h => ?_, fun E input w fo ex w' n h => ?_,
    fun E input w f w' n h => (c06_only_user_panics hep (((text E input w).1 _ _ _).1 h)).1⟩
  · have h := ((text E input w).1 _ _ _).1 h
    obtain ⟨toks, h1, h2, h3⟩ := c02_value hep h
    have h4 := c13_ok_reads_all hep h
    obtain ⟨toks', h5, h6⟩ := c13_lazy hep h
    have hl : toks.length = toks'.length := by
      rcases Nat.lt_trichotomy toks.length toks'.length with hlt | heq | hlt
      · have := h5 toks.length _ (List.getElem?_eq_getElem hlt)
        rw [h2] at this; cases this
      · exact heq
      · have := h1 toks'.length _ (List.getElem?_eq_getElem hlt)
        have h7 := h4.1
        rw [h6, Nat.add_sub_cancel, this] at h7; cases h7
    exact ⟨toks, ⟨h1, h2⟩, by omega, h3.sentence, h3⟩
  · obtain ⟨toks, _, h1, h2, _⟩ := c12_lexer_error hep (((text E input w).1 _ _ _).1 h)
    rw [h2, Nat.add_sub_cancel]; exact h1
  · obtain ⟨toks, _, h1, h2⟩ := c11_found hep (((text E input w).1 _ _ _).1 h)
    rw [h1, Nat.add_sub_cancel]; exact h2

end

/-! ## The grammar of sums, as it is written -/

namespace Examples

/-- The actions of `arith`, written as calls of functions. -/
def sumAction : String → Option (Act Log)
  | "add" => some fun e w => some (num e "a" + num e "b", w ++ [("Expr", 0)])
  | "one" => some fun e w => some (num e "a", w ++ [("Expr", 1)])
  | "number" => some fun e w => some (num e "a", w ++ [("Term", 0)])
  | "inner" => some fun e w => some (num e "a", w ++ [("Term", 1)])
  | _ => none

/-- An instance of `Syn` with types of one identifier, paths of two, and calls as expressions. -/
def sumSyn : Syn (Act Log) String where
  type := exIdent
  expr
    | .ident f :: .group .paren _ :: rest => (sumAction f).map (·, rest)
    | _ => none
  path
    | .ident a :: .punct ':' true :: .punct ':' false :: .ident b :: rest => some (a ++ "::" ++ b, rest)
    | _ => none
  keyword := exKeyword
  type_consumes := exSyn.type_consumes
  expr_consumes := by
    intro ts a rest h
    split at h
    · obtain ⟨x, _, hx⟩ := Option.map_eq_some_iff.1 h
      cases hx
      exact ⟨[_, _], by simp, rfl⟩
    · cases h
  path_consumes := by
    intro ts a rest h
    split at h
    · cases h; exact ⟨[_, _, _, _], by simp, rfl⟩
    · cases h
  expr_question := fun _ _ => rfl
  state := by decide
  keywords := by decide

/-- `Tok::v` -/
def tokPath (v : String) : List TokTree := [.ident "Tok", .punct ':' true, .punct ':' false, .ident v]

/-- `<x: s>` -/
def boundTok (x : String) (s : TokTree) : List TokTree := [chr '<', .ident x, chr ':', s, chr '>']

/-- `=> f(a)` -/
def arrowTok (f : String) : List TokTree :=
  [.punct '=' true, .punct '>' false, .ident f, .group .paren [.ident "a"]]

/-- Tokens of
```
enum Tok { "+" => Tok::Plus, "n" => Tok::Num(<u64>), "(" => Tok::LP, ")" => Tok::RP, }
pub Expr: u64 = { <a: Expr> "+" <b: Term> => add(a), <a: Term> => one(a), };
pub Term: u64 = { <a: "n"> => number(a), "(" <a: Expr> ")" => inner(a), };
``` -/
def sumTokens : List TokTree :=
  [.ident "enum", .ident "Tok", .group .brace (
     strTok "+" :: .punct '=' true :: .punct '>' false :: tokPath "Plus" ++ (chr ',' ::
     strTok "n" :: .punct '=' true :: .punct '>' false :: tokPath "Num" ++
       (.group .paren [chr '<', .ident "u64", chr '>'] :: chr ',' ::
     strTok "(" :: .punct '=' true :: .punct '>' false :: tokPath "LP" ++ (chr ',' ::
     strTok ")" :: .punct '=' true :: .punct '>' false :: tokPath "RP" ++ [chr ','])))),
   .ident "pub", .ident "Expr", chr ':', .ident "u64", chr '=', .group .brace (
     boundTok "a" (.ident "Expr") ++ (strTok "+" :: boundTok "b" (.ident "Term") ++
       (arrowTok "add" ++ (chr ',' :: boundTok "a" (.ident "Term") ++ (arrowTok "one" ++ [chr ',']))))),
   chr ';',
   .ident "pub", .ident "Term", chr ':', .ident "u64", chr '=', .group .brace (
     boundTok "a" (strTok "n") ++ (arrowTok "number" ++ (chr ',' :: strTok "(" ::
       boundTok "a" (.ident "Expr") ++ (strTok ")" :: arrowTok "inner" ++ [chr ','])))),
   chr ';']

set_option maxRecDepth 10000 in
/-- The tokens are a writing of the items of `arith`. -/
theorem sum_written : ItemsIn sumSyn Documented sumTokens (itemsOf arithDefs) := by
  refine .cons (.tokenEnum (by decide) .none ?_) ?_
  · refine .cons (.mk (.path (by decide) rfl)) ?_
    refine .cons (.mk (.enum (by decide) rfl (.last (.choose rfl)))) ?_
    refine .cons (.mk (.path (by decide) rfl)) ?_
    exact .cons (.mk (.path (by decide) rfl)) .nil
  refine .cons (.pubDef (by decide) rfl (.braces ?_)) ?_
  · refine .comma (j := false) (.infallible (j := false) (ts' := .ident "add" :: .group .paren [.ident "a"] ::
      chr ',' :: boundTok "a" (.ident "Term") ++ (arrowTok "one" ++ [chr ','])) (.cons (.named (skip := []) rfl (by decide)
        (.nonTerminal (skip := []) rfl (by decide))) (.cons .terminal (.cons (.named (skip := []) rfl (by decide)
        (.nonTerminal (skip := []) rfl (by decide))) .nil))) rfl) ?_
    exact .comma (j := false) (.infallible (j := false) (ts' := [.ident "one", .group .paren [.ident "a"], chr ','])
      (.cons (.named (skip := []) rfl (by decide) (.nonTerminal (skip := []) rfl (by decide))) .nil) rfl) .nil
  refine .cons (.pubDef (by decide) rfl (.braces ?_)) .nil
  refine .comma (j := false) (.infallible (j := false) (ts' := .ident "number" :: .group .paren [.ident "a"] ::
      chr ',' :: strTok "(" :: boundTok "a" (.ident "Expr") ++ (strTok ")" :: arrowTok "inner" ++ [chr ',']))
      (.cons (.named (skip := []) rfl (by decide) .terminal) .nil) rfl) ?_
  exact .comma (j := false) (.infallible (j := false) (ts' := [.ident "inner", .group .paren [.ident "a"], chr ','])
    (.cons .terminal (.cons (.named (skip := []) rfl (by decide) (.nonTerminal (skip := []) rfl (by decide)))
      (.cons .terminal .nil))) rfl) .nil

/-- The contract is kept by the grammar of sums as it is written. -/
theorem sum_contract : Contract asciiIdent sumSyn sumTokens (itemsOf arithDefs) arithDefs tk Tk.toR code where
  written := c43_accepts_iff.1 (c42_read sum_written)
  definitions := defs_itemsOf _
  tokenEnum := by simp [itemsOf, itemTokenEnums, List.filterMap_map]
  state := by decide
  names := by decide
  terminals := by decide
  identifiers := by decide
  actions := by
    intro d hd p hp
    simp only [arithDefs, List.mem_cons, List.not_mem_nil, or_false] at hd
    rcases hd with rfl | rfl <;> simp only [List.mem_cons, List.not_mem_nil, or_false] at hp <;>
      rcases hp with rfl | rfl <;> exact ⟨_, rfl⟩
  symbols := by
    obtain ⟨ep, hep, _⟩ := run_returns arith_run
    obtain ⟨g, nts, ts, a, g', T, S⟩ := arith.setup hep
    have hl : lower code.mkPath arithDefs tk.conversions = .ok g := by
      have := S.lower
      rwa [show arith.defs = arithDefs from defs_itemsOf _] at this
    exact fun d hd p hp => (((c26_rejects_iff (by decide) (by decide)).1 ⟨g, hl⟩).2 d hd p hp).2
  binders := by rw [← show arith.defs = arithDefs from defs_itemsOf _, arith_binder]; decide
  patterns := tk_simple
  covers := tk_total
  lr1 := by rw [← show arith.defs = arithDefs from defs_itemsOf _]; exact arith_ulr1
  harmless := by rw [← show arith.defs = arithDefs from defs_itemsOf _]; exact arith_harmless
  productive := by
    have := arith_productive
    unfold Compiled.Productive at this
    rwa [show arith.defs = arithDefs from defs_itemsOf _] at this
  total := by
    have := arith_total
    rwa [show arith.defs = arithDefs from defs_itemsOf _] at this
  size := by decide
  sizeT := by decide

/-- So `parser!` accepts it, and the promise is kept for `Expr` and `Term`. -/
theorem sum_kept : ∃ (P : Compiled (Act Log) String Nat Log Tk) (m : EModule (Act Log) String),
    P.code = code ∧ P.toR = Tk.toR ∧ P.inj = inj ∧ P.defs = arithDefs ∧ P.tokens = tk ∧
    parserMacroTokens sumSyn .insertion code.mkPath sumTokens = .ok (P.gen, tk) ∧
    emitMacroI asciiIdent .insertion asciiLower code.mkPath (itemsOf arithDefs) = .ok m ∧
    Kept P m "Expr" ∧ Kept P m "Term" := by
  rcases c83_contract sum_contract .insertion asciiLower_ok inj with h | ⟨P, m, -, c1, c2, c3, h1, h2, h3, h4, h5⟩
  · have : parserMacroTokens sumSyn .insertion code.mkPath sumTokens = .ok (arith.gen, arith.tokens) := by
      rw [c46_accepts_iff]
      exact ⟨_, c43_accepts_iff.1 (c42_read sum_written), arith.accepted⟩
    rcases h with h | h
    · exact nomatch (this.symm.trans h)
    · exact nomatch (this.symm.trans h)
  · exact ⟨P, m, c1, c2, c3, h1, h2, h3, h4, h5 arithDefs[0] (by simp [arithDefs]) rfl, h5 arithDefs[1] (by simp [arithDefs]) rfl⟩

/-- The hypotheses of `c83_accepted` hold for it. -/
example : ∃ gen, parserMacroTokens sumSyn .insertion code.mkPath sumTokens = .ok (gen, tk) ∧
    (∀ c ∈ tk.conversions, NoOneTuple c.to) ∧ (∀ t : Tk, (classify tk.conversions t.toR).isSome = true) ∧
    ¬ IsBinder arithDefs "value_stack" ∧ (pubDefNames arithDefs).Nodup ∧
    loweredCount arithDefs ≤ 4294967296 := by
  obtain ⟨P, m, -, -, -, -, -, h, -⟩ := sum_kept
  exact ⟨_, h, tk_simple, tk_total, sum_contract.binders, sum_contract.pub_names, sum_contract.size⟩

set_option maxRecDepth 10000 in
/-- In particular executing the text for `1 + (2 + 3)` returns `Ok(6)` after eight calls of `next()`. -/
theorem sum_value : ∃ (P : Compiled (Act Log) String Nat Log Tk) (m : EModule (Act Log) String),
    emitMacroI asciiIdent .insertion asciiLower code.mkPath (itemsOf arithDefs) = .ok m ∧ ∃ w',
    m.TextReturns P "Expr" (stream [.num 1, .plus, .lp, .num 2, .plus, .num 3, .rp]) [] (.ok 6) w' 8 := by
  obtain ⟨P, m, c1, c2, c3, h1, h2, h3, h4, hE, hT⟩ := sum_kept
  obtain ⟨ep, hmem, he, h⟩ := run_returns arith_run
  have hn : ep.name = "Expr" := by
    have e : (arith.gen.entries[0]?).map (·.name) = some "Expr" := by decide +kernel
    rw [he] at e; exact Option.some.inj e
  obtain ⟨toks, r1, r2, hM⟩ := c02_value hmem h
  have hcls : P.cls = arith.cls := by
    funext t; unfold Compiled.cls; rw [h2, c2]; rfl
  have hfld : P.fields = arith.fields := by
    funext t; unfold Compiled.fields; rw [h2, c2, c3]; rfl
  have hlen : toks.length + 1 = 8 := (returns_unique h (c04_value arith_regular hmem ⟨r1, r2⟩ hM)).2.2.symm
  refine ⟨P, m, h4, [("Term", 0), ("Expr", 1), ("Term", 0), ("Expr", 1), ("Term", 0), ("Expr", 0),
    ("Term", 1), ("Expr", 0)], (hE.value _ _ _ _ _ _).2 ⟨toks, ⟨r1, r2⟩, hlen.symm, ?_⟩⟩
  rw [hn] at hM
  unfold Compiled.Means at hM ⊢
  rw [h1, hcls, hfld, c1]
  exact hM

end Examples

end Parsegen
