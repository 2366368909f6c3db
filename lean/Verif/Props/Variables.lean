import Verif.Proofs.Variables
import Verif.Props.Tokens
import Verif.Props.Examples

/-! # C66: path patterns that are variables -/

namespace Parsegen

variable {X Ty V W Tok : Type}

theorem lowerTerminals_wildVars (isVar : String → Bool) (cs : List (Conversion Ty))
    (s : Grammar X Ty × AMap String Nat) :
    lowerTerminals (cs.map (·.wildVars isVar)) s = lowerTerminals cs s := by
  induction cs generalizing s with
  | nil => rfl
  | cons c cs ih =>
    obtain ⟨g, ts⟩ := s
    rw [List.map_cons]
    unfold lowerTerminals
    have hf : (Conversion.wildVars isVar c).from_ = c.from_ := rfl
    simp only [hf, ih]

theorem lower_wildVars (isVar : String → Bool) (mkPath : String → X) (asts : List (AstNonTerminal X Ty))
    (cs : List (Conversion Ty)) : lower mkPath asts (cs.map (·.wildVars isVar)) = lower mkPath asts cs := by
  unfold lower
  rw [lowerTerminals_wildVars]

theorem items_wildVars (isVar : String → Bool) (items : List (GrammarItem X Ty)) :
    itemNonTerminals (items.map (·.wildVars isVar)) = itemNonTerminals items ∧
    itemTokenEnums (items.map (·.wildVars isVar)) = (itemTokenEnums items).map (·.wildVars isVar) ∧
    itemTypeDefs (items.map (·.wildVars isVar)) = itemTypeDefs items := by
  induction items with
  | nil => exact ⟨rfl, rfl, rfl⟩
  | cons i items ih =>
    obtain ⟨h1, h2, h3⟩ := ih
    cases i with
    | tokenEnum t => exact ⟨h1, congrArg (TokenEnum.wildVars isVar t :: ·) h2, h3⟩
    | typeDef ty => exact ⟨h1, h2, congrArg (_ :: ·) h3⟩
    | nonTerminal n => exact ⟨congrArg (n :: ·) h1, h2, h3⟩

variable [DecidableEq Ty]

/-- **C66**, generator: the macro does not look at path patterns: with `_` instead of some of them it
emits the same tables, actions and parsers. -/
theorem c66_macro (isVar : String → Bool) (order : HashOrder) (mkPath : String → X)
    {items : List (GrammarItem X Ty)} {gen : Generated X} {tokens : TokenEnum Ty}
    (h : parserMacro order mkPath items = .ok (gen, tokens)) :
    parserMacro order mkPath (items.map (·.wildVars isVar)) = .ok (gen, tokens.wildVars isVar) := by
  unfold parserMacro at h ⊢
  obtain ⟨⟨nts, t⟩, h1, h⟩ := Except.bind_eq_ok.1 h
  obtain ⟨g, h2, h⟩ := Except.bind_eq_ok.1 h
  obtain ⟨gen', h3, h⟩ := Except.bind_eq_ok.1 h
  cases h
  obtain ⟨rfl, e2, e3⟩ := (macroItems_iff items _ _).1 h1
  obtain ⟨k1, k2, k3⟩ := items_wildVars isVar items
  have h4 : macroItems (items.map (·.wildVars isVar)) =
      .ok (itemNonTerminals items, tokens.wildVars isVar) :=
    (macroItems_iff _ _ _).2 ⟨k1.symm, by rw [k2, e2]; rfl, by rw [k3]; exact e3⟩
  rw [h4, Except.bind_ok]
  simp only
  have h5 : lower mkPath (itemNonTerminals items) (tokens.wildVars isVar).conversions = .ok g := by
    rw [← h2]; exact lower_wildVars isVar mkPath _ _
  rw [h5, Except.bind_ok, h3, Except.bind_ok]

omit [DecidableEq Ty] in
/-- **C66**, run time: if rustc takes some paths in token patterns for variables (and accepts the arms:
no variable occurs twice in one), the emitted token functions do exactly what those of the grammar with
`_` in place of the variables do. -/
theorem c66_token_fns (isVar : String → Bool) (t : TokenEnum Ty)
    (hs : ∀ c ∈ t.conversions, NoOneTuple c.to) (hd : NoVarTwice isVar t) (v : RVal) :
    tokenTerminalIdxV isVar t.conversions 0 v =
      tokenTerminalIdx (t.wildVars isVar).conversions 0 v ∧
    tokenValueV isVar t.conversions 0 v = tokenValue (t.wildVars isVar).conversions 0 v :=
  ⟨tokenTerminalIdxV_eq isVar _ 0 v, tokenValueV_eq isVar _ hs hd 0 v⟩

/-- **C66**: a program some of whose path patterns are variables is, in all that the other theorems
speak about, the program with `_` in their place. -/
theorem c66_compiled (isVar : String → Bool) {order : HashOrder} {code : UserCode X V W}
    {items : List (GrammarItem X Ty)} {gen : Generated X} {tokens : TokenEnum Ty} {toR : Tok → RVal}
    {inj : RVal → V} {tf : TokenFns Tok V}
    (accepted : parserMacro order code.mkPath items = .ok (gen, tokens))
    (idx : ∀ t, tokenTerminalIdxV isVar tokens.conversions 0 (toR t) = some (tf.terminalIdx t))
    (value : ∀ t, (tokenValueV isVar tokens.conversions 0 (toR t)).map (SAR.map inj) =
      some (tf.value t))
    (simple : ∀ c ∈ tokens.conversions, NoOneTuple c.to) (hd : NoVarTwice isVar tokens) :
    ∃ P : Compiled X Ty V W Tok, P.order = order ∧ P.code = code ∧
      P.items = items.map (·.wildVars isVar) ∧ P.gen = gen ∧ P.tf = tf ∧ P.toR = toR ∧ P.inj = inj :=
  ⟨{ order := order
     code := code
     items := items.map (·.wildVars isVar)
     gen := gen
     tokens := tokens.wildVars isVar
     toR := toR
     inj := inj
     tf := tf
     accepted := c66_macro isVar order code.mkPath accepted
     idx := fun t => by rw [← idx t, (c66_token_fns isVar tokens simple hd _).1]
     value := fun t => by rw [← value t, (c66_token_fns isVar tokens simple hd _).2]
     simple := by
       intro c hc
       obtain ⟨c', hc', rfl⟩ := List.mem_map.1 hc
       exact NoOneTuple.wildVars isVar _ (simple c' hc') }, rfl, rfl, rfl, rfl, rfl, rfl, rfl⟩

omit [DecidableEq Ty] in
/-- **C66**, consequence: a terminal whose whole pattern is a variable (for example a variant whose name
was not imported) swallows all tokens: no token is ever classified as a terminal declared later. -/
theorem c66_swallows (isVar : String → Bool) {cs : List (Conversion Ty)} {k : Nat} {c : Conversion Ty}
    {p : String} (hk : cs[k]? = some c) (hc : c.to = .path p) (hp : isVar p = true) (v : RVal) :
    ∃ i, tokenTerminalIdxV isVar cs 0 v = some i ∧ i ≤ k := by
  have key : ∀ (cs : List (Conversion Ty)) (k n : Nat), cs[k]? = some c →
      ∃ i, tokenTerminalIdxV isVar cs n v = some i ∧ i ≤ k + n := by
    intro cs
    induction cs with
    | nil => intro k n h; simp at h
    | cons c' cs ih =>
      intro k n h
      unfold tokenTerminalIdxV
      cases hm : matchR ((patternIgnore c'.to).resolve isVar) v with
      | some b => exact ⟨n, rfl, by omega⟩
      | none =>
        cases k with
        | zero =>
          simp only [List.getElem?_cons_zero, Option.some.injEq] at h
          subst h
          rw [hc] at hm
          simp [patternIgnore, RPat.resolve, hp, matchR] at hm
        | succ k =>
          obtain ⟨i, h1, h2⟩ := ih k (n + 1) (by simpa using h)
          exact ⟨i, h1, by omega⟩
  simpa using key cs k 0 hk

namespace Examples

/-- `enum Tok { "n" = Tok::Num(<u64>), "+" = Plus, "(" = Tok::LP, ")" = other }`, where `Plus` is not
in scope and `other` is meant as a variable. -/
def varTokens : TokenEnum String :=
  { typeName := "Tok"
    conversions :=
      [⟨"n", .enum "Tok::Num" [.choose "u64"]⟩, ⟨"+", .path "Plus"⟩, ⟨"(", .path "Tok::LP"⟩,
        ⟨")", .path "other"⟩] }

/-- The names not in scope. -/
def notInScope (s : String) : Bool := s == "Plus" || s == "other"

theorem varTokens_ok : (∀ c ∈ varTokens.conversions, NoOneTuple c.to) ∧
    NoVarTwice notInScope varTokens := by
  constructor
  · intro c hc
    simp only [varTokens, List.mem_cons, List.not_mem_nil, or_false] at hc
    rcases hc with rfl | rfl | rfl | rfl <;> simp [NoOneTuple, NoOneTupleList]
  · intro c hc
    simp only [varTokens, List.mem_cons, List.not_mem_nil, or_false] at hc
    rcases hc with rfl | rfl | rfl | rfl <;> decide

/-- The hypotheses of `c66_token_fns` and `c66_swallows`: a left parenthesis is taken for a `+`. -/
example : tokenTerminalIdxV notInScope varTokens.conversions 0 Tk.lp.toR = some 1 ∧
    tokenTerminalIdx varTokens.conversions 0 Tk.lp.toR = some 2 ∧
    (tokenValueV notInScope varTokens.conversions 0 (Tk.num 2).toR).isSome = true := by
  rw [(c66_token_fns notInScope varTokens varTokens_ok.1 varTokens_ok.2 _).1,
    (c66_token_fns notInScope varTokens varTokens_ok.1 varTokens_ok.2 _).2]
  decide +kernel

example : ∀ t : Tk, ∃ i, tokenTerminalIdxV notInScope varTokens.conversions 0 t.toR = some i ∧ i ≤ 1 :=
  fun t => c66_swallows notInScope (k := 1) (p := "Plus") (c := ⟨"+", .path "Plus"⟩) rfl rfl (by decide) _

/-- `arith` with a token enum whose last pattern is a variable: `")" = other`. -/
def tkVar : TokenEnum String :=
  { tk with conversions := tk.conversions.take 3 ++ [⟨")", .path "other"⟩] }

def arithVarItems : List (GrammarItem (Act Log) String) :=
  .tokenEnum tkVar :: (arithDefs.map .nonTerminal)

set_option maxRecDepth 10000 in
/-- The hypotheses of `c66_compiled`: there is a program. -/
theorem arithVar_ok : (parserMacro .insertion (code (W := Log)).mkPath arithVarItems).isOk = true := by
  decide +kernel

theorem tkVar_simple : ∀ c ∈ tkVar.conversions, NoOneTuple c.to := by
  intro c hc
  simp only [tkVar, tk, List.take_succ_cons, List.take_zero, List.cons_append, List.nil_append,
    List.mem_cons, List.not_mem_nil, or_false] at hc
  rcases hc with rfl | rfl | rfl | rfl <;> simp [NoOneTuple, NoOneTupleList]

theorem tkVar_once : NoVarTwice notInScope tkVar := by
  intro c hc
  simp only [tkVar, tk, List.take_succ_cons, List.take_zero, List.cons_append, List.nil_append,
    List.mem_cons, List.not_mem_nil, or_false] at hc
  rcases hc with rfl | rfl | rfl | rfl <;> decide

/-- The token functions of that program: `Tok::RP` gets to the arm of the variable. -/
def tkVarFns : TokenFns Tk Nat where
  terminalIdx := fun t => (tokenTerminalIdxV notInScope tkVar.conversions 0 t.toR).getD 0
  value := fun t =>
    ((tokenValueV notInScope tkVar.conversions 0 t.toR).map (SAR.map inj)).getD (.token 0 [])

theorem tkVar_total (t : Tk) : (tokenTerminalIdxV notInScope tkVar.conversions 0 t.toR).isSome = true ∧
    (tokenValueV notInScope tkVar.conversions 0 t.toR).isSome = true := by
  cases t <;>
    simp [tkVar, tk, Tk.toR, tokenTerminalIdxV, tokenValueV, patternIgnore, patternIgnoreList,
      patternIdents, patternIdentsList, RPat.resolve, RPat.resolveList, matchR, matchList, notInScope,
      fieldIdent, List.range_succ]

theorem exists_of_isOk {ε α β : Type} {x : Except ε (α × β)} (h : x.isOk = true) :
    ∃ a b, x = .ok (a, b) := by
  cases x with
  | error e => cases h
  | ok v => exact ⟨v.1, v.2, rfl⟩

/-- `c66_compiled` applies to it. -/
theorem arithVar_compiled : ∃ P : Compiled (Act Log) String Nat Log Tk,
    P.items = arithVarItems.map (·.wildVars notInScope) ∧ P.tf = tkVarFns := by
  obtain ⟨gen, te, h⟩ := exists_of_isOk arithVar_ok
  have h2 : itemTokenEnums arithVarItems = [tkVar] := by
    simp [arithVarItems, itemTokenEnums, List.filterMap_map]
  have ht : tkVar = te := by
    have := parserMacro_tokens h
    rw [h2] at this
    simpa using this
  subst ht
  obtain ⟨P, -, -, h3, -, h5, -, -⟩ := c66_compiled (tf := tkVarFns) (toR := Tk.toR) (inj := inj)
    notInScope h
    (fun t => by
      obtain ⟨k, hk⟩ := Option.isSome_iff_exists.1 (tkVar_total t).1
      simp [tkVarFns, hk])
    (fun t => by
      obtain ⟨k, hk⟩ := Option.isSome_iff_exists.1 (tkVar_total t).2
      simp [tkVarFns, hk])
    tkVar_simple tkVar_once
  exact ⟨P, h3, h5⟩

example : tkVarFns.terminalIdx .rp = 3 ∧ tkVarFns.terminalIdx .lp = 2 := by decide +kernel

end Examples

end Parsegen
