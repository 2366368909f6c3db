import Verif.Proofs.Print

/-! # Reading the macro input: C42-C46 -/

namespace Parsegen

variable {X Ty : Type} {S : Syn X Ty} {ts ts' : List TokTree} {items items' : List (GrammarItem X Ty)}

/-- **C42** A macro input written in the documented syntax is read as the items it is a writing of:
nothing is lost, added, reordered or rejected. -/
theorem c42_read (h : ItemsIn S Documented ts items) : readItems S ts = .ok items :=
  grammarItems_complete (h.mono fun _ => Documented.actual) _ (Nat.le_refl _)

/-- **C42** Every list of items can be written down, and what is written is read back, provided that
names are not keywords and `syn` reads back the types, expressions, paths and literals in it. -/
theorem c42_roundtrip (P : Printer X Ty) (hn : ∀ i ∈ items, ∀ a ∈ itemAtoms i, P.Writes S a) :
    readItems S (printItems P items) = .ok items :=
  c42_read (printItems_in items hn)

/-- **C43** The accepted macro inputs are exactly those of the actual syntax. -/
theorem c43_accepts_iff : readItems S ts = .ok items ↔ ItemsIn S Actual ts items :=
  ⟨grammarItems_sound _ _ _, fun h => grammarItems_complete h _ (Nat.le_refl _)⟩

/-- **C43** The syntax is unambiguous: no tokens are a writing of two different inputs. -/
theorem c43_unambiguous (h : ItemsIn S Documented ts items) (h' : ItemsIn S Documented ts items') :
    items = items' := by
  have := (c42_read h).symm.trans (c42_read h')
  exact Except.ok.inj this

/-- **C44** Reading panics exactly on the malformed inputs that `ItemsPanic` describes; all others are
accepted or reported as errors. -/
theorem c44_panics_iff : readItems S ts = .error .panic ↔ ItemsPanic S ts :=
  ⟨grammarItems_panic _ _, fun h => grammarItems_panics h _ (Nat.le_refl _)⟩

/-- **C44** A malformed input in which neither `type` nor `enum` occurs at the top level, that is: one
with definitions of non-terminals only, never makes the macro panic while reading. -/
theorem c44_definitions (h : ∀ s, .ident s ∈ ts → s ≠ "type" ∧ s ≠ "enum") :
    readItems S ts ≠ .error .panic := by
  intro hp
  have hp := c44_panics_iff.1 hp
  have key : ∀ ts, ItemsPanic S ts → TokTree.ident "type" ∈ ts ∨ TokTree.ident "enum" ∈ ts := by
    intro ts hp
    induction hp with
    | typeDef => simp
    | tokenEnum => simp
    | later h _ ih =>
      obtain ⟨pre, _, rfl⟩ := h.consumes
      exact ih.imp (List.mem_append_right _) (List.mem_append_right _)
  rcases key _ hp with hp | hp
  · exact (h _ hp).1 rfl
  · exact (h _ hp).2 rfl

/-- **C45** Reading ends on every input: no loop of the reader runs more often than there are tokens,
and no recursion is deeper than the nesting of the tokens. -/
theorem c45_ends : readItems S ts ≠ .error .outOfFuel := grammarItems_fuel _ _ (Nat.le_refl _)

/-- **C46** The outcome of `parser!` depends on the items only, not on the way they are written:
optional commas, spacing and braces around a single production do not matter. -/
theorem c46_writing [DecidableEq Ty] (h : ItemsIn S Actual ts items) (h' : ItemsIn S Actual ts' items)
    (o : HashOrder) (mkPath : String → X) :
    parserMacroTokens S o mkPath ts = parserMacroTokens S o mkPath ts' := by
  simp only [parserMacroTokens, c43_accepts_iff.2 h, c43_accepts_iff.2 h']

/-- **C46** `parser!` on tokens is `parser!` on the items that are written. -/
theorem c46_accepts_iff [DecidableEq Ty] {o : HashOrder} {mkPath : String → X}
    {r : Generated X × TokenEnum Ty} :
    parserMacroTokens S o mkPath ts = .ok r ↔
      ∃ items, ItemsIn S Actual ts items ∧ parserMacro o mkPath items = .ok r := by
  unfold parserMacroTokens
  constructor
  · intro h
    split at h
    · cases h
    · next items e =>
      refine ⟨items, c43_accepts_iff.1 e, ?_⟩
      split at h
      · cases h
      · next r' e' => cases h; exact e'
  · rintro ⟨items, hi, he⟩
    rw [c43_accepts_iff.2 hi]
    simp [he]

/-! ## An instance: one-token types, paths and expressions -/

/-- Some keywords. -/
def exKeyword (s : String) : Bool :=
  s ∈ ["enum", "type", "pub", "mut", "_", "true", "false", "fn", "let", "Self"]

/-- One identifier that is not a keyword. -/
def exIdent : List TokTree → Option (String × List TokTree)
  | .ident s :: rest => if exKeyword s then none else some (s, rest)
  | _ => none

/-- An identifier or a number. -/
def exExpr : List TokTree → Option (String × List TokTree)
  | .ident s :: rest => if exKeyword s then none else some (s, rest)
  | .lit text .num :: rest => some (text, rest)
  | _ => none

/-- A small instance of `Syn`. -/
def exSyn : Syn String String where
  type := exIdent
  expr := exExpr
  path := exIdent
  keyword := exKeyword
  type_consumes := by
    intro ts a rest h
    unfold exIdent at h
    split at h
    · split at h
      · cases h
      · cases h; exact ⟨[_], by simp, rfl⟩
    · cases h
  expr_consumes := by
    intro ts a rest h
    unfold exExpr at h
    split at h
    · split at h
      · cases h
      · cases h; exact ⟨[_], by simp, rfl⟩
    · cases h; exact ⟨[_], by simp, rfl⟩
    · cases h
  path_consumes := by
    intro ts a rest h
    unfold exIdent at h
    split at h
    · split at h
      · cases h
      · cases h; exact ⟨[_], by simp, rfl⟩
    · cases h
  expr_question := fun _ _ => rfl
  state := by decide
  keywords := by decide

/-- Tokens of
```
type State = St;
enum Tok<'a> { "a" => A, "n" => Num(<u32>, _), "s" => Str { x: -1, .. } }
pub L: Vec = { "a"* <mut x: "n"> M? => x => 1, };
M: u32 = "s" =>? y,
``` -/
def exTokens : List TokTree :=
  [.ident "type", .ident "State", chr '=', .ident "St", chr ';',
   .ident "enum", .ident "Tok", chr '<', .lifetime "a", chr '>',
   .group .brace [strTok "a", .punct '=' true, .punct '>' false, .ident "A", chr ',',
     strTok "n", .punct '=' true, .punct '>' false, .ident "Num",
     .group .paren [chr '<', .ident "u32", .punct '>' true, chr ',', .ident "_"], chr ',',
     strTok "s", .punct '=' true, .punct '>' false, .ident "Str",
     .group .brace [.ident "x", chr ':', chr '-', .lit "1" .num, chr ',', .punct '.' true, chr '.']],
   .ident "pub", .ident "L", chr ':', .ident "Vec", chr '=',
   .group .brace [strTok "a", chr '*', chr '<', .ident "mut", .ident "x", chr ':', strTok "n", chr '>',
     .ident "M", .punct '?' false, .punct '=' true, .punct '>' false, .ident "x",
     .punct '=' true, .punct '>' false, .lit "1" .num, chr ','], chr ';',
   .ident "M", chr ':', .ident "u32", chr '=', strTok "s", .punct '=' true, .punct '>' true,
   chr '?', .ident "y", chr ',']

/-- The items they are a writing of. -/
def exItems : List (GrammarItem String String) :=
  [.typeDef "St",
   .tokenEnum ⟨"Tok", ["a"], [⟨"a", .path "A"⟩, ⟨"n", .enum "Num" [.choose "u32", .underscore]⟩,
     ⟨"s", .struct "Str" [("x", .lit "-1")] true⟩]⟩,
   .nonTerminal ⟨true, "L", "Vec",
     [⟨[.repeat_ .star (.terminal "a"), .named ⟨true, "x"⟩ (.terminal "n"),
        .repeat_ .question (.nonTerminal "M")], .infallible "x"⟩, ⟨[], .infallible "1"⟩]⟩,
   .nonTerminal ⟨false, "M", "u32", [⟨[.terminal "s"], .fallible "y"⟩]⟩]

set_option maxRecDepth 10000 in
/-- C42, C43, C46: the example is a writing in the documented syntax. -/
theorem exTokens_in : ItemsIn exSyn Documented exTokens exItems := by
  refine .cons (.typeDef rfl) ?_
  refine .cons (.tokenEnum (by decide) (.some (.cons .nil)) ?_) ?_
  · refine .cons (.mk (.path (by decide) rfl)) ?_
    refine .cons (.mk (.enum (by decide) rfl (.cons (.choose rfl) (.last .underscore)))) ?_
    exact .last (.mk (.struct (by decide) rfl (.cons (by decide) (.lit (.plain .negative)) .dots)))
  refine .cons (.pubDef (by decide) rfl (.braces ?_)) ?_
  · exact .cons (.infallible (j := false) (ts' := [.ident "x", .punct '=' true, .punct '>' false,
          .lit "1" .num, chr ','])
        (.cons (.repeated (op := .star) .terminal) (.cons (.namedMut (skip := []) rfl (by decide)
          .terminal) (.cons (.repeated (op := .question) (.nonTerminal (skip := []) rfl (by decide)))
          .nil))) rfl)
      (.comma (j := false) (.infallible (j := false) (ts' := [.lit "1" .num, chr ',']) .nil rfl) .nil)
  refine .cons (.privateDef (by decide) rfl (.single (j := false) ?_)) .nil
  exact .fallible (.cons .terminal .nil) rfl

example : readItems exSyn exTokens = .ok exItems := c42_read exTokens_in

/-- A printer for the instance. -/
def exPrinter : Printer String String where
  type s := [.ident s]
  expr s := [.ident s]
  path s := [.ident s]
  lit s := [.lit s .num]

/-- C42: items with all kinds of parts the printer writes correctly. -/
def exItems' : List (GrammarItem String String) :=
  [.typeDef "St",
   .tokenEnum ⟨"Tok", ["a"], [⟨"a", .path "A"⟩, ⟨"n", .enum "Num" [.choose "u32", .underscore]⟩,
     ⟨"s", .struct "Str" [("x", .lit "1"), ("y", .tuple [.dotDot])] true⟩]⟩,
   .nonTerminal ⟨true, "L", "Vec",
     [⟨[.repeat_ .star (.terminal "a"), .named ⟨true, "x"⟩ (.terminal "n"),
        .repeat_ .question (.nonTerminal "M")], .infallible "x"⟩, ⟨[], .fallible "y"⟩]⟩]

theorem exPrinter_writes : ∀ i ∈ exItems', ∀ a ∈ itemAtoms i, exPrinter.Writes exSyn a := by
  have hname : ∀ s, exKeyword s = false → exPrinter.Writes exSyn (.name s) := fun s h => h
  have hid : ∀ s, exKeyword s = false → ∀ rest, exIdent (.ident s :: rest) = some (s, rest) := by
    intro s h rest; simp [exIdent, h]
  have htype : ∀ s, exKeyword s = false → exPrinter.Writes exSyn (.type s) :=
    fun s h rest _ => hid s h rest
  have hexpr : ∀ s, exKeyword s = false → exPrinter.Writes exSyn (.expr s) := by
    intro s h j rest; simp [exPrinter, exSyn, exExpr, h]
  have hpath : ∀ s, exKeyword s = false → exPrinter.Writes exSyn (.path s) :=
    fun s h => ⟨⟨s, [], rfl, h⟩, fun rest _ => hid s h rest⟩
  have hlit : ∀ s, exPrinter.Writes exSyn (.lit s) := fun s => .plain .num
  simp only [exItems', List.mem_cons, List.not_mem_nil, or_false, forall_eq_or_imp, forall_eq,
    itemAtoms, List.flatMap_cons, List.flatMap_nil, patternAtoms, patternsAtoms, fieldsAtoms,
    productionAtoms, symbolAtoms, actionAtoms, List.append_nil, List.nil_append, List.cons_append]
  exact ⟨htype _ (by decide), ⟨hname _ (by decide), hpath _ (by decide), hpath _ (by decide),
    htype _ (by decide), hpath _ (by decide), hname _ (by decide), hlit _, hname _ (by decide)⟩,
    hname _ (by decide), htype _ (by decide), hname _ (by decide), hname _ (by decide),
    hexpr _ (by decide), hexpr _ (by decide)⟩

example : readItems exSyn (printItems exPrinter exItems') = .ok exItems' :=
  c42_roundtrip exPrinter exPrinter_writes

/-- C44: inputs that make the macro panic: `type Foo = ..`, and the token pattern `&x`. -/
example : ItemsPanic exSyn [.ident "type", .ident "Foo", chr '='] := .typeDef (by decide) (by decide)

example : ItemsPanic exSyn [.ident "enum", .ident "Tok",
    .group .brace [strTok "a", .punct '=' true, .punct '>' false, chr '&', .ident "x"]] :=
  .tokenEnum (by decide) .none (.here (.start (by
    intro h
    generalize e : [chr '&', TokTree.ident "x"] = l at h
    cases h with
    | lit hl =>
      cases hl with
      | str => cases e
      | plain hl => cases hl <;> cases e
    | _ => cases e)))

/-- **C43, counterexample** A literal that is not a string, written where a symbol is expected, is
silently dropped: `S: u32 = 1 A => x,` is read as `S: u32 = A => x,`. -/
theorem c43_literal_dropped :
    readItems exSyn [.ident "S", chr ':', .ident "u32", chr '=', .lit "1" .num, .ident "A",
      .punct '=' true, .punct '>' false, .ident "x", chr ','] =
      .ok [.nonTerminal ⟨false, "S", "u32", [⟨[.nonTerminal "A"], .infallible "x"⟩]⟩] :=
  c43_accepts_iff.2 (.cons (.privateDef (by decide) rfl (.single (j := false)
    (.infallible (.cons (.nonTerminal (skip := [.lit "1" .num]) (.inr ⟨_, .num⟩) (by decide)) .nil)
      rfl))) .nil)

end Parsegen
