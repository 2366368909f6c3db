import Verif.Conformance.Tests
import Verif.Props.ContractCheck

/-! # The grammars of `tests/tests.rs` keep the contract of C83

They are real grammars to which the theorems about regular programs apply, found so by computation with
`grammarCheck`, from the text of the `parser!` calls. -/

namespace Parsegen.Conformance

/-- Does the text of a `parser!` call keep the contract, as far as its grammar is concerned? -/
def keeps (src : List Char) : Bool :=
  match tokens src with
  | none => false
  | some ts =>
    match readItems syn ts with
    | .error _ => false
    | .ok items =>
      match itemTokenEnums items with
      | [te] => decide ((itemTypeDefs items).length ≤ 1) &&
          grammarCheck asciiIdent (fun x => x) (itemNonTerminals items) te
      | _ => false

theorem keeps_sound {src : List Char} (h : keeps src = true) :
    ∃ ts items te, tokens src = some ts ∧ ItemsIn syn Actual ts items ∧ itemTokenEnums items = [te] ∧
      (itemTypeDefs items).length ≤ 1 ∧ GrammarOk asciiIdent (itemNonTerminals items) te := by
  unfold keeps at h
  split at h
  · cases h
  · next ts hts =>
    split at h
    · cases h
    · next items hi =>
      split at h
      · next te hte =>
        rw [Bool.and_eq_true, decide_eq_true_eq] at h
        exact ⟨ts, items, te, hts, c43_accepts_iff.1 hi, hte, h.1, c83_check h.2⟩
      · cases h

/-- Whatever the actions and the token type are, if no action panics and the token patterns cover all tokens,
the contract is kept: `c83_contract` applies. -/
theorem keeps_contract {src : List Char} (h : keeps src = true) :
    ∃ ts items te, tokens src = some ts ∧
      ∀ {V W Tok : Type} (toR : Tok → RVal) (code : UserCode _ V W),
        (∀ t, (classify te.conversions (toR t)).isSome = true) →
        (∀ d ∈ itemNonTerminals items, ∀ p ∈ d.productions, ∀ e, p.action = .infallible e →
          ∀ env w, code.run e env w ≠ none) →
        Contract asciiIdent syn ts items (itemNonTerminals items) te toR code := by
  obtain ⟨ts, items, te, h1, h2, h3, h4, h5⟩ := keeps_sound h
  exact ⟨ts, items, te, h1, fun toR code hc ht =>
    { h5 with written := h2, definitions := rfl, tokenEnum := h3, state := h4, covers := hc, total := ht }⟩

set_option maxRecDepth 100000

/-- All of them do, with one exception: a definition in `bug_2` derives no sentence. -/
theorem tests_keep :
    [balanced_parens_src, token_lifetimes_1_src, token_lifetimes_2_src, bug_1_src, bug_2_src,
      test_grammar_5_src, test_grammar_6_src, test_grammar_7_src, expr_example_src, token_values_src,
      lookahead_example_1_src, lookahead_example_2_src, token_ordering_1_src, token_ordering_2_src].map keeps =
    [true, true, true, true, false, true, true, true, true, true, true, true, true, true] := by decide +kernel

/-- So do the expressions of tests.rs:156-227: the grammar is LR(1), and so on. -/
theorem test_grammar_5_ok : ∃ ts items te, tokens test_grammar_5_src = some ts ∧
    ItemsIn syn Actual ts items ∧ itemTokenEnums items = [te] ∧ (itemTypeDefs items).length ≤ 1 ∧
    GrammarOk asciiIdent (itemNonTerminals items) te :=
  keeps_sound (by have := tests_keep; simp only [List.map_cons, List.cons.injEq] at this; exact this.2.2.2.2.2.1)

end Parsegen.Conformance
