import Verif.Spec.Compiled
import Verif.Proofs.Util

/-! # Proofs about the item loop of `parser!` -/

namespace Parsegen

variable {X Ty : Type}

theorem macroFold_iff (items : List (GrammarItem X Ty)) (s s' : MacroState X Ty) :
    items.foldlM macroItem s = .ok s' ↔
      s'.nonTerminals = s.nonTerminals ++ itemNonTerminals items ∧
      s'.tokenEnum.toList = s.tokenEnum.toList ++ itemTokenEnums items ∧
      s'.stateType.toList = s.stateType.toList ++ itemTypeDefs items := by
  induction items generalizing s with
  | nil =>
    obtain ⟨a, b, c⟩ := s
    obtain ⟨a', b', c'⟩ := s'
    simp only [List.foldlM_nil, itemNonTerminals, itemTokenEnums, itemTypeDefs, List.filterMap_nil,
      List.append_nil]
    constructor
    · intro h; cases h; exact ⟨rfl, rfl, rfl⟩
    · rintro ⟨rfl, h2, h3⟩
      have e1 : b' = b := by cases b' <;> cases b <;> simp_all
      have e2 : c' = c := by cases c' <;> cases c <;> simp_all
      subst e1; subst e2; rfl
  | cons it items ih =>
    rw [List.foldlM_cons]
    cases it with
    | typeDef ty =>
      have hi : macroItem s (.typeDef ty) = if s.stateType.isSome then .error .duplicateState
          else .ok { s with stateType := some ty } := rfl
      rw [hi]
      by_cases hs : s.stateType.isSome = true
      · rw [if_pos hs]
        constructor
        · intro h; cases h
        · rintro ⟨_, _, h3⟩
          obtain ⟨x, hx⟩ := Option.isSome_iff_exists.1 hs
          rw [hx] at h3
          cases hs' : s'.stateType <;> simp [hs', itemTypeDefs] at h3
      · rw [if_neg hs]
        have hn : s.stateType = none := by simpa using hs
        rw [Except.bind_ok, ih]
        simp [itemNonTerminals, itemTokenEnums, itemTypeDefs, hn]
    | tokenEnum t =>
      have hi : macroItem s (.tokenEnum t) = if s.tokenEnum.isSome then .error .duplicateTokenEnum
          else .ok { s with tokenEnum := some t } := rfl
      rw [hi]
      by_cases hs : s.tokenEnum.isSome = true
      · rw [if_pos hs]
        constructor
        · intro h; cases h
        · rintro ⟨_, h3, _⟩
          obtain ⟨x, hx⟩ := Option.isSome_iff_exists.1 hs
          rw [hx] at h3
          cases hs' : s'.tokenEnum <;> simp [hs', itemTokenEnums] at h3
      · rw [if_neg hs]
        have hn : s.tokenEnum = none := by simpa using hs
        rw [Except.bind_ok, ih]
        simp [itemNonTerminals, itemTokenEnums, itemTypeDefs, hn]
    | nonTerminal n =>
      have hi : macroItem s (.nonTerminal n) =
          .ok { s with nonTerminals := s.nonTerminals ++ [n] } := rfl
      rw [hi, Except.bind_ok, ih]
      simp [itemNonTerminals, itemTokenEnums, itemTypeDefs]

theorem macroItems_iff (items : List (GrammarItem X Ty)) (nts : List (AstNonTerminal X Ty))
    (t : TokenEnum Ty) :
    macroItems items = .ok (nts, t) ↔
      nts = itemNonTerminals items ∧ itemTokenEnums items = [t] ∧
        (itemTypeDefs items).length ≤ 1 := by
  unfold macroItems
  constructor
  · intro h
    obtain ⟨s, h1, h2⟩ := Except.bind_eq_ok.1 h
    obtain ⟨e1, e2, e3⟩ := (macroFold_iff items {} s).1 h1
    split at h2
    · cases h2
    · next t' ht =>
      cases h2
      simp only [List.nil_append, Option.toList_none] at e1 e2 e3
      refine ⟨e1, by rw [← e2, ht]; rfl, ?_⟩
      rw [← e3]; cases s.stateType <;> simp
  · rintro ⟨rfl, h2, h3⟩
    have : items.foldlM macroItem {} = .ok ⟨itemNonTerminals items, some t, (itemTypeDefs items).head?⟩ := by
      rw [macroFold_iff]
      refine ⟨by simp, by simp [h2], ?_⟩
      cases ht : itemTypeDefs items with
      | nil => simp
      | cons a l =>
        rw [ht] at h3
        cases l with
        | nil => simp
        | cons b l => simp at h3
    rw [this]
    rfl

end Parsegen
