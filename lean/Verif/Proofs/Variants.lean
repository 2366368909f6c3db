import Verif.Proofs.Util
import Verif.Model.Codegen

/-! # Variant numbers of result types -/

namespace Parsegen

variable {A Ty : Type} [DecidableEq Ty]

theorem variantNames_spec (tys : List Ty) (seen : AMap Ty Nat) (i : Nat)
    (hlt : ∀ a k, seen.get? a = some k → k < i)
    (hinj : ∀ a b k, seen.get? a = some k → seen.get? b = some k → a = b) :
    ∃ f : Ty → Nat, (∀ a k, seen.get? a = some k → f a = k) ∧
      (∀ a b, ((∃ k, seen.get? a = some k) ∨ a ∈ tys) → ((∃ k, seen.get? b = some k) ∨ b ∈ tys) →
        f a = f b → a = b) ∧
      variantNames tys seen i = tys.map f := by
  induction tys generalizing seen i with
  | nil =>
    refine ⟨fun a => (seen.get? a).getD 0, ?_, ?_, rfl⟩
    · intro a k h; simp [h]
    · intro a b ha hb h
      simp only [List.not_mem_nil, or_false] at ha hb
      obtain ⟨k, hk⟩ := ha
      obtain ⟨l, hl⟩ := hb
      simp only [hk, hl, Option.getD_some] at h
      subst h
      exact hinj a b k hk hl
  | cons ty tys ih =>
    unfold variantNames
    cases hs : seen.get? ty with
    | some k =>
      obtain ⟨f, h1, h2, h3⟩ := ih seen i hlt hinj
      refine ⟨f, h1, ?_, ?_⟩
      · intro a b ha hb
        have conv : ∀ x, ((∃ k, seen.get? x = some k) ∨ x ∈ ty :: tys) →
            (∃ k, seen.get? x = some k) ∨ x ∈ tys := by
          intro x hx
          rcases hx with hx | hx
          · exact Or.inl hx
          · rcases List.mem_cons.1 hx with rfl | hx
            · exact Or.inl ⟨k, hs⟩
            · exact Or.inr hx
        exact h2 a b (conv a ha) (conv b hb)
      · simp only [List.map_cons, h3, h1 ty k hs]
    | none =>
      obtain ⟨f, h1, h2, h3⟩ := ih (seen.insert ty i) (i + 1) (by
          intro a k h
          rw [AMap.get?_insert] at h
          split at h
          · cases h; omega
          · have := hlt a k h; omega) (by
          intro a b k ha hb
          rw [AMap.get?_insert] at ha hb
          split at ha
          · split at hb
            · next h1 h2 => exact h1.symm.trans h2
            · cases ha; have := hlt b i hb; omega
          · split at hb
            · cases hb; have := hlt a i ha; omega
            · exact hinj a b k ha hb)
      have hty : f ty = i := h1 ty i (by rw [AMap.get?_insert]; simp)
      refine ⟨f, ?_, ?_, ?_⟩
      · intro a k h
        refine h1 a k ?_
        rw [AMap.get?_insert]
        split
        · next he => subst he; rw [hs] at h; cases h
        · exact h
      · intro a b ha hb
        have conv : ∀ x, ((∃ k, seen.get? x = some k) ∨ x ∈ ty :: tys) →
            (∃ k, (seen.insert ty i).get? x = some k) ∨ x ∈ tys := by
          intro x hx
          by_cases hx' : ty = x
          · left; exact ⟨i, by rw [AMap.get?_insert]; simp [hx']⟩
          · rcases hx with ⟨k, hk⟩ | hx
            · left; exact ⟨k, by rw [AMap.get?_insert]; simp [hx', hk]⟩
            · rcases List.mem_cons.1 hx with rfl | hx
              · exact absurd rfl hx'
              · exact Or.inr hx
        exact h2 a b (conv a ha) (conv b hb)
      · simp only [List.map_cons, h3, hty]

theorem semanticActionVariants_spec (g : Grammar A Ty) :
    ∃ f : Ty → Nat, semanticActionVariants g = g.nonTerminals.map (fun n => f n.returnTy) ∧
      ∀ n ∈ g.nonTerminals, ∀ m ∈ g.nonTerminals, f n.returnTy = f m.returnTy →
        n.returnTy = m.returnTy := by
  obtain ⟨f, _, h2, h3⟩ := variantNames_spec (g.nonTerminals.map (·.returnTy)) [] 0
    (by intro a k h; simp [AMap.get?] at h) (by intro a b k h; simp [AMap.get?] at h)
  refine ⟨f, ?_, ?_⟩
  · unfold semanticActionVariants; rw [h3, List.map_map]; rfl
  · intro n hn m hm h
    exact h2 _ _ (Or.inr (List.mem_map_of_mem hn)) (Or.inr (List.mem_map_of_mem hm)) h

theorem semanticActionVariants_some (g : Grammar A Ty) {i : Nat} {n : NonTerminal A Ty}
    (h : g.nonTerminals[i]? = some n) : ∃ k, (semanticActionVariants g)[i]? = some k := by
  obtain ⟨f, h1, _⟩ := semanticActionVariants_spec g
  exact ⟨f n.returnTy, by rw [h1, List.getElem?_map, h]; rfl⟩

end Parsegen
