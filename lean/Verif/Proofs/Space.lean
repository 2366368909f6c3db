import Verif.Proofs.LeftRecDerive
import Verif.Proofs.Abstract
import Mathlib.Data.List.Nodup
import Mathlib.Data.Fintype.Card

/-! # The height of the stack -/

namespace Parsegen

variable {X Ty : Type} {g : Grammar X Ty} {F : FirstTable} {e : Nat}

/-! ## From above -/

/-- A stack for which there is an item is a path of productions from the entry point. -/
theorem ItemsAt.spine {γ : List Symbol} {it : Item} (h : ItemsAt g F e γ it) :
    ∃ μ α β, γ = μ ++ α ∧ g.Spine e μ it.nt ∧ (it.cursor = α.length) ∧
      (g.HasProd it.nt it.prod (α ++ β) ∨ α = []) := by
  induction h with
  | entry => exact ⟨[], [], [], rfl, .root, rfl, .inr rfl⟩
  | @advance γ nt p α s β la h hp ih =>
    obtain ⟨μ, α', β', rfl, h1, h2, h3⟩ := ih
    simp only at h1 h2 h3
    have hα : α' = α := by
      rcases h3 with h3 | rfl
      · have := h3.rhs_eq.symm.trans hp.rhs_eq
        exact (List.append_inj this h2.symm).1
      · exact (List.length_eq_zero_iff.1 h2).symm
    subst hα
    exact ⟨μ, α' ++ [s], β, by simp, h1, by simp, .inl (by simpa using hp)⟩
  | @pred γ nt p α b β la q δ c h hp hq hf ih =>
    obtain ⟨μ, α', β', rfl, h1, h2, h3⟩ := ih
    simp only at h1 h2 h3
    have hα : α' = α := by
      rcases h3 with h3 | rfl
      · have := h3.rhs_eq.symm.trans hp.rhs_eq
        exact (List.append_inj this h2.symm).1
      · exact (List.length_eq_zero_iff.1 h2).symm
    subst hα
    exact ⟨μ ++ α', [], [], by simp, h1.child hp, rfl, .inr rfl⟩

/-- Something with a production of more than one symbol. -/
def Grammar.Wide (g : Grammar X Ty) (d : Nat) : Prop := ∃ p ν s β, g.HasProd d p (ν ++ s :: β) ∧ ν ≠ []

/-- If no non-terminal on the path recurses except at its left end, the path goes to the right at most once
per non-terminal. -/
theorem Grammar.Spine.bounded {M : Nat} (hM : ∀ {nt p α}, g.HasProd nt p α → α.length ≤ M) {b : Nat}
    (hno : ∀ x μ ν, g.Spine b μ x → g.Spine x ν x → ν = []) {μ : List Symbol} {y : Nat}
    (h : g.Spine b μ y) : ∃ ds : List Nat, ds.Nodup ∧
      (∀ d ∈ ds, g.Wide d ∧ ∃ μ' ν, g.Spine b μ' d ∧ g.Spine d ν y ∧ ν ≠ []) ∧
      μ.length ≤ M * ds.length := by
  induction h with
  | root => exact ⟨[], List.nodup_nil, by simp, by simp⟩
  | @child μ y p ν z β h hp ih =>
    obtain ⟨ds, h1, h2, h3⟩ := ih
    have hz : g.Spine y ν z := by simpa using Grammar.Spine.root.child hp
    by_cases hν : ν = []
    · subst hν
      refine ⟨ds, h1, fun d hd => ?_, by simpa using h3⟩
      obtain ⟨k1, μ', ν, k2, k3, k4⟩ := h2 d hd
      exact ⟨k1, μ', ν, k2, by simpa using k3.trans hz, k4⟩
    · refine ⟨y :: ds, List.nodup_cons.2 ⟨fun hy => ?_, h1⟩, fun d hd => ?_, ?_⟩
      · obtain ⟨_, μ', ν', k2, k3, k4⟩ := h2 y hy
        exact k4 (hno y μ' ν' k2 k3)
      · rcases List.mem_cons.1 hd with rfl | hd
        · exact ⟨⟨p, ν, _, β, hp, hν⟩, μ, ν, h, hz, hν⟩
        · obtain ⟨k1, μ', ν', k2, k3, k4⟩ := h2 d hd
          exact ⟨k1, μ', ν' ++ ν, k2, k3.trans hz, by simp [k4]⟩
      · have := hM hp
        simp only [List.length_append, List.length_cons, Nat.mul_succ] at this ⊢
        omega

/-- The height of a stack for which there is an item. -/
theorem ItemsAt.bounded {M : Nat} (hM : ∀ {nt p α}, g.HasProd nt p α → α.length ≤ M)
    (hno : ∀ x μ ν, g.Spine e μ x → g.Spine x ν x → ν = []) {γ : List Symbol} {it : Item}
    (h : ItemsAt g F e γ it) : ∃ ds : List Nat, ds.Nodup ∧ (∀ d ∈ ds, ∃ p α, g.HasProd d p α) ∧
      (∀ d ∈ ds, g.Wide d ∨ d = it.nt) ∧ γ.length ≤ M * ds.length := by
  obtain ⟨μ, α, β, rfl, k1, k2, k3⟩ := h.spine
  obtain ⟨ds, d1, d2, d3⟩ := k1.bounded hM hno
  by_cases hα : α = []
  · subst hα
    refine ⟨ds, d1, fun d hd => ?_, fun d hd => .inl (d2 d hd).1, by simpa using d3⟩
    obtain ⟨⟨p, ν, s, β, h, _⟩, _⟩ := d2 d hd
    exact ⟨p, _, h⟩
  · have hp := k3.resolve_right hα
    refine ⟨it.nt :: ds, List.nodup_cons.2 ⟨fun hy => ?_, d1⟩, fun d hd => ?_, fun d hd => ?_, ?_⟩
    · obtain ⟨_, μ', ν', k2, k3, k4⟩ := d2 _ hy
      exact k4 (hno _ μ' ν' k2 k3)
    · rcases List.mem_cons.1 hd with rfl | hd
      · exact ⟨_, _, hp⟩
      · obtain ⟨⟨p, ν, s, β, h, _⟩, _⟩ := d2 d hd
        exact ⟨p, _, h⟩
    · rcases List.mem_cons.1 hd with rfl | hd
      · exact .inr rfl
      · exact .inl (d2 d hd).1
    · have := hM hp
      simp only [List.length_append, List.length_cons, Nat.mul_succ] at this ⊢
      omega

/-! ## From below -/

variable {Tok Val W : Type} {ti : Tok → Nat} {alg : Alg Tok Val W}

/-- The machine reads every derivation of the beginning of what an item expects, if the rest follows. -/
theorem complete_prefix (hF : FirstEnough g F) (hwf : g.WF) {α : List Symbol} {toks : List Tok}
    {w : W} {vs : List Val} {w' : W} (h : Eval g ti alg α toks w vs w') :
    ∀ {γ : List Symbol} {vals : List Val} {tβ rest : List Tok} {nt p : Nat} {α0 β : List Symbol}
      {us : List Val} {w'' : W}, ItemsAt g F e γ ⟨nt, p, α0.length, look ti rest⟩ →
      g.HasProd nt p (α0 ++ α ++ β) → Eval g ti alg β tβ w' us w'' →
      ASteps g F e ti alg ⟨γ, vals, w, toks ++ (tβ ++ rest)⟩ ⟨γ ++ α, vals ++ vs, w', tβ ++ rest⟩ := by
  induction h with
  | nil w => intros; simpa using ASteps.refl _
  | @term t i ss ts w vs w' ht h ih =>
    intro γ vals tβ rest nt p α0 β us w'' hit hp hβ
    subst ht
    have hp' : g.HasProd nt p (α0 ++ .terminal (ti t) :: (ss ++ β)) := by simpa using hp
    have hit' := ItemsAt.advance hit hp'
    have hl : α0.length + 1 = (α0 ++ [Symbol.terminal (ti t)]).length := by simp
    rw [hl] at hit'
    have := ih (vals := vals ++ [alg.leaf t]) hit' (by simpa using hp) hβ
    refine ASteps.head (AStep.shift hit hp') ?_
    simpa using this
  | @nt b p α t1 t2 w us w1 v w2 ss vs w3 hp hc ha h ih1 ih2 =>
    intro γ vals tβ rest nt q α0 β us' w'' hit hq hβ
    have hq' : g.HasProd nt q (α0 ++ .nonTerminal b :: (ss ++ β)) := by simpa using hq
    have hpriv := hwf.privSyms hq'
    have hb := hpriv b (by simp)
    have hf := InFirst.of_eval (ti := ti) (rest := rest) hF .nil (h.append hβ) hq'.behindSyms
    rw [List.append_nil] at hf
    have hpred := ItemsAt.pred hit hq' hp hf
    have s1 := complete_seq (e := e) hF hwf hc (vals := vals) (rest := t2 ++ tβ ++ rest) (α0 := []) (β := [])
      hpred (by simpa using hp) .nil
    have hall := ItemsAt.advance_all α [] [] (δ := γ) (by simpa using hpred) (by simpa using hp)
    have s2 : AStep g F e ti alg ⟨γ ++ α, vals ++ us, w1, t2 ++ tβ ++ rest⟩
        ⟨γ ++ [.nonTerminal b], vals ++ [v], w2, t2 ++ tβ ++ rest⟩ :=
      .reduce (by simpa using hall) hp hb.2 hc.length_eq ha
    have hit' := ItemsAt.advance hit hq'
    have hl : α0.length + 1 = (α0 ++ [Symbol.nonTerminal b]).length := by simp
    rw [hl] at hit'
    have s3 := ih2 (vals := vals ++ [v]) hit' (by simpa using hq) hβ
    have := s1.trans (.head s2 (by simpa using s3))
    simpa using this

/-- On any sentence that goes along a path of productions, the machine has at some moment everything to the
left of the path on its stack. -/
theorem Grammar.Ctx.stack (hF : FirstEnough g F) (hwf : g.WF) {b : Nat} (hb : g.HasProd e 0 [.nonTerminal b])
    {μ β : List Symbol} {y : Nat} (h : g.Ctx b μ y β) :
    ∀ {tμ ty tβ : List Tok}, g.Yields ti μ tμ → g.Yields ti [.nonTerminal y] ty → g.Yields ti β tβ →
      ∃ vs, ASteps g F e ti Alg.unit ⟨[], [], (), tμ ++ (ty ++ tβ)⟩ ⟨μ, vs, (), ty ++ tβ⟩ ∧
        ∃ nt p α δ tδ r, ItemsAt g F e μ ⟨nt, p, α.length, look ti r⟩ ∧
          g.HasProd nt p (α ++ .nonTerminal y :: δ) ∧ g.Yields ti δ tδ ∧ tβ = tδ ++ r := by
  induction h with
  | root =>
    intro tμ ty tβ h1 h2 h3
    obtain ⟨_, h1⟩ := h1
    obtain ⟨_, h3⟩ := h3
    cases h1; cases h3
    exact ⟨[], .refl _, e, 0, [], [], [], [], .entry, hb, .nil, rfl⟩
  | @child μ y β p ν z τ h hp ih =>
    intro tμ tz tβ h1 h2 h3
    obtain ⟨tμ, tν, rfl, h1, h4⟩ := h1.split
    obtain ⟨tτ, tβ, rfl, h5, h3⟩ := h3.split
    have hy : g.Yields ti [.nonTerminal y] (tν ++ (tz ++ tτ)) :=
      .nt hp (by simpa using h4.append (h2.append h5))
    obtain ⟨vs, s1, nt, q, α, δ, tδ, r, k1, k2, k3, rfl⟩ := ih h1 hy h3
    obtain ⟨vδ, k3⟩ := k3
    have hf := InFirst.of_eval (ti := ti) (rest := r) hF .nil k3 k2.behindSyms
    rw [List.append_nil] at hf
    have hpred := ItemsAt.pred k1 k2 hp hf
    obtain ⟨vν, h4⟩ := h4
    obtain ⟨v5, h5'⟩ := h2.append h5
    have s2 := complete_prefix (e := e) (alg := Alg.unit) hF hwf h4 (vals := vs) (α0 := []) hpred
      (by simpa using hp) h5'
    refine ⟨vs ++ vν, ?_, y, p, ν, τ, tτ, tδ ++ r, ?_, hp, h5, rfl⟩
    · have := s1.trans (by simpa using s2)
      simpa using this
    · have := ItemsAt.advance_all ν [] (.nonTerminal z :: τ) (δ := μ) (by simpa using hpred) (by simpa using hp)
      simpa using this

theorem Grammar.Ctx.trans {x y z : Nat} {μ β ν τ : List Symbol} (h1 : g.Ctx x μ y β) (h2 : g.Ctx y ν z τ) :
    g.Ctx x (μ ++ ν) z (τ ++ β) := by
  induction h2 with
  | root => simpa using h1
  | child _ hp ih => simpa using ih.child hp

theorem Grammar.Ctx.iterate {x : Nat} {μ β : List Symbol} (h : g.Ctx x μ x β) (hμ : μ ≠ []) (n : Nat) :
    ∃ μ' β', g.Ctx x μ' x β' ∧ n ≤ μ'.length := by
  induction n with
  | zero => exact ⟨[], [], .root, Nat.zero_le _⟩
  | succ n ih =>
    obtain ⟨μ', β', h1, h2⟩ := ih
    refine ⟨_, _, h1.trans h, ?_⟩
    have := List.length_pos_iff.2 hμ
    rw [List.length_append]
    omega

theorem Grammar.Ctx.yields {x y : Nat} {μ β : List Symbol} (h : g.Ctx x μ y β) :
    ∀ {tμ ty tβ : List Tok}, g.Yields ti μ tμ → g.Yields ti [.nonTerminal y] ty → g.Yields ti β tβ →
      g.Yields ti [.nonTerminal x] (tμ ++ (ty ++ tβ)) := by
  induction h with
  | root =>
    intro tμ ty tβ h1 h2 h3
    obtain ⟨_, h1⟩ := h1
    obtain ⟨_, h3⟩ := h3
    cases h1; cases h3
    simpa using h2
  | @child μ y β p ν z τ h hp ih =>
    intro tμ tz tβ h1 h2 h3
    obtain ⟨tμ, tν, rfl, h1, h4⟩ := h1.split
    obtain ⟨tτ, tβ, rfl, h5, h3⟩ := h3.split
    have hy : g.Yields ti [.nonTerminal y] (tν ++ (tz ++ tτ)) :=
      .nt hp (by simpa using h4.append (h2.append h5))
    simpa using ih h1 hy h3

theorem Grammar.Ctx.mem {x y : Nat} {μ β : List Symbol} (h : g.Ctx x μ y β) :
    ∀ s ∈ μ ++ β, ∃ nt p α, g.HasProd nt p α ∧ s ∈ α := by
  induction h with
  | root => simp
  | @child μ y β p ν z τ h hp ih =>
    intro s hs
    simp only [List.mem_append] at hs ih
    rcases hs with (hs | hs) | hs | hs
    · exact ih s (.inl hs)
    · exact ⟨_, _, _, hp, by simp [hs]⟩
    · exact ⟨_, _, _, hp, by simp [hs]⟩
    · exact ih s (.inr hs)

theorem yields_of_mem {α : List Symbol} (h : ∀ s ∈ α, ∃ t, g.Yields ti [s] t) :
    ∃ toks : List Tok, g.Yields ti α toks := by
  induction α with
  | nil => exact ⟨[], .nil⟩
  | cons s α ih =>
    obtain ⟨t1, h1⟩ := h s (by simp)
    obtain ⟨t2, h2⟩ := ih fun s hs => h s (by simp [hs])
    exact ⟨t1 ++ t2, by simpa using h1.append h2⟩

end Parsegen
