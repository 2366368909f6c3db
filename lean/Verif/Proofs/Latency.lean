import Verif.Proofs.Linear
import Verif.Proofs.Space

/-! # The number of reductions between two shifts -/

namespace Parsegen

variable {X Ty V W Tok E : Type} [DecidableEq Ty] {g : Grammar X Ty} {F : FirstTable} {gen : Generated X}
  {At : Nat → List Symbol → Nat → Prop} {e : Nat} {c : Option Nat}

/-- A reduction, seen on the stack of symbols. -/
theorem stk_redStep_syms (hT : Tables g F gen At) (he : g.isPublic e = true) (hc : LaOk g.nTerminals c)
    {γ : List Symbol} {l l' : List Nat} (h : Stk At e γ l) (hr : redStep gen c l = some l') :
    ∃ γ0 b p α, γ = γ0 ++ α ∧ g.HasProd b p α ∧ Stk At e (γ0 ++ [.nonTerminal b]) l' ∧
      ∃ μ, g.Spine e μ b := by
  obtain ⟨q, sts, b, n, k, st, rest, r, rfl, h1, h2, h3, rfl⟩ := redStep_some.1 hr
  obtain ⟨q', rest', h4, hat⟩ := h.top
  cases h4
  obtain ⟨p, α, hp, rfl, hit, hpriv, _⟩ := hT.reduce_of he hat hc h1
  obtain ⟨γ0, rfl, _, nt, pq, α', β, la, h5, h6, _⟩ := hit.complete hp he hpriv
  have h7 := h.drop
  rw [h2] at h7
  obtain ⟨q'', rest', h8, hat'⟩ := h7.top
  cases h8
  obtain ⟨r', h9, h10⟩ := hT.goto_mk he hat' h5 h6
  rw [h3] at h9; cases h9
  obtain ⟨μ, _, _, _, h11, _⟩ := h5.spine
  exact ⟨γ0, b, p, α, rfl, hp, .push h7 h10, _, h11.child h6⟩

/-- `A` has `s` at its right end: what stands behind it can disappear. -/
def Grammar.EndsWith (g : Grammar X Ty) (A : Symbol) (σ : List Symbol) (s : Symbol) : Prop :=
  ∃ β, g.Derives [A] (σ ++ s :: β) ∧ g.Derives β []

omit [DecidableEq Ty] in
theorem Grammar.EndsWith.refl (s : Symbol) : g.EndsWith s [] s := ⟨[], .refl _, .refl _⟩

omit [DecidableEq Ty] in
theorem Grammar.EndsWith.trans {A B s : Symbol} {σ τ : List Symbol} (h1 : g.EndsWith A σ B)
    (h2 : g.EndsWith B τ s) : g.EndsWith A (σ ++ τ) s := by
  obtain ⟨β, h1, h3⟩ := h1
  obtain ⟨ν, h2, h4⟩ := h2
  refine ⟨ν ++ β, h1.trans ?_, ?_⟩
  · have := (h2.append_right β).append_left σ
    simpa using this
  · have := h4.append_right β
    exact this.trans (by simpa using h3)

omit [DecidableEq Ty] in
theorem Grammar.EndsWith.prod {b p : Nat} {σ ν : List Symbol} {s : Symbol}
    (hp : g.HasProd b p (σ ++ s :: ν)) (hν : g.Derives ν []) : g.EndsWith (.nonTerminal b) σ s :=
  ⟨ν, by simpa using Grammar.Derives.step_nt hp [], hν⟩

/-- A sequence of reductions either stays above `rest`, or goes below at some point, with a non-terminal that
has what was on top there at its right end. -/
theorem RedRun.phase_syms (hT : Tables g F gen At) (he : g.isPublic e = true) (hc : LaOk g.nTerminals c)
    {δ : List Symbol} {Y : Symbol} {rest m : List Nat} {j : Nat} :
    ∀ {K : Nat} {l : List Nat} {Y' : Symbol} {ν : List Symbol}, Stk At e (δ ++ Y' :: ν) (l ++ rest) →
      l.length = ν.length + 2 → Bounded gen c K l → g.Derives ν [] → g.EndsWith Y' [] Y →
      RedRun gen c j (l ++ rest) m →
      j ≤ K ∨ ∃ j1 j2 m1 δ1 σ A, j1 ≤ K ∧ j = j1 + 1 + j2 ∧ δ = δ1 ++ σ ∧ σ ≠ [] ∧
        g.EndsWith (.nonTerminal A) σ Y ∧ Stk At e (δ1 ++ [.nonTerminal A]) m1 ∧
        (∃ μ, g.Spine e μ A) ∧ (∃ p α, g.HasProd A p α) ∧ RedRun gen c j2 m1 m := by
  induction j with
  | zero => intros; left; omega
  | succ j ih =>
    intro K l Y' ν hs hl hb hν hY h
    have hlen := hs.length
    simp only [List.length_append, List.length_cons] at hlen
    cases h with
    | @succ _ _ l2 _ h1 h2 =>
    obtain ⟨γ0, b, p, α, hγ, hp, hs2, hμ⟩ := stk_redStep_syms hT he hc hs h1
    have hlen2 := hs2.length
    simp only [List.length_append, List.length_cons, List.length_nil] at hlen2
    cases hr : redStep gen c l with
    | none =>
      right
      obtain ⟨h3, h4⟩ := redStep_below (by rintro rfl; simp at hl) hr h1
      have hlt : γ0.length < δ.length := by omega
      obtain ⟨σ, rfl, h5⟩ : ∃ σ, δ = γ0 ++ σ ∧ α = σ ++ Y' :: ν := by
        rcases List.append_eq_append_iff.1 hγ with ⟨σ, h5, h6⟩ | ⟨σ, h5, h6⟩
        · subst h5
          simp only [List.length_append] at hlt
          omega
        · exact ⟨σ, h5, h6⟩
      subst h5
      refine ⟨0, j, l2, γ0, σ, b, by omega, by omega, rfl, ?_, ?_, hs2, hμ, ⟨p, _, hp⟩, h2⟩
      · rintro rfl
        simp at hlt
      · simpa using (Grammar.EndsWith.prod hp hν).trans hY
    | some l1 =>
      have h3 := redStep_append hr rest
      rw [h1] at h3; cases h3
      have hb1 : Bounded gen c (K - 1) l1 := by
        intro i m' hr'
        have := hb _ _ (.succ hr hr')
        omega
      have hK : 1 ≤ K := by have := hb _ _ (.succ hr (.zero _)); omega
      have hl1 : 2 ≤ l1.length := by
        obtain ⟨q, sts, b, n, k, st, r', r, -, -, -, -, rfl⟩ := redStep_some.1 hr
        simp
      simp only [List.length_append] at hlen2
      have hge : δ.length ≤ γ0.length := by omega
      obtain ⟨γ1, rfl, h5⟩ : ∃ γ1, γ0 = δ ++ γ1 ∧ Y' :: ν = γ1 ++ α := by
        rcases List.append_eq_append_iff.1 hγ with ⟨σ, h5, h6⟩ | ⟨σ, h5, h6⟩
        · exact ⟨σ, h5, h6⟩
        · have : σ = [] := by
            have := congrArg List.length h5
            simp only [List.length_append] at this
            exact List.length_eq_zero_iff.1 (by omega)
          subst this
          exact ⟨[], by simpa using h5.symm, by simpa using h6.symm⟩
      have key : ∃ Y2 ν2, γ1 ++ [.nonTerminal b] = Y2 :: ν2 ∧ g.Derives ν2 [] ∧ g.EndsWith Y2 [] Y := by
        cases γ1 with
        | nil =>
          have h5 : Y' :: ν = α := h5
          subst h5
          have := (Grammar.EndsWith.prod (σ := []) hp hν).trans hY
          exact ⟨_, [], rfl, .refl _, this⟩
        | cons s γ1 =>
          simp only [List.cons_append, List.cons.injEq] at h5
          obtain ⟨rfl, rfl⟩ := h5
          refine ⟨_, γ1 ++ [.nonTerminal b], rfl, ?_, hY⟩
          have := Grammar.Derives.step_nt hp []
          have := this.append_left γ1
          exact this.trans (by simpa using hν)
      obtain ⟨Y2, ν2, k1, k2, k3⟩ := key
      rw [List.append_assoc, k1] at hs2
      have k4 := congrArg List.length k1
      simp only [List.length_append, List.length_cons, List.length_nil] at k4 hlen2
      rcases ih hs2 (by omega) hb1 k2 k3 h2 with h6 | ⟨j1, j2, m1, δ1, σ, A, e1, e2, e3⟩
      · left; omega
      · exact .inr ⟨j1 + 1, j2, m1, δ1, σ, A, by omega, by omega, e3⟩

/-- Without recursion at the right end the stack is cut down only a bounded number of times. -/
theorem RedRun.bounded (hT : Tables g F gen At) (he : g.isPublic e = true) (hc : LaOk g.nTerminals c)
    (hno : ∀ x μ σ, g.Spine e μ x → g.EndsWith (.nonTerminal x) σ (.nonTerminal x) → σ = []) {K : Nat}
    (hK : ∀ (γ : List Symbol) (l : List Nat), Stk At e γ l → Bounded gen c K (l.take 2)) :
    ∀ (d : Nat) {As : List Nat}, As.Nodup → (∀ a ∈ As, a < g.nNonTerminals) →
      g.nNonTerminals ≤ As.length + d →
      ∀ {δ : List Symbol} {Y : Symbol} {sts m : List Nat} {j : Nat}, Stk At e (δ ++ [Y]) sts →
        (∀ a ∈ As, ∃ σ, g.EndsWith Y σ (.nonTerminal a)) → RedRun gen c j sts m →
        j ≤ (K + 1) * (d + 1) := by
  intro d
  induction d with
  | zero =>
    intro As hnd hlt hd δ Y sts m j hs hends hr
    have hl := hs.length
    simp only [List.length_append, List.length_cons, List.length_nil] at hl
    have h2 : (sts.take 2).length = 2 := by rw [List.length_take]; omega
    have hK' := hK _ _ hs
    rw [← List.take_append_drop 2 sts] at hs hr
    rcases RedRun.phase_syms hT he hc (ν := []) hs h2 hK' (.refl _) (.refl _) hr with
      h | ⟨j1, j2, m1, δ1, σ, A, e1, e2, e3, e4, e5, e6, ⟨μ, e7⟩, ⟨p, α, e8⟩, e9⟩
    · omega
    · exfalso
      have hA : A ∉ As := by
        intro hA
        obtain ⟨τ, h⟩ := hends A hA
        have := hno A μ _ e7 (e5.trans h)
        simp [e4] at this
      have hsub : (A :: As) ⊆ List.range g.nNonTerminals := by
        intro a ha
        rcases List.mem_cons.1 ha with rfl | ha
        · exact List.mem_range.2 e8.nt_lt
        · exact List.mem_range.2 (hlt a ha)
      have := ((List.nodup_cons.2 ⟨hA, hnd⟩).subperm hsub).length_le
      simp only [List.length_cons, List.length_range] at this
      omega
  | succ d ih =>
    intro As hnd hlt hd δ Y sts m j hs hends hr
    have hl := hs.length
    simp only [List.length_append, List.length_cons, List.length_nil] at hl
    have h2 : (sts.take 2).length = 2 := by rw [List.length_take]; omega
    have hK' := hK _ _ hs
    rw [← List.take_append_drop 2 sts] at hs hr
    have e0 : (K + 1) * (d + 1 + 1) = (K + 1) * (d + 1) + (K + 1) := by ring
    rcases RedRun.phase_syms hT he hc (ν := []) hs h2 hK' (.refl _) (.refl _) hr with
      h | ⟨j1, j2, m1, δ1, σ, A, e1, e2, e3, e4, e5, e6, ⟨μ, e7⟩, ⟨p, α, e8⟩, e9⟩
    · omega
    · have hA : A ∉ As := by
        intro hA
        obtain ⟨τ, h⟩ := hends A hA
        have := hno A μ _ e7 (e5.trans h)
        simp [e4] at this
      have := ih (As := A :: As) (List.nodup_cons.2 ⟨hA, hnd⟩)
        (fun a ha => by
          rcases List.mem_cons.1 ha with rfl | ha
          · exact e8.nt_lt
          · exact hlt a ha)
        (by simp only [List.length_cons]; omega) e6
        (fun a ha => by
          rcases List.mem_cons.1 ha with rfl | ha
          · exact ⟨[], .refl _⟩
          · obtain ⟨τ, h⟩ := hends a ha
            exact ⟨_, e5.trans h⟩) e9
      omega

end Parsegen
