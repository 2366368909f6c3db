import Verif.Spec.Pub
import Verif.Proofs.Rearrange
import Verif.Proofs.OrderFirst

/-! # The FIRST sets of a grammar do not depend on which non-terminals are `pub`

The wrapper of a `pub` non-terminal is numbered just after it, so a pass over the grammar that adds
something to the set of the wrapper has added something to the set of the wrapped one. -/

namespace Parsegen

variable {X Ty : Type}

/-- Corresponding sets of terminals. -/
structure SetCorr (T : Nat → Nat → Prop) (A B : List Nat) : Prop where
  fwd : ∀ t ∈ A, ∃ t' ∈ B, T t t'
  bwd : ∀ t' ∈ B, ∃ t ∈ A, T t t'

/-- Relations between numbers that are functions both ways. -/
structure OneOne (T : Nat → Nat → Prop) : Prop where
  fn : ∀ {a b b'}, T a b → T a b' → b = b'
  inj : ∀ {a a' b}, T a b → T a' b → a = a'

variable {N T : Nat → Nat → Prop}

theorem SetCorr.mem_iff {A B : List Nat} (h : SetCorr T A B) (hT : OneOne T) {t t' : Nat}
    (ht : T t t') : t ∈ A ↔ t' ∈ B := by
  constructor
  · intro h1
    obtain ⟨x, h2, h3⟩ := h.fwd t h1
    rw [hT.fn ht h3]; exact h2
  · intro h1
    obtain ⟨x, h2, h3⟩ := h.bwd t' h1
    rw [hT.inj ht h3]; exact h2

/-- Corresponding states of the computation. -/
structure FState (N T : Nat → Nat → Prop) (n n' : Nat) (s s' : FirstTable × Bool) : Prop where
  len : s.1.length = n
  len' : s'.1.length = n'
  empty : ∀ {j j'}, N j j' → (s.1.get j).empty = (s'.1.get j').empty
  terms : ∀ {j j'}, N j j' → SetCorr T (s.1.get j).terminals (s'.1.get j').terminals
  flag : s.2 = s'.2

theorem FState.addAll (hN : OneOne N) (hT : OneOne T) {n n' j j' : Nat} {s s' : FirstTable × Bool}
    (h : FState N T n n' s s') (hj : N j j') (hlt : j < n) (hlt' : j' < n') {A A' : List Nat}
    (hA : SetCorr T A A') :
    FState N T n n' (firstAddAll j A s.1 s.2) (firstAddAll j' A' s'.1 s'.2) := by
  have hl : j < s.1.length := by rw [h.len]; exact hlt
  have hl' : j' < s'.1.length := by rw [h.len']; exact hlt'
  refine ⟨by rw [firstAddAll_length]; exact h.len, by rw [firstAddAll_length]; exact h.len',
    fun {k k'} hk => ?_, fun {k k'} hk => ⟨?_, ?_⟩, ?_⟩
  · rw [empty_firstAddAll hl, empty_firstAddAll hl']; exact h.empty hk
  · intro t ht
    rcases (mem_firstAddAll hl).1 ht with h1 | ⟨rfl, h1⟩
    · obtain ⟨t', h2, h3⟩ := (h.terms hk).fwd t h1
      exact ⟨t', (mem_firstAddAll hl').2 (.inl h2), h3⟩
    · obtain ⟨t', h2, h3⟩ := hA.fwd t h1
      exact ⟨t', (mem_firstAddAll hl').2 (.inr ⟨hN.fn hk hj, h2⟩), h3⟩
  · intro t ht
    rcases (mem_firstAddAll hl').1 ht with h1 | ⟨rfl, h1⟩
    · obtain ⟨t', h2, h3⟩ := (h.terms hk).bwd t h1
      exact ⟨t', (mem_firstAddAll hl).2 (.inl h2), h3⟩
    · obtain ⟨t', h2, h3⟩ := hA.bwd t h1
      exact ⟨t', (mem_firstAddAll hl).2 (.inr ⟨hN.inj hk hj, h2⟩), h3⟩
  · rw [Bool.eq_iff_iff, firstAddAll_flag hl, firstAddAll_flag hl', h.flag]
    refine or_congr Iff.rfl ⟨?_, ?_⟩
    · rintro ⟨t, h1, h2⟩
      obtain ⟨t', h3, h4⟩ := hA.fwd t h1
      exact ⟨t', h3, fun h5 => h2 (((h.terms hj).mem_iff hT h4).2 h5)⟩
    · rintro ⟨t, h1, h2⟩
      obtain ⟨t', h3, h4⟩ := hA.bwd t h1
      exact ⟨t', h3, fun h5 => h2 (((h.terms hj).mem_iff hT h4).1 h5)⟩

theorem firstAddAll_one (j t : Nat) (s : FirstTable × Bool) :
    firstAddAll j [t] s.1 s.2 = ((s.1.addFirst j t).1, s.2 || (s.1.addFirst j t).2) := rfl

theorem FState.setEmpty (hN : OneOne N) {n n' j j' : Nat} {s s' : FirstTable × Bool}
    (h : FState N T n n' s s') (hj : N j j') (hlt : j < n) (hlt' : j' < n') {u u' : Bool}
    (hu : u = u') : FState N T n n' ((s.1.setEmpty j).1, u) ((s'.1.setEmpty j').1, u') := by
  have hl : j < s.1.length := by rw [h.len]; exact hlt
  have hl' : j' < s'.1.length := by rw [h.len']; exact hlt'
  refine ⟨by rw [FirstTable.setEmpty_length]; exact h.len,
    by rw [FirstTable.setEmpty_length]; exact h.len', fun {k k'} hk => ?_, fun {k k'} hk => ?_, hu⟩
  · rw [FirstTable.empty_setEmpty hl, FirstTable.empty_setEmpty hl', h.empty hk]
    congr 1
    rw [decide_eq_decide]
    constructor
    · rintro rfl; exact hN.fn hk hj
    · rintro rfl; exact hN.inj hk hj
  · rw [FirstTable.terminals_setEmpty hl, FirstTable.terminals_setEmpty hl']
    exact h.terms hk

theorem SetCorr.iter {A A' : List Nat} (h : SetCorr T A A') (o o' : HashOrder) :
    SetCorr T (o.iter A) (o'.iter A') := by
  constructor
  · intro t ht
    obtain ⟨t', h1, h2⟩ := h.fwd t (o.mem_iter.1 ht)
    exact ⟨t', o'.mem_iter.2 h1, h2⟩
  · intro t ht
    obtain ⟨t', h1, h2⟩ := h.bwd t (o'.mem_iter.1 ht)
    exact ⟨t', o.mem_iter.2 h1, h2⟩

theorem FState.symbols (hN : OneOne N) (hT : OneOne T) (o o' : HashOrder) {n n' j j' : Nat}
    (hj : N j j') (hlt : j < n) (hlt' : j' < n') {α α' : List Symbol}
    (hα : List.Forall₂ (SymCorr N T) α α') :
    ∀ {s s' : FirstTable × Bool}, FState N T n n' s s' →
      FState N T n n' (firstSymbols o j α s.1 s.2) (firstSymbols o' j' α' s'.1 s'.2) := by
  induction hα with
  | nil => intro s s' h; exact h.setEmpty hN hj hlt hlt' h.flag
  | @cons x x' α α' hx _ ih =>
    intro s s' h
    cases x with
    | nonTerminal b =>
      cases x' with
      | terminal _ => cases hx
      | nonTerminal b' =>
        have hb : N b b' := hx
        simp only [firstSymbols]
        rw [← h.empty hb]
        split
        · exact ih h
        · exact h.addAll hN hT hj hlt hlt' ((h.terms hb).iter o o')
    | terminal t =>
      cases x' with
      | nonTerminal _ => cases hx
      | terminal t' =>
        have ht : T t t' := hx
        have := h.addAll hN hT hj hlt hlt' (A := [t]) (A' := [t'])
          ⟨by simpa using ht, by simpa using ht⟩
        exact this

theorem FState.production (hN : OneOne N) (hT : OneOne T) (o o' : HashOrder) {n n' j j' : Nat}
    (hj : N j j') (hlt : j < n) (hlt' : j' < n') {α α' : List Symbol}
    (hα : List.Forall₂ (SymCorr N T) α α') {s s' : FirstTable × Bool} (h : FState N T n n' s s') :
    FState N T n n' (firstProduction o j α s) (firstProduction o' j' α' s') := by
  unfold firstProduction
  dsimp only
  refine FState.symbols hN hT o o' hj hlt hlt' hα ?_
  cases hα with
  | nil =>
    simp only [List.isEmpty_nil, if_true]
    refine h.setEmpty hN hj hlt hlt' ?_
    simp only [FirstTable.setEmpty, h.flag, h.empty hj]
  | cons _ _ => simpa using h

theorem FState.productions (hN : OneOne N) (hT : OneOne T) (o o' : HashOrder) {n n' j j' : Nat}
    (hj : N j j') (hlt : j < n) (hlt' : j' < n') {ps ps' : List (Production X)}
    (hp : List.Forall₂ (fun p p' => List.Forall₂ (SymCorr N T) p.syms p'.syms) ps ps') :
    ∀ {s s' : FirstTable × Bool}, FState N T n n' s s' →
      FState N T n n' (ps.foldl (fun s p => firstProduction o j p.syms s) s)
        (ps'.foldl (fun s p => firstProduction o' j' p.syms s) s') := by
  induction hp with
  | nil => intro s s' h; exact h
  | cons h1 _ ih => intro s s' h; exact ih (FState.production hN hT o o' hj hlt hlt' h1 h)

/-! ## One non-terminal only changes its own set -/

/-- What the productions of `j` may do. -/
structure Local (j : Nat) (s s' : FirstTable × Bool) : Prop where
  len : s'.1.length = s.1.length
  other : ∀ k, k ≠ j → s'.1.get k = s.1.get k
  mono : (s.1.get j).empty = true → (s'.1.get j).empty = true
  flag : s.2 = true → s'.2 = true
  same : s'.2 = false → ∀ t, t ∈ (s'.1.get j).terminals → t ∈ (s.1.get j).terminals

theorem Local.refl (j : Nat) (s : FirstTable × Bool) : Local j s s :=
  ⟨rfl, fun _ _ => rfl, id, id, fun _ _ => id⟩

theorem Local.trans {j : Nat} {s s' s'' : FirstTable × Bool} (h : Local j s s')
    (h' : Local j s' s'') : Local j s s'' where
  len := h'.len.trans h.len
  other k hk := (h'.other k hk).trans (h.other k hk)
  mono := h'.mono ∘ h.mono
  flag := h'.flag ∘ h.flag
  same hf t ht := by
    refine h.same ?_ t (h'.same hf t ht)
    cases e : s'.2 with
    | false => rfl
    | true => rw [h'.flag e] at hf; cases hf

theorem Local.setEmpty {j : Nat} {s : FirstTable × Bool} (hl : j < s.1.length) {u : Bool}
    (hu : s.2 = true → u = true) : Local j s ((s.1.setEmpty j).1, u) where
  len := FirstTable.setEmpty_length _ _
  other k hk := by
    unfold FirstTable.setEmpty
    dsimp only
    rw [FirstTable.get_set hl, if_neg (Ne.symm hk)]
  mono _ := by rw [FirstTable.empty_setEmpty hl]; simp
  flag := hu
  same _ t ht := by rwa [FirstTable.terminals_setEmpty hl] at ht

theorem Local.addFirst {j t : Nat} {s : FirstTable × Bool} (hl : j < s.1.length) :
    Local j s ((s.1.addFirst j t).1, s.2 || (s.1.addFirst j t).2) where
  len := FirstTable.addFirst_length _ _ _
  other k hk := by
    unfold FirstTable.addFirst
    dsimp only
    split
    · rfl
    · rw [FirstTable.get_set hl, if_neg (Ne.symm hk)]
  mono h := by rw [FirstTable.empty_addFirst hl]; exact h
  flag h := by simp [h]
  same hf t' ht := by
    rw [FirstTable.mem_addFirst hl] at ht
    rcases ht with ht | ⟨_, rfl⟩
    · exact ht
    · rw [FirstTable.addFirst_flag] at hf
      simpa using (Bool.or_eq_false_iff.1 hf).2

theorem Local.addAll {j : Nat} (A : List Nat) {s : FirstTable × Bool} (hl : j < s.1.length) :
    Local j s (firstAddAll j A s.1 s.2) := by
  induction A generalizing s with
  | nil => exact .refl j s
  | cons t A ih =>
    have h1 := Local.addFirst (t := t) hl
    exact h1.trans (ih (s := ((s.1.addFirst j t).1, s.2 || (s.1.addFirst j t).2))
      (by rw [h1.len]; exact hl))

theorem Local.symbols (o : HashOrder) {j : Nat} (α : List Symbol) {s : FirstTable × Bool}
    (hl : j < s.1.length) : Local j s (firstSymbols o j α s.1 s.2) := by
  induction α with
  | nil => exact Local.setEmpty hl id
  | cons x α ih =>
    cases x with
    | nonTerminal b =>
      simp only [firstSymbols]
      split
      · exact ih
      · exact Local.addAll _ hl
    | terminal t => exact Local.addFirst hl

theorem Local.production (o : HashOrder) {j : Nat} (α : List Symbol) {s : FirstTable × Bool}
    (hl : j < s.1.length) : Local j s (firstProduction o j α s) := by
  unfold firstProduction
  dsimp only
  split
  · have h1 : Local j s ((s.1.setEmpty j).1, s.2 || (s.1.setEmpty j).2) :=
      Local.setEmpty hl fun h => by simp [h]
    exact h1.trans (Local.symbols o α (s := ((s.1.setEmpty j).1, s.2 || (s.1.setEmpty j).2))
      (by rw [h1.len]; exact hl))
  · exact Local.symbols o α hl

theorem Local.productions (o : HashOrder) {j : Nat} (ps : List (Production X)) :
    ∀ {s : FirstTable × Bool}, j < s.1.length →
      Local j s (ps.foldl (fun s p => firstProduction o j p.syms s) s) := by
  induction ps with
  | nil => intro s _; exact .refl j s
  | cons p ps ih =>
    intro s hl
    have h1 := Local.production o p.syms hl
    exact h1.trans (ih (by rw [h1.len]; exact hl))

/-- The wrapper `j + 1 → j`: it sets no flag that the productions of `j` have not set. -/
theorem wrapper_step (o : HashOrder) (mkPath : String → X) {j : Nat} {s0 s : FirstTable × Bool}
    (hl : j + 1 < s.1.length) (h01 : Local j s0 s)
    (hJ : (s0.1.get j).empty = false → ∀ t ∈ (s0.1.get j).terminals, t ∈ (s0.1.get (j + 1)).terminals) :
    let s' := [wrapperProd mkPath j].foldl (fun s p => firstProduction o (j + 1) p.syms s) s
    s'.2 = s.2 ∧ s'.1.length = s.1.length ∧ (∀ k, k ≠ j + 1 → s'.1.get k = s.1.get k) ∧
    ((s'.1.get j).empty = false → ∀ t ∈ (s'.1.get j).terminals, t ∈ (s'.1.get (j + 1)).terminals) := by
  intro s'
  have hL : Local (j + 1) s s' := Local.productions o [wrapperProd mkPath j] hl
  have e : s' = firstSymbols o (j + 1) [.nonTerminal j] s.1 s.2 := rfl
  have hne : j ≠ j + 1 := by omega
  refine ⟨?_, hL.len, hL.other, ?_⟩
  · rw [e]
    simp only [firstSymbols]
    split
    · rfl
    · next hem =>
      cases hf : s.2 with
      | true => exact (firstAddAll_flag hl).2 (.inl rfl)
      | false =>
        rw [← Bool.not_eq_true, firstAddAll_flag hl]
        rintro (h | ⟨t, h1, h2⟩)
        · cases h
        · have h3 := h01.same hf t (o.mem_iter.1 h1)
          have h4 : (s0.1.get j).empty = false := by
            cases hz : (s0.1.get j).empty with
            | false => rfl
            | true => exact absurd (h01.mono hz) hem
          have h5 := hJ h4 t h3
          rw [← h01.other (j + 1) (by omega)] at h5
          exact h2 h5
  · intro hem t ht
    rw [hL.other j hne] at hem ht
    rw [e]
    simp only [firstSymbols, hem, Bool.false_eq_true, if_false]
    exact (mem_firstAddAll hl).2 (.inr ⟨rfl, o.mem_iter.2 ht⟩)

end Parsegen
