import Verif.Proofs.Terminate
import Verif.Spec.During
import Mathlib.Tactic.Ring

/-! # The number of iterations of the emitted parser is linear in the number of tokens read -/

namespace Parsegen

variable {X Ty V W Tok E : Type}

/-- A reduction on the state stack. -/
def redStep (gen : Generated X) (c : Option Nat) : List Nat → Option (List Nat)
  | [] => none
  | q :: sts =>
    match gen.act q c with
    | some (some (.reduce b n _)) =>
      match (q :: sts).drop n with
      | [] => none
      | st :: rest =>
        match gen.go st b with
        | some (some r) => some (r :: st :: rest)
        | _ => none
    | _ => none

theorem redStep_some {gen : Generated X} {c : Option Nat} {l l' : List Nat} :
    redStep gen c l = some l' ↔ ∃ q sts b n k st rest r, l = q :: sts ∧
      gen.act q c = some (some (.reduce b n k)) ∧ l.drop n = st :: rest ∧
      gen.go st b = some (some r) ∧ l' = r :: st :: rest := by
  constructor
  · intro h
    cases l with
    | nil => cases h
    | cons q sts =>
      simp only [redStep] at h
      split at h
      · next b n k hact =>
        split at h
        · cases h
        · next st rest hd =>
          split at h
          · next r hr =>
            cases h
            exact ⟨q, sts, b, n, k, st, rest, r, rfl, hact, hd, hr, rfl⟩
          · cases h
      · cases h
  · rintro ⟨q, sts, b, n, k, st, rest, r, rfl, h1, h2, h3, rfl⟩
    simp [redStep, h1, h2, h3]

theorem redStep_append {gen : Generated X} {c : Option Nat} {l l' : List Nat}
    (h : redStep gen c l = some l') (rest : List Nat) :
    redStep gen c (l ++ rest) = some (l' ++ rest) := by
  obtain ⟨q, sts, b, n, k, st, r', r, rfl, h1, h2, h3, rfl⟩ := redStep_some.1 h
  refine redStep_some.2 ⟨q, sts ++ rest, b, n, k, st, r' ++ rest, r, rfl, h1, ?_, h3, rfl⟩
  have hn : n ≤ (q :: sts).length := by
    by_contra hc
    rw [List.drop_eq_nil_of_le (by omega)] at h2; cases h2
  rw [List.drop_append_of_le_length hn, h2]; rfl

theorem redStep_below {gen : Generated X} {c : Option Nat} {l rest m : List Nat} (hl : l ≠ [])
    (h1 : redStep gen c l = none) (h2 : redStep gen c (l ++ rest) = some m) :
    rest ≠ [] ∧ m.length ≤ rest.length + 1 := by
  obtain ⟨q, sts, b, n, k, st, r', r, h3, h4, h5, h6, rfl⟩ := redStep_some.1 h2
  by_cases hn : n < l.length
  · exfalso
    rw [List.drop_append_of_le_length (by omega)] at h5
    obtain ⟨q', l', rfl⟩ := List.exists_cons_of_ne_nil hl
    simp only [List.cons_append, List.cons.injEq] at h3
    obtain ⟨rfl, rfl⟩ := h3
    cases hd : (q' :: l').drop n with
    | nil =>
      have := congrArg List.length hd
      simp only [List.length_drop, List.length_nil] at this
      omega
    | cons st' r2 =>
      rw [hd] at h5
      simp only [List.cons_append, List.cons.injEq] at h5
      obtain ⟨rfl, rfl⟩ := h5
      have := redStep_some.2 ⟨q', l', b, n, k, st', r2, r, rfl, h4, hd, h6, rfl⟩
      rw [h1] at this; cases this
  · have h7 := congrArg List.length h5
    simp only [List.length_drop, List.length_append, List.length_cons] at h7
    constructor
    · rintro rfl
      simp at h7; omega
    · simp only [List.length_cons]; omega

theorem redStep_length {gen : Generated X} {c : Option Nat} {l l' : List Nat}
    (h : redStep gen c l = some l') : l'.length ≤ l.length + 1 := by
  obtain ⟨q, sts, b, n, k, st, r', r, rfl, h1, h2, h3, rfl⟩ := redStep_some.1 h
  have := congrArg List.length h2
  simp only [List.length_drop, List.length_cons] at this ⊢
  omega

/-- A sequence of reductions. -/
inductive RedRun (gen : Generated X) (c : Option Nat) : Nat → List Nat → List Nat → Prop
  | zero (l) : RedRun gen c 0 l l
  | succ {j l l' m} (h : redStep gen c l = some l') (hr : RedRun gen c j l' m) :
      RedRun gen c (j + 1) l m

theorem RedRun.length {gen : Generated X} {c : Option Nat} {j : Nat} {l m : List Nat}
    (h : RedRun gen c j l m) : m.length ≤ l.length + j := by
  induction h with
  | zero => simp
  | succ h _ ih => have := redStep_length h; omega

theorem RedRun.append {gen : Generated X} {c : Option Nat} {j : Nat} {l m : List Nat}
    (h : RedRun gen c j l m) (rest : List Nat) : RedRun gen c j (l ++ rest) (m ++ rest) := by
  induction h with
  | zero => exact .zero _
  | succ h _ ih => exact .succ (redStep_append h rest) ih

theorem RedRun.snoc {gen : Generated X} {c : Option Nat} {j : Nat} {l m m' : List Nat}
    (h : RedRun gen c j l m) (h' : redStep gen c m = some m') : RedRun gen c (j + 1) l m' := by
  induction h with
  | zero => exact .succ h' (.zero _)
  | succ h _ ih => exact .succ h (ih h')

/-- Sequences of reductions from here have length at most `K`. -/
def Bounded (gen : Generated X) (c : Option Nat) (K : Nat) (l : List Nat) : Prop :=
  ∀ j m, RedRun gen c j l m → j ≤ K

/-- A sequence of reductions either stays above `rest` or goes below at some point. -/
theorem RedRun.phase {gen : Generated X} {c : Option Nat} {j : Nat} {rest m : List Nat} :
    ∀ {K : Nat} {l : List Nat}, l ≠ [] → Bounded gen c K l → RedRun gen c j (l ++ rest) m →
      (j ≤ K ∧ m.length ≤ l.length + K + rest.length) ∨
      ∃ j1 j2 m1, j1 ≤ K ∧ j = j1 + 1 + j2 ∧ rest ≠ [] ∧ m1.length ≤ rest.length + 1 ∧
        RedRun gen c (j1 + 1) (l ++ rest) m1 ∧ RedRun gen c j2 m1 m := by
  induction j with
  | zero =>
    intro K l hl hb h
    cases h
    left; simp
  | succ j ih =>
    intro K l hl hb h
    cases h with
    | @succ _ _ l2 _ h1 h2 =>
    cases hs : redStep gen c l with
    | none =>
      right
      obtain ⟨h3, h4⟩ := redStep_below hl hs h1
      exact ⟨0, j, l2, by omega, by omega, h3, h4, .succ h1 (.zero _), h2⟩
    | some l1 =>
      have h3 := redStep_append hs rest
      rw [h1] at h3; cases h3
      have hb1 : Bounded gen c (K - 1) l1 := by
        intro i m' hr
        have := hb _ _ (.succ hs hr)
        omega
      have hK : 1 ≤ K := by have := hb _ _ (.succ hs (.zero _)); omega
      have hl1 : l1 ≠ [] := by
        obtain ⟨q, sts, b, n, k, st, r', r, -, -, -, -, rfl⟩ := redStep_some.1 hs
        simp
      have hlen := redStep_length hs
      rcases ih hl1 hb1 h2 with ⟨h4, h5⟩ | ⟨j1, j2, m1, h4, h5, h6, h7, h8, h9⟩
      · left; omega
      · right
        exact ⟨j1 + 1, j2, m1, by omega, by omega, h6, h7, .succ h1 h8, h9⟩

/-- The amortised bound. -/
theorem RedRun.amortised {gen : Generated X} {c : Option Nat} {K : Nat} {Good : List Nat → Prop}
    (hgood : ∀ l l', Good l → redStep gen c l = some l' → Good l')
    (hne : ∀ l, Good l → l ≠ []) (hb : ∀ l, Good l → Bounded gen c K (l.take 2)) :
    ∀ (h : Nat) {sts m : List Nat} {j : Nat}, sts.length ≤ h → Good sts → RedRun gen c j sts m →
      j + (K + 1) * m.length ≤ (K + 1) * (sts.length + K + 1) := by
  have hrun : ∀ {j l m}, Good l → RedRun gen c j l m → Good m := by
    intro j l m hl hr
    induction hr with
    | zero => exact hl
    | succ h _ ih => exact ih (hgood _ _ hl h)
  intro h
  induction h with
  | zero =>
    intro sts m j hlen hg
    exact absurd (List.length_eq_zero_iff.1 (by omega)) (hne _ hg)
  | succ h ih =>
    intro sts m j hlen hg hr
    have hl : sts.take 2 ≠ [] := by
      have := hne _ hg
      cases sts with
      | nil => simp at this
      | cons _ _ => simp
    have hr' : RedRun gen c j (sts.take 2 ++ sts.drop 2) m := by
      rw [List.take_append_drop]; exact hr
    have h2 : (sts.take 2).length + (sts.drop 2).length = sts.length := by
      rw [← List.length_append, List.take_append_drop]
    rcases RedRun.phase hl (hb _ hg) hr' with ⟨h4, h5⟩ | ⟨j1, j2, m1, h4, h5, h6, h7, h8, h9⟩
    · have h6 : m.length ≤ sts.length + K := by omega
      have := Nat.mul_le_mul_left (K + 1) h6
      calc j + (K + 1) * m.length ≤ (K + 1) + (K + 1) * (sts.length + K) := by omega
        _ = (K + 1) * (sts.length + K + 1) := by ring
    · rw [List.take_append_drop] at h8
      have hd : (sts.drop 2).length = sts.length - 2 := List.length_drop
      have hpos : 0 < (sts.drop 2).length := List.length_pos_of_ne_nil h6
      have h10 : m1.length + 1 ≤ sts.length := by omega
      have := ih (by omega) (hrun hg h8) h9
      have h11 := Nat.mul_le_mul_left (K + 1) (show m1.length + K + 1 + 1 ≤ sts.length + K + 1 by omega)
      have h12 : (K + 1) * (m1.length + K + 1 + 1) = (K + 1) * (m1.length + K + 1) + (K + 1) := by ring
      omega

/-! ## One iteration of the loop -/

theorem parseStep_next {gen : Generated X} {u : UserCode X V W} {tf : TokenFns Tok V}
    {input : Nat → Option (Except E Tok)} {ep : EntryPoint} {s s' : PState Tok V W E}
    (h : parseStep gen u tf input ep s = .next s') :
    (∃ r, s'.states = r :: s.states ∧ s'.calls = s.calls + 1) ∨
    ∃ c, lookahead tf s.token = some c ∧ redStep gen c s.states = some s'.states ∧
      s'.calls = s.calls ∧ s'.token = s.token := by
  unfold parseStep at h
  split at h
  · cases h
  next state sts hst =>
  split at h
  · cases h
  next ti hti =>
  split at h
  · cases h
  next row hrow =>
  split at h
  · cases h
  · split at h <;> cases h
  · next nx hnx =>
    cases h
    exact .inl ⟨nx, rfl, rfl⟩
  · next b n k hact =>
    split at h
    · next s1 hs1 =>
      cases h
      right
      obtain ⟨c, hc, hcol⟩ : ∃ c, lookahead tf s.token = some c ∧ ti = laCol gen.nTerminals c := by
        cases ht : s.token with
        | none => rw [ht] at hti; cases hti; exact ⟨none, rfl, rfl⟩
        | some r =>
          cases r with
          | error e => rw [ht] at hti; cases hti
          | ok t => rw [ht] at hti; cases hti; exact ⟨some _, rfl, rfl⟩
      refine ⟨c, hc, ?_⟩
      unfold reduceStep at hs1
      split at hs1
      · cases hs1
      next f hf =>
      replace hs1 := Except.bind_eq_ok.1 hs1
      obtain ⟨⟨vals, w⟩, _, hs1⟩ := hs1
      simp only at hs1
      split at hs1
      · cases hs1
      split at hs1
      · cases hs1
      next st rest hd =>
      split at hs1
      · cases hs1
      next grow hgrow =>
      split at hs1
      · cases hs1
      · cases hs1
      · next nx hnx =>
        cases hs1
        refine ⟨redStep_some.2 ⟨state, sts, b, n, k, st, rest, nx, hst, ?_, hd, ?_, rfl⟩, rfl, rfl⟩
        · simp only [Generated.act, hrow, Option.bind_some, ← hcol]; exact hact
        · simp only [Generated.go, hgrow, Option.bind_some]; exact hnx
    · cases h
  · cases h

/-! ## The stacks of a run are good -/

section Good

variable [DecidableEq Ty] {g : Grammar X Ty} {F : FirstTable} {gen : Generated X}
  {At : Nat → List Symbol → Nat → Prop} {e : Nat} {c : Option Nat}

theorem stk_redStep (hT : Tables g F gen At) (he : g.isPublic e = true) (hc : LaOk g.nTerminals c)
    {γ : List Symbol} {l l' : List Nat} (h : Stk At e γ l) (hr : redStep gen c l = some l') :
    ∃ γ', RStep gen At e c γ' γ ∧ Stk At e γ' l' := by
  obtain ⟨q, sts, b, n, k, st, rest, r, rfl, h1, h2, h3, rfl⟩ := redStep_some.1 hr
  obtain ⟨q', rest', h4, hat⟩ := h.top
  cases h4
  obtain ⟨p, α, hp, rfl, hit, hpriv, _⟩ := hT.reduce_of he hat hc h1
  obtain ⟨γ0, rfl, _, nt, pq, α', β, la, h5, h6, _⟩ := hit.complete hp he hpriv
  have h7 := h.drop
  rw [h2] at h7
  obtain ⟨q'', rest', h8, hat'⟩ := h7.top
  cases h8
  obtain ⟨r', h9, h10⟩ := hT.goto_mk he hat' h5 h6
  rw [h3] at h9; cases h9
  exact ⟨γ0 ++ [.nonTerminal b], ⟨q, b, α.length, k, hat, h1, by simp⟩, .push h7 h10⟩

theorem stk_bounded (hT : Tables g F gen At) (he : g.isPublic e = true) (hc : LaOk g.nTerminals c)
    {γ : List Symbol} (hs : Stop gen At e c γ) :
    ∀ {l : List Nat}, Stk At e γ l → ∃ K, Bounded gen c K l := by
  induction hs with
  | intro γ _ ih =>
    intro l hl
    cases hr : redStep gen c l with
    | none =>
      refine ⟨0, fun j m h => ?_⟩
      cases h with
      | zero => exact Nat.le_refl _
      | succ h => rw [hr] at h; cases h
    | some l' =>
      obtain ⟨γ', h1, h2⟩ := stk_redStep hT he hc hl hr
      obtain ⟨K, hK⟩ := ih γ' h1 h2
      refine ⟨K + 1, fun j m h => ?_⟩
      cases h with
      | zero => omega
      | succ h h' => rw [hr] at h; cases h; have := hK _ _ h'; omega

omit [DecidableEq Ty] in
theorem exists_bound {α : Type} (L : List α) (f : α → Nat) : ∃ K, ∀ x ∈ L, f x ≤ K := by
  induction L with
  | nil => exact ⟨0, by simp⟩
  | cons a L ih =>
    obtain ⟨K, h⟩ := ih
    refine ⟨max (f a) K, fun x hx => ?_⟩
    rcases List.mem_cons.1 hx with rfl | hx
    · exact Nat.le_max_left _ _
    · exact Nat.le_trans (h x hx) (Nat.le_max_right _ _)

/-- The top two states of every stack. -/
theorem exists_uniform (hT : Tables g F gen At)
    (hS : ∀ e c γ, g.isPublic e = true → LaOk g.nTerminals c → Stop gen At e c γ) {N : Nat} (hlt : ∀ e γ q, At e γ q → q < N) :
    ∃ K, ∀ (e : Nat) (c : Option Nat) (γ : List Symbol) (l : List Nat), g.isPublic e = true →
      LaOk g.nTerminals c → Stk At e γ l → Bounded gen c K (l.take 2) := by
  classical
  have h1 : ∀ x : List Nat × Option Nat, ∃ K, ∀ (e : Nat) (γ : List Symbol) (l : List Nat),
      g.isPublic e = true → LaOk g.nTerminals x.2 → Stk At e γ l → x.1 = l.take 2 →
      Bounded gen x.2 K x.1 := by
    intro x
    by_cases hx : ∃ (e : Nat) (γ : List Symbol) (l : List Nat), g.isPublic e = true ∧
        LaOk g.nTerminals x.2 ∧ Stk At e γ l ∧ x.1 = l.take 2
    · obtain ⟨e, γ, l, he, hc, hs, hl⟩ := hx
      obtain ⟨K, hK⟩ := stk_bounded hT he hc (hS e x.2 γ he hc) hs
      refine ⟨K, fun _ _ _ _ _ _ _ j m h => ?_⟩
      refine hK j (m ++ l.drop 2) ?_
      have := h.append (l.drop 2)
      rw [hl, List.take_append_drop] at this
      exact this
    · exact ⟨0, fun e γ l he hc hs hl => absurd ⟨e, γ, l, he, hc, hs, hl⟩ hx⟩
  choose f hf using h1
  let cs : List (Option Nat) := none :: (List.range g.nTerminals).map some
  let segs : List (List Nat) := (List.range N).map (fun p => [p]) ++
    (List.range N).flatMap fun p => (List.range N).map fun q => [p, q]
  obtain ⟨K, hK⟩ := exists_bound (segs.flatMap fun s => cs.map fun c => (s, c)) f
  refine ⟨K, fun e c γ l he hc hs j m h => ?_⟩
  have hmem : ∀ γ (l : List Nat), Stk At e γ l → ∀ q ∈ l, q < N := by
    intro γ l hs
    induction hs with
    | base h => intro q hq; simp only [List.mem_singleton] at hq; exact hq ▸ hlt _ _ _ h
    | push _ hq ih =>
      intro q' hq'
      rcases List.mem_cons.1 hq' with rfl | h
      · exact hlt _ _ _ hq
      · exact ih q' h
  have h2 : l.take 2 ∈ segs := by
    have hm := hmem γ l hs
    have hlen := hs.length
    match l, hlen with
    | [p], _ =>
      refine List.mem_append_left _ (List.mem_map.2 ⟨p, List.mem_range.2 (hm p (by simp)), rfl⟩)
    | p :: q :: r, _ =>
      refine List.mem_append_right _ (List.mem_flatMap.2 ⟨p, List.mem_range.2 (hm p (by simp)), ?_⟩)
      exact List.mem_map.2 ⟨q, List.mem_range.2 (hm q (by simp)), rfl⟩
  have h3 : c ∈ cs := by
    cases c with
    | none => simp [cs]
    | some t => simp [cs, hc t rfl]
  refine Nat.le_trans (hf (l.take 2, c) e γ l he hc hs rfl j m h) (hK _ ?_)
  exact List.mem_flatMap.2 ⟨_, h2, List.mem_map.2 ⟨c, h3, rfl⟩⟩

end Good

end Parsegen
