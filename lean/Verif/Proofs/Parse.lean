import Verif.Proofs.Run

/-! # Whole runs of the emitted parser -/

namespace Parsegen

variable {X Ty V W Tok E : Type}

section
variable [DecidableEq Ty] {g : Grammar X Ty} {F : FirstTable} {gen : Generated X}
  {u : UserCode X V W} {tf : TokenFns Tok V} {input : Nat → Option (Except E Tok)} {w0 : W}
  {At : Nat → List Symbol → Nat → Prop} {e : Nat}

/-- A run that ends has gone through a state satisfying the invariant just before its last step. -/
theorem parseLoop_spec (hwf : g.WF) (hT : Tables g F gen At) (hc : tf.Consistent g.nTerminals)
    {ep : EntryPoint} (he : g.isPublic e = true)
    (hext : (semanticActionVariants g)[e]? = some ep.extract)
    (hsem : gen.IsSem g ep.actionIdx e 0) {fuel : Nat} {s : PState Tok V W E} {γ : List Symbol}
    {toks : List Tok} (hi : RunInv g u tf At e input w0 s γ toks) {o : Outcome V E}
    {s' : PState Tok V W E} (h : parseLoop gen u tf input ep fuel s = some (o, s')) :
    ∃ s1 γ1 toks1, RunInv g u tf At e input w0 s1 γ1 toks1 ∧
      StepSpec g F gen u tf At e input w0 ep s1 γ1 toks1 (.done o s') := by
  induction fuel generalizing s γ toks with
  | zero => cases h
  | succ fuel ih =>
    have hs := parseStep_spec hwf hT hc he hext hsem hi
    unfold parseLoop at h
    cases hst : parseStep gen u tf input ep s with
    | done o' s2 =>
      rw [hst] at h hs
      cases h
      exact ⟨s, γ, toks, hi, hs⟩
    | next s2 =>
      rw [hst] at h hs
      cases hs with
      | shift _ _ _ _ _ hinv => exact ih hinv h
      | reduce _ _ _ _ _ _ _ _ hinv => exact ih hinv h

theorem runInv_init {ep : EntryPoint} (h : At e [] ep.initState) :
    RunInv (V := V) g u tf At e input w0 (parseInit input ep w0) [] [] where
  stk := .base h
  eval := ⟨[], .nil _, rfl⟩
  reads := by intro i t h; simp at h
  token := rfl
  calls := rfl
  priv := by intro b h; simp at h

/-- When the lookahead is a lexer error, the last thing that happened was reading it. -/
def JustRead (tf : TokenFns Tok V) (s : PState Tok V W E) (γ : List Symbol) (toks : List Tok) :
    Prop :=
  ∀ err, s.token = some (.error err) → (γ = [] ∧ toks = []) ∨
    ∃ γ' toks' t, γ = γ' ++ [.terminal (tf.terminalIdx t)] ∧ toks = toks' ++ [t]

/-- As `parseLoop_spec`, for runs that end with a lexer error. -/
theorem parseLoop_lexer (hwf : g.WF) (hT : Tables g F gen At) (hc : tf.Consistent g.nTerminals)
    {ep : EntryPoint} (he : g.isPublic e = true)
    (hext : (semanticActionVariants g)[e]? = some ep.extract)
    (hsem : gen.IsSem g ep.actionIdx e 0) {fuel : Nat} {s : PState Tok V W E} {γ : List Symbol}
    {toks : List Tok} (hi : RunInv g u tf At e input w0 s γ toks) (hj : JustRead tf s γ toks)
    {err : E} {s' : PState Tok V W E}
    (h : parseLoop gen u tf input ep fuel s = some (.lexerError err, s')) :
    ∃ γ1 toks1, RunInv g u tf At e input w0 s' γ1 toks1 ∧ s'.token = some (.error err) ∧
      ((γ1 = [] ∧ toks1 = []) ∨
        ∃ γ' toks' t, γ1 = γ' ++ [.terminal (tf.terminalIdx t)] ∧ toks1 = toks' ++ [t]) := by
  induction fuel generalizing s γ toks with
  | zero => cases h
  | succ fuel ih =>
    unfold parseLoop at h
    have hs := parseStep_spec hwf hT hc he hext hsem hi
    cases hp : parseStep gen u tf input ep s with
    | done o' s2 =>
      rw [hp] at h hs
      simp only [Option.some.injEq, Prod.mk.injEq] at h
      obtain ⟨rfl, rfl⟩ := h
      cases hs with
      | lexer htok => exact ⟨γ, toks, hi, htok, hj _ htok⟩
    | next s2 =>
      rw [hp] at h hs
      simp only at h
      cases hs with
      | shift _ _ _ _ _ hinv =>
        exact ih hinv (fun _ _ => Or.inr ⟨_, _, _, rfl, rfl⟩) h
      | reduce hla _ _ _ _ _ htok _ hinv =>
        refine ih hinv ?_ h
        intro err' h'
        rw [htok] at h'
        rw [h'] at hla
        cases hla

theorem parse_spec (hwf : g.WF) (hT : Tables g F gen At) (hc : tf.Consistent g.nTerminals)
    {ep : EntryPoint} (he : g.isPublic e = true) (hini : At e [] ep.initState)
    (hext : (semanticActionVariants g)[e]? = some ep.extract)
    (hsem : gen.IsSem g ep.actionIdx e 0) {fuel : Nat} {o : Outcome V E}
    {s' : PState Tok V W E} (h : parse gen u tf input ep w0 fuel = some (o, s')) :
    ∃ s1 γ1 toks1, RunInv g u tf At e input w0 s1 γ1 toks1 ∧
      StepSpec g F gen u tf At e input w0 ep s1 γ1 toks1 (.done o s') :=
  parseLoop_spec hwf hT hc he hext hsem (runInv_init hini) h

end

section
variable {gen : Generated X} {u : UserCode X V W} {tf : TokenFns Tok V}
  {input input' : Nat → Option (Except E Tok)} {ep : EntryPoint}

/-! ## Input that is not read does not matter -/

theorem reduceStep_calls {nt n k : Nat} {s s' : PState Tok V W E}
    (h : reduceStep gen u nt n k s = .ok s') : s'.calls = s.calls := by
  unfold reduceStep at h
  split at h
  · cases h
  · simp only [bind, Except.bind] at h
    split at h
    · cases h
    · split at h
      · cases h
      · repeat' split at h
        all_goals first | (cases h; done) | (cases h; rfl)

theorem acceptStep_calls (k i : Nat) (s : PState Tok V W E) :
    (acceptStep gen u k i s).2.calls = s.calls := by
  unfold acceptStep
  repeat' split
  all_goals rfl

/-- One step with two inputs that agree on everything read so far and on the next item. -/
theorem parseStep_congr (s : PState Tok V W E) (h : input s.calls = input' s.calls) :
    parseStep gen u tf input ep s = parseStep gen u tf input' ep s := by
  have hs : ∀ nx, shiftStep tf input nx s = shiftStep tf input' nx s := by
    intro nx; unfold shiftStep; rw [h]
  unfold parseStep
  simp only [hs]

theorem parseStep_done_congr {s s' : PState Tok V W E} {o : Outcome V E}
    (h : parseStep gen u tf input ep s = .done o s') :
    parseStep gen u tf input' ep s = .done o s' := by
  rw [← h]
  unfold parseStep at h ⊢
  repeat' split
  all_goals first | rfl | (simp_all)

theorem parseStep_calls {s s' : PState Tok V W E} {o : Outcome V E}
    (h : parseStep gen u tf input ep s = .done o s') : s'.calls = s.calls := by
  unfold parseStep at h
  repeat' split at h
  all_goals first | (cases h; rfl) | cases h
  next => exact acceptStep_calls _ _ _

theorem parseStep_next_calls {s s' : PState Tok V W E}
    (h : parseStep gen u tf input ep s = .next s') :
    s.calls ≤ s'.calls ∧ (s'.calls = s.calls → parseStep gen u tf input' ep s = .next s') := by
  unfold parseStep at h
  split at h
  · cases h
  next hst =>
  split at h
  · cases h
  next hla =>
  split at h
  · cases h
  next hrow =>
  split at h
  · cases h
  · split at h <;> cases h
  · cases h
    exact ⟨Nat.le_succ _, fun h => absurd h (Nat.succ_ne_self _)⟩
  · next hcell =>
    split at h
    · next hr =>
      cases h
      refine ⟨Nat.le_of_eq (reduceStep_calls hr).symm, fun _ => ?_⟩
      unfold parseStep
      rw [hst]; simp only
      rw [hla]; simp only
      rw [hrow]; simp only
      rw [hcell]; simp only
      rw [hr]
    · cases h
  · cases h

theorem parseLoop_mono {fuel : Nat} {s s' : PState Tok V W E} {o : Outcome V E}
    (h : parseLoop gen u tf input ep fuel s = some (o, s')) : s.calls ≤ s'.calls := by
  induction fuel generalizing s with
  | zero => cases h
  | succ fuel ih =>
    unfold parseLoop at h
    split at h
    · next hs => cases h; exact Nat.le_of_eq (parseStep_calls hs).symm
    · next hs => exact Nat.le_trans (parseStep_next_calls (input' := input) hs).1 (ih h)

theorem parseLoop_congr {fuel : Nat} {s s' : PState Tok V W E} {o : Outcome V E}
    (h : parseLoop gen u tf input ep fuel s = some (o, s'))
    (ha : ∀ i < s'.calls, input i = input' i) :
    parseLoop gen u tf input' ep fuel s = some (o, s') := by
  induction fuel generalizing s with
  | zero => cases h
  | succ fuel ih =>
    unfold parseLoop at h ⊢
    split at h
    · next hs => cases h; rw [parseStep_done_congr hs]
    · next s2 hs =>
      have h1 := parseStep_next_calls (input' := input') hs
      have h2 := parseLoop_mono h
      have hs' : parseStep gen u tf input' ep s = .next s2 := by
        by_cases hcalls : s2.calls = s.calls
        · exact h1.2 hcalls
        · rw [← hs]
          exact (parseStep_congr s (ha _ (by omega))).symm
      rw [hs']
      exact ih h

/-- More fuel does not change the result. -/
theorem parseLoop_fuel {fuel fuel' : Nat} {s : PState Tok V W E}
    {r : Outcome V E × PState Tok V W E} (h : parseLoop gen u tf input ep fuel s = some r)
    (hle : fuel ≤ fuel') : parseLoop gen u tf input ep fuel' s = some r := by
  induction fuel generalizing s fuel' with
  | zero => cases h
  | succ fuel ih =>
    obtain ⟨f, rfl⟩ : ∃ f, fuel' = f + 1 := ⟨fuel' - 1, by omega⟩
    unfold parseLoop at h ⊢
    split at h
    · next hs => exact h
    · next hs => exact ih h (by omega)

end

end Parsegen
