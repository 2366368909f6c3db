import Verif.Spec.Interactive
import Verif.Proofs.Observe

/-! # Iterators that share state with the actions -/

namespace Parsegen

variable {X Ty V W Tok E Val : Type}

/-! ## Control does not depend on the values -/

/-- Forget the values on the stack. -/
abbrev bare (v : SAR V) : SAR Unit := v.map fun _ => ()

theorem extract_bare (ex : Extract) (v : SAR V) :
    (extract ex (bare v)).isSome = (extract ex v).isSome := by
  cases ex <;> cases v <;> simp only [bare, SAR.map, extract] <;> (try split) <;> rfl

theorem runPops_bare {ps : List PopStmt} {env : Env V} {st : List (SAR V)} (env0 : Env Unit) :
    (∀ env' st', runPops ps env st = .ok (env', st') →
      ∃ env0', runPops ps env0 (st.map bare) = .ok (env0', st'.map bare)) ∧
    ∀ e, runPops ps env st = .error e → runPops ps env0 (st.map bare) = .error e := by
  induction ps generalizing env st env0 with
  | nil =>
    constructor
    · intro env' st' h; cases h; exact ⟨env0, rfl⟩
    · intro e h; cases h
  | cons p ps ih =>
    cases p with
    | drop =>
      simp only [runPops]
      rw [← List.map_tail]
      exact ih env0
    | bind n ex =>
      cases st with
      | nil =>
        constructor
        · intro env' st' h; cases h
        · intro e h; cases h; rfl
      | cons v st =>
        simp only [runPops, List.map_cons]
        have hx := extract_bare ex v
        cases h1 : extract ex v with
        | none =>
          rw [h1] at hx
          have h2 : extract ex (bare v) = none := by
            cases h3 : extract ex (bare v) with
            | none => rfl
            | some _ => rw [h3] at hx; cases hx
          rw [h2]
          constructor
          · intro env' st' h; cases h
          · intro e h; cases h; rfl
        | some b =>
          rw [h1] at hx
          obtain ⟨b0, h2⟩ := Option.isSome_iff_exists.1 (hx.trans rfl)
          rw [h2]
          exact ih _

theorem semFn_bare {u : UserCode X V W} {f : SemFn X} {st : List (SAR V)} {w : W}
    (mkPath : String → X) :
    (∀ st' w', f.run u st w = .ok (st', w') →
      f.run (trivialCode mkPath) (st.map bare) () = .ok (st'.map bare, ())) ∧
    ∀ e, f.run u st w = .error e → e ≠ .userPanic →
      f.run (trivialCode mkPath) (st.map bare) () = .error e := by
  obtain ⟨h1, h2⟩ := runPops_bare (ps := f.pops) (env := fun _ => none) (st := st) (fun _ => none)
  unfold SemFn.run
  constructor
  · intro st' w' h
    replace h := Except.bind_eq_ok.1 h
    obtain ⟨⟨env, st1⟩, h3, h⟩ := h
    obtain ⟨env0, h4⟩ := h1 _ _ h3
    rw [h4]
    simp only at h
    split at h
    · cases h
    · cases h; rfl
  · intro e h he
    cases h3 : runPops f.pops (fun _ => none) st with
    | error e' =>
      rw [h3] at h
      cases h
      rw [h2 _ h3]; rfl
    | ok r =>
      rw [h3] at h
      simp only [bind, Except.bind] at h
      split at h
      · cases h; exact absurd rfl he
      · cases h

/-- The corresponding state of the parser with trivial actions. -/
def IState.bare (s : IState Tok V W E) : PState Tok Unit Unit E :=
  ⟨s.states, s.values.map Parsegen.bare, s.token, s.items.length, ()⟩

theorem reduceStep_bare {gen : Generated X} {u : UserCode X V W} {nt n sem : Nat}
    {s : IState Tok V W E} (mkPath : String → X) :
    (∀ c, reduceStep gen u nt n sem s.core = .ok c →
      reduceStep gen (trivialCode mkPath) nt n sem s.bare =
        .ok ({ s with states := c.states, values := c.values, world := c.world } : IState Tok V W E).bare) ∧
    ∀ e, reduceStep gen u nt n sem s.core = .error e → e ≠ .userPanic →
      reduceStep gen (trivialCode mkPath) nt n sem s.bare = .error e := by
  unfold reduceStep
  cases hf : gen.semActions[sem]? with
  | none =>
    simp only
    constructor
    · intro c h; cases h
    · intro e h _; cases h; rfl
  | some f =>
    simp only
    obtain ⟨h1, h2⟩ := semFn_bare (u := u) (f := f) (st := s.values) (w := s.world) mkPath
    cases hr : f.run u s.values s.world with
    | error e' =>
      have hr' : f.run u s.core.values s.core.world = .error e' := hr
      rw [hr']
      constructor
      · intro c h; cases h
      · intro e h he
        cases h
        have : f.run (trivialCode mkPath) s.bare.values s.bare.world = .error e' := h2 _ hr he
        rw [this]; rfl
    | ok r =>
      obtain ⟨vals, w⟩ := r
      have hr' : f.run u s.core.values s.core.world = .ok (vals, w) := hr
      have h3 : f.run (trivialCode mkPath) s.bare.values s.bare.world = .ok (vals.map bare, ()) :=
        h1 _ _ hr
      rw [hr', h3]
      simp only [bind, Except.bind]
      have e1 : s.bare.states = s.states := rfl
      have e2 : s.core.states = s.states := rfl
      rw [e1, e2]
      constructor
      · intro c h
        split at h
        · cases h
        next hlt =>
        rw [if_neg hlt]
        split at h
        · cases h
        next st rest hd =>
        split at h
        · cases h
        next row hrow =>
        split at h
        · cases h
        · cases h
        · next nx hnx => cases h; rfl
      · intro e h _
        split at h
        · next hlt => rw [if_pos hlt]; cases h; rfl
        next hlt =>
        rw [if_neg hlt]
        split at h
        · next hd => cases h; rfl
        next st rest hd =>
        split at h
        · next hrow => cases h; rfl
        next row hrow =>
        split at h
        · next hx => cases h; rfl
        · next hx => cases h; rfl
        · cases h

theorem acceptStep_bare {gen : Generated X} {u : UserCode X V W} {k ai : Nat}
    {s : IState Tok V W E} (mkPath : String → X)
    (h : (acceptStep gen u k ai s.core).1 ≠ .fault .userPanic) :
    acceptStep gen (trivialCode mkPath) k ai s.bare =
      ((acceptStep gen u k ai s.core).1.kind,
        ({ s with values := (acceptStep gen u k ai s.core).2.values,
                  world := (acceptStep gen u k ai s.core).2.world } : IState Tok V W E).bare) := by
  unfold acceptStep at h ⊢
  cases hf : gen.semActions[ai]? with
  | none => rfl
  | some f =>
    rw [hf] at h
    simp only at h ⊢
    obtain ⟨h1, h2⟩ := semFn_bare (u := u) (f := f) (st := s.values) (w := s.world) mkPath
    cases hr : f.run u s.values s.world with
    | error e' =>
      have hr' : f.run u s.core.values s.core.world = .error e' := hr
      rw [hr'] at h ⊢
      simp only [ne_eq, Outcome.fault.injEq] at h
      have : f.run (trivialCode mkPath) s.bare.values s.bare.world = .error e' := h2 _ hr h
      rw [this]; rfl
    | ok r =>
      obtain ⟨vals, w⟩ := r
      have hr' : f.run u s.core.values s.core.world = .ok (vals, w) := hr
      have h3 : f.run (trivialCode mkPath) s.bare.values s.bare.world = .ok (vals.map bare, ()) :=
        h1 _ _ hr
      rw [hr', h3]
      cases vals with
      | nil => rfl
      | cons v vals =>
        simp only [List.map_cons]
        cases v with
        | token i fs => rfl
        | nonTerminal j v =>
          simp only [extract, bare, SAR.map]
          by_cases hk : k = j
          · simp only [hk, if_true]; rfl
          · simp only [hk, if_false]; rfl

theorem lookaheadIdx_bare (gen : Generated X) (tf : TokenFns Tok V) (tf0 : TokenFns Tok Unit)
    (h : tf0.terminalIdx = tf.terminalIdx) (t : Option (Except E Tok)) :
    lookaheadIdx gen tf0 t = lookaheadIdx gen tf t := by
  unfold lookaheadIdx
  rw [h]

theorem iParseStep_bare {gen : Generated X} {u : UserCode X V W} {tf : TokenFns Tok V}
    {tf0 : TokenFns Tok Unit} (h0 : tf0.terminalIdx = tf.terminalIdx)
    (hv : ∀ t, tf0.value t = bare (tf.value t)) {next : W → Option (Except E Tok) × W}
    {ep : EntryPoint} {s : IState Tok V W E} (mkPath : String → X) :
    (∀ s', iParseStep gen u tf next ep s = .next s' →
      ∀ input, (∀ i x, s'.items[i]? = some x → input i = x) →
      parseStep gen (trivialCode mkPath) tf0 input ep s.bare = .next s'.bare) ∧
    ∀ o s', iParseStep gen u tf next ep s = .done o s' → o ≠ .fault .userPanic →
      ∀ input, parseStep gen (trivialCode mkPath) tf0 input ep s.bare = .done o.kind s'.bare := by
  unfold iParseStep parseStep
  have e1 : s.bare.states = s.states := rfl
  have e2 : s.bare.token = s.token := rfl
  rw [e1, e2, lookaheadIdx_bare gen tf tf0 h0]
  cases hst : s.states with
  | nil =>
    simp only
    constructor
    · intro s' h; cases h
    · intro o s' h _ _; cases h; rfl
  | cons q sts =>
  simp only
  cases hla : lookaheadIdx gen tf s.token with
  | error e =>
    simp only
    constructor
    · intro s' h; cases h
    · intro o s' h _ _; cases h; rfl
  | ok ti =>
  simp only
  cases hrow : gen.action[q]? with
  | none =>
    simp only
    constructor
    · intro s' h; cases h
    · intro o s' h _ _; cases h; rfl
  | some row =>
  simp only
  cases hcell : row[ti]? with
  | none =>
    simp only
    constructor
    · intro s' h; cases h
    · intro o s' h _ _; cases h; rfl
  | some c =>
  cases c with
  | none =>
    simp only
    constructor
    · intro s' h; split at h <;> cases h
    · intro o s' h _ _
      split at h
      · next f e hf he => rw [hf, he]; cases h; rfl
      · next hx =>
        cases h
        split
        · next f e hf he => exact absurd he (hx f e hf)
        · rfl
  | some act =>
  cases act with
  | shift nx =>
    simp only
    constructor
    · intro s' h input hi
      cases h
      have h1 : input s.items.length = (next s.world).1 := by
        apply hi
        simp [iShiftStep]
      unfold shiftStep iShiftStep IState.bare
      simp only [h1, StepResult.next.injEq, PState.mk.injEq, true_and, List.length_append,
        List.length_cons, List.length_nil, and_true, Nat.zero_add]
      cases s.token with
      | none => rfl
      | some r =>
        cases r with
        | error e => rfl
        | ok t => simp only [hv, List.map_cons]
    · intro o s' h; cases h
  | reduce b n k =>
    simp only
    obtain ⟨h1, h2⟩ := reduceStep_bare (gen := gen) (u := u) (nt := b) (n := n) (sem := k) (s := s) mkPath
    cases hr : reduceStep gen u b n k s.core with
    | ok c =>
      rw [h1 c hr]
      constructor
      · intro s' h _ _; cases h; rfl
      · intro o s' h; cases h
    | error e =>
      constructor
      · intro s' h; cases h
      · intro o s' h ho _
        cases h
        rw [h2 e hr (by rintro rfl; exact ho rfl)]
        rfl
  | accept =>
    simp only
    constructor
    · intro s' h; cases h
    · intro o s' h ho _
      cases h
      rw [acceptStep_bare mkPath ho]
      congr 1
      simp only [IState.bare, hst]

theorem iParseStep_items {gen : Generated X} {u : UserCode X V W} {tf : TokenFns Tok V}
    {next : W → Option (Except E Tok) × W} {ep : EntryPoint} {s : IState Tok V W E} :
    (∀ s', iParseStep gen u tf next ep s = .next s' → s.items <+: s'.items) ∧
    ∀ o s', iParseStep gen u tf next ep s = .done o s' → s'.items = s.items := by
  unfold iParseStep
  constructor
  · intro s' h
    repeat' split at h
    all_goals try cases h
    · exact List.prefix_append _ _
    · exact List.prefix_refl _
  · intro o s' h
    repeat' split at h
    all_goals first | (cases h; rfl) | cases h

theorem prefix_agree {α : Type} {l l' : List α} (h : l <+: l') {input : Nat → α}
    (hi : ∀ i x, l'[i]? = some x → input i = x) : ∀ i x, l[i]? = some x → input i = x := by
  intro i x hx
  obtain ⟨r, rfl⟩ := h
  apply hi
  rw [List.getElem?_append_left (List.getElem?_eq_some_iff.1 hx).1]
  exact hx

theorem iParseLoop_items {gen : Generated X} {u : UserCode X V W} {tf : TokenFns Tok V}
    {next : W → Option (Except E Tok) × W} {ep : EntryPoint} {fuel : Nat} {s s' : IState Tok V W E}
    {o : Outcome V E} (h : iParseLoop gen u tf next ep fuel s = some (o, s')) :
    s.items <+: s'.items := by
  induction fuel generalizing s with
  | zero => cases h
  | succ fuel ih =>
    unfold iParseLoop at h
    split at h
    · next hd => cases h; rw [iParseStep_items.2 _ _ hd]; exact List.prefix_refl _
    · next s1 hd => exact (iParseStep_items.1 _ hd).trans (ih h)

theorem iParseLoop_bare {gen : Generated X} {u : UserCode X V W} {tf : TokenFns Tok V}
    {tf0 : TokenFns Tok Unit} (h0 : tf0.terminalIdx = tf.terminalIdx)
    (hv : ∀ t, tf0.value t = bare (tf.value t)) {next : W → Option (Except E Tok) × W}
    {ep : EntryPoint} (mkPath : String → X) {fuel : Nat} {s s' : IState Tok V W E}
    {o : Outcome V E} (h : iParseLoop gen u tf next ep fuel s = some (o, s'))
    (ho : o ≠ .fault .userPanic) {input : Nat → Option (Except E Tok)}
    (hi : ∀ i x, s'.items[i]? = some x → input i = x) :
    parseLoop gen (trivialCode mkPath) tf0 input ep fuel s.bare = some (o.kind, s'.bare) := by
  induction fuel generalizing s with
  | zero => cases h
  | succ fuel ih =>
    unfold iParseLoop at h
    unfold parseLoop
    split at h
    · next hd =>
      cases h
      rw [(iParseStep_bare h0 hv mkPath).2 _ _ hd ho input]
    · next s1 hd =>
      rw [(iParseStep_bare h0 hv mkPath).1 _ hd input (prefix_agree (iParseLoop_items h) hi)]
      exact ih h

theorem iSteps_items {gen : Generated X} {u : UserCode X V W} {tf : TokenFns Tok V}
    {next : W → Option (Except E Tok) × W} {ep : EntryPoint} {s s' : IState Tok V W E}
    (h : ISteps gen u tf next ep s s') : s.items <+: s'.items := by
  induction h with
  | refl => exact List.prefix_refl _
  | tail _ hn ih => exact ih.trans (iParseStep_items.1 _ hn)

/-! ## The fixed sequence is a special case -/

section Counter

/-- The state of the interactive parser that corresponds to a state of the parser on a sequence. -/
def PState.counted (input : Nat → Option (Except E Tok)) (s : PState Tok V W E) :
    IState Tok V (W × Nat) E :=
  ⟨s.states, s.values, s.token, (s.world, s.calls), (List.range s.calls).map input⟩

variable [DecidableEq Ty] {P : Compiled X Ty V W Tok} {input : Nat → Option (Except E Tok)}

theorem semFn_counted (f : SemFn X) (st : List (SAR V)) (w : W) (k : Nat) :
    f.run P.withCounter.code st (w, k) =
      (f.run P.code st w).map fun r => (r.1, (r.2, k)) := by
  unfold SemFn.run
  cases runPops f.pops (fun _ => none) st with
  | error e => rfl
  | ok r =>
    simp only [bind, Except.bind, Compiled.withCounter]
    cases P.code.run f.action r.1 w with
    | none => rfl
    | some r => rfl

theorem reduceStep_counted (gen : Generated X) (nt n sem : Nat) (s : PState Tok V W E) :
    reduceStep gen P.withCounter.code nt n sem (s.counted input).core =
      (reduceStep gen P.code nt n sem s).map fun c => (c.counted input).core := by
  unfold reduceStep
  cases gen.semActions[sem]? with
  | none => rfl
  | some f =>
    simp only [PState.counted, IState.core, semFn_counted]
    cases f.run P.code s.values s.world with
    | error e => rfl
    | ok r =>
      simp only [Except.map, bind, Except.bind]
      by_cases hlt : s.states.length < n
      · simp only [hlt, if_true]
      simp only [hlt, if_false]
      cases s.states.drop n with
      | nil => rfl
      | cons st rest =>
      simp only
      cases gen.goto[st]? with
      | none => rfl
      | some row =>
      simp only
      cases row[nt]? with
      | none => rfl
      | some c => cases c <;> rfl

theorem reduceStep_keeps {gen : Generated X} {u : UserCode X V W} {nt n sem : Nat}
    {s c : PState Tok V W E} (h : reduceStep gen u nt n sem s = .ok c) :
    c.calls = s.calls ∧ c.token = s.token := by
  unfold reduceStep at h
  split at h
  · cases h
  replace h := Except.bind_eq_ok.1 h
  obtain ⟨r, _, h⟩ := h
  simp only at h
  repeat' split at h
  all_goals first | (cases h; exact ⟨rfl, rfl⟩) | cases h

theorem acceptStep_counted (gen : Generated X) (k ai : Nat) (s : PState Tok V W E) :
    acceptStep gen P.withCounter.code k ai (s.counted input).core =
      ((acceptStep gen P.code k ai s).1, ((acceptStep gen P.code k ai s).2.counted input).core) := by
  unfold acceptStep
  cases gen.semActions[ai]? with
  | none => rfl
  | some f =>
    simp only [PState.counted, IState.core, semFn_counted]
    cases f.run P.code s.values s.world with
    | error e => rfl
    | ok r =>
      simp only [Except.map]
      cases r.1 with
      | nil => rfl
      | cons v vals =>
        simp only
        split <;> rfl

theorem acceptStep_keeps (gen : Generated X) (u : UserCode X V W) (k ai : Nat)
    (s : PState Tok V W E) : (acceptStep gen u k ai s).2.calls = s.calls ∧
      (acceptStep gen u k ai s).2.token = s.token ∧
      (acceptStep gen u k ai s).2.states = s.states := by
  unfold acceptStep
  repeat' split
  all_goals exact ⟨rfl, rfl, rfl⟩

theorem iParseStep_counted (gen : Generated X) (tf : TokenFns Tok V) (ep : EntryPoint)
    (s : PState Tok V W E) :
    iParseStep gen P.withCounter.code tf (counterNext input) ep (s.counted input) =
      match parseStep gen P.code tf input ep s with
      | .next s' => .next (s'.counted input)
      | .done o s' => .done o (s'.counted input) := by
  unfold iParseStep parseStep
  have e1 : (s.counted input).states = s.states := rfl
  have e2 : (s.counted input).token = s.token := rfl
  rw [e1, e2]
  cases hst : s.states with
  | nil => rfl
  | cons q sts =>
  simp only
  cases lookaheadIdx gen tf s.token with
  | error e => rfl
  | ok ti =>
  simp only
  cases gen.action[q]? with
  | none => rfl
  | some row =>
  simp only
  cases row[ti]? with
  | none => rfl
  | some c =>
  cases c with
  | none =>
    simp only
    cases gen.terminalStrs[ti]? with
    | none => rfl
    | some f =>
      cases gen.expected[q]? with
      | none => rfl
      | some e => rfl
  | some act =>
  cases act with
  | shift nx =>
    simp only [iShiftStep, shiftStep, PState.counted, counterNext, List.range_succ, List.map_append,
      List.map_cons, List.map_nil]
    rfl
  | reduce b n k =>
    simp only [reduceStep_counted]
    cases hr : reduceStep gen P.code b n k s with
    | error e => rfl
    | ok c =>
      obtain ⟨h1, h2⟩ := reduceStep_keeps hr
      simp only [Except.map, PState.counted, IState.core, h1, h2]
  | accept =>
    simp only [acceptStep_counted]
    obtain ⟨h1, h2, h3⟩ := acceptStep_keeps gen P.code ep.extract ep.actionIdx s
    simp only [PState.counted, IState.core, h1, h2, h3, hst]

theorem iParseLoop_counted (gen : Generated X) (tf : TokenFns Tok V) (ep : EntryPoint) (fuel : Nat)
    (s : PState Tok V W E) :
    iParseLoop gen P.withCounter.code tf (counterNext input) ep fuel (s.counted input) =
      (parseLoop gen P.code tf input ep fuel s).map fun r => (r.1, r.2.counted input) := by
  induction fuel generalizing s with
  | zero => rfl
  | succ fuel ih =>
    unfold iParseLoop parseLoop
    rw [iParseStep_counted]
    cases parseStep gen P.code tf input ep s with
    | done o s' => rfl
    | next s' => exact ih s'

end Counter

end Parsegen
