import Verif.Spec.FreeActions
import Verif.Proofs.EmitCompiled
import Verif.Props.Actions

/-! # Actions that leave the action function -/

namespace Parsegen

variable {X Ty V W V1 W1 V2 W2 Tok E : Type}

/-! ## The copies agree with the originals -/

theorem reduceStepWith_run (gen : Generated X) (u : UserCode X V W) (nt n sem : Nat)
    (s : PState Tok V W E) :
    reduceStepWith gen (fun f => f.run u) nt n sem s = reduceStep gen u nt n sem s := rfl

theorem acceptStepWith_run (gen : Generated X) (u : UserCode X V W) (k ai : Nat)
    (s : PState Tok V W E) :
    acceptStepWith gen (fun f => f.run u) k ai s = acceptStep gen u k ai s := rfl

theorem parseStepWith_run (gen : Generated X) (u : UserCode X V W) (tf : TokenFns Tok V)
    (input : Nat → Option (Except E Tok)) (ep : EntryPoint) (s : PState Tok V W E) :
    parseStepWith gen (fun f => f.run u) tf input ep s = parseStep gen u tf input ep s := rfl

theorem parseLoopWith_run (gen : Generated X) (u : UserCode X V W) (tf : TokenFns Tok V)
    (input : Nat → Option (Except E Tok)) (ep : EntryPoint) : ∀ (fuel : Nat) (s : PState Tok V W E),
    parseLoopWith gen (fun f => f.run u) tf input ep fuel s = parseLoop gen u tf input ep fuel s
  | 0, _ => rfl
  | fuel + 1, s => by
    unfold parseLoopWith parseLoop
    rw [parseStepWith_run]
    cases parseStep gen u tf input ep s with
    | done o s' => rfl
    | next s' => exact parseLoopWith_run gen u tf input ep fuel s'

theorem runFree_ofUser (c : UserCode X V W) (f : SemFn X) (st : List (SAR V)) (w : W) :
    f.runFree (.ofUser c) st w = f.run c st w := by
  unfold SemFn.runFree SemFn.run
  cases runPops f.pops (fun _ => none) st with
  | error e => rfl
  | ok r =>
    obtain ⟨env, st'⟩ := r
    simp only [Except.bind_ok, FreeCode.ofUser]
    cases c.run f.action env w <;> rfl

/-! ## Simulation -/

/-- Two states of runs with different actions. -/
structure PSim (Q : List (SAR V1) → W1 → List (SAR V2) → W2 → Prop) (s : PState Tok V1 W1 E)
    (t : PState Tok V2 W2 E) : Prop where
  states : s.states = t.states
  token : s.token = t.token
  calls : s.calls = t.calls
  vals : Q s.values s.world t.values t.world

/-- The last two steps of `parse`: `pop().unwrap()` and the extraction. -/
def finish (k : Nat) : List (SAR V) → Except Fault V
  | [] => .error .unwrapNone
  | v :: _ =>
    match extract (.nonTerminal k) v with
    | some (.nt r) => .ok r
    | _ => .error .unreachable

/-- What the simulation needs. -/
structure RunSim (gen : Generated X) (R1 : RunFn X V1 W1) (R2 : RunFn X V2 W2) (tf1 : TokenFns Tok V1)
    (tf2 : TokenFns Tok V2) (Bad : Fault → Prop)
    (Q : List (SAR V1) → W1 → List (SAR V2) → W2 → Prop) : Prop where
  idx : tf1.terminalIdx = tf2.terminalIdx
  push : ∀ t {st1 w1 st2 w2}, Q st1 w1 st2 w2 → Q (tf1.value t :: st1) w1 (tf2.value t :: st2) w2
  run : ∀ f ∈ gen.semActions, ∀ {st1 w1 st2 w2}, Q st1 w1 st2 w2 →
    (∃ e, R1 f st1 w1 = .error e ∧ Bad e) ∨ (∃ e, R2 f st2 w2 = .error e) ∨
    ∃ st1' w1' st2' w2', R1 f st1 w1 = .ok (st1', w1') ∧ R2 f st2 w2 = .ok (st2', w2') ∧
      Q st1' w1' st2' w2'
  fin : ∀ k {st1 w1 st2 w2}, Q st1 w1 st2 w2 → (∃ e, finish k st1 = .error e ∧ Bad e) ∨
    (∃ e, finish k st2 = .error e) ∨ ∃ v1 v2, finish k st1 = .ok v1 ∧ finish k st2 = .ok v2

/-- How a step of the one compares to a step of the other. -/
inductive StepSim (Q : List (SAR V1) → W1 → List (SAR V2) → W2 → Prop) (Bad : Fault → Prop)
    (s : PState Tok V1 W1 E) : StepResult Tok V1 W1 E → StepResult Tok V2 W2 E → Prop
  | bad {e s' r} (h : Bad e) (hc : s'.calls = s.calls) : StepSim Q Bad s (.done (.fault e) s') r
  | fault {r e t'} : StepSim Q Bad s r (.done (.fault e) t')
  | done {o1 o2 s' t'} (h : o1.kind = o2.kind) (hc : s'.calls = s.calls) (hc2 : t'.calls = s'.calls)
      (hq : ∀ v, o1 = .ok v → ∃ v1 v2, Q (v1 :: s'.values) s'.world (v2 :: t'.values) t'.world) :
      StepSim Q Bad s (.done o1 s') (.done o2 t')
  | next {s' t'} (h : PSim Q s' t') : StepSim Q Bad s (.next s') (.next t')

section
variable {gen : Generated X} {R1 : RunFn X V1 W1} {R2 : RunFn X V2 W2} {tf1 : TokenFns Tok V1}
  {tf2 : TokenFns Tok V2} {Bad : Fault → Prop} {Q : List (SAR V1) → W1 → List (SAR V2) → W2 → Prop}
  {input : Nat → Option (Except E Tok)} {ep : EntryPoint}

theorem RunSim.reduce (h : RunSim gen R1 R2 tf1 tf2 Bad Q) {s : PState Tok V1 W1 E}
    {t : PState Tok V2 W2 E} (hst : PSim Q s t) (nt n sem : Nat) :
    (∃ e, reduceStepWith gen R1 nt n sem s = .error e ∧ Bad e) ∨
    (∃ e, reduceStepWith gen R2 nt n sem t = .error e) ∨
    ∃ s' t', reduceStepWith gen R1 nt n sem s = .ok s' ∧ reduceStepWith gen R2 nt n sem t = .ok t' ∧
      PSim Q s' t' := by
  unfold reduceStepWith
  cases hf : gen.semActions[sem]? with
  | none => exact .inr (.inl ⟨_, rfl⟩)
  | some f =>
    rcases h.run f (List.mem_of_getElem? hf) hst.vals with ⟨e, h1, h2⟩ | ⟨e, h1⟩ |
      ⟨st1, w1, st2, w2, h1, h2, h3⟩
    · exact .inl ⟨e, by simp only [h1]; rfl, h2⟩
    · exact .inr (.inl ⟨e, by simp only [h1]; rfl⟩)
    · simp only [h1, h2, Except.bind_ok, ← hst.states]
      split
      · exact .inr (.inl ⟨_, rfl⟩)
      split
      · exact .inr (.inl ⟨_, rfl⟩)
      split
      · exact .inr (.inl ⟨_, rfl⟩)
      split
      · exact .inr (.inl ⟨_, rfl⟩)
      · exact .inr (.inl ⟨_, rfl⟩)
      · exact .inr (.inr ⟨_, _, rfl, rfl, rfl, hst.token, hst.calls, h3⟩)

theorem RunSim.accept (h : RunSim gen R1 R2 tf1 tf2 Bad Q) {s : PState Tok V1 W1 E}
    {t : PState Tok V2 W2 E} (hst : PSim Q s t) (k ai : Nat) :
    StepSim Q Bad s (.done (acceptStepWith gen R1 k ai s).1 (acceptStepWith gen R1 k ai s).2)
      (.done (acceptStepWith gen R2 k ai t).1 (acceptStepWith gen R2 k ai t).2) := by
  unfold acceptStepWith
  cases hf : gen.semActions[ai]? with
  | none => exact .fault
  | some f =>
    rcases h.run f (List.mem_of_getElem? hf) hst.vals with ⟨e, h1, h2⟩ | ⟨e, h1⟩ |
      ⟨st1, w1, st2, w2, h1, h2, h3⟩
    · simp only [h1]; exact .bad h2 rfl
    · simp only [h1]; exact .fault
    · simp only [h1, h2]
      have hfin := h.fin k h3
      cases st1 with
      | nil =>
        rcases hfin with ⟨e, h4, h5⟩ | ⟨e, h4⟩ | ⟨v1, v2, h4, h5⟩
        · cases h4; exact .bad h5 rfl
        · cases st2 with
          | nil => exact .fault
          | cons b st2 =>
            simp only [finish] at h4
            simp only
            cases hx : extract (.nonTerminal k) b with
            | none => exact .fault
            | some r2 =>
              cases r2 with
              | tok fs => exact .fault
              | nt r2 => rw [hx] at h4; cases h4
        · cases h4
      | cons a st1 =>
        cases st2 with
        | nil => exact .fault
        | cons b st2 =>
          unfold finish at hfin
          simp only at hfin ⊢
          cases hx : extract (.nonTerminal k) b with
          | none => exact .fault
          | some r2 =>
            cases r2 with
            | tok fs => exact .fault
            | nt r2 =>
              rw [hx] at hfin
              simp only at hfin
              rcases hfin with ⟨e, h4, h5⟩ | ⟨e, h4⟩ | ⟨v1, v2, h4, h5⟩
              · split at h4
                · cases h4
                next hy =>
                cases h4
                split
                · next r hr => exact absurd hr (hy r)
                · exact .bad h5 rfl
              · cases h4
              · split at h4
                · next r hr => rw [hr]; exact .done rfl rfl hst.calls.symm fun v hv => ⟨_, _, h3⟩
                · cases h4

theorem RunSim.step (h : RunSim gen R1 R2 tf1 tf2 Bad Q) {s : PState Tok V1 W1 E}
    {t : PState Tok V2 W2 E} (hst : PSim Q s t) :
    StepSim Q Bad s (parseStepWith gen R1 tf1 input ep s) (parseStepWith gen R2 tf2 input ep t) := by
  have hl : lookaheadIdx gen tf1 s.token = lookaheadIdx gen tf2 t.token := by
    rw [hst.token]; unfold lookaheadIdx; rw [h.idx]
  unfold parseStepWith
  rw [← hst.states, hl]
  cases s.states with
  | nil => exact .fault
  | cons q _ =>
    simp only
    cases lookaheadIdx gen tf2 t.token with
    | error e => exact .done rfl rfl hst.calls.symm (by intro v hv; cases hv)
    | ok ti =>
      simp only
      split
      · exact .fault
      split
      · exact .fault
      · split
        · exact .done rfl rfl hst.calls.symm (by intro v hv; cases hv)
        · exact .fault
      · refine .next ⟨?_, ?_, ?_, ?_⟩
        · simp [shiftStep, hst.states]
        · simp [shiftStep, hst.calls]
        · simp [shiftStep, hst.calls]
        · unfold shiftStep
          simp only [hst.token]
          split
          · exact h.push _ hst.vals
          · exact hst.vals
      · next nt n sem _ =>
        rcases h.reduce hst nt n sem with ⟨e, h1, h2⟩ | ⟨e, h1⟩ | ⟨s', t', h1, h2, h3⟩
        · rw [h1]; exact .bad h2 rfl
        · rw [h1]; exact .fault
        · rw [h1, h2]; exact .next h3
      · exact h.accept hst _ _

/-- How a run of the one compares to a run of the other. -/
inductive LoopSim (Q : List (SAR V1) → W1 → List (SAR V2) → W2 → Prop) (Bad : Fault → Prop)
    (later : Nat → Prop) : Option (Outcome V1 E × PState Tok V1 W1 E) →
      Option (Outcome V2 E × PState Tok V2 W2 E) → Prop
  | bad {e s' r} (h : Bad e) (hc : later s'.calls) : LoopSim Q Bad later (some (.fault e, s')) r
  | fault {r e t'} : LoopSim Q Bad later r (some (.fault e, t'))
  | done {o1 o2 s' t'} (h : o1.kind = o2.kind) (hc : t'.calls = s'.calls)
      (hq : ∀ v, o1 = .ok v → ∃ v1 v2, Q (v1 :: s'.values) s'.world (v2 :: t'.values) t'.world) :
      LoopSim Q Bad later (some (o1, s')) (some (o2, t'))
  | running : LoopSim Q Bad later none none

theorem parseStepWith_calls {s s' : PState Tok V2 W2 E}
    (h : parseStepWith gen R2 tf2 input ep s = .next s') : s.calls ≤ s'.calls := by
  unfold parseStepWith at h
  repeat' split at h
  all_goals first
    | (cases h; done)
    | (cases h; simp [shiftStep])
    | skip
  next hr =>
    cases h
    unfold reduceStepWith at hr
    split at hr
    · cases hr
    replace hr := Except.bind_eq_ok.1 hr
    obtain ⟨⟨vals, w⟩, _, hr⟩ := hr
    simp only at hr
    repeat' split at hr
    all_goals cases hr
    exact Nat.le_refl _

theorem parseStepWith_done_calls {s s' : PState Tok V2 W2 E} {o : Outcome V2 E}
    (h : parseStepWith gen R2 tf2 input ep s = .done o s') : s'.calls = s.calls := by
  unfold parseStepWith at h
  repeat' split at h
  all_goals first
    | (cases h; rfl)
    | cases h
  unfold acceptStepWith
  repeat' split
  all_goals rfl

theorem parseLoopWith_calls {o : Outcome V2 E} {t' : PState Tok V2 W2 E} :
    ∀ {fuel : Nat} {t : PState Tok V2 W2 E},
      parseLoopWith gen R2 tf2 input ep fuel t = some (o, t') → t.calls ≤ t'.calls
  | 0, t, h => by cases h
  | fuel + 1, t, h => by
    unfold parseLoopWith at h
    split at h
    · next hd => cases h; exact Nat.le_of_eq (parseStepWith_done_calls hd).symm
    · next hd => exact Nat.le_trans (parseStepWith_calls hd) (parseLoopWith_calls h)

theorem parseLoopWith_succ (fuel : Nat) (t : PState Tok V2 W2 E) :
    parseLoopWith gen R2 tf2 input ep (fuel + 1) t =
      match parseStepWith gen R2 tf2 input ep t with
      | .done o s' => some (o, s')
      | .next s' => parseLoopWith gen R2 tf2 input ep fuel s' := rfl

theorem RunSim.loop (h : RunSim gen R1 R2 tf1 tf2 Bad Q) : ∀ (fuel : Nat) {s : PState Tok V1 W1 E}
    {t : PState Tok V2 W2 E}, PSim Q s t →
    LoopSim Q Bad (fun m => ∀ fuel' o t', parseLoopWith gen R2 tf2 input ep fuel' t = some (o, t') →
        m ≤ t'.calls)
      (parseLoopWith gen R1 tf1 input ep fuel s) (parseLoopWith gen R2 tf2 input ep fuel t)
  | 0, _, _, _ => .running
  | fuel + 1, s, t, hst => by
    have hs := h.step (input := input) (ep := ep) hst
    rw [parseLoopWith_succ fuel s, parseLoopWith_succ fuel t]
    generalize h1 : parseStepWith gen R1 tf1 input ep s = r1 at hs
    generalize h2 : parseStepWith gen R2 tf2 input ep t = r2 at hs
    cases hs with
    | bad hb hc =>
      refine .bad hb ?_
      intro fuel' o t' ht
      rw [hc, hst.calls]
      exact parseLoopWith_calls ht
    | fault => exact .fault
    | done hk hc hc2 hq => exact .done hk hc2 hq
    | @next s' t' hst' =>
      have ih := h.loop fuel hst'
      revert ih
      simp only
      generalize parseLoopWith gen R1 tf1 input ep fuel s' = l1
      generalize parseLoopWith gen R2 tf2 input ep fuel t' = l2
      intro ih
      cases ih with
      | bad hb hc =>
        refine .bad hb ?_
        intro fuel' o t'' ht
        cases fuel' with
        | zero => cases ht
        | succ fuel' =>
          rw [parseLoopWith_succ, h2] at ht
          exact hc _ _ _ ht
      | fault => exact .fault
      | done hk hc hq => exact .done hk hc hq
      | running => exact .running

end

/-! ## Instances -/

theorem runPops_error : ∀ {ps : List PopStmt} {env : Env V} {st : List (SAR V)} {e : Fault},
    runPops ps env st = .error e → e = .unwrapNone ∨ e = .unreachable
  | [], _, _, _, h => by cases h
  | .drop :: ps, env, st, e, h => runPops_error (ps := ps) h
  | .bind n ex :: ps, env, [], e, h => by cases h; exact .inl rfl
  | .bind n ex :: ps, env, v :: st, e, h => by
    simp only [runPops] at h
    split at h
    · cases h; exact .inr rfl
    · exact runPops_error h

theorem runFree_error {u : FreeCode X V W} {f : SemFn X} {st : List (SAR V)} {w : W} {e : Fault}
    (h : f.runFree u st w = .error e) : e.FromActions := by
  unfold SemFn.runFree at h
  cases hp : runPops f.pops (fun _ => none) st with
  | error e' =>
    rw [hp] at h
    cases h
    exact .inr (runPops_error hp)
  | ok r =>
    rw [hp] at h
    simp only [Except.bind_ok] at h
    split at h
    · cases h; exact .inl rfl
    · cases h
    · cases h

theorem finish_error {k : Nat} {st : List (SAR V)} {e : Fault} (h : finish k st = .error e) :
    e = .unwrapNone ∨ e = .unreachable := by
  unfold finish at h
  split at h
  · cases h; exact .inl rfl
  · split at h
    · cases h
    · cases h; exact .inr rfl

variable [DecidableEq Ty] {P : Compiled X Ty V W Tok}

/-- Control does not depend on the actions, whatever they do. -/
theorem sim_control (u : FreeCode X V W) :
    RunSim P.gen (fun f => f.runFree u) (fun f => f.run (trivialCode P.code.mkPath)) P.tf P.trivial.tf
      Fault.FromActions (fun _ _ _ _ => True) where
  idx := rfl
  push := fun _ _ _ _ _ _ => trivial
  run := by
    intro f _ st1 w1 st2 w2 _
    cases h2 : f.run (trivialCode P.code.mkPath) st2 w2 with
    | error e => exact .inr (.inl ⟨e, rfl⟩)
    | ok r2 =>
      cases h1 : f.runFree u st1 w1 with
      | error e => exact .inl ⟨e, rfl, runFree_error h1⟩
      | ok r1 => exact .inr (.inr ⟨_, _, _, _, rfl, rfl, trivial⟩)
  fin := by
    intro k st1 w1 st2 w2 _
    cases h2 : finish k st2 with
    | error e => exact .inr (.inl ⟨e, rfl⟩)
    | ok r2 =>
      cases h1 : finish k st1 with
      | error e => exact .inl ⟨e, rfl, .inr (finish_error h1)⟩
      | ok r1 => exact .inr (.inr ⟨_, _, rfl, rfl⟩)

omit [DecidableEq Ty] in
theorem runFree_bare {u : FreeCode X V W} {f : SemFn X} (mkPath : String → X)
    (hr : ∀ env st w st' w', u.run f.action env st w ≠ some (.ret st', w'))
    (st : List (SAR V)) (w : W) :
    (f.runFree u st w = .error .userPanic) ∨
    (∃ e, f.run (trivialCode mkPath) (st.map bare) () = .error e) ∨
    ∃ st' w', f.runFree u st w = .ok (st', w') ∧
      f.run (trivialCode mkPath) (st.map bare) () = .ok (st'.map bare, ()) := by
  obtain ⟨h1, h2⟩ := runPops_bare (ps := f.pops) (env := fun _ => none) (st := st) (fun _ => none)
  unfold SemFn.runFree SemFn.run
  cases h3 : runPops f.pops (fun _ => none) st with
  | error e => rw [h2 e h3]; exact .inr (.inl ⟨e, rfl⟩)
  | ok r =>
    obtain ⟨env, st'⟩ := r
    obtain ⟨env0, h4⟩ := h1 _ _ h3
    rw [h4]
    simp only [Except.bind_ok]
    cases hu : u.run f.action env st' w with
    | none => exact .inl rfl
    | some r =>
      obtain ⟨a, w'⟩ := r
      cases a with
      | ret st'' => exact absurd hu (hr _ _ _ _ _)
      | value v => exact .inr (.inr ⟨_, _, rfl, rfl⟩)

omit [DecidableEq Ty] in
theorem finish_bare (k : Nat) (st : List (SAR V)) :
    (∃ e, finish k (st.map bare) = .error e) ∨
      ∃ v1 v2, finish k st = .ok v1 ∧ finish k (st.map bare) = .ok v2 := by
  cases st with
  | nil => exact .inl ⟨_, rfl⟩
  | cons v st =>
    cases v with
    | token i fs => exact .inl ⟨_, rfl⟩
    | nonTerminal j v =>
      by_cases hk : k = j
      · exact .inr ⟨v, (), by simp [finish, extract, hk], by simp [finish, extract, hk, bare, SAR.map]⟩
      · exact .inl ⟨.unreachable, by simp [finish, extract, hk, bare, SAR.map]⟩

/-- Without early returns the value stack is as expected. -/
theorem sim_noReturn {u : FreeCode X V W}
    (hr : ∀ f ∈ P.gen.semActions, ∀ env st w st' w', u.run f.action env st w ≠ some (.ret st', w')) :
    RunSim P.gen (fun f => f.runFree u) (fun f => f.run (trivialCode P.code.mkPath)) P.tf P.trivial.tf
      (· = .userPanic) (fun st1 _ st2 _ => st1.map bare = st2) where
  idx := rfl
  push := by
    rintro t st1 w1 st2 w2 rfl
    rfl
  run := by
    rintro f hf st1 w1 st2 w2 rfl
    rcases runFree_bare P.code.mkPath (hr f hf) st1 w1 with h | ⟨e, h⟩ | ⟨st', w', h1, h2⟩
    · exact .inl ⟨_, h, rfl⟩
    · exact .inr (.inl ⟨e, h⟩)
    · exact .inr (.inr ⟨_, _, _, _, h1, h2, rfl⟩)
  fin := by
    rintro k st1 w1 st2 w2 rfl
    exact .inr (finish_bare k st1)

/-! ## The emitted action functions -/

/-- Every emitted action function is that of an entry point, or that of a production of the user. -/
theorem Compiled.sem_origin (P : Compiled X Ty V W Tok) {ep : EntryPoint} (hep : ep ∈ P.gen.entries)
    {f : SemFn X} (hf : f ∈ P.gen.semActions) :
    ((∃ n, f.action = P.code.mkPath n) ∧ ∀ s ∈ f.pops, s ≠ .drop) ∨
    ∃ d ∈ P.defs, ∃ p ∈ d.productions, p.action = .infallible f.action ∧
      ((∀ s ∈ p.symbols, s.boundVar ≠ none) → ∀ s ∈ f.pops, s ≠ .drop) := by
  obtain ⟨g, nts, ts, a, g', T, S⟩ := P.setup hep
  have hl := S.lowered
  have hst := S.stages
  obtain ⟨_, _, hlen, hall⟩ := generateSemanticActionTable_ok hst.sem
  obtain ⟨k, hk⟩ := List.getElem?_of_mem hf
  have hkl : k < g.listing.length := by
    have h1 := (List.getElem?_eq_some_iff.1 hk).1
    have h2 := (listing_aux g.nonTerminals 0).1
    rw [hlen] at h1
    simpa [Grammar.listing, Grammar.nNonTerminals, h2] using h1
  obtain ⟨⟨nt, p, pr⟩, he⟩ : ∃ e, g.listing[k]? = some e := ⟨_, List.getElem?_eq_getElem hkl⟩
  have hmem := List.mem_of_getElem? he
  have hpr := mem_listing hmem
  obtain ⟨_, f', hf', hsem⟩ := hall _ _ _ hpr
  have hki := listing_index he
  simp only at hpr hf' hsem
  rw [← hki, hk] at hf'
  cases hf'
  have hpops := hsem.pops
  rw [popStmts_mapM] at hpops
  have hF := mapM_ok_iff.1 hpops
  have hdrop : (∀ bs ∈ pr.symbols, bs.binder ≠ none) → ∀ s ∈ f.pops, s ≠ .drop := by
    intro hb s hs
    obtain ⟨i, hi⟩ := List.getElem?_of_mem hs
    obtain ⟨bs, hbs, hst'⟩ := forall₂_getElem?' hF hi
    have hbm : bs ∈ pr.symbols := by simpa using List.mem_of_getElem? hbs
    unfold popStmt at hst'
    cases hbn : bs.binder with
    | none => exact absurd hbn (hb bs hbm)
    | some nm =>
      rw [hbn] at hst'
      simp only at hst'
      split at hst'
      · cases hst'; simp
      · split at hst'
        · cases hst'
        · cases hst'; simp
  unfold Grammar.getProduction? at hpr
  obtain ⟨n, h1, h2⟩ := Option.bind_eq_some_iff.1 hpr
  cases hp : n.isPublic with
  | true =>
    obtain ⟨a, b, n', _, _, _, _, h3, _⟩ := hl.pub h1 hp
    rw [h3] at h2
    have : pr = wrapperProd P.code.mkPath b := by
      have := List.mem_of_getElem? h2
      simpa using this
    subst this
    exact .inl ⟨⟨_, hsem.action⟩, hdrop (by simp [wrapperProd])⟩
  | false =>
    by_cases hn : ∃ m, nts.get? m = some nt
    · obtain ⟨m, hn⟩ := hn
      obtain ⟨nt', a, h3, h4, h5, _, _, h6⟩ := hl.prods hn
      rw [h1] at h3; cases h3
      obtain ⟨q, hp1, hp2⟩ := forall₂_getElem?' h6 h2
      have hp3 := List.mem_of_getElem? hp1
      unfold userProds at hp3
      obtain ⟨d, hd, hpd⟩ := List.mem_flatMap.1 hp3
      refine .inr ⟨d, (List.mem_filter.1 hd).1, q, hpd, by rw [hp2.2, hsem.action], ?_⟩
      intro hb
      refine hdrop ?_
      intro bs hbs
      obtain ⟨i, hi⟩ := List.getElem?_of_mem hbs
      obtain ⟨s, hs1, hs2⟩ := forall₂_getElem?' hp2.1 hi
      rw [hs2.1]
      exact hb s (List.mem_of_getElem? hs1)
    · have := hl.priv h1 hp (fun n h => hn ⟨n, h⟩)
      rw [this] at h2
      simp at h2

/-! ## Returns where every symbol has a name -/

omit [DecidableEq Ty] in
theorem runPops_length {env' : Env V} {st' : List (SAR V)} : ∀ {ps : List PopStmt} {env : Env V}
    {st : List (SAR V)}, (∀ s ∈ ps, s ≠ .drop) → runPops ps env st = .ok (env', st') →
      st.length = ps.length + st'.length
  | [], _, _, _, h => by cases h; simp
  | .drop :: ps, env, st, hd, h => absurd rfl (hd .drop (by simp))
  | .bind n ex :: ps, env, [], _, h => by cases h
  | .bind n ex :: ps, env, v :: st, hd, h => by
    simp only [runPops] at h
    split at h
    · cases h
    · have := runPops_length (fun s hs => hd s (List.mem_cons_of_mem _ hs)) h
      simp only [List.length_cons]
      omega

/-- If a value is missing, a value is missing ever after. -/
theorem sim_missing {r : ReturningCode X V W} (hd : ∀ f ∈ P.gen.semActions, ∀ s ∈ f.pops, s ≠ .drop) :
    RunSim P.gen (fun f => f.runFree r.free) (fun f => f.run (trivialCode P.code.mkPath)) P.tf
      P.trivial.tf Fault.FromActions (fun st1 _ st2 _ => st1.length < st2.length) where
  idx := rfl
  push := by
    intro t st1 w1 st2 w2 h
    simpa using h
  run := by
    intro f hf st1 w1 st2 w2 hlt
    cases h2 : f.run (trivialCode P.code.mkPath) st2 w2 with
    | error e => exact .inr (.inl ⟨e, rfl⟩)
    | ok r2 =>
      cases h1 : f.runFree r.free st1 w1 with
      | error e => exact .inl ⟨e, rfl, runFree_error h1⟩
      | ok r1 =>
        refine .inr (.inr ⟨_, _, _, _, rfl, rfl, ?_⟩)
        unfold SemFn.runFree at h1
        unfold SemFn.run at h2
        replace h1 := Except.bind_eq_ok.1 h1
        replace h2 := Except.bind_eq_ok.1 h2
        obtain ⟨⟨env1, a1⟩, e1, h1⟩ := h1
        obtain ⟨⟨env2, a2⟩, e2, h2⟩ := h2
        have l1 := runPops_length (hd f hf) e1
        have l2 := runPops_length (hd f hf) e2
        simp only [trivialCode] at h2
        cases h2
        simp only [ReturningCode.free] at h1
        split at h1
        · cases h1
        · cases h1; simp only [List.length_cons]; omega
        · next hx =>
          cases h1
          split at hx
          · cases hx
          · cases hx
          · cases hx; simp only [List.length_cons]; omega
  fin := by
    intro k st1 w1 st2 w2 _
    cases h2 : finish k st2 with
    | error e => exact .inr (.inl ⟨e, rfl⟩)
    | ok r2 =>
      cases h1 : finish k st1 with
      | error e => exact .inl ⟨e, rfl, .inr (finish_error h1)⟩
      | ok r1 => exact .inr (.inr ⟨_, _, rfl, rfl⟩)

/-- Runs of the program with trivial actions from state `t` on go well. -/
def Compiled.TrivialOk (P : Compiled X Ty V W Tok) (input : Nat → Option (Except E Tok))
    (ep : EntryPoint) (t : PState Tok Unit Unit E) : Prop :=
  ∀ fuel o t', parseLoopWith P.gen (fun f => f.run (trivialCode P.code.mkPath)) P.trivial.tf input ep
    fuel t = some (o, t') → (∀ e, o ≠ .fault e) ∧ ∀ v, o = .ok v → t'.values = []

theorem Compiled.TrivialOk.next {input : Nat → Option (Except E Tok)} {ep : EntryPoint}
    {t t' : PState Tok Unit Unit E} (h : P.TrivialOk input ep t)
    (hn : parseStepWith P.gen (fun f => f.run (trivialCode P.code.mkPath)) P.trivial.tf input ep t =
      .next t') : P.TrivialOk input ep t' := by
  intro fuel o t'' ht
  refine h (fuel + 1) o t'' ?_
  rw [parseLoopWith_succ, hn]
  exact ht

theorem Compiled.TrivialOk.done {input : Nat → Option (Except E Tok)} {ep : EntryPoint}
    {t t' : PState Tok Unit Unit E} {o : Outcome Unit E} (h : P.TrivialOk input ep t)
    (hn : parseStepWith P.gen (fun f => f.run (trivialCode P.code.mkPath)) P.trivial.tf input ep t =
      .done o t') : (∀ e, o ≠ .fault e) ∧ ∀ v, o = .ok v → t'.values = [] := by
  refine h 1 o t' ?_
  rw [parseLoopWith_succ, hn]

theorem trivialOk_init {ep : EntryPoint} (hep : ep ∈ P.gen.entries)
    (input : Nat → Option (Except E Tok)) : P.TrivialOk input ep (parseInit input ep ()) := by
  intro fuel o t' h
  rw [parseLoopWith_run] at h
  have hret : P.trivial.Returns ep input () o () t'.calls := ⟨fuel, t', h, rfl, rfl⟩
  constructor
  · rintro e rfl
    refine c06_no_panic (P := P.trivial) hep ?_ hret
    intro d _ p _ e _ env w
    simp [Compiled.trivial, trivialCode]
  · rintro v rfl
    obtain ⟨g, nts, ts, a, g', T, e, nt, s, γ, toks, F⟩ := P.trivial.final hep h
    cases F.step with
    | accept _ _ _ _ _ hs => rw [hs]

/-- If a value is missing, the call does not return `Ok`. -/
theorem missing_not_ok {r : ReturningCode X V W}
    (hd : ∀ f ∈ P.gen.semActions, ∀ s ∈ f.pops, s ≠ .drop) {input : Nat → Option (Except E Tok)}
    {ep : EntryPoint} {s s' : PState Tok V W E} {t : PState Tok Unit Unit E} {v : V} {fuel : Nat}
    (ht : P.TrivialOk input ep t)
    (hst : PSim (fun st1 _ st2 _ => st1.length < st2.length) s t)
    (h : parseLoopWith P.gen (fun f => f.runFree r.free) P.tf input ep fuel s = some (.ok v, s')) :
    False := by
  have hs := (sim_missing (P := P) (r := r) hd).loop (input := input) (ep := ep) fuel hst
  rw [h] at hs
  generalize h2 : parseLoopWith P.gen (fun f => f.run (trivialCode P.code.mkPath)) P.trivial.tf input ep
    fuel t = l2 at hs
  cases hs with
  | fault => exact (ht _ _ _ h2).1 _ rfl
  | @done _ o2 _ t' hk _ hq =>
    obtain ⟨v1, v2, hlt⟩ := hq v rfl
    cases o2 with
    | ok v' =>
      rw [(ht _ _ _ h2).2 _ rfl] at hlt
      simp at hlt
    | _ => cases hk

omit [DecidableEq Ty] in
/-- Running an action function whose pops succeed. -/
theorem runFree_cases (r : ReturningCode X V W) {f : SemFn X} {st st' : List (SAR V)} {env : Env V}
    (hp : runPops f.pops (fun _ => none) st = .ok (env, st')) (w : W) :
    f.runFree r.free st w = .error .userPanic ∨
    (∃ v w', f.runFree r.free st w = .ok (.nonTerminal f.variant v :: st', w') ∧
      f.run r.strict st w = .ok (.nonTerminal f.variant v :: st', w')) ∨
    ∃ w', f.runFree r.free st w = .ok (st', w') := by
  unfold SemFn.runFree SemFn.run
  rw [hp]
  simp only [Except.bind_ok, ReturningCode.free, ReturningCode.strict]
  cases hu : r.run f.action env w with
  | none => exact .inl rfl
  | some q =>
    obtain ⟨a, w'⟩ := q
    cases a with
    | none => exact .inr (.inr ⟨w', rfl⟩)
    | some v => exact .inr (.inl ⟨v, w', rfl, rfl⟩)

/-- If the call returns `Ok`, no action has returned early. -/
theorem ok_strict {r : ReturningCode X V W}
    (hd : ∀ f ∈ P.gen.semActions, ∀ s ∈ f.pops, s ≠ .drop) {input : Nat → Option (Except E Tok)}
    {ep : EntryPoint} {s' : PState Tok V W E} {v : V} : ∀ {fuel : Nat} {s : PState Tok V W E}
    {t : PState Tok Unit Unit E}, P.TrivialOk input ep t →
    PSim (fun st1 _ st2 _ => st1.map bare = st2) s t →
    parseLoopWith P.gen (fun f => f.runFree r.free) P.tf input ep fuel s = some (.ok v, s') →
    parseLoopWith P.gen (fun f => f.run r.strict) P.tf input ep fuel s = some (.ok v, s')
  | 0, _, _, _, _, h => by cases h
  | fuel + 1, s, t, ht, hst, h => by
    rw [parseLoopWith_succ] at h ⊢
    -- the run with trivial actions does the same
    have hnext := @Compiled.TrivialOk.next _ _ _ _ _ E _ P input ep t
    have hdone := @Compiled.TrivialOk.done _ _ _ _ _ E _ P input ep t
    have hl : lookaheadIdx P.gen P.trivial.tf t.token = lookaheadIdx P.gen P.tf s.token := by
      rw [hst.token]; rfl
    have hbare : ∀ {f : SemFn X} {env st'}, runPops f.pops (fun _ => none) s.values = .ok (env, st') →
        f.run (trivialCode P.code.mkPath) t.values t.world =
          .ok (.nonTerminal f.variant () :: st'.map bare, ()) := by
      intro f env st' hp
      obtain ⟨env0, h4⟩ := (runPops_bare (fun _ => none)).1 _ _ hp
      rw [← hst.vals]
      unfold SemFn.run
      rw [h4]
      rfl
    unfold parseStepWith at h hnext hdone ⊢
    rw [← hst.states, hl] at hnext hdone
    cases hss : s.states with
    | nil => rw [hss] at h; cases h
    | cons q qs =>
      rw [hss] at h hnext hdone
      simp only at h hnext hdone ⊢
      cases hla : lookaheadIdx P.gen P.tf s.token with
      | error e => rw [hla] at h; cases h
      | ok ti =>
        rw [hla] at h hnext hdone
        simp only at h hnext hdone ⊢
        cases hrow : P.gen.action[q]? with
        | none => rw [hrow] at h; cases h
        | some row =>
          rw [hrow] at h hnext hdone
          simp only at h hnext hdone ⊢
          cases hcell : row[ti]? with
          | none => rw [hcell] at h; cases h
          | some cell =>
            rw [hcell] at h hnext hdone
            cases cell with
            | none =>
              simp only at h
              cases hf : P.gen.terminalStrs[ti]? with
              | none => simp only [hf] at h; cases h
              | some f =>
                cases he : P.gen.expected[q]? with
                | none => simp only [hf, he] at h; cases h
                | some e => simp only [hf, he] at h; cases h
            | some act =>
              cases act with
              | shift nx =>
                refine ok_strict hd (hnext ht rfl) ⟨?_, ?_, ?_, ?_⟩ h
                · simp [shiftStep, hst.states]
                · simp [shiftStep, hst.calls]
                · simp [shiftStep, hst.calls]
                · unfold shiftStep
                  simp only [hst.token]
                  cases t.token with
                  | none => exact hst.vals
                  | some x =>
                    cases x with
                    | error e => exact hst.vals
                    | ok tk => simp only [List.map_cons, hst.vals]; rfl
              | reduce nt n sem =>
                simp only at h hnext hdone ⊢
                unfold reduceStepWith at h hnext hdone ⊢
                cases hf : P.gen.semActions[sem]? with
                | none => simp only [hf] at h; cases h
                | some f =>
                  simp only [hf] at h hnext hdone ⊢
                  have hfm := List.mem_of_getElem? hf
                  rw [← hst.states, hss] at hnext hdone
                  rw [hss] at h ⊢
                  cases hp : runPops f.pops (fun _ => none) s.values with
                  | error e =>
                    have : f.runFree r.free s.values s.world = .error e := by
                      unfold SemFn.runFree; rw [hp]; rfl
                    rw [this] at h
                    cases h
                  | ok x =>
                    obtain ⟨env, st'⟩ := x
                    rw [hbare hp] at hnext hdone
                    have hcase : f.runFree r.free s.values s.world = .error .userPanic ∨
                        ∃ vals w', f.runFree r.free s.values s.world = .ok (vals, w') ∧
                          ((f.run r.strict s.values s.world = .ok (vals, w') ∧
                            vals.map bare = .nonTerminal f.variant () :: st'.map bare) ∨
                          vals.length < ((.nonTerminal f.variant () : SAR Unit) :: st'.map bare).length) := by
                      rcases runFree_cases r hp s.world with hc | ⟨v, w', hc, hc'⟩ | ⟨w', hc⟩
                      · exact .inl hc
                      · exact .inr ⟨_, _, hc, .inl ⟨hc', rfl⟩⟩
                      · exact .inr ⟨_, _, hc, .inr (by simp)⟩
                    rcases hcase with hc | ⟨vals, w', hc, hvals⟩
                    · rw [hc] at h; cases h
                    rw [hc] at h
                    simp only [Except.bind_ok] at h hnext hdone
                    by_cases hlen : (q :: qs).length < n
                    · rw [if_pos hlen] at h; cases h
                    rw [if_neg hlen] at h hnext hdone
                    cases hdr : (q :: qs).drop n with
                    | nil => rw [hdr] at h; cases h
                    | cons st rest =>
                      rw [hdr] at h hnext hdone
                      simp only at h hnext hdone
                      cases hg : P.gen.goto[st]? with
                      | none => rw [hg] at h; cases h
                      | some grow =>
                        rw [hg] at h hnext hdone
                        simp only at h hnext hdone
                        cases hgc : grow[nt]? with
                        | none => rw [hgc] at h; cases h
                        | some gc =>
                          rw [hgc] at h hnext hdone
                          cases gc with
                          | none => cases h
                          | some nx =>
                            simp only at h hnext hdone
                            rcases hvals with ⟨hs, hb⟩ | hlt
                            · rw [hs]
                              simp only [Except.bind_ok]
                              rw [if_neg hlen]
                              simp only [hg, hgc]
                              exact ok_strict hd (hnext ht rfl) ⟨rfl, hst.token, hst.calls, hb⟩ h
                            · refine (missing_not_ok hd (hnext ht rfl) ?_ h).elim
                              exact ⟨rfl, hst.token, hst.calls, hlt⟩
              | accept =>
                simp only at h hnext hdone ⊢
                unfold acceptStepWith at h hdone ⊢
                cases hf : P.gen.semActions[ep.actionIdx]? with
                | none => simp only [hf] at h; cases h
                | some f =>
                  simp only [hf] at h hdone ⊢
                  cases hp : runPops f.pops (fun _ => none) s.values with
                  | error e =>
                    have : f.runFree r.free s.values s.world = .error e := by
                      unfold SemFn.runFree; rw [hp]; rfl
                    rw [this] at h
                    cases h
                  | ok x =>
                    obtain ⟨env, st'⟩ := x
                    rw [hbare hp] at hdone
                    rcases runFree_cases r hp s.world with hc | ⟨v, w', hc, hc'⟩ | ⟨w', hc⟩
                    · rw [hc] at h; cases h
                    · rw [hc] at h; rw [hc']; exact h
                    · have h0 : st' = [] := by
                        simp only at hdone
                        by_cases hk : ep.extract = f.variant
                        · have := (hdone ht rfl).2
                          simp only [extract, hk, if_true] at this
                          simpa using this ()
                        · have := (hdone ht rfl).1
                          simp only [extract, if_neg hk] at this
                          exact absurd rfl (this _)
                      subst h0
                      rw [hc] at h
                      cases h

end Parsegen
