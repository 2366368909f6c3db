import Verif.Spec.PanickingNext

/-! # A parser whose iterator may panic, and the one with a calm iterator, in lock-step -/

namespace Parsegen

variable {X V W Tok E : Type}

theorem calm_eq (next : W → Option (Option (Except E Tok)) × W) (w : W) :
    calm next w = match next w with
      | (none, w') => (some (.error none), w')
      | (some r, w') => (calmItem r, w') := by
  unfold calm
  rcases next w with ⟨_ | _ | _ | _, w'⟩ <;> rfl

def IState.calm (s : IState Tok V W E) : IState Tok V W (Option E) :=
  ⟨s.states, s.values, calmItem s.token, s.world, s.items.map calmItem⟩

theorem reduceStep_token {E' : Type} (gen : Generated X) (u : UserCode X V W) (nt n sem : Nat)
    (s : PState Tok V W E) (s' : PState Tok V W E') (h1 : s'.states = s.states)
    (h2 : s'.values = s.values) (h3 : s'.world = s.world) :
    (∃ f, reduceStep gen u nt n sem s = .error f ∧ reduceStep gen u nt n sem s' = .error f) ∨
    ∃ c c', reduceStep gen u nt n sem s = .ok c ∧ reduceStep gen u nt n sem s' = .ok c' ∧
      c'.states = c.states ∧ c'.values = c.values ∧ c'.world = c.world := by
  unfold reduceStep
  rw [h1, h2, h3]
  cases gen.semActions[sem]? with
  | none => exact .inl ⟨_, rfl, rfl⟩
  | some f =>
    simp only [bind, Except.bind]
    cases f.run u s.values s.world with
    | error e => exact .inl ⟨_, rfl, rfl⟩
    | ok r =>
      dsimp only
      split
      · exact .inl ⟨_, rfl, rfl⟩
      · cases s.states.drop n with
        | nil => exact .inl ⟨_, rfl, rfl⟩
        | cons st rest =>
          dsimp only
          cases gen.goto[st]? with
          | none => exact .inl ⟨_, rfl, rfl⟩
          | some row =>
            dsimp only
            cases row[nt]? with
            | none => exact .inl ⟨_, rfl, rfl⟩
            | some c =>
              cases c with
              | none => exact .inl ⟨_, rfl, rfl⟩
              | some nx => exact .inr ⟨_, _, rfl, rfl, rfl, rfl, rfl⟩

theorem acceptStep_token (gen : Generated X) (u : UserCode X V W) (k a : Nat)
    (s : PState Tok V W E) (s' : PState Tok V W (Option E))
    (h2 : s'.values = s.values) (h3 : s'.world = s.world) :
    (acceptStep gen u k a s').1 = (acceptStep gen u k a s).1.calm ∧
      (acceptStep gen u k a s').2.values = (acceptStep gen u k a s).2.values ∧
      (acceptStep gen u k a s').2.world = (acceptStep gen u k a s).2.world := by
  unfold acceptStep
  rw [h2, h3]
  cases gen.semActions[a]? with
  | none => exact ⟨rfl, h2, h3⟩
  | some f =>
    dsimp only
    cases f.run u s.values s.world with
    | error e => exact ⟨rfl, h2, h3⟩
    | ok r =>
      obtain ⟨vals, w⟩ := r
      dsimp only
      cases vals with
      | nil => exact ⟨rfl, h2, h3⟩
      | cons v vals =>
        dsimp only
        rcases extract (.nonTerminal k) v with _ | (_ | _) <;> exact ⟨rfl, rfl, rfl⟩

variable {gen : Generated X} {u : UserCode X V W} {tf : TokenFns Tok V}
  {next : W → Option (Option (Except E Tok)) × W} {ep : EntryPoint}

/-- The step after a panic of `next()`: the calm iterator has returned the error. -/
theorem iParseStep_panicked {s : IState Tok V W (Option E)}
    (hs : s.states ≠ []) (ht : s.token = some (.error none)) (nx : W → Option (Except (Option E) Tok) × W) :
    iParseStep gen u tf nx ep s = .done (.lexerError none) s := by
  unfold iParseStep
  rw [ht]
  cases h : s.states with
  | nil => exact absurd h hs
  | cons => rfl

theorem nParseStep_calm (s : IState Tok V W E) :
    match nParseStep gen u tf next ep s with
    | .next s' => iParseStep gen u tf (calm next) ep s.calm = .next s'.calm
    | .done o s' => iParseStep gen u tf (calm next) ep s.calm = .done o.calm s'.calm
    | .unwound w items => ∃ s', iParseStep gen u tf (calm next) ep s.calm = .next s' ∧
        s'.states ≠ [] ∧ s'.token = some (.error none) ∧ s'.world = w ∧
        s'.items = items.map calmItem ++ [some (.error none)] := by
  have hl : lookaheadIdx gen tf s.calm.token = match lookaheadIdx gen tf s.token with
      | .error e => .error (some e)
      | .ok i => .ok i := by
    unfold IState.calm lookaheadIdx calmItem
    rcases s.token with _ | _ | _ <;> rfl
  have hst : s.calm.states = s.states := rfl
  unfold nParseStep iParseStep
  rw [hst, hl]
  cases hs : s.states with
  | nil => rfl
  | cons q qs =>
    cases lookaheadIdx gen tf s.token with
    | error e => rfl
    | ok ti =>
      dsimp only
      cases gen.action[q]? with
      | none => rfl
      | some row =>
        dsimp only
        cases row[ti]? with
        | none => rfl
        | some cell =>
          cases cell with
          | none =>
            dsimp only
            cases gen.terminalStrs[ti]? <;> cases gen.expected[q]? <;> rfl
          | some a =>
            cases a with
            | shift nx =>
              dsimp only
              unfold nShiftStep iShiftStep
              have hw : s.calm.world = s.world := rfl
              rw [hw, calm_eq]
              rcases hn : next s.world with ⟨_ | r, w⟩
              · refine ⟨_, rfl, by simp, rfl, rfl, rfl⟩
              · dsimp only
                congr 1
                unfold IState.calm
                congr 1
                · unfold calmItem
                  rcases s.token with _ | _ | _ <;> rfl
                · simp
            | reduce nt n sem =>
              dsimp only
              rcases reduceStep_token gen u nt n sem s.core s.calm.core rfl rfl rfl with
                ⟨f, e1, e2⟩ | ⟨c, c', e1, e2, h1, h2, h3⟩
              · rw [e1, e2]; rfl
              · rw [e1, e2]
                dsimp only
                rw [h1, h2, h3]; rfl
            | accept =>
              dsimp only
              obtain ⟨h1, h2, h3⟩ := acceptStep_token gen u ep.extract ep.actionIdx s.core s.calm.core
                rfl rfl
              rw [h1, h2, h3]; rfl

theorem nParseLoop_calm : ∀ (fuel : Nat) (s : IState Tok V W E),
    (nParseLoop gen u tf next ep fuel s = none ∧
      iParseLoop gen u tf (calm next) ep fuel s.calm = none) ∨
    (∃ o w items s', nParseLoop gen u tf next ep fuel s = some (.ended o, w, items) ∧
      iParseLoop gen u tf (calm next) ep fuel s.calm = some (o.calm, s') ∧ s'.world = w ∧
      s'.items = items.map calmItem) ∨
    ∃ w items s', nParseLoop gen u tf next ep fuel s = some (.nextPanicked, w, items) ∧
      iParseLoop gen u tf (calm next) ep (fuel + 1) s.calm = some (.lexerError none, s') ∧
      s'.world = w ∧ s'.items = items.map calmItem ++ [some (.error none)]
  | 0, s => .inl ⟨rfl, rfl⟩
  | fuel + 1, s => by
    have := nParseStep_calm (gen := gen) (u := u) (tf := tf) (next := next) (ep := ep) s
    cases hn : nParseStep gen u tf next ep s with
    | done o s' =>
      rw [hn] at this
      refine .inr (.inl ⟨o, s'.world, s'.items, s'.calm, ?_, ?_, rfl, rfl⟩)
      · simp only [nParseLoop, hn]
      · simp only [iParseLoop, this]
    | unwound w items =>
      rw [hn] at this
      obtain ⟨s', h1, h2, h3, h4, h5⟩ := this
      refine .inr (.inr ⟨w, items, s', ?_, ?_, h4, h5⟩)
      · simp only [nParseLoop, hn]
      · rw [iParseLoop, h1]
        dsimp only
        rw [iParseLoop, iParseStep_panicked h2 h3]
    | next s' =>
      rw [hn] at this
      rcases nParseLoop_calm fuel s' with ⟨h1, h2⟩ | ⟨o, w, items, t, h1, h2, h3, h4⟩ |
        ⟨w, items, t, h1, h2, h3, h4⟩
      · exact .inl ⟨by simp only [nParseLoop, hn, h1], by simp only [iParseLoop, this, h2]⟩
      · exact .inr (.inl ⟨o, w, items, t, by simp only [nParseLoop, hn, h1],
          by simp only [iParseLoop, this, h2], h3, h4⟩)
      · refine .inr (.inr ⟨w, items, t, by simp only [nParseLoop, hn, h1], ?_, h3, h4⟩)
        rw [iParseLoop, this]
        exact h2

end Parsegen
