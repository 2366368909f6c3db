import Verif.Proofs.Terminate
import Verif.Proofs.InteractiveEval

/-! # After a reduction the lookahead is never rejected -/

namespace Parsegen

variable {X Ty V W Tok E : Type} [DecidableEq Ty] {g : Grammar X Ty} {F : FirstTable}
  {gen : Generated X} {u : UserCode X V W} {tf : TokenFns Tok V}
  {At : Nat → List Symbol → Nat → Prop} {e : Nat} {c : Option Nat}

/-- The tables have an action on lookahead `c` after `γ`. -/
def Acts (gen : Generated X) (At : Nat → List Symbol → Nat → Prop) (e : Nat) (c : Option Nat)
    (γ : List Symbol) : Prop := ∀ q, At e γ q → ∃ a, gen.act q c = some (some a)

theorem acts_shift (hT : Tables g F gen At) (he : g.isPublic e = true) {γ α β : List Symbol}
    {nt p t : Nat} {la : Option Nat} (hit : ItemsAt g F e γ ⟨nt, p, α.length, la⟩)
    (hp : g.HasProd nt p (α ++ .terminal t :: β)) : Acts gen At e (some t) γ := by
  intro q hat
  obtain ⟨r, hr, _⟩ := hT.shift_mk he hat hit hp
  exact ⟨_, hr⟩

theorem acts_complete (hwf : g.WF) (hT : Tables g F gen At) (he : g.isPublic e = true)
    {γ α : List Symbol} {nt p : Nat} (hit : ItemsAt g F e γ ⟨nt, p, α.length, c⟩)
    (hp : g.HasProd nt p α) : Acts gen At e c γ := by
  intro q hat
  by_cases hpub : g.isPublic nt = true
  · obtain ⟨e1, e2, e3⟩ := hit.pub hwf hpub
    simp only at e1 e2 e3
    obtain ⟨_, b', hb'⟩ := hwf.pub hpub
    subst e2
    have e4 : α = [.nonTerminal b'] := hp.rhs_eq.symm.trans hb'.rhs_eq
    subst e4
    subst e1
    subst e3
    exact ⟨_, hT.accept_mk he hat hit⟩
  · rcases hT.reduce_mk he hat hit hp (by simpa using hpub) with ⟨k, hk, _⟩ | ⟨r, hr⟩ | hr
    · exact ⟨_, hk⟩
    · exact ⟨_, hr⟩
    · exact ⟨_, hr⟩

theorem acts_null (hwf : g.WF) (hT : Tables g F gen At) (he : g.isPublic e = true) {x : Nat}
    (hj : JNull g F x) : ∀ {γ nt p δ β la}, ItemsAt g F e γ ⟨nt, p, δ.length, la⟩ →
      g.HasProd nt p (δ ++ .nonTerminal x :: β) → InFirst F la β c → Acts gen At e c γ := by
  induction hj with
  | @mk x q α hq hf hj ih =>
    intro γ nt p δ β la hit hp hc
    have h0 : ItemsAt g F e γ ⟨x, q, ([] : List Symbol).length, c⟩ := .pred hit hp hq hc
    cases α with
    | nil => exact acts_complete hwf hT he h0 hq
    | cons s α =>
      obtain ⟨b, rfl, hb⟩ := hf s (by simp)
      refine ih b (by simp) h0 (by simpa using hq) ?_
      have := InFirst.flagged (F := F) (ν := α) (β := []) (la := c) (c := c)
        (fun s' hs' => hf s' (by simp [hs'])) .nil
      simpa using this

theorem acts_flagged (hwf : g.WF) (hJ : Justified g F) (hT : Tables g F gen At)
    (he : g.isPublic e = true) {γ nt p δ ν β la} (hit : ItemsAt g F e γ ⟨nt, p, δ.length, la⟩)
    (hp : g.HasProd nt p (δ ++ ν ++ β)) (hν : AllFlagged F ν) (hc : InFirst F la β c)
    (hs : ν = [] → Acts gen At e c γ) : Acts gen At e c γ := by
  cases ν with
  | nil => exact hs rfl
  | cons s ν =>
    obtain ⟨b, rfl, hb⟩ := hν s (by simp)
    exact acts_null hwf hT he (hJ.null b hb) hit (β := ν ++ β) (by simpa using hp)
      (hc.flagged fun s' hs' => hν s' (by simp [hs']))

theorem acts_first (hwf : g.WF) (hJ : Justified g F) (hN : FirstNonempty g F)
    (hT : Tables g F gen At) (he : g.isPublic e = true) {x t : Nat} (hj : JFirst g F x t) :
    ∀ {γ nt p δ β la}, ItemsAt g F e γ ⟨nt, p, δ.length, la⟩ →
      g.HasProd nt p (δ ++ .nonTerminal x :: β) → Acts gen At e (some t) γ := by
  induction hj with
  | @term x q α1 t α2 hq hf =>
    intro γ nt p δ β la hit hp
    obtain ⟨d, hd⟩ := InFirst.exists hN (α := δ) (c := x) (β := β)
      (by simpa using hp) la
    have h0 : ItemsAt g F e γ ⟨x, q, ([] : List Symbol).length, d⟩ := .pred hit hp hq hd
    refine acts_flagged hwf hJ hT he h0 (ν := α1) (β := .terminal t :: α2) (by simpa using hq) hf
      (.term ..) ?_
    rintro rfl
    exact acts_shift hT he h0 (by simpa using hq)
  | @nt x q α1 b α2 t hq hf hb _ ih =>
    intro γ nt p δ β la hit hp
    obtain ⟨d, hd⟩ := InFirst.exists hN (α := δ) (c := x) (β := β)
      (by simpa using hp) la
    have h0 : ItemsAt g F e γ ⟨x, q, ([] : List Symbol).length, d⟩ := .pred hit hp hq hd
    refine acts_flagged hwf hJ hT he h0 (ν := α1) (β := .nonTerminal b :: α2) (by simpa using hq) hf
      (.nt hb) ?_
    rintro rfl
    exact ih h0 (by simpa using hq)

theorem acts_after (hwf : g.WF) (hJ : Justified g F) (hN : FirstNonempty g F)
    (hT : Tables g F gen At) (he : g.isPublic e = true) {β : List Symbol} {la : Option Nat}
    (hc : InFirst F la β c) {γ nt p δ} (hit : ItemsAt g F e γ ⟨nt, p, δ.length, la⟩)
    (hp : g.HasProd nt p (δ ++ β)) : Acts gen At e c γ := by
  cases hc with
  | nil => exact acts_complete hwf hT he hit (by simpa using hp)
  | term t ss => exact acts_shift hT he hit hp
  | nt h => exact acts_first hwf hJ hN hT he (hJ.first _ _ h) hit hp
  | skip hb hc => exact acts_null hwf hT he (hJ.null _ hb) hit hp hc

/-- After a reduction the tables have an action on the lookahead. -/
theorem acts_reduced (hwf : g.WF) (hJ : Justified g F) (hN : FirstNonempty g F)
    (hT : Tables g F gen At) (he : g.isPublic e = true) {γ α : List Symbol} {b p : Nat}
    (hit : ItemsAt g F e (γ ++ α) ⟨b, p, α.length, c⟩) (hp : g.HasProd b p α)
    (hpriv : g.isPublic b = false) : Acts gen At e c (γ ++ [.nonTerminal b]) := by
  obtain ⟨γ', e1, _, nt, q, α', β, la, h1, h2, h3⟩ := hit.complete hp he hpriv
  have := List.append_cancel_right e1
  subst this
  exact acts_after hwf hJ hN hT he h3 (δ := α' ++ [.nonTerminal b])
    (by simpa using ItemsAt.advance h1 h2) (by simpa using h2)

/-! ## Runs with an iterator that shares state with the actions -/

section Interactive

variable {next : W → Option (Except E Tok) × W} {w0 : W}

/-- Nothing has happened since the last call of `next()`, which was made in this run. -/
def AtNext (gen : Generated X) (u : UserCode X V W) (tf : TokenFns Tok V)
    (next : W → Option (Except E Tok) × W) (ep : EntryPoint) (w0 : W) (s : IState Tok V W E) : Prop :=
  ∃ w1, next w1 = (s.token, s.world) ∧ ((w1 = w0 ∧ s.items = [s.token]) ∨
    ∃ s0 : IState Tok V W E, ISteps gen u tf next ep (iParseInit next ep w0) s0 ∧ s0.world = w1 ∧
      s.items = s0.items ++ [s.token])

/-- What is known when the loop stops. -/
theorem iParseLoop_fresh (hwf : g.WF) (hJ : Justified g F) (hN : FirstNonempty g F)
    (hT : Tables g F gen At) (hc : tf.Consistent g.nTerminals)
    {ep : EntryPoint} (he : g.isPublic e = true) {fuel : Nat} {s : IState Tok V W E}
    {γ : List Symbol} {toks : List Tok} (hi : IRunInv g F u tf At e next w0 s γ toks)
    (hst : ISteps gen u tf next ep (iParseInit next ep w0) s)
    (hf : AtNext gen u tf next ep w0 s ∨ ∃ c, lookahead tf s.token = some c ∧ Acts gen At e c γ)
    {found expected : String} {s' : IState Tok V W E}
    (h : iParseLoop gen u tf next ep fuel s = some (.parserError found expected, s')) :
    AtNext gen u tf next ep w0 s' := by
  induction fuel generalizing s γ toks with
  | zero => simp [iParseLoop] at h
  | succ fuel ih =>
    unfold iParseLoop at h
    obtain ⟨q, rest, hq1, hq⟩ := hi.stk.top
    cases hlook : lookahead tf s.token with
    | none =>
      obtain ⟨err, h0⟩ := iParseStep_error (gen := gen) (u := u) (next := next) (ep := ep) hq1 hlook
      rw [h0] at h
      cases h
    | some c =>
    have hcok : LaOk g.nTerminals c := laOk_lookahead hc hlook
    obtain ⟨o, ho⟩ := hT.cell he hq hcok
    cases o with
    | none =>
      obtain ⟨o, h0, _⟩ := iParseStep_none (u := u) (next := next) (ep := ep) hq1 hlook ho
      rw [h0] at h
      cases h
      rcases hf with hf | ⟨c', h1, h2⟩
      · exact hf
      · rw [hlook] at h1; cases h1
        obtain ⟨a, ha⟩ := h2 q hq
        rw [ho] at ha; cases ha
    | some act =>
    have hs := iParseStep_act (u := u) (next := next) (ep := ep) hq1 hlook ho
    cases act with
    | shift r =>
      simp only at hs
      obtain ⟨t, nt, p, α, β, la, hct, hit, hp, hat⟩ := hT.shift_of he hq hcok ho
      subst hct
      obtain ⟨tk, htk, hidx⟩ : ∃ tk, s.token = some (.ok tk) ∧ tf.terminalIdx tk = t := by
        unfold lookahead at hlook
        split at hlook <;> simp at hlook
        next tk h => exact ⟨tk, h, hlook⟩
      subst hidx
      rw [hs] at h
      refine ih (iRunInv_shift hi htk hat hit hp) (.tail hst hs) (.inl ?_) h
      exact ⟨s.world, rfl, .inr ⟨s, hst, rfl, rfl⟩⟩
    | reduce b n k =>
      simp only at hs
      obtain ⟨p, α, γ', us, rs, hp, _, hγ, _, hit, hpriv, _, _, h1⟩ := iReduce_spec hT hc he hi hq hcok ho
      rcases h1 with ⟨v, sts, w', _, h1, h2⟩ | ⟨_, h1⟩
      · rw [h1] at hs
        simp only at hs
        rw [hs] at h
        refine ih h2 (.tail hst hs) (.inr ⟨c, hlook, ?_⟩) h
        subst hγ
        exact acts_reduced hwf hJ hN hT he hit hp hpriv
      · rw [h1] at hs
        simp only at hs
        rw [hs] at h
        cases h
    | accept =>
      simp only at hs
      rw [hs] at h
      simp only [Option.some.injEq, Prod.mk.injEq] at h
      obtain ⟨h1, _⟩ := h
      exfalso
      unfold acceptStep at h1
      repeat' split at h1
      all_goals cases h1

/-- The same for lexer errors. -/
theorem iParseLoop_lexerFresh {ep : EntryPoint} {fuel : Nat} {s : IState Tok V W E}
    (hst : ISteps gen u tf next ep (iParseInit next ep w0) s)
    (hf : AtNext gen u tf next ep w0 s ∨ ∃ c, lookahead tf s.token = some c)
    {err : E} {s' : IState Tok V W E}
    (h : iParseLoop gen u tf next ep fuel s = some (.lexerError err, s')) :
    AtNext gen u tf next ep w0 s' := by
  induction fuel generalizing s with
  | zero => simp [iParseLoop] at h
  | succ fuel ih =>
    unfold iParseLoop at h
    cases hs : iParseStep gen u tf next ep s with
    | next s1 =>
      rw [hs] at h
      refine ih (.tail hst hs) ?_ h
      unfold iParseStep at hs
      split at hs
      · cases hs
      split at hs
      · cases hs
      next hla =>
      split at hs
      · cases hs
      split at hs
      · cases hs
      · split at hs <;> cases hs
      · cases hs
        exact .inl ⟨s.world, rfl, .inr ⟨s, hst, rfl, rfl⟩⟩
      · split at hs
        · cases hs
          right
          unfold lookaheadIdx at hla
          unfold lookahead
          split at hla
          · next h => simp only [h]; exact ⟨_, rfl⟩
          · cases hla
          · next h => simp only [h]; exact ⟨_, rfl⟩
        · cases hs
      · cases hs
    | done o s1 =>
      rw [hs] at h
      simp only [Option.some.injEq, Prod.mk.injEq] at h
      obtain ⟨rfl, rfl⟩ := h
      unfold iParseStep at hs
      split at hs
      · cases hs
      split at hs
      · next hla =>
        cases hs
        rcases hf with hf | ⟨c, hf⟩
        · exact hf
        · unfold lookaheadIdx at hla
          unfold lookahead at hf
          split at hla
          · cases hla
          · next h => rw [h] at hf; cases hf
          · cases hla
      split at hs
      · cases hs
      split at hs
      · cases hs
      · split at hs <;> cases hs
      · cases hs
      · split at hs <;> cases hs
      · exfalso
        simp only [IStepResult.done.injEq] at hs
        obtain ⟨h1, _⟩ := hs
        unfold acceptStep at h1
        repeat' split at h1
        all_goals cases h1

end Interactive

/-! ## Runs on a fixed sequence -/

section Fixed

variable {input input' : Nat → Option (Except E Tok)} {w0 : W}

/-- Replacing the offending token by a lexer error does not change the state in which the parser
stops. -/
theorem parseLoop_replaced (hwf : g.WF) (hJ : Justified g F) (hN : FirstNonempty g F)
    (hT : Tables g F gen At) (hc : tf.Consistent g.nTerminals)
    {ep : EntryPoint} (he : g.isPublic e = true)
    (hext : (semanticActionVariants g)[e]? = some ep.extract)
    (hsem : gen.IsSem g ep.actionIdx e 0) {fuel : Nat} {s : PState Tok V W E}
    {γ : List Symbol} {toks : List Tok} (hi : RunInv g u tf At e input w0 s γ toks)
    {found expected : String} {s' : PState Tok V W E} {err : E}
    (h : parseLoop gen u tf input ep fuel s = some (.parserError found expected, s'))
    (hin : ∀ i, i + 1 < s'.calls → input' i = input i)
    (herr : input' (s'.calls - 1) = some (.error err)) :
    s.calls ≤ s'.calls ∧
    ((∃ c, lookahead tf s.token = some c ∧ Acts gen At e c γ) → s.calls < s'.calls) ∧
    (s.calls = s'.calls → s' = s) ∧
    (s.calls < s'.calls → ∃ fuel' s2, parseLoop gen u tf input' ep fuel' s = some (.lexerError err, s2) ∧
      s2.world = s'.world ∧ s2.calls = s'.calls) := by
  induction fuel generalizing s γ toks with
  | zero => simp [parseLoop] at h
  | succ fuel ih =>
    have hspec := parseStep_spec (w0 := w0) (F := F) hwf hT hc he hext hsem hi
    obtain ⟨q, rest, hq1, hq⟩ := hi.stk.top
    have hq0 : s.states.headD 0 = q := by rw [hq1]; rfl
    unfold parseLoop at h
    cases hs : parseStep gen u tf input ep s with
    | done o s1 =>
      rw [hs] at h hspec
      simp only [Option.some.injEq, Prod.mk.injEq] at h
      obtain ⟨rfl, rfl⟩ := h
      cases hspec with
      | «syntax» hla hact =>
        refine ⟨Nat.le_refl _, ?_, fun _ => rfl, fun h => absurd h (Nat.lt_irrefl _)⟩
        rintro ⟨c, h1, h2⟩
        rw [hla] at h1; cases h1
        obtain ⟨a, ha⟩ := h2 q hq
        rw [hq0, ha] at hact; cases hact
    | next s1 =>
      rw [hs] at h hspec
      simp only at h
      cases hspec with
      | @shift t r nt p α β la _ htok hact hit hp hs1 hinv =>
        obtain ⟨i1, i2, i3, i4⟩ := ih hinv h
        have hcalls : s1.calls = s.calls + 1 := by rw [hs1]; rfl
        have hlt : s.calls < s'.calls := by omega
        refine ⟨by omega, fun _ => hlt, fun h => by omega, fun _ => ?_⟩
        have hstep : parseStep gen u tf input' ep s = .next (shiftStep tf input' r s) := by
          rw [hq0] at hact
          unfold Generated.act at hact
          obtain ⟨row, hrow, hcell⟩ := Option.bind_eq_some_iff.1 hact
          have hcell' : row[tf.terminalIdx t]? = some (some (.shift r)) := hcell
          unfold parseStep
          simp only [hq1, htok, lookaheadIdx, hrow, hcell']
        rcases Nat.lt_or_ge s1.calls s'.calls with h5 | h5
        · obtain ⟨f', s2, h6, h7⟩ := i4 h5
          refine ⟨f' + 1, s2, ?_, h7⟩
          unfold parseLoop
          rw [hstep]
          have : shiftStep tf input' r s = s1 := by
            rw [hs1]; unfold shiftStep; rw [hin _ (by omega)]
          rw [this]
          exact h6
        · have h6 := i3 (by omega)
          refine ⟨2, shiftStep tf input' r s, ?_, by rw [h6, hs1]; rfl, by rw [h6, hs1]; rfl⟩
          unfold parseLoop
          rw [hstep]
          simp only
          unfold parseLoop
          have h7 : (shiftStep tf input' r s).token = some (.error err) := by
            rw [← herr]; show input' s.calls = _; congr 1; omega
          unfold parseStep
          simp only [h7, lookaheadIdx]
          rfl
      | @reduce c b p α γ' k _ hla hact hγ hp hit hpriv htok hval hinv =>
        obtain ⟨i1, i2, i3, i4⟩ := ih hinv h
        have hcalls : s1.calls = s.calls := hinv.calls.trans hi.calls.symm
        subst hγ
        have hlt := i2 ⟨c, by rw [htok]; exact hla, acts_reduced hwf hJ hN hT he hit hp hpriv⟩
        rw [hcalls] at hlt
        refine ⟨by omega, fun _ => hlt, fun h => by omega, fun _ => ?_⟩
        obtain ⟨f', s2, h6, h7⟩ := i4 (by omega)
        refine ⟨f' + 1, s2, ?_, h7⟩
        have hstep : parseStep gen u tf input' ep s = .next s1 :=
          (parseStep_next_calls hs).2 hcalls
        unfold parseLoop
        rw [hstep]
        exact h6

end Fixed

end Parsegen
