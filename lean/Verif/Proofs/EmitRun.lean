import Verif.Proofs.EmitNames

/-! # Running the emitted module by name is running it by index -/

namespace Parsegen

variable {X Ty V W Tok E : Type} [DecidableEq Ty]

/-- The value as the emitted program has it. -/
def SAR.enc : SAR V → EVal V
  | .token i fs => ⟨tokenVariant i, fs⟩
  | .nonTerminal k v => ⟨ntVariant k, [v]⟩

/-- The value belongs to a declared variant and has its number of fields. -/
def SAR.Valid (convs : List (Conversion Ty)) (us : List Ty) : SAR V → Prop
  | .token i fs => ∃ c, convs[i]? = some c ∧ fs.length = (patternTypes c.to).length
  | .nonTerminal k _ => k < us.length

/-- The method is declared. -/
def Extract.Valid (convs : List (Conversion Ty)) (us : List Ty) : Extract → Prop
  | .token i => i < convs.length
  | .nonTerminal k => k < us.length

/-- A run by name and a run by index end alike. -/
inductive PanicRel {α β : Type} (R : α → β → Prop) : Except EFault α → Except Fault β → Prop where
  | ok {a : α} {b : β} : R a b → PanicRel R (.ok a) (.ok b)
  | error (e : Fault) : PanicRel R (.error (.panic e)) (.error e)

/-- What the simulation needs to know about module and grammar. -/
structure Sim (lc : String → String) (g : Grammar X Ty) (tokens : TokenEnum Ty) (m : EModule X Ty)
    (gen : Generated X) (us : List Ty) : Prop where
  rel : ModRel lc g tokens m gen
  types : NtTypes g tokens.conversions us
  nodup : (m.actionFns.map (·.name)).Nodup
  pops : ∀ f ∈ gen.semActions, f.variant < us.length ∧ ∀ n ex, .bind n ex ∈ f.pops →
    n ≠ "value_stack" ∧ ex.Valid tokens.conversions us

section
variable {lc : String → String} {g : Grammar X Ty} {tokens : TokenEnum Ty} {m : EModule X Ty}
  {gen : Generated X} {us : List Ty}

theorem Sim.method_token (S : Sim lc g tokens m gen us) {i : Nat} {c : Conversion Ty}
    (hc : tokens.conversions[i]? = some c) :
    m.methods.find? (·.name = tokenMethod i) = some (emitToken i c).2 := by
  rw [S.rel.methods]
  have hmem : (emitToken i c).2 ∈ (emitResultType g tokens.conversions).2.1 := by
    rw [S.types.methods]
    exact List.mem_append.2 (.inl (List.mem_map.2 ⟨(c, i), List.mem_zipIdx_iff_getElem?.2 hc, rfl⟩))
  exact find?_of_nodup (f := fun x : EMethod Ty => x.name) S.types.methods_nodup hmem

theorem Sim.method_nt (S : Sim lc g tokens m gen us) {k : Nat} (hk : k < us.length) :
    m.methods.find? (·.name = ntMethod k) = some (emitNt k us[k]).2 := by
  rw [S.rel.methods]
  have hmem : (emitNt k us[k]).2 ∈ (emitResultType g tokens.conversions).2.1 := by
    rw [S.types.methods]
    exact List.mem_append.2 (.inr (List.mem_map.2 ⟨(us[k], k),
      List.mem_zipIdx_iff_getElem?.2 (List.getElem?_eq_getElem hk), rfl⟩))
  exact find?_of_nodup (f := fun x : EMethod Ty => x.name) S.types.methods_nodup hmem

theorem Sim.construct_token (S : Sim lc g tokens m gen us) {i : Nat} {c : Conversion Ty}
    (hc : tokens.conversions[i]? = some c) {fs : List V}
    (hl : fs.length = (patternTypes c.to).length) :
    m.construct (tokenVariant i) fs = .ok (SAR.token i fs).enc := by
  have hmem : (⟨tokenVariant i, patternTypes c.to⟩ : EVariant Ty) ∈
      (emitResultType g tokens.conversions).1 := by
    rw [S.types.variants]
    exact List.mem_append.2 (.inl (List.mem_map.2 ⟨(c, i), List.mem_zipIdx_iff_getElem?.2 hc, rfl⟩))
  have := find?_of_nodup (f := fun x : EVariant Ty => x.name) S.types.variants_nodup hmem
  unfold EModule.construct
  rw [S.rel.variants, this]
  simp [hl, SAR.enc]

theorem Sim.construct_nt (S : Sim lc g tokens m gen us) {k : Nat} (hk : k < us.length) (v : V) :
    m.construct (ntVariant k) [v] = .ok (SAR.nonTerminal k v).enc := by
  have hmem : (⟨ntVariant k, [us[k]]⟩ : EVariant Ty) ∈ (emitResultType g tokens.conversions).1 := by
    rw [S.types.variants]
    exact List.mem_append.2 (.inr (List.mem_map.2 ⟨(us[k], k),
      List.mem_zipIdx_iff_getElem?.2 (List.getElem?_eq_getElem hk), rfl⟩))
  have := find?_of_nodup (f := fun x : EVariant Ty => x.name) S.types.variants_nodup hmem
  unfold EModule.construct
  rw [S.rel.variants, this]
  simp [SAR.enc]

omit [DecidableEq Ty] in
theorem lookup_zip_nodup {ids : List String} {vals : List V} (hn : ids.Nodup)
    (hl : ids.length = vals.length) : ids.mapM (fun x => (ids.zip vals).lookup x) = some vals := by
  have key : ∀ (l : List String) (r : List V), l.length = r.length →
      (∀ (i : Nat) (x : String), l[i]? = some x → (ids.zip vals).lookup x = r[i]?) →
      l.mapM (fun x => (ids.zip vals).lookup x) = some r := by
    intro l
    induction l with
    | nil => intro r hr _; cases r with
      | nil => rfl
      | cons a r => simp at hr
    | cons x l ih =>
      intro r hr hx
      cases r with
      | nil => simp at hr
      | cons a r =>
        rw [List.mapM_cons, hx 0 x rfl, ih r (by simpa using hr) fun i y hy => by
          simpa using hx (i + 1) y (by simpa using hy)]
        rfl
  refine key ids vals hl ?_
  clear key
  induction ids generalizing vals with
  | nil => intro i x hx; simp at hx
  | cons y ids ih =>
    cases vals with
    | nil => simp at hl
    | cons a vals =>
      intro i x hx
      simp only [List.nodup_cons] at hn
      cases i with
      | zero => simp at hx; subst hx; simp
      | succ i =>
        simp at hx
        have hne : x ≠ y := fun e => hn.1 (e ▸ List.mem_of_getElem? hx)
        have hb : (x == y) = false := by simpa using hne
        simp only [List.zip_cons_cons, List.lookup, hb, List.getElem?_cons_succ]
        exact ih hn.2 (by simpa using hl) i x hx

/-- Calling an extraction method. -/
theorem Sim.callMethod (S : Sim lc g tokens m gen us) {ex : Extract} {v : SAR V}
    (hex : ex.Valid tokens.conversions us) (hv : v.Valid tokens.conversions us) :
    m.callMethod ex.method v.enc = match extract ex v with
      | none => .error (.panic .unreachable)
      | some b => .ok b := by
  cases ex with
  | token i =>
    have hi : i < tokens.conversions.length := hex
    have hm := S.method_token (List.getElem?_eq_getElem hi)
    unfold EModule.callMethod Extract.method
    rw [hm]
    simp only
    cases v with
    | token j fs =>
      by_cases hij : i = j
      · subst hij
        obtain ⟨c, hc, hl⟩ := hv
        rw [List.getElem?_eq_getElem hi] at hc
        cases hc
        simp only [emitToken, SAR.enc, extract, if_true, List.length_map, List.length_range, hl,
          EBody.eval]
        rw [lookup_zip_nodup (fieldIdents_nodup _) (by simp [hl])]
      · have hne : tokenVariant j ≠ tokenVariant i := fun e => hij (prefixed_inj e).symm
        simp [emitToken, SAR.enc, extract, hij, hne]
    | nonTerminal k x =>
      have hne : ntVariant k ≠ tokenVariant i := fun e => tokenVariant_ne_ntVariant _ _ e.symm
      simp [emitToken, SAR.enc, extract, hne]
  | nonTerminal k =>
    have hk : k < us.length := hex
    have hm := S.method_nt hk
    unfold EModule.callMethod Extract.method
    rw [hm]
    simp only
    cases v with
    | token j fs =>
      have hne : tokenVariant j ≠ ntVariant k := tokenVariant_ne_ntVariant _ _
      simp [emitNt, SAR.enc, extract, hne]
    | nonTerminal j x =>
      by_cases hkj : k = j
      · subst hkj
        simp [emitNt, SAR.enc, extract, EBody.eval]
      · have hne : ntVariant j ≠ ntVariant k := fun e => hkj (prefixed_inj e).symm
        simp [emitNt, SAR.enc, extract, hkj, hne]

/-- Local variables by name and by index. -/
structure EnvRel (env : LEnv V) (env' : Env V) : Prop where
  stack : env "value_stack" = some .stack
  user : env.user = env'

omit [DecidableEq Ty] in
theorem EnvRel.bind {env : LEnv V} {env' : Env V} (h : EnvRel env env') {n : String} {b : BVal V}
    (hn : n ≠ "value_stack") : EnvRel (env.bind n b) (env'.bind n b) := by
  constructor
  · have : ¬ "value_stack" = n := fun e => hn e.symm
    simp only [LEnv.bind, this, if_false, h.stack]
  · funext x
    rw [← h.user]
    simp only [LEnv.user, LEnv.bind, Env.bind]
    by_cases hx : x = n <;> simp only [hx, if_true, if_false]

theorem Sim.runStmts (S : Sim lc g tokens m gen us) {ss : List EStmt} {ps : List PopStmt}
    (hsp : List.Forall₂ StmtRel ss ps)
    (hps : ∀ n ex, .bind n ex ∈ ps → n ≠ "value_stack" ∧ ex.Valid tokens.conversions us)
    {env : LEnv V} {env' : Env V} (he : EnvRel env env') {st : List (SAR V)}
    (hst : ∀ v ∈ st, v.Valid tokens.conversions us) :
    PanicRel (fun a b => EnvRel a.1 b.1 ∧ a.2 = b.2.map SAR.enc ∧
        ∀ v ∈ b.2, v.Valid tokens.conversions us)
      (m.runStmts ss env (st.map SAR.enc)) (runPops ps env' st) := by
  induction hsp generalizing env env' st with
  | nil => exact .ok ⟨he, rfl, hst⟩
  | @cons s p ss ps h1 h2 ih =>
    have hps' : ∀ n ex, .bind n ex ∈ ps → n ≠ "value_stack" ∧ ex.Valid tokens.conversions us :=
      fun n ex h => hps n ex (by simp [h])
    cases h1 with
    | pop =>
      unfold EModule.runStmts runPops
      rw [he.stack]
      simp only
      rw [← List.map_tail]
      exact ih hps' he fun v hv => hst v (List.mem_of_mem_tail hv)
    | letPop mu n ex =>
      obtain ⟨hn, hex⟩ := hps n ex (by simp)
      unfold EModule.runStmts runPops
      rw [he.stack]
      cases st with
      | nil => exact .error _
      | cons v st =>
        simp only [List.map_cons]
        rw [S.callMethod hex (hst v (by simp))]
        cases extract ex v with
        | none => exact .error _
        | some b => exact ih hps' (he.bind hn) fun v hv => hst v (by simp [hv])

theorem Sim.runFn (S : Sim lc g tokens m gen us) (u : UserCode X V W) {e : EActionFn X}
    {f : SemFn X} (hef : FnRel e f) (hf : f ∈ gen.semActions) {st : List (SAR V)}
    (hst : ∀ v ∈ st, v.Valid tokens.conversions us) (w : W) :
    PanicRel (fun a b => a.1 = b.1.map SAR.enc ∧ a.2 = b.2 ∧
        ∀ v ∈ b.1, v.Valid tokens.conversions us)
      (m.runFn u e (st.map SAR.enc) w) (f.run u st w) := by
  obtain ⟨hv, hp⟩ := S.pops f hf
  have h0 : EnvRel (V := V) (fun n => if n = "value_stack" then some .stack else none)
      (fun _ => none) := by
    constructor
    · simp
    · funext n; simp only [LEnv.user]; split <;> simp_all
  have h1 := S.runStmts hef.stmts hp h0 hst
  unfold EModule.runFn SemFn.run
  generalize m.runStmts e.stmts _ _ = x at h1
  generalize runPops f.pops _ _ = y at h1
  cases h1 with
  | error e => exact .error e
  | @ok a b hab =>
    obtain ⟨a1, a2⟩ := a
    obtain ⟨b1, b2⟩ := b
    obtain ⟨h2, h3, h4⟩ := hab
    simp only [Except.bind_ok] at h2 h3 h4 ⊢
    rw [h2.stack, h2.user, hef.action]
    simp only
    cases u.run f.action b1 w with
    | none => exact .error _
    | some r =>
      obtain ⟨v, w'⟩ := r
      simp only
      rw [hef.variant, S.construct_nt hv v, Except.bind_ok]
      refine .ok ⟨by simp [h3], rfl, ?_⟩
      intro x hx
      rcases List.mem_cons.1 hx with rfl | hx
      · exact hv
      · exact h4 x hx

theorem Sim.callAction (S : Sim lc g tokens m gen us) (u : UserCode X V W) (k : Nat)
    {st : List (SAR V)} (hst : ∀ v ∈ st, v.Valid tokens.conversions us) (w : W) :
    PanicRel (fun a b => a.1 = b.1.map SAR.enc ∧ a.2 = b.2 ∧
        ∀ v ∈ b.1, v.Valid tokens.conversions us)
      (m.callAction u k (st.map SAR.enc) w)
      (match gen.semActions[k]? with
        | none => .error .indexOutOfBounds
        | some f => f.run u st w) := by
  unfold EModule.callAction
  rw [S.rel.semantic, List.getElem?_map]
  cases hk : gen.semActions[k]? with
  | none =>
    have : m.actionFns[k]? = none := by
      rw [List.getElem?_eq_none_iff] at hk ⊢
      rw [S.rel.fns.length_eq]; exact hk
    rw [this]
    exact .error _
  | some f =>
    obtain ⟨e, he, hef⟩ := forall₂_getElem?' S.rel.fns hk
    rw [he]
    have hfind := find?_of_nodup (f := fun x : EActionFn X => x.name) S.nodup
      (List.mem_of_getElem? he)
    simp only [Option.map_some]
    rw [hfind]
    exact S.runFn u hef (List.mem_of_getElem? hk) hst w

/-- The state of the run by name. -/
def PState.enc (s : PState Tok V W E) : EState Tok V W E :=
  ⟨s.states, s.values.map SAR.enc, s.token, s.calls, s.world⟩

/-- The emitted token functions are those of the index model. -/
structure TokSim (tokens : TokenEnum Ty) (us : List Ty) (m : EModule X Ty) (toR : Tok → RVal)
    (inj : RVal → V) (tf : TokenFns Tok V) : Prop where
  idx : ∀ t, m.callIdx (toR t) = .ok (tf.terminalIdx t)
  value : ∀ t, m.callValue inj (toR t) = .ok (tf.value t).enc
  valid : ∀ t, (tf.value t).Valid tokens.conversions us

/-- The result of a step of the run by name. -/
def StepResult.enc : StepResult Tok V W E → EStep Tok V W E
  | .next s => .next s.enc
  | .done o s => .done o s.enc

/-- All values on the stack are valid. -/
def PState.Valid (convs : List (Conversion Ty)) (us : List Ty) (s : PState Tok V W E) : Prop :=
  ∀ v ∈ s.values, v.Valid convs us

theorem Sim.reduce (S : Sim lc g tokens m gen us) (u : UserCode X V W) (nt n sem : Nat)
    {s : PState Tok V W E} (hs : s.Valid tokens.conversions us) :
    m.reduce u nt n sem s.enc = (match reduceStep gen u nt n sem s with
      | .ok s' => StepResult.next s'
      | .error e => .done (.fault e) s : StepResult Tok V W E).enc ∧
    ∀ s', reduceStep gen u nt n sem s = .ok s' → s'.Valid tokens.conversions us := by
  have h1 := S.callAction u sem hs s.world
  unfold EModule.reduce reduceStep
  simp only [PState.enc]
  generalize m.callAction u sem _ _ = x at h1
  cases hk : gen.semActions[sem]? with
  | none =>
    rw [hk] at h1
    cases h1
    exact ⟨rfl, by simp⟩
  | some f =>
    rw [hk] at h1
    simp only at h1 ⊢
    generalize f.run u s.values s.world = y at h1
    cases h1 with
    | error e => exact ⟨rfl, by intro s' h; cases h⟩
    | @ok a b hab =>
      obtain ⟨a1, a2⟩ := a
      obtain ⟨b1, b2⟩ := b
      obtain ⟨h2, h3, h4⟩ := hab
      simp only at h2 h3 h4
      subst h2 h3
      simp only [Except.bind_ok]
      rw [S.rel.goto]
      by_cases hlt : s.states.length < n
      · simp only [hlt, if_true]
        exact ⟨rfl, by intro s' h; cases h⟩
      · simp only [hlt, if_false]
        cases s.states.drop n with
        | nil => exact ⟨rfl, by intro s' h; cases h⟩
        | cons st rest =>
          simp only
          cases gen.goto[st]? with
          | none => exact ⟨rfl, by intro s' h; cases h⟩
          | some row =>
            simp only
            cases row[nt]? with
            | none => exact ⟨rfl, by intro s' h; cases h⟩
            | some o =>
              cases o with
              | none => exact ⟨rfl, by intro s' h; cases h⟩
              | some nx => exact ⟨rfl, by intro s' h; cases h; exact h4⟩

theorem Sim.accept (S : Sim lc g tokens m gen us) (u : UserCode X V W) {ep : EntryPoint}
    {es : EStruct Ty} (hes : StructRel es ep) (hex : ep.extract < us.length)
    {s : PState Tok V W E} (hs : s.Valid tokens.conversions us) :
    m.accept u es s.enc = EStep.done (acceptStep gen u ep.extract ep.actionIdx s).1
      (acceptStep gen u ep.extract ep.actionIdx s).2.enc := by
  have h1 := S.callAction u ep.actionIdx hs s.world
  unfold EModule.accept acceptStep
  rw [hes.action, hes.extract]
  simp only [PState.enc]
  generalize m.callAction u ep.actionIdx _ _ = x at h1
  cases hk : gen.semActions[ep.actionIdx]? with
  | none =>
    rw [hk] at h1
    cases h1
    rfl
  | some f =>
    rw [hk] at h1
    simp only at h1 ⊢
    generalize f.run u s.values s.world = y at h1
    cases h1 with
    | error e => rfl
    | @ok a b hab =>
      obtain ⟨a1, a2⟩ := a
      obtain ⟨b1, b2⟩ := b
      obtain ⟨h2, h3, h4⟩ := hab
      simp only at h2 h3 h4
      subst h2 h3
      cases b1 with
      | nil => rfl
      | cons v vs =>
        simp only [List.map_cons]
        have h5 := S.callMethod (ex := .nonTerminal ep.extract) hex (h4 v (by simp))
        simp only [Extract.method] at h5
        rw [h5]
        cases v with
        | token i fs => rfl
        | nonTerminal k r =>
          simp only [extract]
          by_cases hk : ep.extract = k
          · simp only [hk, if_true]
          · simp only [hk, if_false]; rfl

theorem Sim.step (S : Sim lc g tokens m gen us) (u : UserCode X V W) {toR : Tok → RVal}
    {inj : RVal → V} {tf : TokenFns Tok V} (ht : TokSim tokens us m toR inj tf)
    (input : Nat → Option (Except E Tok)) {ep : EntryPoint} {es : EStruct Ty}
    (hes : StructRel es ep) (hex : ep.extract < us.length) {s : PState Tok V W E}
    (hs : s.Valid tokens.conversions us) :
    m.step u toR inj input es s.enc = (parseStep gen u tf input ep s).enc ∧
    ∀ s', parseStep gen u tf input ep s = .next s' → s'.Valid tokens.conversions us := by
  unfold EModule.step parseStep
  have e0 : s.enc.states = s.states := rfl
  have e1 : s.enc.token = s.token := rfl
  rw [e0, e1]
  cases hst : s.states with
  | nil => exact ⟨rfl, by intro s' h; cases h⟩
  | cons state rest =>
    simp only
    have hla : m.lookahead toR s.token = match lookaheadIdx gen tf s.token with
        | .error e => .error e
        | .ok i => .ok (.ok i) := by
      cases s.token with
      | none => simp [EModule.lookahead, lookaheadIdx, S.rel.nTerminals]
      | some t =>
        cases t with
        | error e => rfl
        | ok t => simp [EModule.lookahead, lookaheadIdx, ht.idx]
    rw [hla, S.rel.action, S.rel.terminalStrs, S.rel.expected]
    cases lookaheadIdx gen tf s.token with
    | error e => exact ⟨rfl, by intro s' h; cases h⟩
    | ok ti =>
      simp only
      cases gen.action[state]? with
      | none => exact ⟨rfl, by intro s' h; cases h⟩
      | some row =>
        simp only
        cases row[ti]? with
        | none => exact ⟨rfl, by intro s' h; cases h⟩
        | some o =>
          cases o with
          | none =>
            simp only
            cases gen.terminalStrs[ti]? with
            | none => exact ⟨rfl, by intro s' h; cases h⟩
            | some f =>
              cases gen.expected[state]? with
              | none => exact ⟨rfl, by intro s' h; cases h⟩
              | some e => exact ⟨rfl, by intro s' h; cases h⟩
          | some a =>
            cases a with
            | shift nx =>
              simp only
              constructor
              · unfold EModule.shift shiftStep
                simp only [PState.enc, StepResult.enc]
                cases s.token with
                | none => rfl
                | some t =>
                  cases t with
                  | error e => rfl
                  | ok t => simp only [ht.value]; rfl
              · intro s' h
                cases h
                intro v hv
                simp only [shiftStep] at hv
                split at hv
                · next t _ =>
                  rcases List.mem_cons.1 hv with rfl | hv
                  · exact ht.valid t
                  · exact hs v hv
                · exact hs v hv
            | reduce nt n sem =>
              simp only
              obtain ⟨h1, h2⟩ := S.reduce u nt n sem hs
              rw [h1]
              refine ⟨rfl, ?_⟩
              intro s' h
              split at h
              · next s'' hr => cases h; exact h2 _ hr
              · cases h
            | accept =>
              simp only
              rw [S.accept u hes hex hs]
              exact ⟨rfl, by intro s' h; cases h⟩

theorem Sim.loop (S : Sim lc g tokens m gen us) (u : UserCode X V W) {toR : Tok → RVal}
    {inj : RVal → V} {tf : TokenFns Tok V} (ht : TokSim tokens us m toR inj tf)
    (input : Nat → Option (Except E Tok)) {ep : EntryPoint} {es : EStruct Ty}
    (hes : StructRel es ep) (hex : ep.extract < us.length) (fuel : Nat) {s : PState Tok V W E}
    (hs : s.Valid tokens.conversions us) :
    m.loop u toR inj input es fuel s.enc =
      (parseLoop gen u tf input ep fuel s).map fun r => (some r.1, r.2.enc) := by
  induction fuel generalizing s with
  | zero => rfl
  | succ fuel ih =>
    unfold EModule.loop parseLoop
    obtain ⟨h1, h2⟩ := S.step u ht input hes hex hs
    rw [h1]
    cases hp : parseStep gen u tf input ep s with
    | done o s' => rfl
    | next s' => exact ih (h2 s' hp)

theorem Sim.parse (S : Sim lc g tokens m gen us) (u : UserCode X V W) {toR : Tok → RVal}
    {inj : RVal → V} {tf : TokenFns Tok V} (ht : TokSim tokens us m toR inj tf)
    (input : Nat → Option (Except E Tok)) {ep : EntryPoint} {es : EStruct Ty}
    (hes : StructRel es ep) (hex : ep.extract < us.length) (w : W) (fuel : Nat) :
    m.parse u toR inj input es w fuel =
      (Parsegen.parse gen u tf input ep w fuel).map fun r => (some r.1, r.2.enc) := by
  unfold EModule.parse Parsegen.parse
  rw [hes.state]
  exact S.loop u ht input hes hex fuel (s := parseInit input ep w) (by
    intro v hv; simp [parseInit] at hv)

end

end Parsegen
