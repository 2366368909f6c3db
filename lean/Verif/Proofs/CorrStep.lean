import Verif.Proofs.CorrRun

/-! # Lock-step simulation of parsers of corresponding grammars -/

namespace Parsegen

variable {X Ty V W Tok E : Type} [DecidableEq Ty] {h h' : HashOrder} {g g' : Grammar X Ty}
  {gen gen' : Generated X} {a a' : Automaton} {g1 g1' : Grammar Nat Ty} {T1 T1' : LRTable Nat}
  {N T : Nat → Nat → Prop}

/-- Corresponding entry points of corresponding parsers with corresponding token functions. -/
structure RunCorr (h h' : HashOrder) (g g' : Grammar X Ty) (gen gen' : Generated X)
    (a a' : Automaton) (g1 g1' : Grammar Nat Ty) (T1 T1' : LRTable Nat) (N T : Nat → Nat → Prop)
    (tf tf' : TokenFns Tok V) (e e' : Nat) (ep ep' : EntryPoint) : Prop where
  gc : GenCorr h h' g g' gen gen' a a' g1 g1' T1 T1' N T
  cons : tf.Consistent g.nTerminals
  cons' : tf'.Consistent g'.nTerminals
  idx : ∀ t, T (tf.terminalIdx t) (tf'.terminalIdx t)
  fields : tf.fields = tf'.fields
  nodup : g.terminals.Nodup
  nodup' : g'.terminals.Nodup
  entry : N e e'
  pub : g.isPublic e = true
  at_ : StateAt g (generateFirstTable h g) a e [] ep.initState
  at' : StateAt g' (generateFirstTable h' g') a' e' [] ep'.initState
  ext : (semanticActionVariants g)[e]? = some ep.extract
  ext' : (semanticActionVariants g')[e']? = some ep'.extract
  sem : gen.IsSem g ep.actionIdx e 0
  sem' : gen'.IsSem g' ep'.actionIdx e' 0

/-- The two parsers are at the same point. -/
structure SimInv (h h' : HashOrder) (g g' : Grammar X Ty) (a a' : Automaton)
    (N T : Nat → Nat → Prop) (u : UserCode X V W) (tf tf' : TokenFns Tok V) (e e' : Nat)
    (input : Nat → Option (Except E Tok)) (w0 : W) (s s' : PState Tok V W E)
    (γ γ' : List Symbol) (toks : List Tok) : Prop where
  inv : RunInv g u tf (StateAt g (generateFirstTable h g) a) e input w0 s γ toks
  inv' : RunInv g' u tf' (StateAt g' (generateFirstTable h' g') a') e' input w0 s' γ' toks
  syms : List.Forall₂ (SymCorr N T) γ γ'
  vals : s.values.map SAR.toB = s'.values.map SAR.toB
  world : s.world = s'.world

variable {u : UserCode X V W} {tf tf' : TokenFns Tok V} {e e' : Nat} {ep ep' : EntryPoint}
  {input : Nat → Option (Except E Tok)} {w0 : W} {s s' : PState Tok V W E} {γ γ' : List Symbol}
  {toks : List Tok}

/-- The two parsers did the same. -/
inductive ResSim (h h' : HashOrder) (g g' : Grammar X Ty) (a a' : Automaton)
    (N T : Nat → Nat → Prop) (u : UserCode X V W) (tf tf' : TokenFns Tok V) (e e' : Nat)
    (input : Nat → Option (Except E Tok)) (w0 : W) :
    StepResult Tok V W E → StepResult Tok V W E → Prop
  | next {t t' : PState Tok V W E} {δ δ' : List Symbol} {ts : List Tok}
      (hi : SimInv h h' g g' a a' N T u tf tf' e e' input w0 t t' δ δ' ts) :
      ResSim h h' g g' a a' N T u tf tf' e e' input w0 (.next t) (.next t')
  | done {o o' : Outcome V E} {t t' : PState Tok V W E}
      (ho : SameOutcome g.terminals g'.terminals o o') (hw : t.world = t'.world)
      (hc : t.calls = t'.calls) :
      ResSim h h' g g' a a' N T u tf tf' e e' input w0 (.done o t) (.done o' t')

theorem SimInv.token (hi : SimInv h h' g g' a a' N T u tf tf' e e' input w0 s s' γ γ' toks) :
    s.token = s'.token := by rw [hi.inv.token, hi.inv'.token]

theorem SimInv.calls (hi : SimInv h h' g g' a a' N T u tf tf' e e' input w0 s s' γ γ' toks) :
    s.calls = s'.calls := by rw [hi.inv.calls, hi.inv'.calls]

omit [DecidableEq Ty] in
theorem act_of_cell {q : Nat} {c : Option Nat} {gen : Generated X} {o o' : Option RtAction}
    (h1 : gen.act q c = some o) (h2 : gen.cell q c = o') : o = o' := by
  rw [Generated.cell_eq, h1] at h2; exact h2

theorem RunCorr.wrapper (hR : RunCorr h h' g g' gen gen' a a' g1 g1' T1 T1' N T tf tf' e e' ep ep') :
    ∃ pr pr', g.getProduction? e 0 = some pr ∧ g'.getProduction? e' 0 = some pr' ∧
      ProdCorr N T pr pr' := by
  obtain ⟨_, b, hb⟩ := hR.gc.wf.pub hR.pub
  obtain ⟨pr, h2, _⟩ := hasProd_getProduction.1 hb
  obtain ⟨p', pr', h3, h4⟩ := hR.gc.corr.fwd hR.entry h2
  have h5 : p' = 0 := by
    have := (hR.gc.wf'.pub (nt := e') (by rw [← hR.gc.corr.pub hR.entry]; exact hR.pub)).1
    have h6 := (hasProd_getProduction.2 ⟨pr', h3, rfl⟩ : g'.HasProd e' p' _).lt
    omega
  subst h5
  exact ⟨pr, pr', h2, h3, h4⟩

/-- One step. -/
theorem RunCorr.step (hR : RunCorr h h' g g' gen gen' a a' g1 g1' T1 T1' N T tf tf' e e' ep ep')
    (hi : SimInv h h' g g' a a' N T u tf tf' e e' input w0 s s' γ γ' toks) :
    ResSim h h' g g' a a' N T u tf tf' e e' input w0 (parseStep gen u tf input ep s)
      (parseStep gen' u tf' input ep' s') := by
  have hC := hR.gc
  have hpub' : g'.isPublic e' = true := by rw [← hC.corr.pub hR.entry]; exact hR.pub
  have hT := hC.stages.tables hC.wf
  have hT' := hC.stages'.tables hC.wf'
  have hs := parseStep_spec hC.wf hT hR.cons hR.pub hR.ext hR.sem hi.inv
  have hs' := parseStep_spec hC.wf' hT' hR.cons' hpub' hR.ext' hR.sem' hi.inv'
  obtain ⟨q, rest, hst, hq⟩ := hi.inv.stk.top
  obtain ⟨q', rest', hst', hq'⟩ := hi.inv'.stk.top
  have hhead : s.states.headD 0 = q := by rw [hst]; rfl
  have hhead' : s'.states.headD 0 = q' := by rw [hst']; rfl
  have htok := hi.token
  -- lexer errors
  have hcases : (∃ err, s.token = some (.error err)) ∨ ∃ c c', lookahead tf s.token = some c ∧
      lookahead tf' s'.token = some c' ∧ LaCorr T c c' := by
    rw [← htok]
    cases s.token with
    | none => exact .inr ⟨none, none, rfl, rfl, trivial⟩
    | some x =>
      cases x with
      | error err => exact .inl ⟨err, rfl⟩
      | ok t => exact .inr ⟨_, _, rfl, rfl, hR.idx t⟩
  rcases hcases with ⟨err, herr⟩ | ⟨c, c', hc, hc', hcc⟩
  · have herr' : s'.token = some (.error err) := by rw [← htok]; exact herr
    have e1 : parseStep gen u tf input ep s = .done (.lexerError err) s := by
      unfold parseStep; rw [hst]; simp only; rw [herr]; rfl
    have e2 : parseStep gen' u tf' input ep' s' = .done (.lexerError err) s' := by
      unfold parseStep; rw [hst']; simp only; rw [herr']; rfl
    rw [e1, e2]
    exact .done rfl hi.world hi.calls
  · have hcok := laOk_lookahead hR.cons hc
    have hcok' := laOk_lookahead hR.cons' hc'
    have hcell := hC.cell hR.entry hR.pub hi.syms hq hq' hcc hcok hcok'
    obtain ⟨o, ho⟩ := hT.cell hR.pub hq hcok
    obtain ⟨o', ho'⟩ := hT'.cell hpub' hq' hcok'
    have hoc : gen.cell q c = o := by rw [Generated.cell_eq, ho]; rfl
    have hoc' : gen'.cell q' c' = o' := by rw [Generated.cell_eq, ho']; rfl
    rw [hoc, hoc'] at hcell
    generalize hr : parseStep gen u tf input ep s = r at hs
    generalize hr' : parseStep gen' u tf' input ep' s' = r' at hs'
    cases hcell with
    | none =>
      have hx : ∀ x, gen.act q c ≠ some (some x) := by intro x; rw [ho]; simp
      have hx' : ∀ x, gen'.act q' c' ≠ some (some x) := by intro x; rw [ho']; simp
      have key : ∃ f ex, r = .done (.parserError f ex) s ∧
          (g.terminals ++ ["end-of-input"])[laCol g.nTerminals c]? = some f ∧
          gen.expected[q]? = some ex := by
        cases hs with
        | shift h1 h2 => rw [h1] at hc; cases hc; rw [hhead] at h2; exact absurd h2 (hx _)
        | reduce h1 h2 => rw [h1] at hc; cases hc; rw [hhead] at h2; exact absurd h2 (hx _)
        | panic h1 h2 => rw [h1] at hc; cases hc; rw [hhead] at h2; exact absurd h2 (hx _)
        | lexer h1 => rw [h1] at hc; cases hc
        | «syntax» h1 h2 h3 h4 =>
          rw [h1] at hc; cases hc; rw [hhead] at h4; exact ⟨_, _, rfl, h3, h4⟩
        | accept h1 _ h2 => rw [h1] at hc; cases hc; rw [hhead] at h2; exact absurd h2 (hx _)
        | acceptPanic h1 h2 => rw [h1] at hc; cases hc; rw [hhead] at h2; exact absurd h2 (hx _)
      have key' : ∃ f ex, r' = .done (.parserError f ex) s' ∧
          (g'.terminals ++ ["end-of-input"])[laCol g'.nTerminals c']? = some f ∧
          gen'.expected[q']? = some ex := by
        cases hs' with
        | shift h1 h2 => rw [h1] at hc'; cases hc'; rw [hhead'] at h2; exact absurd h2 (hx' _)
        | reduce h1 h2 => rw [h1] at hc'; cases hc'; rw [hhead'] at h2; exact absurd h2 (hx' _)
        | panic h1 h2 => rw [h1] at hc'; cases hc'; rw [hhead'] at h2; exact absurd h2 (hx' _)
        | lexer h1 => rw [h1] at hc'; cases hc'
        | «syntax» h1 h2 h3 h4 =>
          rw [h1] at hc'; cases hc'; rw [hhead'] at h4; exact ⟨_, _, rfl, h3, h4⟩
        | accept h1 _ h2 => rw [h1] at hc'; cases hc'; rw [hhead'] at h2; exact absurd h2 (hx' _)
        | acceptPanic h1 h2 => rw [h1] at hc'; cases hc'; rw [hhead'] at h2; exact absurd h2 (hx' _)
      obtain ⟨f, ex, rfl, k1, k2⟩ := key
      obtain ⟨f', ex', rfl, k1', k2'⟩ := key'
      refine .done ⟨?_, hC.expected hR.nodup hR.nodup' hR.entry hR.pub hi.syms hq hq' k2 k2'⟩
        hi.world hi.calls
      cases c with
      | none =>
        cases c' with
        | some _ => exact hcc.elim
        | none =>
          simp only [laCol, Grammar.nTerminals, List.getElem?_concat_length] at k1 k1'
          cases k1; cases k1'; rfl
      | some t =>
        cases c' with
        | none => exact hcc.elim
        | some t' =>
          obtain ⟨n, h1, h2⟩ := hC.corr.name hcc
          simp only [laCol] at k1 k1'
          rw [List.getElem?_append_left (List.getElem?_eq_some_iff.1 h1).1, h1] at k1
          rw [List.getElem?_append_left (List.getElem?_eq_some_iff.1 h2).1, h2] at k1'
          cases k1; cases k1'; rfl
    | shift r0 r0' =>
      have key : ∃ t, s.token = some (.ok t) ∧ ∃ r1 s1, r = .next s1 ∧ s1 = shiftStep tf input r1 s ∧
          RunInv g u tf (StateAt g (generateFirstTable h g) a) e input w0 s1
            (γ ++ [.terminal (tf.terminalIdx t)]) (toks ++ [t]) := by
        cases hs with
        | shift h1 h2 _ _ h3 h4 => exact ⟨_, h1, _, _, rfl, h3, h4⟩
        | reduce h1 h2 => rw [h1] at hc; cases hc; rw [hhead, ho] at h2; cases h2
        | panic h1 h2 => rw [h1] at hc; cases hc; rw [hhead, ho] at h2; cases h2
        | lexer h1 => rw [h1] at hc; cases hc
        | «syntax» h1 h2 => rw [h1] at hc; cases hc; rw [hhead, ho] at h2; cases h2
        | accept h1 _ h2 => rw [h1] at hc; cases hc; rw [hhead, ho] at h2; cases h2
        | acceptPanic h1 h2 => rw [h1] at hc; cases hc; rw [hhead, ho] at h2; cases h2
      have key' : ∃ t, s'.token = some (.ok t) ∧ ∃ r1 s1, r' = .next s1 ∧
          s1 = shiftStep tf' input r1 s' ∧
          RunInv g' u tf' (StateAt g' (generateFirstTable h' g') a') e' input w0 s1
            (γ' ++ [.terminal (tf'.terminalIdx t)]) (toks ++ [t]) := by
        cases hs' with
        | shift h1 h2 _ _ h3 h4 => exact ⟨_, h1, _, _, rfl, h3, h4⟩
        | reduce h1 h2 => rw [h1] at hc'; cases hc'; rw [hhead', ho'] at h2; cases h2
        | panic h1 h2 => rw [h1] at hc'; cases hc'; rw [hhead', ho'] at h2; cases h2
        | lexer h1 => rw [h1] at hc'; cases hc'
        | «syntax» h1 h2 => rw [h1] at hc'; cases hc'; rw [hhead', ho'] at h2; cases h2
        | accept h1 _ h2 => rw [h1] at hc'; cases hc'; rw [hhead', ho'] at h2; cases h2
        | acceptPanic h1 h2 => rw [h1] at hc'; cases hc'; rw [hhead', ho'] at h2; cases h2
      obtain ⟨t, k1, r1, s1, rfl, k2, k3⟩ := key
      obtain ⟨t', k1', r1', s1', rfl, k2', k3'⟩ := key'
      rw [htok, k1'] at k1
      cases k1
      refine .next ⟨k3, k3', forall₂_append hi.syms (.cons (hR.idx t) .nil), ?_, ?_⟩
      · subst k2; subst k2'
        simp only [shiftStep, htok, k1', List.map_cons, hi.vals]
        rw [hR.cons.value t, hR.cons'.value t, hR.fields]
        rfl
      · subst k2; subst k2'; exact hi.world
    | accept =>
      have key : s.token = none ∧ gen.act (s.states.headD 0) none = some (some .accept) ∧
          ∃ b, γ = [.nonTerminal b] ∧ g.HasProd e 0 [.nonTerminal b] := by
        cases hs with
        | shift h1 h2 => rw [h1] at hc; cases hc; rw [hhead, ho] at h2; cases h2
        | reduce h1 h2 => rw [h1] at hc; cases hc; rw [hhead, ho] at h2; cases h2
        | panic h1 h2 => rw [h1] at hc; cases hc; rw [hhead, ho] at h2; cases h2
        | lexer h1 => rw [h1] at hc; cases hc
        | «syntax» h1 h2 => rw [h1] at hc; cases hc; rw [hhead, ho] at h2; cases h2
        | accept h1 h2 h3 h4 => exact ⟨h1, h3, _, h2, h4⟩
        | acceptPanic h1 h2 h3 h4 => exact ⟨h1, h2, _, h3, h4⟩
      have key' : s'.token = none ∧ gen'.act (s'.states.headD 0) none = some (some .accept) ∧
          ∃ b, γ' = [.nonTerminal b] ∧ g'.HasProd e' 0 [.nonTerminal b] := by
        cases hs' with
        | shift h1 h2 => rw [h1] at hc'; cases hc'; rw [hhead', ho'] at h2; cases h2
        | reduce h1 h2 => rw [h1] at hc'; cases hc'; rw [hhead', ho'] at h2; cases h2
        | panic h1 h2 => rw [h1] at hc'; cases hc'; rw [hhead', ho'] at h2; cases h2
        | lexer h1 => rw [h1] at hc'; cases hc'
        | «syntax» h1 h2 => rw [h1] at hc'; cases hc'; rw [hhead', ho'] at h2; cases h2
        | accept h1 h2 h3 h4 => exact ⟨h1, h3, _, h2, h4⟩
        | acceptPanic h1 h2 h3 h4 => exact ⟨h1, h2, _, h3, h4⟩
      obtain ⟨k1, k2, b, k3, k4⟩ := key
      obtain ⟨k1', k2', b', k3', k4'⟩ := key'
      have hinv := hi.inv
      have hinv' := hi.inv'
      rw [k3] at hinv
      rw [k3'] at hinv'
      obtain ⟨u0, a1, a2⟩ := accept_value hR.cons hR.ext hR.sem hinv k1 k4 k2
      obtain ⟨u0', b1, b2⟩ := accept_value hR.cons' hR.ext' hR.sem' hinv' k1' k4' k2'
      have hv := hi.vals
      rw [a1, b1] at hv
      simp only [List.map_cons, List.map_nil, List.cons.injEq, and_true] at hv
      obtain ⟨pr, pr', w1, w2, w3⟩ := hR.wrapper
      have hnv := nodeValue_corr (u := u) w1 w2 w3 [u0.toB] s.world
      rw [hv, hi.world] at hnv
      rw [hv, hi.world] at a2
      rw [hr] at a2
      rw [hr'] at b2
      rcases a2 with ⟨a3, rfl⟩ | ⟨v, w', a3, rfl⟩
      · rcases b2 with ⟨b3, rfl⟩ | ⟨v', w'', b3, rfl⟩
        · exact .done rfl hi.world hi.calls
        · rw [a3, b3] at hnv; cases hnv
      · rcases b2 with ⟨b3, rfl⟩ | ⟨v', w'', b3, rfl⟩
        · rw [a3, b3] at hnv; cases hnv
        · rw [a3, b3] at hnv; cases hnv
          exact .done rfl rfl hi.calls
    | @reduce b n k p b' n' k' p' hm hu1 hu2 =>
      -- what each side does
      have key : ∃ α γ0 us rest, g.HasProd b p α ∧ γ = γ0 ++ α ∧ us.length = α.length ∧
          s.values = us.reverse ++ rest ∧
          ((∃ s1 v, r = .next s1 ∧ (g.stackAlg u tf).node b p us s.world = some (v, s1.world) ∧
            s1.values = v :: rest ∧ RunInv g u tf (StateAt g (generateFirstTable h g) a) e input w0 s1
              (γ0 ++ [.nonTerminal b]) toks) ∨
          (r = .done (.fault .userPanic) s ∧ (g.stackAlg u tf).node b p us s.world = none)) := by
        cases hs with
        | shift h1 h2 => rw [h1] at hc; cases hc; rw [hhead, ho] at h2; cases h2
        | @reduce c0 b0 p0 α γ0 k0 s1 h1 h2 h3 h4 h5 h6 h7 h8 h9 =>
          rw [h1] at hc; cases hc
          have := hu1 (.reduce b0 p0) ⟨α, h5, h4, h6⟩
          cases this
          obtain ⟨us, rest, v, x1, x2, x3, x4⟩ := h8
          exact ⟨α, γ0, us, rest, h4, h3, x1, x2, .inl ⟨s1, v, rfl, x3, x4, h9⟩⟩
        | @panic c0 b0 p0 α γ0 k0 h1 h2 h3 h4 h5 h6 h7 =>
          rw [h1] at hc; cases hc
          have := hu1 (.reduce b0 p0) ⟨α, h5, h4, h6⟩
          cases this
          obtain ⟨us, rest, _, _, x1, x2, _, x3⟩ := h7
          exact ⟨α, γ0, us, rest, h4, h3, x1, x2, .inr ⟨rfl, x3⟩⟩
        | lexer h1 => rw [h1] at hc; cases hc
        | «syntax» h1 h2 => rw [h1] at hc; cases hc; rw [hhead, ho] at h2; cases h2
        | accept h1 _ h2 => rw [h1] at hc; cases hc; rw [hhead, ho] at h2; cases h2
        | acceptPanic h1 h2 => rw [h1] at hc; cases hc; rw [hhead, ho] at h2; cases h2
      have key' : ∃ α γ0 us rest, g'.HasProd b' p' α ∧ γ' = γ0 ++ α ∧ us.length = α.length ∧
          s'.values = us.reverse ++ rest ∧
          ((∃ s1 v, r' = .next s1 ∧ (g'.stackAlg u tf').node b' p' us s'.world = some (v, s1.world) ∧
            s1.values = v :: rest ∧ RunInv g' u tf' (StateAt g' (generateFirstTable h' g') a') e' input
              w0 s1 (γ0 ++ [.nonTerminal b']) toks) ∨
          (r' = .done (.fault .userPanic) s' ∧
            (g'.stackAlg u tf').node b' p' us s'.world = none)) := by
        cases hs' with
        | shift h1 h2 => rw [h1] at hc'; cases hc'; rw [hhead', ho'] at h2; cases h2
        | @reduce c0 b0 p0 α γ0 k0 s1 h1 h2 h3 h4 h5 h6 h7 h8 h9 =>
          rw [h1] at hc'; cases hc'
          have := hu2 (.reduce b0 p0) ⟨α, h5, h4, h6⟩
          cases this
          obtain ⟨us, rest, v, x1, x2, x3, x4⟩ := h8
          exact ⟨α, γ0, us, rest, h4, h3, x1, x2, .inl ⟨s1, v, rfl, x3, x4, h9⟩⟩
        | @panic c0 b0 p0 α γ0 k0 h1 h2 h3 h4 h5 h6 h7 =>
          rw [h1] at hc'; cases hc'
          have := hu2 (.reduce b0 p0) ⟨α, h5, h4, h6⟩
          cases this
          obtain ⟨us, rest, _, _, x1, x2, _, x3⟩ := h7
          exact ⟨α, γ0, us, rest, h4, h3, x1, x2, .inr ⟨rfl, x3⟩⟩
        | lexer h1 => rw [h1] at hc'; cases hc'
        | «syntax» h1 h2 => rw [h1] at hc'; cases hc'; rw [hhead', ho'] at h2; cases h2
        | accept h1 _ h2 => rw [h1] at hc'; cases hc'; rw [hhead', ho'] at h2; cases h2
        | acceptPanic h1 h2 => rw [h1] at hc'; cases hc'; rw [hhead', ho'] at h2; cases h2
      obtain ⟨α, γ0, us, rest0, k1, k2, k3, k4, k5⟩ := key
      obtain ⟨α', γ0', us', rest0', k1', k2', k3', k4', k5'⟩ := key'
      obtain ⟨hN, pr, pr', m1, m2, m3⟩ := hm
      have hα : List.Forall₂ (SymCorr N T) α α' := by
        obtain ⟨x, y1, rfl⟩ := hasProd_getProduction.1 k1
        obtain ⟨x', y1', rfl⟩ := hasProd_getProduction.1 k1'
        rw [m1] at y1; cases y1
        rw [m2] at y1'; cases y1'
        exact m3.syms
      have hlen : us.length = us'.length := by rw [k3, k3', hα.length_eq]
      have hvals := hi.vals
      rw [k4, k4', List.map_append, List.map_append] at hvals
      obtain ⟨v1, v2⟩ := List.append_inj hvals (by simp [hlen])
      rw [List.map_reverse, List.map_reverse] at v1
      have v1 := List.reverse_inj.1 v1
      have hγ0 : List.Forall₂ (SymCorr N T) γ0 γ0' := by
        have hsy := hi.syms
        rw [k2, k2'] at hsy
        obtain ⟨c1, c2, e1, f1, f2⟩ := forall₂_append_left hsy
        have : c1.length = γ0'.length := by
          have := congrArg List.length e1
          rw [List.length_append, List.length_append, ← f2.length_eq, hα.length_eq] at this
          omega
        obtain ⟨rfl, rfl⟩ := List.append_inj e1.symm this
        exact f1
      have hnv := nodeValue_corr (u := u) m1 m2 m3 (us.map SAR.toB) s.world
      rcases k5 with ⟨s1, v, rfl, x1, x2, x3⟩ | ⟨rfl, x1⟩
      · obtain ⟨z, kk, y1, _, rfl⟩ := stackAlg_node x1
        rcases k5' with ⟨s1', v', rfl, x1', x2', x3'⟩ | ⟨rfl, x1'⟩
        · obtain ⟨z', kk', y1', _, rfl⟩ := stackAlg_node x1'
          rw [y1, v1, hi.world, y1'] at hnv
          simp only [Option.some.injEq, Prod.mk.injEq, BVal.nt.injEq] at hnv
          refine .next ⟨x3, x3', forall₂_append hγ0 (.cons hN .nil), ?_, hnv.2⟩
          rw [x2, x2', List.map_cons, List.map_cons, v2]
          simp [SAR.toB, hnv.1]
        · exfalso
          rw [y1, v1, hi.world] at hnv
          unfold Grammar.stackAlg at x1'
          simp only [← hnv] at x1'
          have hlt : b' < g'.nonTerminals.length := by
            obtain ⟨n0, _, z1, _⟩ := k1'
            exact (List.getElem?_eq_some_iff.1 z1).1
          have : ∃ kk', (semanticActionVariants g')[b']? = some kk' := by
            refine ⟨_, List.getElem?_eq_getElem ?_⟩
            simpa [semanticActionVariants, variantNames_length] using hlt
          obtain ⟨kk', hkk⟩ := this
          rw [hkk] at x1'
          cases x1'
      · rcases k5' with ⟨s1', v', rfl, x1', x2', x3'⟩ | ⟨rfl, x1'⟩
        · exfalso
          obtain ⟨z', kk', y1', _, rfl⟩ := stackAlg_node x1'
          rw [v1, hi.world, y1'] at hnv
          rw [hi.world] at x1
          unfold Grammar.stackAlg at x1
          simp only [v1, hnv] at x1
          have hlt : b < g.nonTerminals.length := by
            obtain ⟨n0, _, z1, _⟩ := k1
            exact (List.getElem?_eq_some_iff.1 z1).1
          have : ∃ kk', (semanticActionVariants g)[b]? = some kk' := by
            refine ⟨_, List.getElem?_eq_getElem ?_⟩
            simpa [semanticActionVariants, variantNames_length] using hlt
          obtain ⟨kk', hkk⟩ := this
          rw [hkk] at x1
          cases x1
        · exact .done rfl hi.world hi.calls

/-- Whole runs. -/
theorem RunCorr.loop (hR : RunCorr h h' g g' gen gen' a a' g1 g1' T1 T1' N T tf tf' e e' ep ep')
    (fuel : Nat) (hi : SimInv h h' g g' a a' N T u tf tf' e e' input w0 s s' γ γ' toks) :
    (parseLoop gen u tf input ep fuel s = none ∧ parseLoop gen' u tf' input ep' fuel s' = none) ∨
    ∃ o o' t t', parseLoop gen u tf input ep fuel s = some (o, t) ∧
      parseLoop gen' u tf' input ep' fuel s' = some (o', t') ∧
      SameOutcome g.terminals g'.terminals o o' ∧ t.world = t'.world ∧ t.calls = t'.calls := by
  induction fuel generalizing s s' γ γ' toks with
  | zero => exact .inl ⟨rfl, rfl⟩
  | succ fuel ih =>
    have hst := hR.step hi
    unfold parseLoop
    generalize parseStep gen u tf input ep s = r at hst
    generalize parseStep gen' u tf' input ep' s' = r' at hst
    cases hst with
    | next hi' => exact ih hi'
    | done ho hw hc => exact .inr ⟨_, _, _, _, rfl, rfl, ho, hw, hc⟩

/-- Whole parses. -/
theorem RunCorr.parse (hR : RunCorr h h' g g' gen gen' a a' g1 g1' T1 T1' N T tf tf' e e' ep ep')
    (u : UserCode X V W) (input : Nat → Option (Except E Tok)) (w : W) (fuel : Nat) :
    (parse gen u tf input ep w fuel = none ∧ parse gen' u tf' input ep' w fuel = none) ∨
    ∃ o o' t t', parse gen u tf input ep w fuel = some (o, t) ∧
      parse gen' u tf' input ep' w fuel = some (o', t') ∧
      SameOutcome g.terminals g'.terminals o o' ∧ t.world = t'.world ∧ t.calls = t'.calls :=
  hR.loop fuel ⟨runInv_init hR.at_, runInv_init hR.at', .nil, rfl, rfl⟩

end Parsegen
