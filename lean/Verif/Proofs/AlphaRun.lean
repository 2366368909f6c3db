import Verif.Proofs.AlphaGen
import Verif.Proofs.CorrRun
import Verif.Proofs.Simulate

/-! # Lock-step simulation of parsers that differ in types, binders and actions -/

namespace Parsegen

variable {X X' Ty Ty' V W Tok E : Type} [DecidableEq Ty] [DecidableEq Ty'] {o : HashOrder}
  {g : Grammar X Ty} {g' : Grammar X' Ty'} {gen : Generated X} {gen' : Generated X'}
  {a : Automaton} {g1 : Grammar Nat Ty} {g1' : Grammar Nat Ty'} {T1 T1' : LRTable Nat}
  {u : UserCode X V W} {u' : UserCode X' V W}

/-- Related entry points of related parsers with the same token functions. -/
structure RunAlpha (o : HashOrder) (u : UserCode X V W) (u' : UserCode X' V W) (g : Grammar X Ty)
    (g' : Grammar X' Ty') (gen : Generated X) (gen' : Generated X') (a : Automaton)
    (g1 : Grammar Nat Ty) (g1' : Grammar Nat Ty') (T1 T1' : LRTable Nat) (tf : TokenFns Tok V)
    (e : Nat) (ep ep' : EntryPoint) : Prop where
  stages : GenStages o g gen a g1 T1
  stages' : GenStages o g' gen' a g1' T1'
  wf : g.WF
  wf' : g'.WF
  rel : AlphaGrammar u u' g g'
  tables : AlphaGenerated gen gen'
  cons : tf.Consistent g.nTerminals
  pub : g.isPublic e = true
  at_ : StateAt g (generateFirstTable o g) a e [] ep.initState
  at' : StateAt g' (generateFirstTable o g') a e [] ep'.initState
  init : ep.initState = ep'.initState
  ext : (semanticActionVariants g)[e]? = some ep.extract
  ext' : (semanticActionVariants g')[e]? = some ep'.extract
  sem : gen.IsSem g ep.actionIdx e 0
  sem' : gen'.IsSem g' ep'.actionIdx e 0

/-- The two parsers are at the same point. -/
structure AlphaInv (o : HashOrder) (g : Grammar X Ty) (g' : Grammar X' Ty') (a : Automaton)
    (u : UserCode X V W) (u' : UserCode X' V W) (tf : TokenFns Tok V) (e : Nat)
    (input : Nat → Option (Except E Tok)) (w0 : W) (s s' : PState Tok V W E)
    (γ : List Symbol) (toks : List Tok) : Prop where
  inv : RunInv g u tf (StateAt g (generateFirstTable o g) a) e input w0 s γ toks
  inv' : RunInv g' u' tf (StateAt g' (generateFirstTable o g') a) e input w0 s' γ toks
  states : s.states = s'.states
  vals : s.values.map SAR.toB = s'.values.map SAR.toB
  world : s.world = s'.world

variable {tf : TokenFns Tok V} {e : Nat} {ep ep' : EntryPoint}
  {input : Nat → Option (Except E Tok)} {w0 : W} {s s' : PState Tok V W E} {γ : List Symbol}
  {toks : List Tok}

/-- The two parsers did the same. -/
inductive AlphaRes (o : HashOrder) (g : Grammar X Ty) (g' : Grammar X' Ty') (a : Automaton)
    (u : UserCode X V W) (u' : UserCode X' V W) (tf : TokenFns Tok V) (e : Nat)
    (input : Nat → Option (Except E Tok)) (w0 : W) :
    StepResult Tok V W E → StepResult Tok V W E → Prop
  | next {t t' : PState Tok V W E} {δ : List Symbol} {ts : List Tok}
      (hi : AlphaInv o g g' a u u' tf e input w0 t t' δ ts) :
      AlphaRes o g g' a u u' tf e input w0 (.next t) (.next t')
  | done {r : Outcome V E} {t t' : PState Tok V W E} (hw : t.world = t'.world)
      (hc : t.calls = t'.calls) :
      AlphaRes o g g' a u u' tf e input w0 (.done r t) (.done r t')

theorem AlphaInv.token (hi : AlphaInv o g g' a u u' tf e input w0 s s' γ toks) :
    s.token = s'.token := by rw [hi.inv.token, hi.inv'.token]

theorem AlphaInv.calls (hi : AlphaInv o g g' a u u' tf e input w0 s s' γ toks) :
    s.calls = s'.calls := by rw [hi.inv.calls, hi.inv'.calls]

omit [DecidableEq Ty] [DecidableEq Ty'] in
theorem AlphaGrammar.hasProd (h : AlphaGrammar u u' g g') {b p : Nat} {α : List Symbol} :
    g.HasProd b p α ↔ g'.HasProd b p α := by
  rw [hasProd_getProduction, hasProd_getProduction]
  rcases h.production b p with ⟨h1, h2⟩ | ⟨pr, pr', h1, h2, h3⟩
  · simp [h1, h2]
  · simp [h1, h2, h3.syms]

omit [DecidableEq Ty] [DecidableEq Ty'] in
theorem AlphaGrammar.nodeValue (h : AlphaGrammar u u' g g') {b p : Nat} {α : List Symbol}
    (hp : g.HasProd b p α) {vs : List (BVal V)} (hk : List.Forall₂ SymKind α vs) (w : W) :
    g.nodeValue u b p vs w = g'.nodeValue u' b p vs w := by
  obtain ⟨pr, h1, rfl⟩ := hasProd_getProduction.1 hp
  rcases h.production b p with ⟨h2, _⟩ | ⟨_, pr', h2, h3, h4⟩
  · rw [h1] at h2; cases h2
  · rw [h1] at h2; cases h2
    simp only [Grammar.nodeValue, h1, h3, h4.run vs w hk]

theorem tagged_kinds {vars : List Nat} {ss : List Symbol} {vs : List (SAR V)}
    (h : List.Forall₂ (Tagged vars) ss vs) : List.Forall₂ SymKind ss (vs.map SAR.toB) := by
  induction h with
  | nil => exact .nil
  | @cons s v _ _ h _ ih =>
    refine .cons ?_ ih
    cases s with
    | terminal t => obtain ⟨fs, rfl⟩ := h; exact trivial
    | nonTerminal b => obtain ⟨k, x, _, rfl⟩ := h; exact trivial

/-- The production reduced is the same on both sides. -/
theorem RunAlpha.same_prod (hR : RunAlpha o u u' g g' gen gen' a g1 g1' T1 T1' tf e ep ep')
    {q b n k p p' : Nat} {α α' : List Symbol} {c : Option Nat}
    (hq : StateAt g (generateFirstTable o g) a e γ q)
    (hq' : StateAt g' (generateFirstTable o g') a e γ q) (hc : LaOk g.nTerminals c)
    (hact : gen.act q c = some (some (.reduce b n k)))
    (hp : g.HasProd b p α) (hit : ItemsAt g (generateFirstTable o g) e γ ⟨b, p, α.length, c⟩)
    (hpriv : g.isPublic b = false)
    (hp' : g'.HasProd b p' α') (hit' : ItemsAt g' (generateFirstTable o g') e γ ⟨b, p', α'.length, c⟩) :
    p = p' ∧ α = α' := by
  obtain ⟨st, h1, h2⟩ := id hq
  obtain ⟨st', h1', h2'⟩ := hq'
  rw [h1] at h1'; cases h1'
  have hit2 := (h2 _).1 ((h2' _).2 hit')
  have hp2 := hR.rel.hasProd.2 hp'
  obtain ⟨m, m1, _, m3⟩ := hR.stages.cell_char hR.wf hR.pub hq hc
  have hcell : gen.cell q c = some (.reduce b n k) := by rw [Generated.cell_eq, hact]; rfl
  rw [hcell] at m1
  have key : ∀ {p α}, ItemsAt g (generateFirstTable o g) e γ ⟨b, p, α.length, c⟩ → g.HasProd b p α →
      m = some (.reduce b p) := by
    intro p α h3 h4
    rcases m3 (.reduce b p) ⟨α, h3, h4, hpriv⟩ with h | ⟨rfl | rfl, _⟩
    · exact h
    · exact m1.elim
    · exact m1.elim
  have e1 := key hit hp
  rw [key hit2 hp2] at e1
  cases e1
  exact ⟨rfl, by rw [← hp.rhs_eq, hp2.rhs_eq]⟩

/-- What a step does, by the cell of the table. -/
def CellView (g : Grammar X Ty) (F : FirstTable) (u : UserCode X V W) (tf : TokenFns Tok V)
    (At : Nat → List Symbol → Nat → Prop) (e : Nat) (input : Nat → Option (Except E Tok)) (w0 : W)
    (gen : Generated X) (s : PState Tok V W E) (γ : List Symbol) (toks : List Tok) (c : Option Nat)
    (r : StepResult Tok V W E) : Option RtAction → Prop
  | none => ∃ f ex, r = .done (.parserError f ex) s ∧
      (g.terminals ++ ["end-of-input"])[laCol g.nTerminals c]? = some f ∧
      gen.expected[s.states.headD 0]? = some ex
  | some (.shift r1) => ∃ t, s.token = some (.ok t) ∧ r = .next (shiftStep tf input r1 s) ∧
      RunInv g u tf At e input w0 (shiftStep tf input r1 s) (γ ++ [.terminal (tf.terminalIdx t)])
        (toks ++ [t])
  | some (.reduce b n _) => ∃ p α γ0 us rest, g.HasProd b p α ∧ γ = γ0 ++ α ∧ n = α.length ∧
      ItemsAt g F e γ ⟨b, p, α.length, c⟩ ∧ g.isPublic b = false ∧
      us.length = α.length ∧ s.values = us.reverse ++ rest ∧
      ((∃ s1 v, r = .next s1 ∧ (g.stackAlg u tf).node b p us s.world = some (v, s1.world) ∧
        s1.values = v :: rest ∧ RunInv g u tf At e input w0 s1 (γ0 ++ [.nonTerminal b]) toks) ∨
      (r = .done (.fault .userPanic) s ∧ (g.stackAlg u tf).node b p us s.world = none))
  | some .accept => s.token = none ∧ ∃ b, γ = [.nonTerminal b] ∧ g.HasProd e 0 [.nonTerminal b]

theorem StepSpec.view {F : FirstTable} {At : Nat → List Symbol → Nat → Prop}
    {r : StepResult Tok V W E} (h : StepSpec g F gen u tf At e input w0 ep s γ toks r) :
    (∃ err, s.token = some (.error err) ∧ r = .done (.lexerError err) s) ∨
    ∃ c cell, lookahead tf s.token = some c ∧ gen.act (s.states.headD 0) c = some cell ∧
      CellView g F u tf At e input w0 gen s γ toks c r cell := by
  cases h with
  | shift h1 h2 _ _ h3 h4 =>
    subst h3
    exact .inr ⟨_, _, by rw [h1]; rfl, h2, _, h1, rfl, h4⟩
  | @reduce c0 b0 p0 α γ0 k0 s1 h1 h2 h3 h4 h5 h6 h7 h8 h9 =>
    obtain ⟨us, rest, v, x1, x2, x3, x4⟩ := h8
    exact .inr ⟨_, _, h1, h2, p0, α, γ0, us, rest, h4, h3, rfl, h5, h6, x1, x2,
      .inl ⟨s1, v, rfl, x3, x4, h9⟩⟩
  | @panic c0 b0 p0 α γ0 k0 h1 h2 h3 h4 h5 h6 h7 =>
    obtain ⟨us, rest, _, _, x1, x2, _, x3⟩ := h7
    exact .inr ⟨_, _, h1, h2, p0, α, γ0, us, rest, h4, h3, rfl, h5, h6, x1, x2, .inr ⟨rfl, x3⟩⟩
  | lexer h1 => exact .inl ⟨_, h1, rfl⟩
  | «syntax» h1 h2 h3 h4 => exact .inr ⟨_, _, h1, h2, _, _, rfl, h3, h4⟩
  | accept h1 h2 h3 h4 => exact .inr ⟨none, _, by rw [h1]; rfl, h3, h1, _, h2, h4⟩
  | acceptPanic h1 h2 h3 h4 => exact .inr ⟨none, _, by rw [h1]; rfl, h2, h1, _, h3, h4⟩

omit [DecidableEq Ty] [DecidableEq Ty'] in
theorem AlphaGenerated.act (h : AlphaGenerated gen gen') (q : Nat) (c : Option Nat) :
    gen.act q c = gen'.act q c := by simp only [Generated.act, h.action, h.nTerminals]

/-- Values of the symbols on top of the stack have the kinds of the symbols. -/
theorem RunInv.kinds {nT : Nat} (hc : tf.Consistent nT) {At : Nat → List Symbol → Nat → Prop}
    {α γ0 : List Symbol} (hi : RunInv g u tf At e input w0 s (γ0 ++ α) toks) {us rest : List (SAR V)}
    (hl : us.length = α.length) (hv : s.values = us.reverse ++ rest) :
    List.Forall₂ SymKind α (us.map SAR.toB) := by
  obtain ⟨vs, h1, h2⟩ := hi.eval
  have h3 := eval_tagged hc h1
  rw [hv] at h2
  have h4 : vs = rest.reverse ++ us := by
    have := congrArg List.reverse h2
    simpa using this.symm
  subst h4
  have hlen := h3.length_eq
  simp only [List.length_append] at hlen
  have : List.Forall₂ (Tagged (semanticActionVariants g)) α us := by
    have := List.forall₂_drop γ0.length h3
    rwa [List.drop_left, List.drop_left' (by omega)] at this
  exact tagged_kinds this

/-- One step. -/
theorem RunAlpha.step (hR : RunAlpha o u u' g g' gen gen' a g1 g1' T1 T1' tf e ep ep')
    (hi : AlphaInv o g g' a u u' tf e input w0 s s' γ toks) :
    AlphaRes o g g' a u u' tf e input w0 (parseStep gen u tf input ep s)
      (parseStep gen' u' tf input ep' s') := by
  have hpub' : g'.isPublic e = true := by rw [← hR.rel.isPublic]; exact hR.pub
  have hnT : g.nTerminals = g'.nTerminals := by simp only [Grammar.nTerminals, hR.rel.terms]
  have hcons' : tf.Consistent g'.nTerminals := hnT ▸ hR.cons
  have hT := hR.stages.tables hR.wf
  have hT' := hR.stages'.tables hR.wf'
  have hs := (parseStep_spec hR.wf hT hR.cons hR.pub hR.ext hR.sem hi.inv).view
  have hs' := (parseStep_spec hR.wf' hT' hcons' hpub' hR.ext' hR.sem' hi.inv').view
  obtain ⟨q, rest, hst, hq⟩ := hi.inv.stk.top
  obtain ⟨q', rest', hst', hq'⟩ := hi.inv'.stk.top
  have hqq : q = q' := by rw [hi.states, hst'] at hst; cases hst; rfl
  subst hqq
  have hhead : s.states.headD 0 = q := by rw [hst]; rfl
  have hhead' : s'.states.headD 0 = q := by rw [hst']; rfl
  generalize hr : parseStep gen u tf input ep s = r at hs
  generalize hr' : parseStep gen' u' tf input ep' s' = r' at hs'
  have htok := hi.token
  rcases hs with ⟨err, h1, rfl⟩ | ⟨c, cell, h1, h2, h3⟩
  · rcases hs' with ⟨err', h1', rfl⟩ | ⟨c', cell', h1', h2', h3'⟩
    · rw [← htok, h1] at h1'; cases h1'
      exact .done hi.world hi.calls
    · rw [← htok, h1] at h1'; cases h1'
  rcases hs' with ⟨err', h1', rfl⟩ | ⟨c', cell', h1', h2', h3'⟩
  · rw [htok, h1'] at h1; cases h1
  have hcc : c = c' := by
    rw [htok, h1'] at h1; exact (Option.some.inj h1).symm
  subst hcc
  have hce : cell = cell' := by
    rw [hhead, hR.tables.act] at h2
    rw [hhead', h2] at h2'
    exact Option.some.inj h2'
  subst hce
  have hcok := laOk_lookahead hR.cons h1
  match cell, h2, h2', h3, h3' with
  | none, h2, h2', h3, h3' =>
    obtain ⟨f, ex, rfl, k1, k2⟩ := h3
    obtain ⟨f', ex', rfl, k1', k2'⟩ := h3'
    rw [← hnT, ← hR.rel.terms, k1] at k1'
    rw [← hi.states, ← hR.tables.expected, k2] at k2'
    cases k1'; cases k2'
    exact .done hi.world hi.calls
  | some (.shift r1), h2, h2', h3, h3' =>
    obtain ⟨t, k1, rfl, k3⟩ := h3
    obtain ⟨t', k1', rfl, k3'⟩ := h3'
    rw [htok, k1'] at k1
    cases k1
    refine .next ⟨k3, k3', ?_, ?_, hi.world⟩
    · simp only [shiftStep, hi.states]
    · simp only [shiftStep, htok, k1', List.map_cons, hi.vals]
  | some .accept, h2, h2', h3, h3' =>
    obtain ⟨k1, b, k3, k4⟩ := h3
    obtain ⟨k1', b', k3', k4'⟩ := h3'
    have hinv := hi.inv
    have hinv' := hi.inv'
    rw [k3] at hinv
    rw [k3'] at hinv'
    have hc0 : c = none := by rw [k1] at h1; cases h1; rfl
    subst hc0
    obtain ⟨u0, a1, a2⟩ := accept_value hR.cons hR.ext hR.sem hinv k1 k4 h2
    obtain ⟨u0', b1, b2⟩ := accept_value hcons' hR.ext' hR.sem' hinv' k1' k4' h2'
    have hv := hi.vals
    rw [a1, b1] at hv
    simp only [List.map_cons, List.map_nil, List.cons.injEq, and_true] at hv
    have hkind : List.Forall₂ SymKind [.nonTerminal b] ([u0].map SAR.toB) :=
      RunInv.kinds hR.cons (γ0 := []) (rest := []) hinv rfl (by simp [a1])
    have hnv := hR.rel.nodeValue k4 hkind s.world
    simp only [List.map_cons, List.map_nil] at hnv
    rw [hr] at a2
    rw [hr'] at b2
    rw [← hv, ← hi.world, ← hnv] at b2
    rcases a2 with ⟨a3, rfl⟩ | ⟨v, w', a3, rfl⟩
    · rcases b2 with ⟨b3, rfl⟩ | ⟨v', w'', b3, rfl⟩
      · exact .done hi.world hi.calls
      · rw [a3] at b3; cases b3
    · rcases b2 with ⟨b3, rfl⟩ | ⟨v', w'', b3, rfl⟩
      · rw [a3] at b3; cases b3
      · rw [a3] at b3; cases b3
        exact .done rfl hi.calls
  | some (.reduce b n k), h2, h2', h3, h3' =>
    obtain ⟨p, α, γ0, us, rest0, k1, k2, kn, ki, kp, k3, k4, k5⟩ := h3
    obtain ⟨p', α', γ0', us', rest0', k1', k2', kn', ki', kp', k3', k4', k5'⟩ := h3'
    obtain ⟨rfl, rfl⟩ := hR.same_prod hq hq' hcok (by rw [← hhead]; exact h2) k1 ki kp k1' ki'
    have hγ : γ0 = γ0' := by
      rw [k2] at k2'; exact List.append_cancel_right k2'
    subst hγ
    have hvals := hi.vals
    rw [k4, k4', List.map_append, List.map_append] at hvals
    obtain ⟨v1, v2⟩ := List.append_inj hvals (by simp [k3, k3'])
    rw [List.map_reverse, List.map_reverse] at v1
    have v1 := List.reverse_inj.1 v1
    have hinv := hi.inv
    rw [k2] at hinv
    have hkind := RunInv.kinds hR.cons hinv k3 k4
    have hnv := hR.rel.nodeValue k1 hkind s.world
    have hlt : ∃ kk, (semanticActionVariants g)[b]? = some kk := by
      obtain ⟨n0, _, z1, _⟩ := k1
      exact semanticActionVariants_some g z1
    have hlt' : ∃ kk, (semanticActionVariants g')[b]? = some kk := by
      obtain ⟨n0, _, z1, _⟩ := k1'
      exact semanticActionVariants_some g' z1
    obtain ⟨kk, hkk⟩ := hlt
    obtain ⟨kk', hkk'⟩ := hlt'
    have hL := stackAlg_node_cases (u := u) (tf := tf) (p := p) hkk us s.world
    have hL' := stackAlg_node_cases (u := u') (tf := tf) (p := p) hkk' us' s'.world
    rw [← v1, ← hi.world, ← hnv] at hL'
    rw [← hi.world] at k5'
    rcases k5 with ⟨s1, v, rfl, x1, x2, x3⟩ | ⟨rfl, x1⟩
    · rcases hL with ⟨y1, _⟩ | ⟨z, w1, y1, y2⟩
      · rw [x1] at y1; cases y1
      rw [x1] at y1
      simp only [Option.some.injEq, Prod.mk.injEq] at y1
      obtain ⟨rfl, rfl⟩ := y1
      rcases k5' with ⟨s1', v', rfl, x1', x2', x3'⟩ | ⟨rfl, x1'⟩
      · rcases hL' with ⟨y1', _⟩ | ⟨z', w1', y1', y2'⟩
        · rw [x1'] at y1'; cases y1'
        rw [x1'] at y1'
        simp only [Option.some.injEq, Prod.mk.injEq] at y1'
        obtain ⟨rfl, rfl⟩ := y1'
        rw [y2] at y2'
        simp only [Option.some.injEq, Prod.mk.injEq, BVal.nt.injEq] at y2'
        refine .next ⟨x3, x3', ?_, ?_, y2'.2⟩
        · obtain ⟨st, rs, nx, q1, q2, q3, _⟩ := reduceStep_reads (parseStep_reduce h1 h2 hr)
          obtain ⟨st', rs', nx', q1', q2', q3', _⟩ := reduceStep_reads (parseStep_reduce h1' h2' hr')
          rw [hi.states, q1'] at q1
          cases q1
          have : gen.go st b = gen'.go st b := by simp only [Generated.go, hR.tables.goto]
          rw [this, q2'] at q2
          cases q2
          rw [q3, q3']
        · rw [x2, x2', List.map_cons, List.map_cons, v2]
          simp [SAR.toB, y2'.1]
      · rcases hL' with ⟨_, y2'⟩ | ⟨z', w1', y1', y2'⟩
        · rw [y2] at y2'; cases y2'
        · rw [x1'] at y1'; cases y1'
    · rcases hL with ⟨_, y2⟩ | ⟨z, w1, y1, _⟩
      · rcases k5' with ⟨s1', v', rfl, x1', x2', x3'⟩ | ⟨rfl, x1'⟩
        · rcases hL' with ⟨y1', _⟩ | ⟨z', w1', y1', y2'⟩
          · rw [x1'] at y1'; cases y1'
          · rw [y2] at y2'; cases y2'
        · exact .done hi.world hi.calls
      · rw [x1] at y1; cases y1

/-- Whole runs. -/
theorem RunAlpha.loop (hR : RunAlpha o u u' g g' gen gen' a g1 g1' T1 T1' tf e ep ep')
    (fuel : Nat) (hi : AlphaInv o g g' a u u' tf e input w0 s s' γ toks) :
    (parseLoop gen u tf input ep fuel s = none ∧ parseLoop gen' u' tf input ep' fuel s' = none) ∨
    ∃ r t t', parseLoop gen u tf input ep fuel s = some (r, t) ∧
      parseLoop gen' u' tf input ep' fuel s' = some (r, t') ∧ t.world = t'.world ∧
      t.calls = t'.calls := by
  induction fuel generalizing s s' γ toks with
  | zero => exact .inl ⟨rfl, rfl⟩
  | succ fuel ih =>
    have hst := hR.step hi
    unfold parseLoop
    generalize parseStep gen u tf input ep s = r at hst
    generalize parseStep gen' u' tf input ep' s' = r' at hst
    cases hst with
    | next hi' => exact ih hi'
    | done hw hc => exact .inr ⟨_, _, _, rfl, rfl, hw, hc⟩

/-- Whole parses. -/
theorem RunAlpha.parse (hR : RunAlpha o u u' g g' gen gen' a g1 g1' T1 T1' tf e ep ep')
    (input : Nat → Option (Except E Tok)) (w : W) (fuel : Nat) :
    (parse gen u tf input ep w fuel = none ∧ parse gen' u' tf input ep' w fuel = none) ∨
    ∃ r t t', parse gen u tf input ep w fuel = some (r, t) ∧
      parse gen' u' tf input ep' w fuel = some (r, t') ∧ t.world = t'.world ∧ t.calls = t'.calls :=
  hR.loop fuel ⟨runInv_init hR.at_, runInv_init hR.at', by simp only [parseInit, hR.init], rfl, rfl⟩

end Parsegen
