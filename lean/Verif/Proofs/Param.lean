import Verif.Proofs.AlphaRun
import Verif.Spec.Param

/-! # Lock-step simulation of parsers with corresponding actions -/

namespace Parsegen

variable {X X' Ty Ty' V V' W W' Tok Tok' E E' : Type} [DecidableEq Ty] [DecidableEq Ty']
  {o : HashOrder} {g : Grammar X Ty} {g' : Grammar X' Ty'} {gen : Generated X} {gen' : Generated X'}
  {a : Automaton} {g1 : Grammar Nat Ty} {g1' : Grammar Nat Ty'} {T1 T1' : LRTable Nat}
  {u : UserCode X V W} {u' : UserCode X' V' W'}

/-- Corresponding values, by the symbols of the lowered grammar. -/
abbrev SymRel (V V' : Type) := Symbol → BVal V → BVal V' → Prop

/-- Corresponding results of actions. -/
def SymRel.Node (S : SymRel V V') (RW : W → W' → Prop) (b : Nat) :
    Option (BVal V × W) → Option (BVal V' × W') → Prop
  | none, none => True
  | some (x, w), some (x', w') => S (.nonTerminal b) x x' ∧ RW w w'
  | _, _ => False

/-- Corresponding values of a string of symbols. -/
def SymRel.All (S : SymRel V V') (γ : List Symbol) (zs : List (BVal V × BVal V')) : Prop :=
  List.Forall₂ (fun x z => S x z.1 z.2) γ zs

/-- Corresponding items, by the emitted token functions. -/
def ItemRel (S : SymRel V V') (RE : E → E' → Prop) (tf : TokenFns Tok V) (tf' : TokenFns Tok' V') :
    Option (Except E Tok) → Option (Except E' Tok') → Prop
  | none, none => True
  | some (.error e), some (.error e') => RE e e'
  | some (.ok t), some (.ok t') => tf.terminalIdx t = tf'.terminalIdx t' ∧
      S (.terminal (tf.terminalIdx t)) (.tok (tf.fields t)) (.tok (tf'.fields t'))
  | _, _ => False

/-- Entry points of corresponding parsers. -/
structure RunParam (o : HashOrder) (S : SymRel V V') (RW : W → W' → Prop) (r : V → V' → Prop)
    (u : UserCode X V W) (u' : UserCode X' V' W') (g : Grammar X Ty)
    (g' : Grammar X' Ty') (gen : Generated X) (gen' : Generated X') (a : Automaton)
    (g1 : Grammar Nat Ty) (g1' : Grammar Nat Ty') (T1 T1' : LRTable Nat) (tf : TokenFns Tok V)
    (tf' : TokenFns Tok' V') (e : Nat) (ep ep' : EntryPoint) : Prop where
  stages : GenStages o g gen a g1 T1
  stages' : GenStages o g' gen' a g1' T1'
  wf : g.WF
  wf' : g'.WF
  prods : ∀ {b p α}, g.HasProd b p α ↔ g'.HasProd b p α
  terms : g.terminals = g'.terminals
  tables : AlphaGenerated gen gen'
  cons : tf.Consistent g.nTerminals
  cons' : tf'.Consistent g.nTerminals
  pub : g.isPublic e = true
  pub' : g'.isPublic e = true
  at_ : StateAt g (generateFirstTable o g) a e [] ep.initState
  at' : StateAt g' (generateFirstTable o g') a e [] ep'.initState
  init : ep.initState = ep'.initState
  ext : (semanticActionVariants g)[e]? = some ep.extract
  ext' : (semanticActionVariants g')[e]? = some ep'.extract
  sem : gen.IsSem g ep.actionIdx e 0
  sem' : gen'.IsSem g' ep'.actionIdx e 0
  node : ∀ {b p α zs w w'}, g.HasProd b p α → g.isPublic b = false → S.All α zs → RW w w' →
    S.Node RW b (g.nodeValue u b p (zs.map (·.1)) w) (g'.nodeValue u' b p (zs.map (·.2)) w')
  wrap : ∀ {b x x'}, g.HasProd e 0 [.nonTerminal b] → (∃ p α, g.HasProd b p α) →
    S (.nonTerminal b) x x' → ∃ v v', r v v' ∧ (∀ w, g.nodeValue u e 0 [x] w = some (.nt v, w)) ∧
      ∀ w, g'.nodeValue u' e 0 [x'] w = some (.nt v', w)

/-- The two parsers are at corresponding points. -/
structure ParamInv (o : HashOrder) (S : SymRel V V') (RW : W → W' → Prop) (g : Grammar X Ty)
    (g' : Grammar X' Ty') (a : Automaton) (u : UserCode X V W) (u' : UserCode X' V' W')
    (tf : TokenFns Tok V) (tf' : TokenFns Tok' V') (e : Nat)
    (input : Nat → Option (Except E Tok)) (input' : Nat → Option (Except E' Tok')) (w0 : W) (w0' : W')
    (s : PState Tok V W E) (s' : PState Tok' V' W' E')
    (γ : List Symbol) (toks : List Tok) (toks' : List Tok') (zs : List (BVal V × BVal V')) : Prop where
  inv : RunInv g u tf (StateAt g (generateFirstTable o g) a) e input w0 s γ toks
  inv' : RunInv g' u' tf' (StateAt g' (generateFirstTable o g') a) e input' w0' s' γ toks'
  len : toks.length = toks'.length
  states : s.states = s'.states
  all : S.All γ zs
  vals : s.values.map SAR.toB = (zs.map (·.1)).reverse
  vals' : s'.values.map SAR.toB = (zs.map (·.2)).reverse
  world : RW s.world s'.world

variable {S : SymRel V V'} {RW : W → W' → Prop} {r : V → V' → Prop} {RE : E → E' → Prop}
  {tf : TokenFns Tok V} {tf' : TokenFns Tok' V'} {e : Nat} {ep ep' : EntryPoint}
  {input : Nat → Option (Except E Tok)} {input' : Nat → Option (Except E' Tok')} {w0 : W} {w0' : W'}
  {s : PState Tok V W E} {s' : PState Tok' V' W' E'} {γ : List Symbol}
  {toks : List Tok} {toks' : List Tok'} {zs : List (BVal V × BVal V')}

/-- Corresponding steps. -/
inductive ParamRes (o : HashOrder) (S : SymRel V V') (RW : W → W' → Prop) (r : V → V' → Prop)
    (RE : E → E' → Prop) (g : Grammar X Ty) (g' : Grammar X' Ty') (a : Automaton)
    (u : UserCode X V W) (u' : UserCode X' V' W') (tf : TokenFns Tok V) (tf' : TokenFns Tok' V') (e : Nat)
    (input : Nat → Option (Except E Tok)) (input' : Nat → Option (Except E' Tok')) (w0 : W) (w0' : W') :
    StepResult Tok V W E → StepResult Tok' V' W' E' → Prop
  | next {t t' δ ts ts' zs}
      (hi : ParamInv o S RW g g' a u u' tf tf' e input input' w0 w0' t t' δ ts ts' zs) :
      ParamRes o S RW r RE g g' a u u' tf tf' e input input' w0 w0' (.next t) (.next t')
  | done {x x' t t'} (hw : RW t.world t'.world) (hc : t.calls = t'.calls)
      (ho : CorrespondingOutcomes r RE x x') :
      ParamRes o S RW r RE g g' a u u' tf tf' e input input' w0 w0' (.done x t) (.done x' t')

theorem ParamInv.calls
    (hi : ParamInv o S RW g g' a u u' tf tf' e input input' w0 w0' s s' γ toks toks' zs) :
    s.calls = s'.calls := by rw [hi.inv.calls, hi.inv'.calls, hi.len]

/-- The production reduced is the same on both sides. -/
theorem RunParam.same_prod
    (hR : RunParam o S RW r u u' g g' gen gen' a g1 g1' T1 T1' tf tf' e ep ep')
    {q b n k p p' : Nat} {α α' : List Symbol} {c : Option Nat}
    (hq : StateAt g (generateFirstTable o g) a e γ q)
    (hq' : StateAt g' (generateFirstTable o g') a e γ q) (hc : LaOk g.nTerminals c)
    (hact : gen.act q c = some (some (.reduce b n k)))
    (hp : g.HasProd b p α) (hit : ItemsAt g (generateFirstTable o g) e γ ⟨b, p, α.length, c⟩)
    (hpriv : g.isPublic b = false)
    (hp' : g'.HasProd b p' α') (hit' : ItemsAt g' (generateFirstTable o g') e γ ⟨b, p', α'.length, c⟩) :
    p = p' ∧ α = α' := by
  obtain ⟨st, h1, h2⟩ := id hq
  obtain ⟨st', h1', h2'⟩ := hq'
  rw [h1] at h1'; cases h1'
  have hit2 := (h2 _).1 ((h2' _).2 hit')
  have hp2 := hR.prods.2 hp'
  obtain ⟨m, m1, _, m3⟩ := hR.stages.cell_char hR.wf hR.pub hq hc
  have hcell : gen.cell q c = some (.reduce b n k) := by rw [Generated.cell_eq, hact]; rfl
  rw [hcell] at m1
  have key : ∀ {p α}, ItemsAt g (generateFirstTable o g) e γ ⟨b, p, α.length, c⟩ → g.HasProd b p α →
      m = some (.reduce b p) := by
    intro p α h3 h4
    rcases m3 (.reduce b p) ⟨α, h3, h4, hpriv⟩ with h | ⟨rfl | rfl, _⟩
    · exact h
    · exact m1.elim
    · exact m1.elim
  have e1 := key hit hp
  rw [key hit2 hp2] at e1
  cases e1
  exact ⟨rfl, by rw [← hp.rhs_eq, hp2.rhs_eq]⟩

/-- One step. -/
theorem RunParam.step (hR : RunParam o S RW r u u' g g' gen gen' a g1 g1' T1 T1' tf tf' e ep ep')
    (hin : ∀ i, ItemRel S RE tf tf' (input i) (input' i))
    (hi : ParamInv o S RW g g' a u u' tf tf' e input input' w0 w0' s s' γ toks toks' zs) :
    ParamRes o S RW r RE g g' a u u' tf tf' e input input' w0 w0' (parseStep gen u tf input ep s)
      (parseStep gen' u' tf' input' ep' s') := by
  have hnT : g.nTerminals = g'.nTerminals := by simp only [Grammar.nTerminals, hR.terms]
  have hcons' : tf'.Consistent g'.nTerminals := hnT ▸ hR.cons'
  have hT := hR.stages.tables hR.wf
  have hT' := hR.stages'.tables hR.wf'
  have hs := (parseStep_spec hR.wf hT hR.cons hR.pub hR.ext hR.sem hi.inv).view
  have hs' := (parseStep_spec hR.wf' hT' hcons' hR.pub' hR.ext' hR.sem' hi.inv').view
  obtain ⟨q, rest, hst, hq⟩ := hi.inv.stk.top
  obtain ⟨q', rest', hst', hq'⟩ := hi.inv'.stk.top
  have hqq : q = q' := by rw [hi.states, hst'] at hst; cases hst; rfl
  subst hqq
  have hhead : s.states.headD 0 = q := by rw [hst]; rfl
  have hhead' : s'.states.headD 0 = q := by rw [hst']; rfl
  generalize hr : parseStep gen u tf input ep s = r1 at hs
  generalize hr' : parseStep gen' u' tf' input' ep' s' = r1' at hs'
  have htok : ItemRel S RE tf tf' s.token s'.token := by
    rw [hi.inv.token, hi.inv'.token, ← hi.len]; exact hin _
  have hcalls := hi.calls
  rcases hs with ⟨err, h1, rfl⟩ | ⟨c, cell, h1, h2, h3⟩
  · rcases hs' with ⟨err', h1', rfl⟩ | ⟨c', cell', h1', h2', h3'⟩
    · rw [h1, h1'] at htok
      exact .done hi.world hcalls htok
    · rw [h1] at htok
      cases h5 : s'.token with
      | none => rw [h5] at htok; exact htok.elim
      | some x => cases x with
        | error e => rw [h5] at h1'; cases h1'
        | ok t => rw [h5] at htok; exact htok.elim
  rcases hs' with ⟨err', h1', rfl⟩ | ⟨c', cell', h1', h2', h3'⟩
  · rw [h1'] at htok
    cases h5 : s.token with
    | none => rw [h5] at htok; exact htok.elim
    | some x => cases x with
      | error e => rw [h5] at h1; cases h1
      | ok t => rw [h5] at htok; exact htok.elim
  have hcc : c = c' := by
    cases h5 : s.token with
    | none =>
      cases h6 : s'.token with
      | none => rw [h5] at h1; rw [h6] at h1'; cases h1; cases h1'; rfl
      | some x => rw [h5, h6] at htok; cases x <;> exact htok.elim
    | some x =>
      cases x with
      | error e => rw [h5] at h1; cases h1
      | ok t =>
        cases h6 : s'.token with
        | none => rw [h5, h6] at htok; exact htok.elim
        | some x => cases x with
          | error e => rw [h6] at h1'; cases h1'
          | ok t' =>
            rw [h5, h6] at htok
            rw [h5] at h1; rw [h6] at h1'
            simp only [lookahead, Option.some.injEq] at h1 h1'
            rw [← h1, ← h1', htok.1]
  subst hcc
  have hce : cell = cell' := by
    rw [hhead, hR.tables.act] at h2
    rw [hhead', h2] at h2'
    exact Option.some.inj h2'
  subst hce
  have hcok := laOk_lookahead hR.cons h1
  match cell, h2, h2', h3, h3' with
  | none, h2, h2', h3, h3' =>
    obtain ⟨f, ex, rfl, k1, k2⟩ := h3
    obtain ⟨f', ex', rfl, k1', k2'⟩ := h3'
    rw [← hnT, ← hR.terms, k1] at k1'
    rw [← hi.states, ← hR.tables.expected, k2] at k2'
    cases k1'; cases k2'
    exact .done hi.world hcalls ⟨rfl, rfl⟩
  | some (.shift r1), h2, h2', h3, h3' =>
    obtain ⟨t, k1, rfl, k3⟩ := h3
    obtain ⟨t', k1', rfl, k3'⟩ := h3'
    rw [k1, k1'] at htok
    rw [← htok.1] at k3'
    refine .next (zs := zs ++ [(.tok (tf.fields t), .tok (tf'.fields t'))]) ⟨k3, k3', ?_, ?_, ?_, ?_, ?_, hi.world⟩
    · simp [hi.len]
    · simp only [shiftStep, hi.states]
    · exact List.rel_append hi.all (.cons htok.2 .nil)
    · simp only [shiftStep, k1, List.map_cons, hi.vals, List.map_append, List.map_nil,
        List.reverse_append, List.reverse_cons, List.reverse_nil, List.nil_append,
        List.singleton_append, hR.cons.value, SAR.toB]
    · simp only [shiftStep, k1', List.map_cons, hi.vals', List.map_append, List.map_nil,
        List.reverse_append, List.reverse_cons, List.reverse_nil, List.nil_append,
        List.singleton_append, hR.cons'.value, SAR.toB]
  | some .accept, h2, h2', h3, h3' =>
    obtain ⟨k1, b, k3, k4⟩ := h3
    obtain ⟨k1', b', k3', k4'⟩ := h3'
    have hinv := hi.inv
    have hinv' := hi.inv'
    have hall := hi.all
    have hbb : b = b' := by rw [k3] at k3'; cases k3'; rfl
    subst hbb
    rw [k3] at hinv hinv' hall
    have hc0 : c = none := by rw [k1] at h1; cases h1; rfl
    subst hc0
    obtain ⟨u0, a1, a2⟩ := accept_value hR.cons hR.ext hR.sem hinv k1 k4 h2
    obtain ⟨u0', b1, b2⟩ := accept_value hcons' hR.ext' hR.sem' hinv' k1' k4' h2'
    match zs, hall, hi.vals, hi.vals' with
    | [(z, z')], .cons hz .nil, hv, hv' =>
      rw [a1] at hv
      rw [b1] at hv'
      simp only [List.map_cons, List.map_nil, List.reverse_cons, List.reverse_nil, List.nil_append,
        List.cons.injEq, and_true] at hv hv'
      have hpb : ∃ p α, g.HasProd b p α := by
        obtain ⟨vs, h5, _⟩ := hinv.eval
        cases h5 with
        | nt hp _ _ _ => exact ⟨_, _, hp⟩
      obtain ⟨v, v', w1, w2, w3⟩ := hR.wrap k4 hpb hz
      rw [hr, hv, w2] at a2
      rw [hr', hv', w3] at b2
      rcases a2 with ⟨a3, _⟩ | ⟨x, y, a3, rfl⟩
      · cases a3
      rcases b2 with ⟨b3, _⟩ | ⟨x', y', b3, rfl⟩
      · cases b3
      cases a3; cases b3
      exact .done hi.world hcalls w1
  | some (.reduce b n k), h2, h2', h3, h3' =>
    obtain ⟨p, α, γ0, us, rest0, k1, k2, kn, ki, kp, k3, k4, k5⟩ := h3
    obtain ⟨p', α', γ0', us', rest0', k1', k2', kn', ki', kp', k3', k4', k5'⟩ := h3'
    obtain ⟨rfl, rfl⟩ := hR.same_prod hq hq' hcok (by rw [← hhead]; exact h2) k1 ki kp k1' ki'
    have hγ : γ0 = γ0' := by
      rw [k2] at k2'; exact List.append_cancel_right k2'
    subst hγ
    have hall := hi.all
    rw [k2] at hall
    have hzl : zs.length = γ0.length + α.length := by
      have := hall.length_eq; simp at this; omega
    -- split the values
    have hA0 : S.All γ0 (zs.take γ0.length) := by
      have := List.forall₂_take γ0.length hall
      rwa [List.take_left] at this
    have hA1 : S.All α (zs.drop γ0.length) := by
      have := List.forall₂_drop γ0.length hall
      rwa [List.drop_left] at this
    generalize hz0 : zs.take γ0.length = z0 at hA0
    generalize hz1 : zs.drop γ0.length = z1 at hA1
    have hz : zs = z0 ++ z1 := by rw [← hz0, ← hz1, List.take_append_drop]
    have hz1l : z1.length = α.length := hA1.length_eq.symm
    have split : us.map SAR.toB = z1.map (·.1) ∧ rest0.map SAR.toB = (z0.map (·.1)).reverse := by
      have hv := hi.vals
      rw [k4, hz, List.map_append, List.map_append, List.reverse_append] at hv
      obtain ⟨v1, v2⟩ := List.append_inj hv (by simp [k3, hz1l])
      rw [List.map_reverse] at v1
      exact ⟨List.reverse_inj.1 v1, v2⟩
    have split' : us'.map SAR.toB = z1.map (·.2) ∧ rest0'.map SAR.toB = (z0.map (·.2)).reverse := by
      have hv := hi.vals'
      rw [k4', hz, List.map_append, List.map_append, List.reverse_append] at hv
      obtain ⟨v1, v2⟩ := List.append_inj hv (by simp [k3', hz1l])
      rw [List.map_reverse] at v1
      exact ⟨List.reverse_inj.1 v1, v2⟩
    have hnv := hR.node k1 kp hA1 hi.world
    rw [← split.1, ← split'.1] at hnv
    obtain ⟨kk, hkk⟩ : ∃ kk, (semanticActionVariants g)[b]? = some kk := by
      obtain ⟨n0, _, z1, _⟩ := k1
      exact semanticActionVariants_some g z1
    obtain ⟨kk', hkk'⟩ : ∃ kk, (semanticActionVariants g')[b]? = some kk := by
      obtain ⟨n0, _, z1, _⟩ := k1'
      exact semanticActionVariants_some g' z1
    have hL := stackAlg_node_cases (u := u) (tf := tf) (p := p) hkk us s.world
    have hL' := stackAlg_node_cases (u := u') (tf := tf') (p := p) hkk' us' s'.world
    rcases k5 with ⟨s1, v, rfl, x1, x2, x3⟩ | ⟨rfl, x1⟩
    · rcases hL with ⟨y1, _⟩ | ⟨z, w1, y1, y2⟩
      · rw [x1] at y1; cases y1
      rw [x1] at y1
      simp only [Option.some.injEq, Prod.mk.injEq] at y1
      obtain ⟨rfl, rfl⟩ := y1
      rw [y2] at hnv
      rcases k5' with ⟨s1', v', rfl, x1', x2', x3'⟩ | ⟨rfl, x1'⟩
      · rcases hL' with ⟨y1', _⟩ | ⟨z', w1', y1', y2'⟩
        · rw [x1'] at y1'; cases y1'
        rw [x1'] at y1'
        simp only [Option.some.injEq, Prod.mk.injEq] at y1'
        obtain ⟨rfl, rfl⟩ := y1'
        rw [y2'] at hnv
        refine .next (zs := z0 ++ [(.nt z, .nt z')]) ⟨x3, x3', hi.len, ?_, ?_, ?_, ?_, hnv.2⟩
        · obtain ⟨st, rs, nx, q1, q2, q3, _⟩ := reduceStep_reads (parseStep_reduce h1 h2 hr)
          obtain ⟨st', rs', nx', q1', q2', q3', _⟩ := reduceStep_reads (parseStep_reduce h1' h2' hr')
          rw [hi.states, q1'] at q1
          cases q1
          have : gen.go st b = gen'.go st b := by simp only [Generated.go, hR.tables.goto]
          rw [this, q2'] at q2
          cases q2
          rw [q3, q3']
        · exact List.rel_append hA0 (.cons hnv.1 .nil)
        · rw [x2, List.map_cons, split.2]; simp [SAR.toB]
        · rw [x2', List.map_cons, split'.2]; simp [SAR.toB]
      · rcases hL' with ⟨_, y2'⟩ | ⟨z', w1', y1', y2'⟩
        · rw [y2'] at hnv; exact hnv.elim
        · rw [x1'] at y1'; cases y1'
    · rcases hL with ⟨_, y2⟩ | ⟨z, w1, y1, _⟩
      · rw [y2] at hnv
        rcases k5' with ⟨s1', v', rfl, x1', x2', x3'⟩ | ⟨rfl, x1'⟩
        · rcases hL' with ⟨y1', _⟩ | ⟨z', w1', y1', y2'⟩
          · rw [x1'] at y1'; cases y1'
          · rw [y2'] at hnv; exact hnv.elim
        · exact .done hi.world hcalls rfl
      · rw [x1] at y1; cases y1

/-- Whole runs. -/
theorem RunParam.loop (hR : RunParam o S RW r u u' g g' gen gen' a g1 g1' T1 T1' tf tf' e ep ep')
    (hin : ∀ i, ItemRel S RE tf tf' (input i) (input' i)) (fuel : Nat)
    (hi : ParamInv o S RW g g' a u u' tf tf' e input input' w0 w0' s s' γ toks toks' zs) :
    (parseLoop gen u tf input ep fuel s = none ∧ parseLoop gen' u' tf' input' ep' fuel s' = none) ∨
    ∃ x x' t t', parseLoop gen u tf input ep fuel s = some (x, t) ∧
      parseLoop gen' u' tf' input' ep' fuel s' = some (x', t') ∧ RW t.world t'.world ∧
      t.calls = t'.calls ∧ CorrespondingOutcomes r RE x x' := by
  induction fuel generalizing s s' γ toks toks' zs with
  | zero => exact .inl ⟨rfl, rfl⟩
  | succ fuel ih =>
    have hst := hR.step hin hi
    unfold parseLoop
    generalize parseStep gen u tf input ep s = r at hst
    generalize parseStep gen' u' tf' input' ep' s' = r' at hst
    cases hst with
    | next hi' => exact ih hi'
    | done hw hc ho => exact .inr ⟨_, _, _, _, rfl, rfl, hw, hc, ho⟩

/-- Whole parses. -/
theorem RunParam.parse (hR : RunParam o S RW r u u' g g' gen gen' a g1 g1' T1 T1' tf tf' e ep ep')
    (hin : ∀ i, ItemRel S RE tf tf' (input i) (input' i)) (w : W) (w' : W') (hw : RW w w') (fuel : Nat) :
    (parse gen u tf input ep w fuel = none ∧ parse gen' u' tf' input' ep' w' fuel = none) ∨
    ∃ x x' t t', parse gen u tf input ep w fuel = some (x, t) ∧
      parse gen' u' tf' input' ep' w' fuel = some (x', t') ∧ RW t.world t'.world ∧
      t.calls = t'.calls ∧ CorrespondingOutcomes r RE x x' :=
  hR.loop hin fuel ⟨runInv_init hR.at_, runInv_init hR.at', rfl, by simp only [parseInit, hR.init], .nil,
    rfl, rfl, hw⟩

end Parsegen
