import Verif.Proofs.Linear
import Verif.Props.During

/-! # C50: parsing takes linear time and space -/

namespace Parsegen

variable {X Ty V W Tok E : Type} [DecidableEq Ty] {P : Compiled X Ty V W Tok} {ep : EntryPoint}
  {input : Nat → Option (Except E Tok)} {w w' : W} {n : Nat}

omit [DecidableEq Ty] in
theorem Iterations.steps {gen : Generated X} {u : UserCode X V W} {tf : TokenFns Tok V} {k : Nat}
    {s s' : PState Tok V W E} (h : Iterations gen u tf input ep k s s') :
    Steps gen u tf input ep s s' := by
  induction h with
  | zero => exact .refl _
  | succ _ hn ih => exact .tail ih hn

/-- The bound on a run of the loop, in terms of the state stack. -/
theorem iterations_bound {g : Grammar X Ty} {F : FirstTable} {gen : Generated X} {u : UserCode X V W}
    {tf : TokenFns Tok V} {At : Nat → List Symbol → Nat → Prop} {e : Nat} (hwf : g.WF)
    (hT : Tables g F gen At) (hc : tf.Consistent g.nTerminals) (he : g.isPublic e = true)
    (hext : (semanticActionVariants g)[e]? = some ep.extract)
    (hsem : gen.IsSem g ep.actionIdx e 0) {K : Nat}
    (hK : ∀ (c : Option Nat) (γ : List Symbol) (l : List Nat), LaOk g.nTerminals c → Stk At e γ l →
      Bounded gen c K (l.take 2))
    (hini : At e [] ep.initState) {k : Nat} {s : PState Tok V W E}
    (h : Iterations gen u tf input ep k (parseInit input ep w) s) :
    ∃ (k0 j : Nat) (γ0 : List Symbol) (sts0 : List Nat), k = k0 + j ∧ Stk At e γ0 sts0 ∧
      k0 + (K + 1) * sts0.length ≤ (K + 1) + (s.calls - 1) * ((K + 1) * (K + 3)) ∧ 1 ≤ s.calls ∧
      ((j = 0 ∧ sts0 = s.states) ∨ ∃ c, lookahead tf s.token = some c ∧ RedRun gen c j sts0 s.states) := by
  have hrun := fun (k : Nat) (s : PState Tok V W E)
    (h : Iterations gen u tf input ep k (parseInit input ep w) s) =>
    steps_inv (w0 := w) hwf hT hc he hext hsem h.steps (runInv_init hini) trace_init
  have hfin : ∀ (k0 j : Nat) (γ0 : List Symbol) (sts0 : List Nat) (s : PState Tok V W E),
      Stk At e γ0 sts0 → ((j = 0 ∧ sts0 = s.states) ∨
        ∃ c, lookahead tf s.token = some c ∧ RedRun gen c j sts0 s.states) →
      j + (K + 1) * s.states.length ≤ (K + 1) * (sts0.length + K + 1) := by
    intro k0 j γ0 sts0 s hs h
    rcases h with ⟨rfl, rfl⟩ | ⟨c, hc', h⟩
    · have := Nat.mul_le_mul_left (K + 1) (show s.states.length ≤ s.states.length + K + 1 by omega)
      omega
    · have hla := laOk_lookahead hc hc'
      refine RedRun.amortised (Good := fun l => ∃ γ, Stk At e γ l) ?_ ?_ ?_ _ (Nat.le_refl _)
        ⟨γ0, hs⟩ h
      · rintro l l' ⟨γ, hl⟩ hr
        obtain ⟨γ', _, h'⟩ := stk_redStep hT he hla hl hr
        exact ⟨γ', h'⟩
      · rintro l ⟨γ, hl⟩ rfl
        cases hl
      · rintro l ⟨γ, hl⟩
        exact hK c γ l hla hl
  generalize hs0 : parseInit input ep w = s0 at h
  induction h with
  | zero =>
    subst hs0
    exact ⟨0, 0, [], [ep.initState], rfl, .base hini, by simp [parseInit], by simp [parseInit],
      .inl ⟨rfl, rfl⟩⟩
  | @succ k s0 s1 s2 h1 hn ih =>
    obtain ⟨k0, j, γ0, sts0, rfl, hs, hb, hcalls, hj⟩ := ih hs0
    rcases parseStep_next hn with ⟨r, hr, hr'⟩ | ⟨c, hc1, hr, hr', ht⟩
    · subst hs0
      obtain ⟨γ2, toks2, hi2, _⟩ := hrun _ _ (.succ h1 hn)
      refine ⟨k0 + j + 1, 0, γ2, s2.states, rfl, hi2.stk, ?_, by omega, .inl ⟨rfl, rfl⟩⟩
      have h5 := hfin k0 j γ0 sts0 s1 hs hj
      have e1 : (K + 1) * s2.states.length = (K + 1) * s1.states.length + (K + 1) := by
        rw [hr, List.length_cons, Nat.mul_succ]
      have e2 : (s2.calls - 1) * ((K + 1) * (K + 3)) =
          (s1.calls - 1) * ((K + 1) * (K + 3)) + (K + 1) * (K + 3) := by
        rw [hr', show s1.calls + 1 - 1 = (s1.calls - 1) + 1 by omega, Nat.succ_mul]
      have e3 : (K + 1) * (sts0.length + K + 1) = (K + 1) * sts0.length + (K + 1) * (K + 1) := by ring
      have e4 : (K + 1) * (K + 3) = (K + 1) * (K + 1) + 2 * (K + 1) := by ring
      omega
    · refine ⟨k0, j + 1, γ0, sts0, by omega, hs, by rw [hr']; exact hb, by omega, .inr ⟨c, ?_, ?_⟩⟩
      · rw [ht]; exact hc1
      · rcases hj with ⟨rfl, rfl⟩ | ⟨c', hc', hj⟩
        · exact .succ hr (.zero _)
        · rw [hc1] at hc'; cases hc'
          exact hj.snoc hr

theorem exists_linear (hS : P.Stops) : ∃ K : Nat, ∀ {E : Type}, ∀ ep ∈ P.gen.entries,
    ∀ (input : Nat → Option (Except E Tok)) (w : W) (k : Nat) (s : PState Tok V W E),
      Iterations P.gen P.code P.tf input ep k (parseInit input ep w) s →
      k ≤ K * s.calls ∧ s.states.length ≤ K * s.calls ∧ s.values.length ≤ s.states.length ∧
        1 ≤ s.calls := by
  by_cases hne : P.gen.entries = []
  · exact ⟨0, fun ep hep => by rw [hne] at hep; cases hep⟩
  obtain ⟨ep0, hep0⟩ := List.exists_mem_of_ne_nil _ hne
  obtain ⟨g, nts, ts, a, g', T, S⟩ := P.setup hep0
  have hT := S.stages.tables S.wf
  obtain ⟨K, hK⟩ := exists_uniform hT (hS S.lower S.lowered S.stages) (N := a.states.length) (by
      rintro e γ q ⟨s, h, _⟩
      exact (List.getElem?_eq_some_iff.1 h).1)
  refine ⟨(K + 1) * (K + 3), ?_⟩
  intro E ep hep input w k s h
  obtain ⟨e, nt, h1, h2, h3, he, hini, hext, hsem⟩ := S.run hep
  obtain ⟨k0, j, γ0, sts0, rfl, hs, hb, hcalls, hj⟩ := iterations_bound S.wf hT S.cons he hext hsem
    (fun c γ l => hK e c γ l he) hini h
  have h5 : j + (K + 1) * s.states.length ≤ (K + 1) * (sts0.length + K + 1) := by
    rcases hj with ⟨rfl, rfl⟩ | ⟨c, hc', hr⟩
    · have := Nat.mul_le_mul_left (K + 1) (show s.states.length ≤ s.states.length + K + 1 by omega)
      omega
    · have hla := laOk_lookahead S.cons hc'
      refine RedRun.amortised (Good := fun l => ∃ γ, Stk _ e γ l) ?_ ?_ ?_ _ (Nat.le_refl _)
        ⟨γ0, hs⟩ hr
      · rintro l l' ⟨γ, hl⟩ hr
        obtain ⟨γ', _, h'⟩ := stk_redStep hT he hla hl hr
        exact ⟨γ', h'⟩
      · rintro l ⟨γ, hl⟩ rfl
        cases hl
      · rintro l ⟨γ, hl⟩
        exact hK e c γ l he hla hl
  have e2 : (K + 1) * (K + 3) * s.calls = (s.calls - 1) * ((K + 1) * (K + 3)) + (K + 1) * (K + 3) := by
    obtain ⟨m, hm⟩ := Nat.exists_eq_add_of_le hcalls
    rw [hm, show 1 + m - 1 = m by omega]
    ring
  have e3 : (K + 1) * (sts0.length + K + 1) = (K + 1) * sts0.length + (K + 1) * (K + 1) := by ring
  have e4 : (K + 1) * (K + 3) = (K + 1) * (K + 1) + 2 * (K + 1) := by ring
  have e5 : s.states.length ≤ (K + 1) * s.states.length := Nat.le_mul_of_pos_left _ (by omega)
  obtain ⟨γ2, toks2, hi2, _⟩ := steps_inv (w0 := w) S.wf hT S.cons he hext hsem h.steps
    (runInv_init hini) trace_init
  have hpos : 1 ≤ s.states.length := by rw [hi2.stk.length]; omega
  have e6 : K + 1 ≤ (K + 1) * s.states.length := Nat.le_mul_of_pos_right _ hpos
  obtain ⟨vs, hev, hvs⟩ := hi2.eval
  have e7 : s.values.length + 1 = s.states.length := by
    rw [hi2.stk.length, hvs, List.length_reverse, hev.length_eq]
  refine ⟨?_, ?_, ?_, hcalls⟩ <;> omega

theorem Compiled.Stops.linear (hS : P.Stops) : ∃ K : Nat, ∀ {E : Type}, ∀ ep ∈ P.gen.entries,
    ∀ (input : Nat → Option (Except E Tok)) (w : W) (k m : Nat) (w' : W) (n : Nat),
      P.After ep input w k m w' n → k ≤ K * n ∧ m ≤ K * n := by
  obtain ⟨K, hK⟩ := exists_linear hS
  refine ⟨2 * K, ?_⟩
  rintro E ep hep input w k m w' n ⟨s, h1, rfl, -, rfl⟩
  obtain ⟨h2, h3, h4, h5⟩ := hK ep hep input w k s h1
  have : 2 * K * s.calls = K * s.calls + K * s.calls := by ring
  constructor <;> omega

/-- **C50.** If no computed FIRST set is empty, there is a number `K`, depending only on the program,
such that at every moment of every call of `parse`, the number of iterations of its loop, and thus the
number of semantic actions executed, and the size of its stacks are at most `K` times the number of
calls of `next()`. -/
theorem c50_linear (hN : P.FirstNonempty) : ∃ K : Nat, ∀ {E : Type}, ∀ ep ∈ P.gen.entries,
    ∀ (input : Nat → Option (Except E Tok)) (w : W) (k m : Nat) (w' : W) (n : Nat),
      P.After ep input w k m w' n → k ≤ K * n ∧ m ≤ K * n :=
  hN.stops.linear

omit [DecidableEq Ty] in
/-- A loop that ends goes through moments up to the last one. -/
theorem parseLoop_iterations {gen : Generated X} {u : UserCode X V W} {tf : TokenFns Tok V}
    {o : Outcome V E} {s0 s' : PState Tok V W E} : ∀ {fuel k : Nat} {s : PState Tok V W E},
      Iterations gen u tf input ep k s0 s → parseLoop gen u tf input ep fuel s = some (o, s') →
      ∃ k1 s1, Iterations gen u tf input ep (k + k1) s0 s1 ∧
        parseStep gen u tf input ep s1 = .done o s' ∧
        ∀ i, k1 < i → parseLoop gen u tf input ep i s = some (o, s') := by
  intro fuel
  induction fuel with
  | zero => intro k s _ h; cases h
  | succ fuel ih =>
    intro k s hs h
    unfold parseLoop at h
    split at h
    · next hd =>
      cases h
      refine ⟨0, s, hs, hd, fun i hi => ?_⟩
      obtain ⟨i, rfl⟩ := Nat.exists_eq_succ_of_ne_zero (show i ≠ 0 by omega)
      unfold parseLoop
      rw [hd]
    · next s1 hd =>
      obtain ⟨k1, s2, h1, h2, h3⟩ := ih (.succ hs hd) h
      refine ⟨k1 + 1, s2, by rw [show k + (k1 + 1) = k + 1 + k1 by omega]; exact h1, h2, fun i hi => ?_⟩
      obtain ⟨i, rfl⟩ := Nat.exists_eq_succ_of_ne_zero (show i ≠ 0 by omega)
      unfold parseLoop
      rw [hd]
      exact h3 i (by omega)

theorem Compiled.Stops.returns (hS : P.Stops) : ∃ K : Nat, ∀ {E : Type}, ∀ ep ∈ P.gen.entries,
    ∀ (input : Nat → Option (Except E Tok)) (w : W) (o : Outcome V E) (w' : W) (n : Nat),
      P.Returns ep input w o w' n → P.ReturnsWithin ep input w (K * n) o w' n := by
  obtain ⟨K, hK⟩ := exists_linear hS
  refine ⟨K + 1, ?_⟩
  rintro E ep hep input w o w' n ⟨fuel, s', h, rfl, rfl⟩
  obtain ⟨k1, s1, h1, h2, h3⟩ := parseLoop_iterations (.zero _) h
  rw [Nat.zero_add] at h1
  obtain ⟨h4, _, _, h5⟩ := hK ep hep input w k1 s1 h1
  have h6 := parseStep_calls h2
  refine ⟨s', h3 _ ?_, rfl, rfl⟩
  rw [h6, Nat.succ_mul]
  omega

/-- **C50**, for calls that return: after at most `K` iterations per call of `next()`. -/
theorem c50_returns (hN : P.FirstNonempty) : ∃ K : Nat, ∀ {E : Type}, ∀ ep ∈ P.gen.entries,
    ∀ (input : Nat → Option (Except E Tok)) (w : W) (o : Outcome V E) (w' : W) (n : Nat),
      P.Returns ep input w o w' n → P.ReturnsWithin ep input w (K * n) o w' n :=
  hN.stops.returns

theorem Compiled.Stops.time (hS : P.Stops) : ∃ K : Nat, ∀ {E : Type}, ∀ ep ∈ P.gen.entries,
    ∀ (input : Nat → Option (Except E Tok)) (w : W) (n : Nat), (∀ t, input n ≠ some (.ok t)) →
      ∃ o w' i, i ≤ n + 1 ∧ P.ReturnsWithin ep input w (K * (n + 1)) o w' i := by
  obtain ⟨K, hK⟩ := hS.returns
  refine ⟨K, ?_⟩
  intro E ep hep input w n hn
  obtain ⟨o, w', i, hr⟩ := hS.terminates (w := w) hep hn
  have hi : i ≤ n + 1 := by
    obtain ⟨toks, h1, h2, _⟩ := c13_lazy hep hr
    by_contra hc
    have h3 : n < toks.length := by omega
    exact hn _ (h1 n _ (List.getElem?_eq_getElem h3))
  obtain ⟨s', h1, h2, h3⟩ := hK ep hep input w o w' i hr
  refine ⟨o, w', i, hi, s', ?_, h2, h3⟩
  exact parseLoop_fuel h1 (Nat.mul_le_mul_left K hi)

/-- **C50**, with termination: on every stream that ends or fails after `n` tokens, `parse` returns
after at most `K * (n + 1)` iterations. -/
theorem c50_time (hN : P.FirstNonempty) : ∃ K : Nat, ∀ {E : Type}, ∀ ep ∈ P.gen.entries,
    ∀ (input : Nat → Option (Except E Tok)) (w : W) (n : Nat), (∀ t, input n ≠ some (.ok t)) →
      ∃ o w' i, i ≤ n + 1 ∧ P.ReturnsWithin ep input w (K * (n + 1)) o w' i :=
  hN.stops.time

/-- The actions the user wrote. -/
def Compiled.IsAction (P : Compiled X Ty V W Tok) (x : X) : Prop :=
  ∃ d ∈ P.defs, ∃ p ∈ d.productions, p.action = .infallible x

theorem Setup.node_cost {g nts ts a g' T} (S : Setup P g nts ts a g' T) {cost : W → Nat} {d : Nat}
    (hd : ∀ x env w v w', P.IsAction x → P.code.run x env w = some (v, w') → cost w' ≤ cost w + d)
    {b p : Nat} {us : List (SAR V)} {v : SAR V} (hb : g.isPublic b = false)
    (h : (g.stackAlg P.code P.tf).node b p us w = some (v, w')) : cost w' ≤ cost w + d := by
  obtain ⟨v, k, h1, _, _⟩ := stackAlg_node h
  unfold Grammar.nodeValue at h1
  split at h1
  · cases h1
  next pr hpr =>
  obtain ⟨⟨v', w1⟩, h2, h3⟩ := Option.map_eq_some_iff.1 h1
  cases h3
  refine hd _ _ _ _ _ ?_ h2
  unfold Grammar.getProduction? at hpr
  obtain ⟨nt, h4, h5⟩ := Option.bind_eq_some_iff.1 hpr
  have hpriv : nt.isPublic = false := by simpa [Grammar.isPublic, h4] using hb
  have hn : ∃ n, nts.get? n = some b := by
    by_contra hc
    have := S.lowered.priv h4 hpriv (fun n hn => hc ⟨n, hn⟩)
    rw [this] at h5; simp at h5
  obtain ⟨n, hn⟩ := hn
  obtain ⟨nt', ad, h6, h7, _, _, _, h8⟩ := S.lowered.prods hn
  rw [h4] at h6; cases h6
  obtain ⟨q, hq, hqq⟩ := forall₂_getElem?' h8 h5
  have hm := List.mem_of_getElem? hq
  unfold userProds at hm
  obtain ⟨d', hd', hm⟩ := List.mem_flatMap.1 hm
  exact ⟨d', (List.mem_filter.1 hd').1, q, hm, hqq.2⟩

theorem Compiled.Stops.cost (hS : P.Stops) : ∃ K : Nat, ∀ {E : Type}, ∀ ep ∈ P.gen.entries,
    ∀ (input : Nat → Option (Except E Tok)) (cost : W → Nat) (d : Nat) (w w' : W) (n : Nat),
      (∀ x env w v w', P.IsAction x → P.code.run x env w = some (v, w') → cost w' ≤ cost w + d) →
      P.During ep input w w' n → cost w' ≤ cost w + d * (K * n) := by
  obtain ⟨K, hK⟩ := exists_linear hS
  refine ⟨K, ?_⟩
  rintro E ep hep input cost d w w' n hd ⟨s, hs, rfl, rfl⟩
  suffices h : ∃ k, Iterations P.gen P.code P.tf input ep k (parseInit input ep w) s ∧
      cost s.world ≤ cost w + d * k by
    obtain ⟨k, h1, h2⟩ := h
    have := Nat.mul_le_mul_left d (hK ep hep input w k s h1).1
    omega
  obtain ⟨g, nts, ts, a, g', T, S⟩ := P.setup hep
  obtain ⟨e, nt, h1, h2, h3, he, hini, hext, hsem⟩ := S.run hep
  have hT := S.stages.tables S.wf
  clear hK
  generalize hs0 : parseInit input ep w = s0 at hs
  induction hs with
  | refl => subst hs0; exact ⟨0, .zero _, by simp [parseInit]⟩
  | @tail s1 s2 hs hn ih =>
    obtain ⟨k, h4, h5⟩ := ih
    refine ⟨k + 1, .succ h4 hn, ?_⟩
    subst hs0
    obtain ⟨γ2, toks2, hi2, _⟩ := steps_inv (w0 := w) S.wf hT S.cons he hext hsem hs
      (runInv_init hini) trace_init
    have := parseStep_spec (w0 := w) S.wf hT S.cons he hext hsem hi2
    rw [hn] at this
    rw [Nat.mul_succ]
    cases this with
    | shift _ _ _ _ hs => subst hs; simp only [shiftStep]; omega
    | reduce _ _ _ _ _ hpriv _ hval =>
      obtain ⟨us, rest, v, _, _, hv, _⟩ := hval
      have := S.node_cost hd hpriv hv
      omega

/-- **C50**, as seen from the user's code: whatever cost the actions incur, if no execution of an action
costs more than `d`, then the cost at any moment is at most `d * K` per call of `next()`. -/
theorem c50_cost (hN : P.FirstNonempty) : ∃ K : Nat, ∀ {E : Type}, ∀ ep ∈ P.gen.entries,
    ∀ (input : Nat → Option (Except E Tok)) (cost : W → Nat) (d : Nat) (w w' : W) (n : Nat),
      (∀ x env w v w', P.IsAction x → P.code.run x env w = some (v, w') → cost w' ≤ cost w + d) →
      P.During ep input w w' n → cost w' ≤ cost w + d * (K * n) :=
  hN.stops.cost

/-! ## Example -/

namespace Examples

theorem arith_firstNonempty : arith.FirstNonempty := by
  obtain ⟨ep, hep, _⟩ := after_during arith_ones
  exact arith_productive.firstNonempty hep arith_regular.names arith_regular.first

/-- The hypothesis is met: `arith` parses every token list in linear time. -/
example : ∃ K, ∀ ep ∈ arith.gen.entries, ∀ toks : List Tk,
    ∃ o w' i, i ≤ toks.length + 1 ∧
      arith.ReturnsWithin (E := String) ep (stream toks) [] (K * (toks.length + 1)) o w' i := by
  obtain ⟨K, hK⟩ := c50_time arith_firstNonempty
  exact ⟨K, fun ep hep toks => hK ep hep _ _ _ (by simp [stream])⟩

/-- The cost of the actions of `arith`, which log what they do: one entry each. -/
example : ∃ K, ∀ ep ∈ arith.gen.entries, ∀ (w' : Log) (n : Nat),
    arith.During ep ones [] w' n → w'.length ≤ K * n := by
  obtain ⟨K, hK⟩ := c50_cost arith_firstNonempty
  refine ⟨K, fun ep hep w' n h => ?_⟩
  have := hK ep hep ones List.length 1 [] w' n ?_ h
  · simpa using this
  · rintro x env w v w' ⟨d, hd, p, hp, hx⟩ hr
    have hdefs : arith.defs = arithDefs := defs_itemsOf _
    rw [hdefs] at hd
    simp only [arithDefs, logged, List.mem_cons, List.not_mem_nil, or_false] at hd
    rcases hd with rfl | rfl <;> simp only [List.mem_cons, List.not_mem_nil, or_false] at hp <;>
      rcases hp with rfl | rfl <;> cases hx <;> cases hr <;> simp

end Examples

end Parsegen
