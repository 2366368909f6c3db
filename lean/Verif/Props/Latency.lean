import Verif.Proofs.Latency
import Verif.Spec.Latency
import Verif.Props.Space
import Verif.Props.TerminateLR1
import Verif.Props.Linear

/-! # C74: how much work there is between two calls of `next()` -/

namespace Parsegen

variable {X Ty V W Tok E : Type}

section iterations
variable {gen : Generated X} {u : UserCode X V W} {tf : TokenFns Tok V}
  {input : Nat → Option (Except E Tok)} {ep : EntryPoint} {s0 s s' s1 s2 : PState Tok V W E}

theorem Iterations.split {a : Nat} : ∀ {b : Nat} {s : PState Tok V W E},
    Iterations gen u tf input ep (a + b) s0 s →
    ∃ s1, Iterations gen u tf input ep a s0 s1 ∧ Iterations gen u tf input ep b s1 s := by
  intro b
  induction b with
  | zero => intro s h; exact ⟨s, h, .zero _⟩
  | succ b ih =>
    intro s h
    cases h with
    | succ h hn =>
      obtain ⟨s1, h1, h2⟩ := ih h
      exact ⟨s1, h1, .succ h2 hn⟩

theorem Iterations.append {a b : Nat} (h1 : Iterations gen u tf input ep a s0 s1)
    (h2 : Iterations gen u tf input ep b s1 s) : Iterations gen u tf input ep (a + b) s0 s := by
  induction h2 with
  | zero => exact h1
  | succ _ hn ih => exact .succ (ih h1) hn

theorem Iterations.det {a : Nat} (h1 : Iterations gen u tf input ep a s0 s1) :
    ∀ {s2}, Iterations gen u tf input ep a s0 s2 → s1 = s2 := by
  induction h1 with
  | zero => intro s2 h; cases h; rfl
  | succ _ hn ih =>
    intro s2 h
    cases h with
    | succ h hn' =>
      have := ih h
      subst this
      rw [hn] at hn'
      cases hn'
      rfl

theorem Iterations.calls_le {a : Nat} (h1 : Iterations gen u tf input ep a s0 s1) : s0.calls ≤ s1.calls := by
  induction h1 with
  | zero => exact Nat.le_refl _
  | succ _ hn ih =>
    rcases parseStep_next hn with ⟨_, _, h⟩ | ⟨_, _, _, h, _⟩ <;> omega

/-- Iterations without a call of `next()` are reductions before one lookahead. -/
theorem Iterations.redRun {j : Nat} (h : Iterations gen u tf input ep j s s') :
    s.calls = s'.calls → j = 0 ∨ s'.token = s.token ∧
      ∃ c, lookahead tf s.token = some c ∧ RedRun gen c j s.states s'.states := by
  induction h with
  | zero => intro _; exact .inl rfl
  | @succ k s s1 s2 h1 hn ih =>
    intro hc
    right
    have hle := h1.calls_le
    rcases parseStep_next hn with ⟨_, _, h⟩ | ⟨c, hl, hr, h, ht⟩
    · omega
    · rcases ih (by omega) with rfl | ⟨ht', c', hl', hr'⟩
      · cases h1
        exact ⟨ht, c, hl, .succ hr (.zero _)⟩
      · rw [ht', hl'] at hl
        cases hl
        exact ⟨ht.trans ht', c, hl', hr'.snoc hr⟩

/-- If there are at most `K` iterations between two calls of `next()`, there are at most so many while some
calls are made. -/
theorem Iterations.slow {K : Nat}
    (hK : ∀ a b sa sb, Iterations gen u tf input ep a s0 sa → Iterations gen u tf input ep b sa sb →
      sa.calls = sb.calls → b ≤ K) : ∀ {d a j : Nat} {sa sb : PState Tok V W E},
      Iterations gen u tf input ep a s0 sa → Iterations gen u tf input ep j sa sb →
      sb.calls ≤ sa.calls + d → j ≤ (K + 1) * d + K := by
  intro d
  induction d with
  | zero =>
    intro a j sa sb h1 h2 h3
    have := h2.calls_le
    have := hK _ _ _ _ h1 h2 (by omega)
    omega
  | succ d ih =>
    intro a j sa sb h1 h2 h3
    by_cases hj : j ≤ K
    · exact hj.trans (Nat.le_add_left _ _)
    · obtain ⟨i, rfl⟩ := Nat.exists_eq_add_of_le (show K + 1 ≤ j by omega)
      obtain ⟨sc, h4, h5⟩ := h2.split
      have h6 := h4.calls_le
      have h7 : sa.calls ≠ sc.calls := by
        intro h
        have := hK _ _ _ _ h1 h4 h
        omega
      have := ih (h1.append h4) h5 (by omega)
      have e0 : (K + 1) * (d + 1) = (K + 1) * d + (K + 1) := by ring
      omega

end iterations

/-! ## From above -/

section lowered
variable {asts : List (AstNonTerminal X Ty)} {convs : List (Conversion Ty)} {g : Grammar X Ty}
  {nts ts : AMap String Nat} {mkPath : String → X}

/-- Recursion at the right end in the lowered grammar is one in the user's. -/
theorem Lowered.no_right (hl : Lowered mkPath asts convs g nts ts) {e b : Nat} {S : String}
    (he : g.isPublic e = true) (hb : g.HasProd e 0 [.nonTerminal b]) (hS : nts.get? S = some b)
    (hno : ∀ x, UReaches asts S x → ¬ URecursesRight asts x) :
    ∀ x μ σ, g.Spine e μ x → g.EndsWith (.nonTerminal x) σ (.nonTerminal x) → σ = [] := by
  intro x μ σ h1 h2
  obtain ⟨β, h1⟩ := h1.derives
  obtain ⟨τ, h2, h4⟩ := h2
  rcases h1.entry_inv hl.wf he hb with h3 | h3
  · have : x = e := by
      cases μ with
      | nil => simpa using (List.cons.inj h3).1
      | cons s μ => simp at h3
    subst this
    rcases h2.entry_inv hl.wf he hb with h5 | h5
    · cases σ with
      | nil => rfl
      | cons s σ => simp at h5
    · obtain ⟨_, m, _, k1, _⟩ := hl.spine_user hS h5
      obtain ⟨nt', _, k7, _, _, _, k8, _⟩ := hl.prods k1
      simp [Grammar.isPublic, k7, k8] at he
  · obtain ⟨uμ, m, uβ, k1, k2, k3⟩ := hl.spine_user hS h3
    obtain ⟨l, l1, l2⟩ := hl.derives_user h2 (l := [.nt m]) (.cons k1 .nil)
    obtain ⟨uσ, l, rfl, l3, l4⟩ := forall₂_append_right l1
    cases l4 with
    | @cons s _ uτ _ l5 l6 =>
    cases s with
    | term t => cases l5
    | nt m' =>
    have := hl.inj l5 k1
    subst this
    obtain ⟨l, m1, m2⟩ := hl.derives_user h4 (l := uτ) l6
    cases m1
    by_contra hne
    refine hno _ ⟨uμ, uβ, k3⟩ ⟨uσ, uτ, l2, ?_, m2⟩
    rintro rfl
    cases l3
    exact hne rfl

end lowered

variable [DecidableEq Ty] {P : Compiled X Ty V W Tok} {ep : EntryPoint}

theorem Compiled.Stops.latency (hS : P.Stops) (hnd : (P.defs.map (·.name)).Nodup)
    (hep : ep ∈ P.gen.entries) (hno : ∀ x, UReaches P.defs ep.name x → ¬ URecursesRight P.defs x) :
    ∃ K : Nat, ∀ {E : Type} (input : Nat → Option (Except E Tok)) (w : W) (k j m m' : Nat) (w1 w2 : W)
      (n : Nat), P.After ep input w k m w1 n → P.After ep input w (k + j) m' w2 n → j ≤ K := by
  obtain ⟨g, nts, ts, a, g', T, S⟩ := P.setup hep
  have hT := S.stages.tables S.wf
  obtain ⟨K, hK⟩ := exists_uniform hT (hS S.lower S.lowered S.stages) (N := a.states.length) (by
      rintro e γ q ⟨s, h, _⟩
      exact (List.getElem?_eq_some_iff.1 h).1)
  obtain ⟨e, nt, h1, h2, h3, he, hini, hext, hsem⟩ := S.run hep
  obtain ⟨b, hb1, hb2⟩ := S.lowered.entry_name hnd h1 h2
  rw [h3] at hb1
  have hno' := S.lowered.no_right he hb2 hb1 hno
  refine ⟨(K + 1) * (g.nNonTerminals + 1), ?_⟩
  rintro E input w k j m m' w1 w2 n ⟨s1, i1, -, -, rfl⟩ ⟨s2, i2, -, -, hc⟩
  obtain ⟨s1', i3, i4⟩ := i2.split
  have := i1.det i3
  subst this
  rcases i4.redRun hc.symm with rfl | ⟨_, c, hl, hr⟩
  · exact Nat.zero_le _
  have hla := laOk_lookahead S.cons hl
  obtain ⟨γ, toks, hi, -⟩ := steps_inv (w0 := w) S.wf hT S.cons he hext hsem i1.steps (runInv_init hini) trace_init
  have hstk := hi.stk
  rcases List.eq_nil_or_concat γ with rfl | ⟨δ, Y, rfl⟩
  · have hlen := hstk.length
    have hb := hK e c _ _ he hla hstk
    rw [List.take_of_length_le (by rw [hlen]; simp)] at hb
    have := hb _ _ hr
    calc j ≤ K + 1 := by omega
      _ ≤ (K + 1) * (g.nNonTerminals + 1) := Nat.le_mul_of_pos_right _ (by omega)
  · rw [List.concat_eq_append] at hstk
    exact RedRun.bounded hT he hla hno' (fun γ l => hK e c γ l he hla) g.nNonTerminals (As := [])
      List.nodup_nil (by simp) (by simp) hstk (by simp) hr

/-! ## From below -/

omit [DecidableEq Ty] in
theorem Grammar.Ctx.iterate_right {g : Grammar X Ty} {x : Nat} {μ β : List Symbol} (h : g.Ctx x μ x β)
    (hμ : μ ≠ []) (hβ : g.Derives β []) (n : Nat) :
    ∃ μ' β', g.Ctx x μ' x β' ∧ n ≤ μ'.length ∧ g.Derives β' [] := by
  induction n with
  | zero => exact ⟨[], [], .root, Nat.zero_le _, .refl _⟩
  | succ n ih =>
    obtain ⟨μ', β', h1, h2, h3⟩ := ih
    refine ⟨_, _, h1.trans h, ?_, ?_⟩
    · have := List.length_pos_iff.2 hμ
      rw [List.length_append]
      omega
    · exact (hβ.append_right β').trans (by simpa using h3)

/-- How fast the stack grows and shrinks. -/
theorem Setup.height {g nts ts a g' T} (S : Setup P g nts ts a g' T) {e : Nat} {w : W}
    {At : Nat → List Symbol → Nat → Prop} (hT : Tables g (generateFirstTable P.order g) P.gen At)
    (he : g.isPublic e = true) (hini : At e [] ep.initState)
    (hext : (semanticActionVariants g)[e]? = some ep.extract) (hsem : P.gen.IsSem g ep.actionIdx e 0)
    {M : Nat} (hM : ∀ {nt p α}, g.HasProd nt p α → α.length ≤ M)
    {input : Nat → Option (Except E Tok)} {k j : Nat} {s1 s2 : PState Tok V W E}
    (h1 : Iterations P.gen P.code P.tf input ep k (parseInit input ep w) s1)
    (h2 : Iterations P.gen P.code P.tf input ep j s1 s2) :
    s1.states.length ≤ s2.states.length + M * j ∧ s2.states.length ≤ s1.states.length + j := by
  induction h2 with
  | zero => simp
  | @succ j s1 s2 s3 h2 hn ih =>
    obtain ⟨ih1, ih2⟩ := ih h1
    rw [Nat.mul_succ]
    rcases parseStep_next hn with ⟨r, hr, _⟩ | ⟨c, hl, hr, _⟩
    · rw [hr, List.length_cons]
      omega
    · have := redStep_length hr
      obtain ⟨γ, toks, hi, -⟩ := steps_inv (w0 := w) S.wf hT S.cons he hext hsem (h1.append h2).steps
        (runInv_init hini) trace_init
      obtain ⟨γ0, b, p, α, rfl, hp, hs, _⟩ := stk_redStep_syms hT he (laOk_lookahead S.cons hl) hi.stk hr
      have e1 := hi.stk.length
      have e2 := hs.length
      simp only [List.length_append, List.length_cons, List.length_nil] at e1 e2
      have := hM hp
      omega

/-- **C74**, conversely: let the program be regular (C04), every non-terminal derive some string, every token
kind have a token, and no action panic.  If from the `pub` non-terminal one can reach one that recurses at its
right end, then there are sentences for which any number of actions is run between two calls of `next()`. -/
theorem c74_unbounded (hR : P.Regular) (hP : ∀ d ∈ P.defs, ∃ x, USentence P.defs d.name x)
    (hT : ∀ c ∈ P.tokens.conversions, ∃ t, P.cls t = c.from_)
    (hu : ∀ d ∈ P.defs, ∀ p ∈ d.productions, ∀ e, p.action = .infallible e →
      ∀ env w, P.code.run e env w ≠ none)
    (hep : ep ∈ P.gen.entries) {x : String} (hr : UReaches P.defs ep.name x)
    (hx : URecursesRight P.defs x) (K : Nat) :
    ∃ toks, P.IsSentence ep.name toks ∧ ∀ {E : Type} (input : Nat → Option (Except E Tok)) (w : W),
      Ends input toks → ∃ k j m m' w1 w2 n, P.After ep input w k m w1 n ∧
        P.After ep input w (k + j) m' w2 n ∧ K < j := by
  obtain ⟨g, nts, ts, a, g', T, e, b, R⟩ := hR.get hep
  have S := R.setup
  have hl := S.lowered
  -- the path
  obtain ⟨uα, uβ, hr⟩ := hr
  obtain ⟨ρ, h1, h2⟩ := hl.user_derives hr (α := [.nonTerminal b]) (.cons R.name .nil)
  obtain ⟨α, β', rfl, h3, h4⟩ := forall₂_append_left h1
  cases h4 with
  | @cons _ s _ β h5 h6 =>
  cases s with
  | terminal t => cases h5
  | nonTerminal j =>
  obtain ⟨uμ, uν, x1, x2, x3⟩ := hx
  obtain ⟨σ, y1, y2⟩ := hl.user_derives x1 (α := [.nonTerminal j]) (.cons h5 .nil)
  obtain ⟨μ, ν', rfl, y3, y4⟩ := forall₂_append_left y1
  cases y4 with
  | @cons _ s _ ν y5 y6 =>
  have := names_func (.cons y5 .nil) (.cons h5 .nil)
  cases this
  obtain ⟨α', β'', c1, _, _⟩ := h2.ctx rfl
  obtain ⟨μ', ν'', c2, c3, c3'⟩ := y2.ctx rfl
  have hμ' : μ' ≠ [] := by
    rintro rfl
    have := c3.nil_eq
    subst this
    cases y3
    exact x2 rfl
  have hν : g.Derives ν'' [] := by
    obtain ⟨l, z1, z2⟩ := hl.user_derives x3 (α := ν) y6
    cases z1
    exact c3'.trans z2
  -- every symbol yields some tokens
  obtain ⟨hnt, hsym⟩ := S.yields_some hR.names hP hT
  obtain ⟨nt, ad, h7, h8, _, _, h9, _⟩ := hl.prods h5
  obtain ⟨tx, e3⟩ := hnt j (List.getElem?_eq_some_iff.1 h7).1 (by simpa [Grammar.isPublic, h7] using h9)
  obtain ⟨tβ, e2⟩ := yields_of_mem (α := β'') fun s hs =>
    hsym s (c1.mem s (List.mem_append_right _ hs))
  obtain ⟨M, hM⟩ := g.exists_prod_bound
  let d := tx.length + tβ.length
  obtain ⟨μ2, ν2, c4, c5, c7⟩ := c2.iterate_right hμ' hν ((M + 1) * ((K + 1) * d + K) + 2)
  have c6 := c1.trans c4
  obtain ⟨tμ, e1⟩ := yields_of_mem (α := α' ++ μ2) fun s hs =>
    hsym s (c6.mem s (List.mem_append_left _ hs))
  have e2' : g.Yields P.tf.terminalIdx (ν2 ++ β'') tβ := by
    have : g.Yields P.tf.terminalIdx ν2 ([] : List Tok) := Grammar.yields_iff_derives.2 c7
    simpa using this.append e2
  have hsent := c6.yields e1 e3 e2'
  refine ⟨tμ ++ (tx ++ tβ), (hl.sentence_iff S.cls R.name _).2 hsent, ?_⟩
  intro E input w hin
  have hTb := S.stages.tables S.wf
  have hpanic : ¬ ∃ fuel s', parseLoop P.gen P.code P.tf input ep fuel (parseInit input ep w) =
      some (.fault .userPanic, s') := fun ⟨fuel, s', h1⟩ =>
    c06_no_panic (w := w) (w' := s'.world) (n := s'.calls) hep hu ⟨fuel, s', h1, rfl, rfl⟩
  have hmoment : ∀ {γ : List Symbol} {vs : List Unit} {rest : List Tok},
      ASteps g (generateFirstTable P.order g) e P.tf.terminalIdx Alg.unit
        ⟨[], [], (), tμ ++ (tx ++ tβ)⟩ ⟨γ, vs, (), rest⟩ →
      ∃ k s, Iterations P.gen P.code P.tf input ep k (parseInit input ep w) s ∧
        s.states.length = γ.length + 1 ∧ ∃ toks1, s.calls = toks1.length + 1 ∧ Ends input (toks1 ++ rest) := by
    intro γ vs rest hA
    rcases simU_steps (w0 := w) (input := input) (u := P.code) S.wf hTb S.cons R.pub R.ext R.sem
      R.conf (toks := []) (runInv_init R.ini) (by simpa using hin) hA with
      ⟨s1, toks1, hr, hi, hy⟩ | h
    · obtain ⟨k, hk⟩ := hr.iterations (.zero _)
      exact ⟨k, s1, hk, hi.stk.length, toks1, hi.calls, hy⟩
    · exact absurd h hpanic
  have hends : ∀ {l1 l2 : List Tok}, Ends input l1 → Ends input l2 → l1.length = l2.length := by
    have key : ∀ {l1 l2 : List Tok}, Ends input l1 → Ends input l2 → ¬ l1.length < l2.length := by
      intro l1 l2 h1 h2 hlt
      have := h2.1 l1.length _ (List.getElem?_eq_getElem hlt)
      rw [h1.2] at this
      cases this
    intro l1 l2 h1 h2
    have := key h1 h2
    have := key h2 h1
    omega
  obtain ⟨vs, hA, _⟩ := c6.stack (e := e) R.first S.wf R.prod e1 e3 e2'
  obtain ⟨k1, s1, i1, l1, t1, n1, f1⟩ := hmoment hA
  obtain ⟨us, hev⟩ := hsent
  obtain ⟨v, rfl⟩ : ∃ v, us = [v] := by
    match us, hev.length_eq with
    | [v], _ => exact ⟨v, rfl⟩
  obtain ⟨k2, s2, i2, l2, t2, n2, f2⟩ := hmoment (complete_entry (e := e) R.first S.wf R.prod hev)
  have hcalls : s2.calls = s1.calls + d := by
    have := hends f1 f2
    simp only [List.length_append, List.length_nil] at this
    omega
  simp only [List.length_append, List.length_cons, List.length_nil] at l1 l2
  by_contra hcon
  have hK : ∀ a b sa sb, Iterations P.gen P.code P.tf input ep a (parseInit input ep w) sa →
      Iterations P.gen P.code P.tf input ep b sa sb → sa.calls = sb.calls → b ≤ K := by
    intro a b sa sb g1 g2 g3
    by_contra hb
    exact hcon ⟨a, b, _, _, _, _, _, ⟨sa, g1, rfl, rfl, g3⟩, ⟨sb, g1.append g2, rfl, rfl, rfl⟩, by omega⟩
  have hgo : ∀ {ka kb sa sb}, Iterations P.gen P.code P.tf input ep ka (parseInit input ep w) sa →
      Iterations P.gen P.code P.tf input ep kb (parseInit input ep w) sb → ka ≤ kb →
      sb.calls ≤ sa.calls + d → sa.states.length ≤ sb.states.length + (M + 1) * ((K + 1) * d + K) ∧
        sb.states.length ≤ sa.states.length + (M + 1) * ((K + 1) * d + K) := by
    intro ka kb sa sb g1 g2 g3 g4
    obtain ⟨i, rfl⟩ := Nat.exists_eq_add_of_le g3
    obtain ⟨sa', g5, g6⟩ := g2.split
    have := g1.det g5
    subst this
    have hi := Iterations.slow hK g1 g6 g4
    obtain ⟨q1, q2⟩ := S.height hTb R.pub R.ini R.ext R.sem hM g1 g6
    have q3 := Nat.mul_le_mul_left (M + 1) hi
    have q4 : (M + 1) * i = M * i + i := by ring
    omega
  rcases Nat.le_total k1 k2 with hk | hk
  · have := (hgo i1 i2 hk (by omega)).1
    omega
  · have := (hgo i2 i1 hk (by omega)).2
    omega

/-! ## The property -/

/-- **C74.** If no computed FIRST set is empty (C07), there is a number `K` such that between two calls of
`next()` the emitted loop makes at most `K` times as many iterations as there are entries on the stacks. -/
theorem c74_height (hN : P.FirstNonempty) : ∃ K : Nat, ∀ {E : Type}, ∀ ep ∈ P.gen.entries,
    ∀ (input : Nat → Option (Except E Tok)) (w : W) (k j m m' : Nat) (w1 w2 : W) (n : Nat),
      P.After ep input w k m w1 n → P.After ep input w (k + j) m' w2 n → j ≤ K * m := by
  by_cases hne : P.gen.entries = []
  · exact ⟨0, fun ep hep => by rw [hne] at hep; cases hep⟩
  obtain ⟨ep0, hep0⟩ := List.exists_mem_of_ne_nil _ hne
  obtain ⟨g, nts, ts, a, g', T, S⟩ := P.setup hep0
  have hT := S.stages.tables S.wf
  obtain ⟨K, hK⟩ := exists_uniform hT (hN.stops S.lower S.lowered S.stages) (N := a.states.length) (by
      rintro e γ q ⟨s, h, _⟩
      exact (List.getElem?_eq_some_iff.1 h).1)
  refine ⟨(K + 1) * (K + 2), ?_⟩
  rintro E ep hep input w k j m m' w1 w2 n ⟨s1, i1, rfl, -, rfl⟩ ⟨s2, i2, -, -, hc⟩
  obtain ⟨e, nt, h1, h2, h3, he, hini, hext, hsem⟩ := S.run hep
  obtain ⟨s1', i3, i4⟩ := i2.split
  have := i1.det i3
  subst this
  rcases i4.redRun hc.symm with rfl | ⟨_, c, hl, hr⟩
  · exact Nat.zero_le _
  have hla := laOk_lookahead S.cons hl
  obtain ⟨γ, toks, hi, -⟩ := steps_inv (w0 := w) S.wf hT S.cons he hext hsem i1.steps (runInv_init hini) trace_init
  have h5 := RedRun.amortised (Good := fun l => ∃ γ, Stk _ e γ l)
    (by
      rintro l l' ⟨γ, hl⟩ hr
      obtain ⟨γ', _, h'⟩ := stk_redStep hT he hla hl hr
      exact ⟨γ', h'⟩)
    (by rintro l ⟨γ, hl⟩ rfl; cases hl)
    (by rintro l ⟨γ, hl⟩; exact hK e c γ l he hla hl) _ (Nat.le_refl _) ⟨γ, hi.stk⟩ hr
  have hpos : 1 ≤ s1.states.length := by rw [hi.stk.length]; omega
  obtain ⟨x, hx⟩ := Nat.exists_eq_add_of_le hpos
  have e1 : s1.states.length + K + 1 ≤ (K + 2) * s1.states.length := by
    rw [hx]
    have : (K + 2) * (1 + x) = K + 2 + (K * x + 2 * x) := by ring
    omega
  calc j ≤ (K + 1) * (s1.states.length + K + 1) := by omega
    _ ≤ (K + 1) * ((K + 2) * s1.states.length) := Nat.mul_le_mul_left _ e1
    _ = (K + 1) * (K + 2) * s1.states.length := by ring
    _ ≤ (K + 1) * (K + 2) * (s1.states.length + s1.values.length) := Nat.mul_le_mul_left _ (by omega)

/-- **C74.** If moreover no non-terminal that recurses at its right end is reachable from a `pub` non-terminal,
there is a number `K` such that its parser makes at most `K` iterations, and thus runs at most `K` actions,
between two calls of `next()`: on no input, however long, and however high the stack. -/
theorem c74_bounded (hN : P.FirstNonempty) (hnd : (P.defs.map (·.name)).Nodup) (hep : ep ∈ P.gen.entries)
    (hno : ∀ x, UReaches P.defs ep.name x → ¬ URecursesRight P.defs x) :
    ∃ K : Nat, ∀ {E : Type} (input : Nat → Option (Except E Tok)) (w : W) (k j m m' : Nat) (w1 w2 : W)
      (n : Nat), P.After ep input w k m w1 n → P.After ep input w (k + j) m' w2 n → j ≤ K :=
  hN.stops.latency hnd hep hno

theorem latency_iff [Nonempty W] (hS : P.Stops) (hR : P.Regular)
    (hP : ∀ d ∈ P.defs, ∃ x, USentence P.defs d.name x)
    (hT : ∀ c ∈ P.tokens.conversions, ∃ t, P.cls t = c.from_)
    (hu : ∀ d ∈ P.defs, ∀ p ∈ d.productions, ∀ e, p.action = .infallible e →
      ∀ env w, P.code.run e env w ≠ none)
    (hep : ep ∈ P.gen.entries) :
    (∃ K : Nat, ∀ (input : Nat → Option (Except E Tok)) (w : W) (k j m m' : Nat) (w1 w2 : W) (n : Nat),
      P.After ep input w k m w1 n → P.After ep input w (k + j) m' w2 n → j ≤ K) ↔
    ∀ x, UReaches P.defs ep.name x → ¬ URecursesRight P.defs x := by
  constructor
  · rintro ⟨K, hK⟩ x hr hx
    obtain ⟨toks, _, h⟩ := c74_unbounded hR hP hT hu hep hr hx K
    obtain ⟨w⟩ := ‹Nonempty W›
    obtain ⟨k, j, m, m', w1, w2, n, h1, h2, h3⟩ := h (E := E) (fun i => toks[i]?.map .ok) w
      ⟨fun i t ht => by simp [ht], by simp⟩
    have := hK _ _ _ _ _ _ _ _ _ h1 h2
    omega
  · intro h
    obtain ⟨K, hK⟩ := hS.latency hR.names hep h
    exact ⟨K, fun input w => hK input w⟩

/-- **C74.** Both together, for grammars that are LR(1), in which every non-terminal derives something and
nullable non-terminals are harmless. -/
theorem c74_iff [Nonempty W] (hnd : (P.defs.map (·.name)).Nodup) (hlr : ULR1 P.defs)
    (hh : UHarmless P.defs) (hP : ∀ d ∈ P.defs, ∃ x, USentence P.defs d.name x)
    (hT : ∀ c ∈ P.tokens.conversions, ∃ t, P.cls t = c.from_)
    (hu : ∀ d ∈ P.defs, ∀ p ∈ d.productions, ∀ e, p.action = .infallible e →
      ∀ env w, P.code.run e env w ≠ none)
    (hep : ep ∈ P.gen.entries) :
    (∃ K : Nat, ∀ (input : Nat → Option (Except E Tok)) (w : W) (k j m m' : Nat) (w1 w2 : W) (n : Nat),
      P.After ep input w k m w1 n → P.After ep input w (k + j) m' w2 n → j ≤ K) ↔
    ∀ x, UReaches P.defs ep.name x → ¬ URecursesRight P.defs x :=
  latency_iff (Compiled.stops_of_lr1 hnd hlr hP) (Compiled.regular_of_user hep hnd hlr hh) hP hT hu hep

/-- **C74**, for LR(1) grammars, whatever the computed FIRST sets. -/
theorem c74_lr1 (hnd : (P.defs.map (·.name)).Nodup) (hlr : ULR1 P.defs)
    (hP : ∀ d ∈ P.defs, ∃ x, USentence P.defs d.name x) (hep : ep ∈ P.gen.entries)
    (hno : ∀ x, UReaches P.defs ep.name x → ¬ URecursesRight P.defs x) :
    ∃ K : Nat, ∀ {E : Type} (input : Nat → Option (Except E Tok)) (w : W) (k j m m' : Nat) (w1 w2 : W)
      (n : Nat), P.After ep input w k m w1 n → P.After ep input w (k + j) m' w2 n → j ≤ K :=
  (Compiled.stops_of_lr1 hnd hlr hP).latency hnd hep hno

/-! ## A check for the condition -/

/-- Non-terminals behind the last terminal have a rank below `r`, the very first symbol at most `r`. -/
def rightRanked (rank : String → Nat) (r : Nat) : Bool → List USym → Bool
  | _, [] => true
  | _, .term _ :: l => rightRanked rank r false l
  | first, .nt n :: l =>
    (l.any (fun s => match s with | .term _ => true | .nt _ => false) ||
      decide (rank n < r) || (first && decide (rank n ≤ r))) && rightRanked rank r false l

/-- There is no recursion at the right end, as shown by ranks of the non-terminals. -/
def rightCheck (defs : List (AstNonTerminal X Ty)) (rank : String → Nat) : Bool :=
  defs.all fun d => d.productions.all fun p => rightRanked rank (rank d.name) true p.rhs

/-- What `rightRanked` says. -/
def RightRanked (rank : String → Nat) (r : Nat) (v : List USym) : Prop :=
  ∀ μ y ν, v = μ ++ .nt y :: ν → (∀ t, .term t ∉ ν) → rank y ≤ r ∧ (μ ≠ [] → rank y < r)

theorem rightRanked_sound {rank : String → Nat} {r : Nat} : ∀ {v : List USym} {first : Bool},
    rightRanked rank r first v = true → ∀ μ y ν, v = μ ++ .nt y :: ν → (∀ t, .term t ∉ ν) →
      rank y ≤ r ∧ (μ ≠ [] ∨ first = false → rank y < r) := by
  intro v
  induction v with
  | nil => intro first h μ y ν hv; simp at hv
  | cons s v ih =>
    intro first h μ y ν hv hν
    cases μ with
    | nil =>
      simp only [List.nil_append, List.cons.injEq] at hv
      obtain ⟨rfl, rfl⟩ := hv
      have ha : (v.any fun s => match s with | .term _ => true | .nt _ => false) = false := by
        rw [List.any_eq_false]
        intro s hs
        cases s with
        | term t => exact absurd hs (hν t)
        | nt n => simp
      simp only [rightRanked, ha, Bool.false_or, Bool.and_eq_true, Bool.or_eq_true, decide_eq_true_eq] at h
      rcases h.1 with h1 | ⟨rfl, h1⟩
      · exact ⟨by omega, fun _ => h1⟩
      · exact ⟨h1, by simp⟩
    | cons s' μ =>
      simp only [List.cons_append, List.cons.injEq] at hv
      obtain ⟨rfl, hv⟩ := hv
      have h' : rightRanked rank r false v = true := by
        cases s with
        | term t => exact h
        | nt n => simp only [rightRanked, Bool.and_eq_true] at h; exact h.2
      obtain ⟨h1, h2⟩ := ih h' μ y ν hv hν
      exact ⟨h1, fun _ => h2 (.inr rfl)⟩

omit [DecidableEq Ty] in
theorem UDerives.rightRanked {defs : List (AstNonTerminal X Ty)} {rank : String → Nat}
    (h : rightCheck defs rank = true) {x : String} {v : List USym} (hd : UDerives defs [.nt x] v) :
    RightRanked rank (rank x) v := by
  induction hd with
  | refl =>
    intro μ y ν hv _
    cases μ with
    | nil => simp only [List.nil_append, List.cons.injEq, USym.nt.injEq] at hv; simp [hv.1]
    | cons s μ => simp at hv
  | tail _ s ih =>
    cases s with
    | mk l r rhs name p hp hs =>
      have hp' : Parsegen.rightRanked rank (rank name) true rhs = true := by
        simp only [userProds, List.mem_flatMap, List.mem_filter, beq_iff_eq] at hp
        obtain ⟨d, ⟨hd, rfl⟩, hp⟩ := hp
        have := List.all_eq_true.1 (List.all_eq_true.1 h d hd) p hp
        rwa [AstProduction.rhs_eq hs] at this
      intro μ y ν hv hν
      rcases List.append_eq_append_iff.1 hv with ⟨a, h1, h2⟩ | ⟨a, h1, h2⟩
      · -- in what stands behind
        subst h1
        obtain ⟨k1, k2⟩ := ih (l ++ .nt name :: a) y ν (by simp [h2]) hν
        exact ⟨k1, fun _ => k2 (by simp)⟩
      · cases a with
        | nil =>
          simp only [List.nil_append] at h2
          obtain ⟨k1, k2⟩ := ih (l ++ [.nt name]) y ν (by simp [← h2]) hν
          exact ⟨k1, fun _ => k2 (by simp)⟩
        | cons s a =>
          simp only [List.cons_append, List.cons.injEq] at h2
          obtain ⟨rfl, rfl⟩ := h2
          rcases List.append_eq_append_iff.1 h1 with ⟨b, h3, h4⟩ | ⟨b, h3, h4⟩
          · -- in the new part
            subst h3
            obtain ⟨k1, k2⟩ := ih l name r rfl fun t ht => hν t (by simp [ht])
            obtain ⟨k3, k4⟩ := rightRanked_sound hp' b y a h4 fun t ht => hν t (by simp [ht])
            refine ⟨by omega, fun hne => ?_⟩
            by_cases hl : l = []
            · have : b ≠ [] := by
                rintro rfl
                subst hl
                exact hne rfl
              have := k4 (.inl this)
              omega
            · have := k2 hl
              omega
          · cases b with
            | nil =>
              simp only [List.nil_append] at h4
              simp only [List.append_nil] at h3
              subst h3
              obtain ⟨k1, k2⟩ := ih l name r rfl fun t ht => hν t (by simp [ht])
              obtain ⟨k3, k4⟩ := rightRanked_sound hp' [] y a h4.symm fun t ht => hν t (by simp [ht])
              refine ⟨by omega, fun hne => ?_⟩
              have := k2 hne
              omega
            | cons s' b =>
              simp only [List.cons_append, List.cons.injEq] at h4
              obtain ⟨rfl, rfl⟩ := h4
              refine ih μ y (b ++ .nt name :: r) (by simp [h3]) fun t ht => ?_
              simp only [List.mem_append, List.mem_cons, reduceCtorEq, false_or] at ht
              rcases ht with ht | ht
              · exact hν t (by simp [ht])
              · exact hν t (by simp [ht])

omit [DecidableEq Ty] in
theorem UDerives.no_term {defs : List (AstNonTerminal X Ty)} {v v' : List USym} (h : UDerives defs v v')
    {t : String} (ht : .term t ∈ v) : .term t ∈ v' := by
  induction h with
  | refl => exact ht
  | tail _ s ih =>
    cases s with
    | mk l r rhs name p hp hs =>
      simp only [List.mem_append, List.mem_cons, reduceCtorEq, false_or] at ih ⊢
      rcases ih with h | h
      · exact .inl (.inl h)
      · exact .inr h

omit [DecidableEq Ty] in
/-- What the check accepts does not recurse at the right end. -/
theorem not_right_of_check {defs : List (AstNonTerminal X Ty)} (rank : String → Nat)
    (h : rightCheck defs rank = true) (x : String) : ¬ URecursesRight defs x := by
  rintro ⟨μ, ν, hd, hμ, hν⟩
  have := (hd.rightRanked h μ x ν rfl fun t ht => by have := hν.no_term ht; simp at this).2 hμ
  omega

/-! ## Concrete cases -/

namespace Examples

/-- `c74_bounded` applies to the grammar of sums: parentheses can be nested, and the stack can be arbitrarily
high (C73), but it is never cut down by more than a fixed number of actions at once. -/
example (ep : EntryPoint) (hep : ep ∈ arith.gen.entries) : ∃ K : Nat, ∀ {E : Type}
    (input : Nat → Option (Except E Tk)) (w : Log) (k j m m' : Nat) (w1 w2 : Log) (n : Nat),
      arith.After ep input w k m w1 n → arith.After ep input w (k + j) m' w2 n → j ≤ K := by
  refine c74_lr1 arith_regular.names arith_ulr1 arith_productive hep fun x _ => ?_
  rw [show arith.defs = arithDefs from defs_itemsOf _]
  exact not_right_of_check (fun n => if n = "Expr" then 1 else 0) (by decide) x

/-- `c74_height` applies to it. -/
example : ∃ K : Nat, ∀ {E : Type}, ∀ ep ∈ arith.gen.entries,
    ∀ (input : Nat → Option (Except E Tk)) (w : Log) (k j m m' : Nat) (w1 w2 : Log) (n : Nat),
      arith.After ep input w k m w1 n → arith.After ep input w (k + j) m' w2 n → j ≤ K * m :=
  c74_height arith_firstNonempty

/-- The hypotheses of `c74_iff` hold for it. -/
example (ep : EntryPoint) (hep : ep ∈ arith.gen.entries) :
    (∃ K : Nat, ∀ (input : Nat → Option (Except String Tk)) (w : Log) (k j m m' : Nat) (w1 w2 : Log) (n : Nat),
      arith.After ep input w k m w1 n → arith.After ep input w (k + j) m' w2 n → j ≤ K) ↔
    ∀ x, UReaches arith.defs ep.name x → ¬ URecursesRight arith.defs x :=
  haveI : Nonempty Log := ⟨[]⟩
  c74_iff arith_regular.names arith_ulr1 arith_harmless arith_productive arith_tokens arith_total hep

/-- ```
pub L: u64 = { "n" L => 0, "n" => 0 }
``` -/
def chainDefs : List (AstNonTerminal (Act Unit) String) :=
  [ ⟨true, "L", "u64", [⟨[.terminal "n", .nonTerminal "L"], unitAct⟩, ⟨[.terminal "n"], unitAct⟩]⟩ ]

set_option maxRecDepth 10000 in
theorem chain_ok : (parserMacro .insertion code.mkPath (itemsOf chainDefs)).isOk = true := by
  decide +kernel

/-- The program of lists written with right recursion. -/
def chain : Compiled (Act Unit) String Nat Unit Tk := program chainDefs chain_ok

set_option maxRecDepth 10000 in
theorem chain_run : run chain 0 (stream [.num 1, .num 1]) () 100 = some (.ok 0, (), 3) := by decide +kernel

set_option maxRecDepth 10000 in
theorem chain_regular : chain.Regular := by
  obtain ⟨ep, hep, _⟩ := run_returns chain_run
  refine chain.regular_of_check hep ?_ ?_
  · decide +kernel
  · decide +kernel

theorem chain_defs : chain.defs = chainDefs := defs_itemsOf _

/-- `c74_unbounded` applies to it: all actions are run when the end of the input is seen.  (This is so for
any lexer error type and any state.) -/
theorem c74_example (ep : EntryPoint) (hep : ep ∈ chain.gen.entries) (hn : ep.name = "L") (K : Nat) :
    ∃ toks, chain.IsSentence "L" toks ∧ ∃ k j m m' w1 w2 n,
      chain.After (E := String) ep (stream toks) () k m w1 n ∧
      chain.After (E := String) ep (stream toks) () (k + j) m' w2 n ∧ K < j := by
  have d1 : UDerives chainDefs [.nt "L"] [.term "n", .nt "L"] :=
    .tail (.refl _) (user_step (p := chainDefs[0].productions[0]) _ (by simp [userProds, chainDefs]) rfl)
  have d2 : UDerives chainDefs [.nt "L"] [.term "n"] :=
    .tail (.refl _) (user_step (p := chainDefs[0].productions[1]) _ (by simp [userProds, chainDefs]) rfl)
  obtain ⟨toks, h1, h2⟩ := c74_unbounded (x := "L") chain_regular
    (by
      rw [chain_defs]
      intro d hd
      simp only [chainDefs, List.mem_cons, List.not_mem_nil, or_false] at hd
      subst hd
      exact ⟨["n"], d2⟩)
    arith_tokens
    (by
      rw [chain_defs]
      intro d hm p hp e he env w
      simp only [chainDefs, List.mem_cons, List.not_mem_nil, or_false] at hm
      subst hm
      simp only [List.mem_cons, List.not_mem_nil, or_false] at hp
      rcases hp with rfl | rfl <;> cases he <;> exact fun h => nomatch h)
    hep (by rw [chain_defs, hn]; exact ⟨[], [], .refl _⟩)
    (by rw [chain_defs]; exact ⟨[.term "n"], [], d1, by simp, .refl _⟩) K
  exact ⟨toks, hn ▸ h1, h2 (stream toks) () ⟨fun i t ht => by simp [stream, ht], by simp [stream]⟩⟩

end Examples

end Parsegen
