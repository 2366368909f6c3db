import Verif.Proofs.Space
import Verif.Proofs.LeftRecStop
import Verif.Spec.Space
import Verif.Spec.LeftRecursion
import Verif.Props.LeftRecursion
import Verif.Props.UserLevel
import Verif.Props.Linear
import Verif.Props.Harmless

/-! # C73: the stack stays small exactly when all recursion is left recursion -/

namespace Parsegen

variable {X Ty V W Tok E : Type}

theorem Grammar.Spine.derives {g : Grammar X Ty} {x y : Nat} {μ : List Symbol} (h : g.Spine x μ y) :
    ∃ β, g.Derives [.nonTerminal x] (μ ++ .nonTerminal y :: β) := by
  induction h with
  | root => exact ⟨[], .refl _⟩
  | @child μ y p ν z β _ hp ih =>
    obtain ⟨τ, h⟩ := ih
    refine ⟨β ++ τ, h.trans ?_⟩
    simpa using (Grammar.Derives.step_nt hp τ).append_left μ

section lowered
variable {asts : List (AstNonTerminal X Ty)} {convs : List (Conversion Ty)} {g : Grammar X Ty}
  {nts ts : AMap String Nat} {mkPath : String → X}

theorem Lowered.spine_user (hl : Lowered mkPath asts convs g nts ts) {x y : Nat} {μ : List Symbol}
    {n : String} (hn : nts.get? n = some x) {β : List Symbol}
    (h : g.Derives [.nonTerminal x] (μ ++ .nonTerminal y :: β)) :
    ∃ uμ m uβ, nts.get? m = some y ∧ List.Forall₂ (Names nts ts) uμ μ ∧
      UDerives asts [.nt n] (uμ ++ .nt m :: uβ) := by
  obtain ⟨l, h1, h2⟩ := hl.derives_user h (l := [.nt n]) (.cons hn .nil)
  obtain ⟨uμ, l, rfl, h3, h4⟩ := forall₂_append_right h1
  cases h4 with
  | @cons s _ uβ _ h5 h6 =>
  cases s with
  | term t => cases h5
  | nt m => exact ⟨uμ, m, uβ, h5, h3, h2⟩

/-- Recursion in the lowered grammar is recursion in the user's. -/
theorem Lowered.no_inside (hl : Lowered mkPath asts convs g nts ts) {e b : Nat} {S : String}
    (he : g.isPublic e = true) (hb : g.HasProd e 0 [.nonTerminal b]) (hS : nts.get? S = some b)
    (hno : ∀ x, UReaches asts S x → ¬ URecursesInside asts x) :
    ∀ x μ ν, g.Spine e μ x → g.Spine x ν x → ν = [] := by
  intro x μ ν h1 h2
  obtain ⟨β, h1⟩ := h1.derives
  rcases h1.entry_inv hl.wf he hb with h3 | h3
  · have : x = e := by
      cases μ with
      | nil => simpa using (List.cons.inj h3).1
      | cons s μ => simp at h3
    subst this
    exact (h2.entry_eq hl.wf he).2
  · obtain ⟨uμ, m, uβ, k1, k2, k3⟩ := hl.spine_user hS h3
    obtain ⟨τ, h2⟩ := h2.derives
    obtain ⟨uν, m', uτ, l1, l2, l3⟩ := hl.spine_user k1 h2
    have := hl.inj l1 k1
    subst this
    by_contra hne
    refine hno _ ⟨uμ, uβ, k3⟩ ⟨uν, uτ, l3, ?_⟩
    rintro rfl
    cases l2
    exact hne rfl

end lowered

variable [DecidableEq Ty] {P : Compiled X Ty V W Tok} {ep : EntryPoint}

/-- **C73.** If no non-terminal that recurses other than at its left end is reachable from a `pub`
non-terminal, the stacks of its parser never have more than `2 * M * N + 1` entries together, where `M` is the
length of the longest production and `N` the number of definitions: on no input, not even on endless ones. -/
theorem c73_bounded (hnd : (P.defs.map (·.name)).Nodup) (hep : ep ∈ P.gen.entries)
    (hno : ∀ x, UReaches P.defs ep.name x → ¬ URecursesInside P.defs x) {M : Nat} (hM1 : 1 ≤ M)
    (hM : ∀ d ∈ P.defs, ∀ p ∈ d.productions, p.symbols.length ≤ M)
    {input : Nat → Option (Except E Tok)} {w w' : W} {k m n : Nat} (h : P.After ep input w k m w' n) :
    m ≤ 2 * (M * P.defs.length) + 1 := by
  obtain ⟨g, nts, ts, a, g', T, S⟩ := P.setup hep
  obtain ⟨s, h, rfl, -, -⟩ := h
  obtain ⟨e, nt, h1, h2, h3, he, hini, hext, hsem⟩ := S.run hep
  obtain ⟨b, hb1, hb2⟩ := S.lowered.entry_name hnd h1 h2
  rw [h3] at hb1
  obtain ⟨γ, toks, hi, ht⟩ := steps_inv (w0 := w) S.wf (S.stages.tables S.wf) S.cons he hext hsem h.steps
    (runInv_init hini) trace_init
  obtain ⟨it, hit⟩ := ht.live
  have hpub : ∀ {nt p α}, g.HasProd nt p α → g.isPublic nt = true → α.length = 1 := by
    intro nt p α hp hpb
    obtain ⟨k1, b', k2⟩ := S.wf.pub hpb
    have : p = 0 := by have := hp.lt; omega
    subst this
    rw [← hp.rhs_eq, k2.rhs_eq]
    rfl
  have hMg : ∀ {nt p α}, g.HasProd nt p α → α.length ≤ M := by
    intro nt p α hp
    by_cases hpb : g.isPublic nt = true
    · rw [hpub hp hpb]; exact hM1
    · obtain ⟨n, hn⟩ := S.lowered.name_of_hasProd hp (by simpa using hpb)
      obtain ⟨q, pr, k1, k2, _, rfl⟩ := S.lowered.hasProd_user hn hp
      have hq := List.mem_of_getElem? k1
      simp only [userProds, List.mem_flatMap, List.mem_filter, beq_iff_eq] at hq
      obtain ⟨d, ⟨hd, _⟩, hq⟩ := hq
      have := hM d hd q hq
      have k3 := k2.plain.length_eq
      rw [← k3]; exact this
  obtain ⟨ds, d1, d2, d3, d4⟩ := hit.bounded hMg (S.lowered.no_inside he hb2 hb1 hno)
  have hds : ds.length ≤ P.defs.length ∨ γ.length ≤ 1 := by
    by_cases hie : g.isPublic it.nt = true
    · right
      obtain ⟨μ, α, β, rfl, k1, k2, k3⟩ := hit.spine
      have hμ : μ = [] := by
        obtain ⟨τ, k4⟩ := k1.derives
        rcases k4.entry_inv S.wf he hb2 with k5 | k5
        · cases μ with
          | nil => rfl
          | cons s μ => simp at k5
        · obtain ⟨_, n, _, k6, _⟩ := S.lowered.spine_user hb1 k5
          obtain ⟨nt', _, k7, _, _, _, k8, _⟩ := S.lowered.prods k6
          simp [Grammar.isPublic, k7, k8] at hie
      subst hμ
      rcases k3 with k3 | rfl
      · have := hpub k3 hie
        rw [List.length_append] at this
        simp; omega
      · simp
    · left
      have hname : ∀ d ∈ ds, ∃ n, nts.get? n = some d := by
        intro d hd
        obtain ⟨p, α, hp⟩ := d2 d hd
        refine S.lowered.name_of_hasProd hp ?_
        rcases d3 d hd with ⟨p', ν, s', β, k1, k2⟩ | rfl
        · by_contra hc
          have := hpub k1 (by simpa using hc)
          have := List.length_pos_iff.2 k2
          simp at *
          omega
        · simpa using hie
      have hlen : ∀ l : List Nat, l.Nodup → (∀ d ∈ l, ∃ n, nts.get? n = some d) →
          ∃ ns : List String, ns.length = l.length ∧ ns.Nodup ∧ ∀ n ∈ ns, ∃ d ∈ l, nts.get? n = some d := by
        intro l
        induction l with
        | nil => intro _ _; exact ⟨[], rfl, List.nodup_nil, by simp⟩
        | cons d l ih =>
          intro l1 l2
          obtain ⟨l1, l1'⟩ := List.nodup_cons.1 l1
          obtain ⟨ns, m1, m2, m3⟩ := ih l1' fun d hd => l2 d (by simp [hd])
          obtain ⟨n, hn⟩ := l2 d (by simp)
          refine ⟨n :: ns, by simp [m1], List.nodup_cons.2 ⟨fun hc => ?_, m2⟩, fun m hm => ?_⟩
          · obtain ⟨d', hd', hn'⟩ := m3 n hc
            rw [hn] at hn'
            cases hn'
            exact l1 hd'
          · rcases List.mem_cons.1 hm with rfl | hm
            · exact ⟨d, by simp, hn⟩
            · obtain ⟨d', hd', hn'⟩ := m3 m hm
              exact ⟨d', by simp [hd'], hn'⟩
      obtain ⟨ns, m1, m2, m3⟩ := hlen ds d1 hname
      have hsub : ns ⊆ P.defs.map (·.name) := by
        intro n hn
        obtain ⟨d, _, hd⟩ := m3 n hn
        obtain ⟨a, ha, rfl⟩ := (S.lowered.idx n).1 ⟨d, hd⟩
        exact List.mem_map_of_mem ha
      have := (m2.subperm hsub).length_le
      rw [m1, List.length_map] at this
      exact this
  have hγ : γ.length ≤ M * P.defs.length := by
    rcases hds with hds | hds
    · exact d4.trans (Nat.mul_le_mul_left M hds)
    · have hne : 0 < P.defs.length := by
        obtain ⟨a, ha, _⟩ := (S.lowered.idx ep.name).1 ⟨b, hb1⟩
        exact List.length_pos_of_mem ha
      exact hds.trans (Nat.mul_pos hM1 hne)
  obtain ⟨vs, hev, hvs⟩ := hi.eval
  have e1 : s.states.length = γ.length + 1 := hi.stk.length
  have e2 : s.values.length = γ.length := by rw [hvs, List.length_reverse, hev.length_eq]
  rw [e1, e2]
  omega

theorem Runs.iterations {gen : Generated X} {u : UserCode X V W} {tf : TokenFns Tok V}
    {input : Nat → Option (Except E Tok)} {s s' : PState Tok V W E} (h : Runs gen u tf input ep s s') :
    ∀ {k : Nat} {s0 : PState Tok V W E}, Iterations gen u tf input ep k s0 s →
      ∃ k', Iterations gen u tf input ep k' s0 s' := by
  induction h with
  | refl => intro k s0 h; exact ⟨k, h⟩
  | head h _ ih => intro k s0 h0; exact ih (.succ h0 h)

/-- If every token kind has a token and every non-terminal derives something, every symbol yields some tokens. -/
theorem Setup.yields_some {g nts ts a g' T} (S : Setup P g nts ts a g' T) (hnd : (P.defs.map (·.name)).Nodup)
    (hP : ∀ d ∈ P.defs, ∃ x, USentence P.defs d.name x)
    (hT : ∀ c ∈ P.tokens.conversions, ∃ t, P.cls t = c.from_) :
    (∀ b, b < g.nNonTerminals → g.isPublic b = false →
      ∃ t : List Tok, g.Yields P.tf.terminalIdx [.nonTerminal b] t) ∧
    ∀ s, (∃ nt p α, g.HasProd nt p α ∧ s ∈ α) → ∃ t : List Tok, g.Yields P.tf.terminalIdx [s] t := by
  have hl := S.lowered
  have hPg := hl.allProductive hnd hP
  have hterm : ∀ i, i < g.nTerminals → ∃ t, P.tf.terminalIdx t = i := by
    intro i hi
    have hi' : i < g.terminals.length := hi
    have hm : g.terminals[i] ∈ P.tokens.conversions.map (·.from_) := by
      rw [← hl.terminals]; exact List.getElem_mem hi'
    obtain ⟨c, hc, hce⟩ := List.mem_map.1 hm
    obtain ⟨t, ht⟩ := hT c hc
    refine ⟨t, ?_⟩
    obtain ⟨hlt, h8⟩ := List.getElem?_eq_some_iff.1 (S.cls t)
    have hnd : g.terminals.Nodup := by rw [hl.terminals]; exact hl.tnodup
    exact (List.Nodup.getElem_inj_iff hnd).1 (by rw [h8, ht, hce])
  have hinp : ∀ inp : List Nat, (∀ i ∈ inp, i < g.nTerminals) →
      ∃ toks : List Tok, toks.map (fun t => Symbol.terminal (P.tf.terminalIdx t)) = inp.map .terminal := by
    intro inp
    induction inp with
    | nil => intro _; exact ⟨[], rfl⟩
    | cons i inp ih =>
      intro hi
      obtain ⟨t, ht⟩ := hterm i (hi i (by simp))
      obtain ⟨toks, h7⟩ := ih fun j hj => hi j (by simp [hj])
      exact ⟨t :: toks, by simp [ht, h7]⟩
  have hnt : ∀ b, b < g.nNonTerminals → g.isPublic b = false →
      ∃ t : List Tok, g.Yields P.tf.terminalIdx [.nonTerminal b] t := by
    intro b h7 h8
    obtain ⟨inp, h9⟩ := hPg b h7 h8
    have h9 : g.Derives [.nonTerminal b] (inp.map .terminal) := h9
    obtain ⟨toks, h10⟩ := hinp inp fun i hi =>
      h9.term_lt S.wf (by simp) i (List.mem_map.2 ⟨i, hi, rfl⟩)
    exact ⟨toks, Grammar.yields_iff_derives.2 (by rw [h10]; exact h9)⟩
  have hsym : ∀ s, (∃ nt p α, g.HasProd nt p α ∧ s ∈ α) →
      ∃ t : List Tok, g.Yields P.tf.terminalIdx [s] t := by
    rintro s ⟨nt, p, α, hp, hs⟩
    cases s with
    | terminal i =>
      obtain ⟨t, rfl⟩ := hterm i (S.wf.term_lt hp hs)
      exact ⟨[t], Grammar.yields_iff_derives.2 (.refl _)⟩
    | nonTerminal b => exact hnt b (S.wf.nt_lt hp hs) (S.wf.nt_priv hp hs)
  exact ⟨hnt, hsym⟩

/-- **C73**, conversely: let the program be regular (C04), every non-terminal derive some string, every
token kind have a token, and no action panic.  If from the `pub` non-terminal one can reach one that recurses
other than at its left end, then there are sentences on which the stacks grow beyond any bound. -/
theorem c73_unbounded (hR : P.Regular) (hP : ∀ d ∈ P.defs, ∃ x, USentence P.defs d.name x)
    (hT : ∀ c ∈ P.tokens.conversions, ∃ t, P.cls t = c.from_)
    (hu : ∀ d ∈ P.defs, ∀ p ∈ d.productions, ∀ e, p.action = .infallible e →
      ∀ env w, P.code.run e env w ≠ none)
    (hep : ep ∈ P.gen.entries) {x : String} (hr : UReaches P.defs ep.name x)
    (hx : URecursesInside P.defs x) (K : Nat) :
    ∃ toks, P.IsSentence ep.name toks ∧ ∀ {E : Type} (input : Nat → Option (Except E Tok)) (w : W),
      Ends input toks → ∃ k m w' n, P.After ep input w k m w' n ∧ K < m := by
  obtain ⟨g, nts, ts, a, g', T, e, b, R⟩ := hR.get hep
  have S := R.setup
  have hl := S.lowered
  -- the path
  obtain ⟨uα, uβ, hr⟩ := hr
  obtain ⟨ρ, h1, h2⟩ := hl.user_derives hr (α := [.nonTerminal b]) (.cons R.name .nil)
  obtain ⟨α, β', rfl, h3, h4⟩ := forall₂_append_left h1
  cases h4 with
  | @cons _ s _ β h5 h6 =>
  cases s with
  | terminal t => cases h5
  | nonTerminal j =>
  obtain ⟨uμ, uν, x1, x2⟩ := hx
  obtain ⟨σ, y1, y2⟩ := hl.user_derives x1 (α := [.nonTerminal j]) (.cons h5 .nil)
  obtain ⟨μ, ν', rfl, y3, y4⟩ := forall₂_append_left y1
  cases y4 with
  | @cons _ s _ ν y5 y6 =>
  have := names_func (.cons y5 .nil) (.cons h5 .nil)
  cases this
  obtain ⟨α', β'', c1, _, _⟩ := h2.ctx rfl
  obtain ⟨μ', ν'', c2, c3, _⟩ := y2.ctx rfl
  have hμ' : μ' ≠ [] := by
    rintro rfl
    have := c3.nil_eq
    subst this
    cases y3
    exact x2 rfl
  obtain ⟨μ2, ν2, c4, c5⟩ := c2.iterate hμ' (K + 1)
  have c6 := c1.trans c4
  obtain ⟨hnt, hsym⟩ := S.yields_some hR.names hP hT
  obtain ⟨tμ, e1⟩ := yields_of_mem (α := α' ++ μ2) fun s hs =>
    hsym s (c6.mem s (List.mem_append_left _ hs))
  obtain ⟨tβ, e2⟩ := yields_of_mem (α := ν2 ++ β'') fun s hs =>
    hsym s (c6.mem s (List.mem_append_right _ hs))
  obtain ⟨nt, ad, h7, h8, _, _, h9, _⟩ := hl.prods h5
  obtain ⟨tx, e3⟩ := hnt j (List.getElem?_eq_some_iff.1 h7).1 (by simpa [Grammar.isPublic, h7] using h9)
  refine ⟨tμ ++ (tx ++ tβ), (hl.sentence_iff S.cls R.name _).2 ?_, ?_⟩
  · exact c6.yields e1 e3 e2
  intro E input w hin
  obtain ⟨vs, hA, _⟩ := c6.stack (e := e) R.first S.wf R.prod e1 e3 e2
  rcases simU_steps (w0 := w) (input := input) (u := P.code) S.wf (S.stages.tables S.wf) S.cons R.pub R.ext R.sem
    R.conf (toks := []) (runInv_init R.ini) (by simpa using hin) hA with
    ⟨s1, toks1, hr, hi, hy⟩ | ⟨fuel, s', h1⟩
  · obtain ⟨k, hk⟩ := hr.iterations (.zero _)
    refine ⟨k, _, _, _, ⟨s1, hk, rfl, rfl, rfl⟩, ?_⟩
    have e4 : s1.states.length = (α' ++ μ2).length + 1 := hi.stk.length
    rw [e4, List.length_append]
    omega
  · exact absurd ⟨fuel, s', h1, rfl, rfl⟩ (c06_no_panic (w := w) (w' := s'.world) (n := s'.calls) hep hu)

omit [DecidableEq Ty] in
theorem exists_longest (defs : List (AstNonTerminal X Ty)) :
    ∃ M, ∀ d ∈ defs, ∀ p ∈ d.productions, p.symbols.length ≤ M :=
  ⟨(defs.map fun d => (d.productions.map fun p => p.symbols.length).sum).sum, fun _ hd _ hp =>
    (mem_le_sum (List.mem_map_of_mem (f := fun p : AstProduction X => p.symbols.length) hp)).trans
      (mem_le_sum (List.mem_map_of_mem hd))⟩

/-- **C73.** Both together. -/
theorem c73_iff [Nonempty W] (hR : P.Regular) (hP : ∀ d ∈ P.defs, ∃ x, USentence P.defs d.name x)
    (hT : ∀ c ∈ P.tokens.conversions, ∃ t, P.cls t = c.from_)
    (hu : ∀ d ∈ P.defs, ∀ p ∈ d.productions, ∀ e, p.action = .infallible e →
      ∀ env w, P.code.run e env w ≠ none)
    (hep : ep ∈ P.gen.entries) :
    (∃ K : Nat, ∀ (input : Nat → Option (Except E Tok)) (w : W) (k m : Nat) (w' : W) (n : Nat),
      P.After ep input w k m w' n → m ≤ K) ↔
    ∀ x, UReaches P.defs ep.name x → ¬ URecursesInside P.defs x := by
  constructor
  · rintro ⟨K, hK⟩ x hr hx
    obtain ⟨toks, _, h⟩ := c73_unbounded hR hP hT hu hep hr hx K
    obtain ⟨w⟩ := ‹Nonempty W›
    obtain ⟨k, m, w', n, h1, h2⟩ := h (E := E) (fun i => toks[i]?.map .ok) w
      ⟨fun i t ht => by simp [ht], by simp⟩
    have := hK _ _ _ _ _ _ h1
    omega
  · intro h
    obtain ⟨M, hM⟩ := exists_longest P.defs
    exact ⟨_, fun input w k m w' n h1 => c73_bounded hR.names hep h (M := M + 1) (by omega)
      (fun d hd p hp => Nat.le_succ_of_le (hM d hd p hp)) h1⟩

/-! ## A check for the condition -/

/-- Every non-terminal in a form that is not its first symbol has a rank below `r`. -/
def ranksBelow (rank : String → Nat) (r : Nat) : List USym → Bool
  | [] => true
  | .term _ :: l => ranksBelow rank r l
  | .nt n :: l => decide (rank n < r) && ranksBelow rank r l

/-- The first symbol has at most the rank `r`, the others lower ones. -/
def leftRanked (rank : String → Nat) (r : Nat) : List USym → Bool
  | [] => true
  | .term _ :: l => ranksBelow rank r l
  | .nt n :: l => decide (rank n ≤ r) && ranksBelow rank r l

/-- All recursion is at the left end, as shown by ranks of the non-terminals. -/
def leftCheck (defs : List (AstNonTerminal X Ty)) (rank : String → Nat) : Bool :=
  defs.all fun d => d.productions.all fun p => leftRanked rank (rank d.name) p.rhs

theorem ranksBelow_append {rank : String → Nat} {r : Nat} {l m : List USym} :
    ranksBelow rank r (l ++ m) = (ranksBelow rank r l && ranksBelow rank r m) := by
  induction l with
  | nil => simp [ranksBelow]
  | cons s l ih => cases s <;> simp [ranksBelow, ih, Bool.and_assoc]

theorem ranksBelow_mono {rank : String → Nat} {r r' : Nat} (hr : r ≤ r') {l : List USym}
    (h : ranksBelow rank r l = true) : ranksBelow rank r' l = true := by
  induction l with
  | nil => rfl
  | cons s l ih =>
    cases s with
    | term t => exact ih h
    | nt n =>
      simp only [ranksBelow, Bool.and_eq_true, decide_eq_true_eq] at h ⊢
      exact ⟨by omega, ih h.2⟩

theorem leftRanked_below {rank : String → Nat} {r r' : Nat} (hr : r < r') {l : List USym}
    (h : leftRanked rank r l = true) : ranksBelow rank r' l = true := by
  cases l with
  | nil => rfl
  | cons s l =>
    cases s with
    | term t => exact ranksBelow_mono (Nat.le_of_lt hr) h
    | nt n =>
      simp only [leftRanked, ranksBelow, Bool.and_eq_true, decide_eq_true_eq] at h ⊢
      exact ⟨by omega, ranksBelow_mono (Nat.le_of_lt hr) h.2⟩

theorem leftRanked_append {rank : String → Nat} {r r' : Nat} (hr : r ≤ r') {l m : List USym}
    (h : leftRanked rank r l = true) (hm : ranksBelow rank r' m = true) :
    leftRanked rank r' (l ++ m) = true := by
  cases l with
  | nil =>
    cases m with
    | nil => rfl
    | cons s m =>
      cases s with
      | term t => exact hm
      | nt n =>
        simp only [List.nil_append, leftRanked, ranksBelow, Bool.and_eq_true, decide_eq_true_eq] at hm ⊢
        exact ⟨by omega, hm.2⟩
  | cons s l =>
    cases s with
    | term t =>
      simp only [List.cons_append, leftRanked, ranksBelow_append, Bool.and_eq_true] at h ⊢
      exact ⟨ranksBelow_mono hr h, hm⟩
    | nt n =>
      simp only [List.cons_append, leftRanked, ranksBelow_append, Bool.and_eq_true, decide_eq_true_eq] at h ⊢
      exact ⟨by omega, ranksBelow_mono hr h.2, hm⟩

omit [DecidableEq Ty] in
theorem UDerives.leftRanked {defs : List (AstNonTerminal X Ty)} {rank : String → Nat}
    (h : leftCheck defs rank = true) {x : String} {v : List USym} (hd : UDerives defs [.nt x] v) :
    Parsegen.leftRanked rank (rank x) v = true := by
  induction hd with
  | refl => simp [Parsegen.leftRanked, ranksBelow]
  | tail _ s ih =>
    cases s with
    | mk l r rhs name p hp hs =>
      have hp' : Parsegen.leftRanked rank (rank name) rhs = true := by
        simp only [userProds, List.mem_flatMap, List.mem_filter, beq_iff_eq] at hp
        obtain ⟨d, ⟨hd, rfl⟩, hp⟩ := hp
        have := List.all_eq_true.1 (List.all_eq_true.1 h d hd) p hp
        rwa [AstProduction.rhs_eq hs] at this
      cases l with
      | nil =>
        simp only [List.nil_append, Parsegen.leftRanked, Bool.and_eq_true, decide_eq_true_eq] at ih ⊢
        exact leftRanked_append ih.1 hp' ih.2
      | cons s l =>
        cases s with
        | term t =>
          simp only [List.cons_append, Parsegen.leftRanked, ranksBelow_append, ranksBelow, Bool.and_eq_true,
            decide_eq_true_eq] at ih ⊢
          exact ⟨⟨ih.1, leftRanked_below ih.2.1 hp'⟩, ih.2.2⟩
        | nt n =>
          simp only [List.cons_append, Parsegen.leftRanked, ranksBelow_append, ranksBelow, Bool.and_eq_true,
            decide_eq_true_eq] at ih ⊢
          exact ⟨ih.1, ⟨ih.2.1, leftRanked_below ih.2.2.1 hp'⟩, ih.2.2.2⟩

omit [DecidableEq Ty] in
/-- What the check accepts recurses at the left end only. -/
theorem not_inside_of_check {defs : List (AstNonTerminal X Ty)} (rank : String → Nat)
    (h : leftCheck defs rank = true) (x : String) : ¬ URecursesInside defs x := by
  rintro ⟨μ, ν, hd, hμ⟩
  have := hd.leftRanked h
  cases μ with
  | nil => exact hμ rfl
  | cons s μ =>
    cases s <;> simp [leftRanked, ranksBelow_append, ranksBelow] at this

namespace Examples

/-- `c73_bounded` applies to `list`, a grammar of lists of lists: lists of any length are parsed with at most
37 entries on the stacks. -/
example (ep : EntryPoint) (hep : ep ∈ list.gen.entries) (input : Nat → Option (Except String Tk))
    (k m : Nat) (w' : Unit) (n : Nat) (h : list.After ep input () k m w' n) : m ≤ 37 := by
  have h1 := c73_bounded (M := 3) (by rw [list_defs]; decide) hep (fun x _ => ?_) (by omega) ?_ h
  · rwa [list_defs] at h1
  · rw [list_defs]
    exact not_inside_of_check (fun n => if n = "Program" then 5 else if n = "Items" then 4 else
      if n = "Item" then 3 else if n = "Args" then 2 else if n = "List" then 1 else 0) (by decide) x
  · rw [list_defs]; decide

/-- The grammar of sums: `Expr ⇒* ( Expr )`. -/
theorem arith_derives : UDerives arithDefs [.nt "Expr"] [.term "(", .nt "Expr", .term ")"] ∧
    UDerives arithDefs [.nt "Term"] [.term "n"] ∧ UDerives arithDefs [.nt "Expr"] [.term "n"] := by
  have mk : ∀ {name : String} {p : AstProduction (Act Log)} (rhs : List USym),
      p ∈ userProds arithDefs name → p.symbols.map (·.plain) = rhs.map some →
      UDerives arithDefs [.nt name] rhs := by
    intro name p rhs h1 h2
    have := UProduces.mk [] [] rhs name p h1 h2
    exact .tail (.refl _) (by simpa using this)
  have h1 : UDerives arithDefs [.nt "Expr"] [.nt "Term"] :=
    mk (p := arithDefs[0].productions[1]) _ (by simp [userProds, arithDefs]) rfl
  have h2 : UDerives arithDefs [.nt "Term"] [.term "(", .nt "Expr", .term ")"] :=
    mk (p := arithDefs[1].productions[1]) _ (by simp [userProds, arithDefs]) rfl
  have h3 : UDerives arithDefs [.nt "Term"] [.term "n"] :=
    mk (p := arithDefs[1].productions[0]) _ (by simp [userProds, arithDefs]) rfl
  exact ⟨h1.trans h2, h3, h1.trans h3⟩

/-- Every token of the enum is one that the lexer can produce. -/
theorem arith_tokens : ∀ c ∈ arith.tokens.conversions, ∃ t, arith.cls t = c.from_ := by
  intro c hc
  have hc : c.from_ ∈ ["+", "n", "(", ")"] := List.mem_map_of_mem (f := (·.from_)) (l := tk.conversions) hc
  have hk : arith.cls .plus = "+" ∧ arith.cls (.num 0) = "n" ∧ arith.cls .lp = "(" ∧
      arith.cls .rp = ")" := by decide
  simp only [List.mem_cons, List.not_mem_nil, or_false] at hc
  rcases hc with h | h | h | h <;> rw [h]
  · exact ⟨_, hk.1⟩
  · exact ⟨_, hk.2.1⟩
  · exact ⟨_, hk.2.2.1⟩
  · exact ⟨_, hk.2.2.2⟩

/-- No action panics. -/
theorem arith_total : ∀ d ∈ arith.defs, ∀ p ∈ d.productions, ∀ e, p.action = .infallible e →
    ∀ env w, arith.code.run e env w ≠ none := by
  rw [show arith.defs = arithDefs from defs_itemsOf _]
  intro d hm p hp e he env w
  simp only [arithDefs, List.mem_cons, List.not_mem_nil, or_false] at hm
  rcases hm with rfl | rfl <;> simp only [List.mem_cons, List.not_mem_nil, or_false] at hp <;>
    rcases hp with rfl | rfl <;> cases he <;> exact fun h => nomatch h

/-- `c73_unbounded` applies to it: parentheses can be nested. -/
example (ep : EntryPoint) (hep : ep ∈ arith.gen.entries) (hn : ep.name = "Expr") (K : Nat) :
    ∃ toks, arith.IsSentence "Expr" toks ∧ ∃ k m w' n,
      arith.After (E := String) ep (stream toks) [] k m w' n ∧ K < m := by
  have hd : arith.defs = arithDefs := defs_itemsOf _
  obtain ⟨d1, d2, d3⟩ := arith_derives
  have hP : ∀ d ∈ arith.defs, ∃ x, USentence arith.defs d.name x := by
    rw [hd]
    intro d hm
    have : d.name = "Expr" ∨ d.name = "Term" := by
      simp only [arithDefs, List.mem_cons, List.not_mem_nil, or_false] at hm
      rcases hm with rfl | rfl <;> simp
    rcases this with h | h <;> rw [h]
    · exact ⟨["n"], d3⟩
    · exact ⟨["n"], d2⟩
  obtain ⟨toks, h1, h2⟩ := c73_unbounded (x := "Expr") arith_regular hP arith_tokens arith_total hep
    (by rw [hd, hn]; exact ⟨[], [], .refl _⟩)
    (by rw [hd]; exact ⟨[.term "("], [.term ")"], d1, by simp⟩) K
  exact ⟨toks, hn ▸ h1, h2 (stream toks) [] ⟨fun i t ht => by simp [stream, ht], by simp [stream]⟩⟩

end Examples

end Parsegen
