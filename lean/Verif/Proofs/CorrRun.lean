import Verif.Proofs.Corr
import Verif.Proofs.Compiled
import Verif.Props.Conflicts
import Verif.Proofs.Trace
import Verif.Spec.Rearrange

/-! # Parsers of corresponding grammars run in lock-step -/

namespace Parsegen

variable {X Ty V W Tok E : Type} [DecidableEq Ty] {h h' : HashOrder} {g g' : Grammar X Ty}
  {gen gen' : Generated X} {a a' : Automaton} {g1 g1' : Grammar Nat Ty} {T1 T1' : LRTable Nat}
  {N T : Nat → Nat → Prop}

/-- What the two tables do. -/
inductive CellCorr (g g' : Grammar X Ty) (N T : Nat → Nat → Prop) (I I' : Item → Prop)
    (c c' : Option Nat) : Option RtAction → Option RtAction → Prop
  | none : CellCorr g g' N T I I' c c' none none
  | shift (r r') : CellCorr g g' N T I I' c c' (some (.shift r)) (some (.shift r'))
  | accept : CellCorr g g' N T I I' c c' (some .accept) (some .accept)
  | reduce {b n k p b' n' k' p'} (hm : MoveCorr g g' N T (.reduce b p) (.reduce b' p'))
      (h1 : ∀ m, g.Wants I c m → m = .reduce b p)
      (h2 : ∀ m, g'.Wants I' c' m → m = .reduce b' p') :
      CellCorr g g' N T I I' c c' (some (.reduce b n k)) (some (.reduce b' n' k'))

/-- Everything that makes two generated parsers correspond. -/
structure GenCorr (h h' : HashOrder) (g g' : Grammar X Ty) (gen gen' : Generated X)
    (a a' : Automaton) (g1 g1' : Grammar Nat Ty) (T1 T1' : LRTable Nat) (N T : Nat → Nat → Prop) :
    Prop where
  stages : GenStages h g gen a g1 T1
  stages' : GenStages h' g' gen' a' g1' T1'
  wf : g.WF
  wf' : g'.WF
  corr : GCorr g g' N T
  first : FCorr g g' (generateFirstTable h g) (generateFirstTable h' g') N T
  first' : FCorr g' g (generateFirstTable h' g') (generateFirstTable h g) (conv N) (conv T)

omit [DecidableEq Ty] in
theorem moveCorr_conv {m m' : Move} (hm : MoveCorr g g' N T m m') :
    MoveCorr g' g (conv N) (conv T) m' m := by
  cases m <;> cases m' <;> try exact hm
  obtain ⟨h1, pr, pr', h2, h3, h4⟩ := hm
  exact ⟨h1, pr', pr, h3, h2, prodCorr_conv h4⟩

theorem GenCorr.symm (hC : GenCorr h h' g g' gen gen' a a' g1 g1' T1 T1' N T) :
    GenCorr h' h g' g gen' gen a' a g1' g1 T1' T1 (conv N) (conv T) where
  stages := hC.stages'
  stages' := hC.stages
  wf := hC.wf'
  wf' := hC.wf
  corr := hC.corr.symm
  first := hC.first'
  first' := hC.first

theorem GenCorr.cell (hC : GenCorr h h' g g' gen gen' a a' g1 g1' T1 T1' N T) {E E' : Nat}
    (hE : N E E') (hpub : g.isPublic E = true) {γ γ' : List Symbol}
    (hγ : List.Forall₂ (SymCorr N T) γ γ') {q q' : Nat}
    (hq : StateAt g (generateFirstTable h g) a E γ q)
    (hq' : StateAt g' (generateFirstTable h' g') a' E' γ' q') {c c' : Option Nat}
    (hc : LaCorr T c c') (hc1 : LaOk g.nTerminals c) (hc2 : LaOk g'.nTerminals c') :
    CellCorr g g' N T (ItemsAt g (generateFirstTable h g) E γ)
      (ItemsAt g' (generateFirstTable h' g') E' γ') c c' (gen.cell q c) (gen'.cell q' c') := by
  have hpub' : g'.isPublic E' = true := by rw [← hC.corr.pub hE]; exact hpub
  obtain ⟨m, p1, w1, u1⟩ := hC.stages.cell_char hC.wf hpub hq hc1
  obtain ⟨m', p2, w2, u2⟩ := hC.stages'.cell_char hC.wf' hpub' hq' hc2
  have fw : ∀ {x}, g.Wants (ItemsAt g (generateFirstTable h g) E γ) c x →
      ∃ x', MoveCorr g g' N T x x' ∧
        g'.Wants (ItemsAt g' (generateFirstTable h' g') E' γ') c' x' :=
    fun hx => hC.corr.wants hC.first hC.wf hC.wf' hE hpub hγ hc hx
  have bw : ∀ {x'}, g'.Wants (ItemsAt g' (generateFirstTable h' g') E' γ') c' x' →
      ∃ x, MoveCorr g g' N T x x' ∧ g.Wants (ItemsAt g (generateFirstTable h g) E γ) c x := by
    intro x' hx
    obtain ⟨x, h1, h2⟩ := hC.corr.symm.wants hC.first' hC.wf' hC.wf (E := E') (E' := E) hE hpub'
      (symCorrs_conv hγ) (laCorr_conv hc) hx
    exact ⟨x, moveCorr_conv h1, h2⟩
  cases m with
  | none =>
    have : m' = none := by
      cases m' with
      | none => rfl
      | some x' =>
        obtain ⟨x, _, hx⟩ := bw (w2 x' rfl)
        rcases u1 x hx with h1 | ⟨h1 | h1, _⟩ <;> cases h1
    subst this
    cases hc1 : gen.cell q c with
    | some o => rw [hc1] at p1; cases o <;> exact p1.elim
    | none =>
      cases hc2 : gen'.cell q' c' with
      | some o => rw [hc2] at p2; cases o <;> exact p2.elim
      | none => exact .none
  | some x =>
    obtain ⟨x', hx1, hx2⟩ := fw (w1 x rfl)
    cases x with
    | shift =>
      cases x' with
      | reduce _ _ => exact hx1.elim
      | accept => exact hx1.elim
      | shift =>
        rcases u2 _ hx2 with rfl | ⟨_, hr⟩
        · cases hc1 : gen.cell q c with
          | none => rw [hc1] at p1; exact p1.elim
          | some o =>
            cases hc2 : gen'.cell q' c' with
            | none => rw [hc2] at p2; exact p2.elim
            | some o' =>
              rw [hc1] at p1; rw [hc2] at p2
              cases o <;> try exact p1.elim
              cases o' <;> try exact p2.elim
              exact .shift _ _
        · exact hr.elim
    | accept =>
      cases x' with
      | reduce _ _ => exact hx1.elim
      | shift => exact hx1.elim
      | accept =>
        rcases u2 _ hx2 with rfl | ⟨_, hr⟩
        · cases hc1 : gen.cell q c with
          | none => rw [hc1] at p1; exact p1.elim
          | some o =>
            cases hc2 : gen'.cell q' c' with
            | none => rw [hc2] at p2; exact p2.elim
            | some o' =>
              rw [hc1] at p1; rw [hc2] at p2
              cases o <;> try exact p1.elim
              cases o' <;> try exact p2.elim
              exact .accept
        · exact hr.elim
    | reduce b p =>
      cases x' with
      | accept => exact hx1.elim
      | shift => exact hx1.elim
      | reduce b' p' =>
        have hm' : m' = some (.reduce b' p') := by
          rcases u2 _ hx2 with h1 | ⟨h1 | h1, _⟩
          · exact h1
          · obtain ⟨y, hy1, hy2⟩ := bw (w2 _ h1)
            cases y with
            | shift => rcases u1 _ hy2 with h2 | ⟨h2 | h2, _⟩ <;> cases h2
            | accept => exact hy1.elim
            | reduce _ _ => exact hy1.elim
          · obtain ⟨y, hy1, hy2⟩ := bw (w2 _ h1)
            cases y with
            | accept => rcases u1 _ hy2 with h2 | ⟨h2 | h2, _⟩ <;> cases h2
            | shift => exact hy1.elim
            | reduce _ _ => exact hy1.elim
        subst hm'
        cases hc1 : gen.cell q c with
        | none => rw [hc1] at p1; exact p1.elim
        | some o =>
          cases hc2 : gen'.cell q' c' with
          | none => rw [hc2] at p2; exact p2.elim
          | some o' =>
            rw [hc1] at p1; rw [hc2] at p2
            cases o <;> try exact p1.elim
            cases o' <;> try exact p2.elim
            obtain ⟨rfl, _⟩ := p1
            obtain ⟨rfl, _⟩ := p2
            refine .reduce hx1 ?_ ?_
            · intro m hm
              rcases u1 m hm with h1 | ⟨h1 | h1, _⟩ <;> cases h1
              rfl
            · intro m hm
              rcases u2 m hm with h1 | ⟨h1 | h1, _⟩ <;> cases h1
              rfl

/-! ## The lists of expected terminals -/

omit [DecidableEq Ty] in
theorem GCorr.wants_la (hg : GCorr g g' N T) {F F' : FirstTable} (hF : FCorr g g' F F' N T)
    (hwf : g.WF) (hwf' : g'.WF) {E E' : Nat} (hE : N E E') (hpub : g.isPublic E = true)
    {γ : List Symbol} {c : Option Nat} {m : Move} (hm : g.Wants (ItemsAt g F E γ) c m) :
    ∃ c', LaCorr T c c' := by
  cases m with
  | shift =>
    obtain ⟨nt, p, α, t, β, la, h1, h2, rfl⟩ := hm
    obtain ⟨γ', it', _, h3, _⟩ := hg.itemsAt_ex hF hwf hwf' hE hpub h1
    obtain ⟨_, h5, _⟩ := h3.hasProd h2
    obtain ⟨α', r', rfl, _, h8⟩ := forall₂_append_left h5
    cases h8 with
    | @cons _ s' _ β' h9 h10 =>
      cases s' with
      | nonTerminal _ => cases h9
      | terminal t' => exact ⟨some t', h9⟩
  | accept =>
    obtain ⟨nt, p, α, h1, h2, h3, rfl⟩ := hm
    exact ⟨none, trivial⟩
  | reduce b p =>
    obtain ⟨α, h1, h2, h3⟩ := hm
    obtain ⟨γ', it', _, h4, _⟩ := hg.itemsAt_ex hF hwf hwf' hE hpub h1
    exact ⟨it'.la, h4.la⟩

/-- The names of the terminals with an action. -/
theorem expected_filter {l : List String} (hnd : l.Nodup) (p : Nat → Bool) (Q : String → Bool)
    (hQ : ∀ n, Q n = true ↔ ∃ t : Nat, l[t]? = some n ∧ p t = true) :
    (l.zipIdx.filter fun e => p e.2).map (·.1) = l.filter Q := by
  have key : ∀ e ∈ l.zipIdx, p e.2 = (Q ∘ Prod.fst) e := by
    rintro ⟨n, i⟩ he
    have hi : l[i]? = some n := by
      have := List.mem_zipIdx_iff_getElem?.1 he
      exact this
    show p i = Q n
    cases hp : p i with
    | true => exact ((hQ n).2 ⟨i, hi, hp⟩).symm
    | false =>
      cases hq : Q n with
      | false => rfl
      | true =>
        obtain ⟨t, h1, h2⟩ := (hQ n).1 hq
        have : t = i := by
          obtain ⟨a1, e1⟩ := List.getElem?_eq_some_iff.1 h1
          obtain ⟨a2, e2⟩ := List.getElem?_eq_some_iff.1 hi
          exact (List.Nodup.getElem_inj_iff hnd).1 (e1.trans e2.symm)
        subst this
        rw [hp] at h2; cases h2
  rw [List.filter_congr key, ← List.filter_map]
  congr 1
  exact List.zipIdx_map_fst 0 l

theorem GenCorr.expected (hC : GenCorr h h' g g' gen gen' a a' g1 g1' T1 T1' N T) {E E' : Nat}
    (hnd : g.terminals.Nodup) (hnd' : g'.terminals.Nodup)
    (hE : N E E') (hpub : g.isPublic E = true) {γ γ' : List Symbol}
    (hγ : List.Forall₂ (SymCorr N T) γ γ') {q q' : Nat}
    (hq : StateAt g (generateFirstTable h g) a E γ q)
    (hq' : StateAt g' (generateFirstTable h' g') a' E' γ' q') {x x' : String}
    (hx : gen.expected[q]? = some x) (hx' : gen'.expected[q']? = some x') :
    SameList g.terminals g'.terminals x x' := by
  classical
  have hpub' : g'.isPublic E' = true := by rw [← hC.corr.pub hE]; exact hpub
  have hT := hC.stages.tables hC.wf
  have hT' := hC.stages'.tables hC.wf'
  rw [hT.expected hpub hq] at hx
  rw [hT'.expected hpub' hq'] at hx'
  cases hx; cases hx'
  have lt_of : ∀ {l : List String} {t : Nat} {n : String}, l[t]? = some n → t < l.length :=
    fun h => (List.getElem?_eq_some_iff.1 h).1
  -- one direction
  have key : ∀ {h h' : HashOrder} {g g' : Grammar X Ty} {gen gen' : Generated X}
      {a a' : Automaton} {g1 g1' : Grammar Nat Ty} {T1 T1' : LRTable Nat} {N T : Nat → Nat → Prop}
      (_ : GenCorr h h' g g' gen gen' a a' g1 g1' T1 T1' N T) {E E' : Nat}
      (_ : N E E') (_ : g.isPublic E = true) {γ γ' : List Symbol}
      (_ : List.Forall₂ (SymCorr N T) γ γ') {q q' : Nat}
      (_ : StateAt g (generateFirstTable h g) a E γ q)
      (_ : StateAt g' (generateFirstTable h' g') a' E' γ' q') (n : String),
      (∃ t : Nat, g.terminals[t]? = some n ∧ ((gen.act q (some t)).join).isSome = true) →
      ∃ t : Nat, g'.terminals[t]? = some n ∧ ((gen'.act q' (some t)).join).isSome = true := by
    intro h h' g g' gen gen' a a' g1 g1' T1 T1' N T hC E E' hE hpub γ γ' hγ q q' hq hq' n
    rintro ⟨t, h1, h2⟩
    have hlt : LaOk g.nTerminals (some t) := by
      rintro _ ⟨⟩; exact lt_of h1
    obtain ⟨r, hr⟩ := Option.isSome_iff_exists.1 h2
    have hr' : gen.act q (some t) = some (some r) := by
      cases hz : gen.act q (some t) with
      | none => rw [hz] at hr; cases hr
      | some z => rw [hz] at hr; cases hr; rfl
    obtain ⟨m, hm⟩ := (hC.stages.tables hC.wf).wants_of_cell hC.wf hpub hq hlt hr'
    obtain ⟨c', hc'⟩ := hC.corr.wants_la hC.first hC.wf hC.wf' hE hpub hm
    cases c' with
    | none => exact hc'.elim
    | some t' =>
      obtain ⟨n', e1, e2⟩ := hC.corr.name hc'
      rw [h1] at e1; cases e1
      refine ⟨t', e2, ?_⟩
      obtain ⟨m', _, hm'⟩ := hC.corr.wants hC.first hC.wf hC.wf' hE hpub hγ hc' hm
      have := hC.cell hE hpub hγ hq hq' hc' hlt (by rintro _ ⟨⟩; exact lt_of e2)
      rw [Generated.cell_eq, Generated.cell_eq, hr] at this
      generalize (gen'.act q' (some t')).join = o at this
      cases this <;> rfl
  refine ⟨fun n => decide (∃ t : Nat, g.terminals[t]? = some n ∧
    ((gen.act q (some t)).join).isSome = true), ?_, ?_, ?_⟩
  · intro n hn
    have hn := of_decide_eq_true hn
    obtain ⟨t', h1', _⟩ := key hC hE hpub hγ hq hq' n hn
    obtain ⟨t, h1, _⟩ := hn
    exact ⟨List.mem_of_getElem? h1, List.mem_of_getElem? h1'⟩
  · rw [expected_filter hnd (fun t => ((gen.act q (some t)).join).isSome)]
    intro n; exact decide_eq_true_iff
  · rw [expected_filter hnd' (fun t => ((gen'.act q' (some t)).join).isSome)]
    intro n
    rw [decide_eq_true_iff]
    exact ⟨key hC hE hpub hγ hq hq' n, key hC.symm (E := E') (E' := E) hE hpub' (symCorrs_conv hγ)
      hq' hq n⟩

/-! ## The values of nodes -/

omit [DecidableEq Ty] in
theorem bindEnv_corr {l l' : List BoundSymbol}
    (hl : List.Forall₂ (fun s s' => s.binder.map (·.name) = s'.binder.map (·.name) ∧
      SymCorr N T s.symbol s'.symbol) l l') (vs : List (BVal V)) :
    bindEnv l vs = bindEnv l' vs := by
  induction hl generalizing vs with
  | nil => cases vs <;> rfl
  | cons h1 _ ih =>
    cases vs with
    | nil => rfl
    | cons v vs =>
      funext n
      unfold bindEnv
      rw [h1.1, ih]

omit [DecidableEq Ty] in
theorem nodeValue_corr {u : UserCode X V W} {b p b' p' : Nat} {pr pr' : Production X}
    (h1 : g.getProduction? b p = some pr) (h2 : g'.getProduction? b' p' = some pr')
    (h3 : ProdCorr N T pr pr') (vs : List (BVal V)) (w : W) :
    g.nodeValue u b p vs w = g'.nodeValue u b' p' vs w := by
  unfold Grammar.nodeValue
  rw [h1, h2]
  simp only
  rw [bindEnv_corr h3.1, h3.2]

/-- The panic or value of a node of the stack algebra. -/
theorem stackAlg_node_cases {u : UserCode X V W} {tf : TokenFns Tok V} {b p k : Nat}
    (hk : (semanticActionVariants g)[b]? = some k) (us : List (SAR V)) (w : W) :
    ((g.stackAlg u tf).node b p us w = none ∧ g.nodeValue u b p (us.map SAR.toB) w = none) ∨
    ∃ v w', (g.stackAlg u tf).node b p us w = some (.nonTerminal k v, w') ∧
      g.nodeValue u b p (us.map SAR.toB) w = some (.nt v, w') := by
  have hv : g.nodeValue u b p (us.map SAR.toB) w = none ∨
      ∃ v w', g.nodeValue u b p (us.map SAR.toB) w = some (.nt v, w') := by
    unfold Grammar.nodeValue
    split
    · exact .inl rfl
    · next pr _ =>
      cases u.run pr.action (bindEnv pr.symbols (us.map SAR.toB)) w with
      | none => exact .inl rfl
      | some r => exact .inr ⟨r.1, r.2, rfl⟩
  rcases hv with hv | ⟨v, w', hv⟩
  · refine .inl ⟨?_, hv⟩
    unfold Grammar.stackAlg; simp only [hv]
  · refine .inr ⟨v, w', ?_, hv⟩
    unfold Grammar.stackAlg; simp only [hv, hk]

/-! ## Accepting -/

/-- What accepting returns. -/
theorem accept_value {g : Grammar X Ty} {gen : Generated X} {u : UserCode X V W}
    {tf : TokenFns Tok V} {input : Nat → Option (Except E Tok)} {w0 : W}
    {At : Nat → List Symbol → Nat → Prop} {e : Nat}
    (hc : tf.Consistent g.nTerminals) {ep : EntryPoint}
    (hext : (semanticActionVariants g)[e]? = some ep.extract)
    (hsem : gen.IsSem g ep.actionIdx e 0) {s : PState Tok V W E} {toks : List Tok} {b : Nat}
    (hi : RunInv g u tf At e input w0 s [.nonTerminal b] toks) (htok : s.token = none)
    (hp : g.HasProd e 0 [.nonTerminal b])
    (hact : gen.act (s.states.headD 0) none = some (some .accept)) :
    ∃ u0, s.values = [u0] ∧
      ((g.nodeValue u e 0 [u0.toB] s.world = none ∧
          parseStep gen u tf input ep s = .done (.fault .userPanic) s) ∨
        ∃ v w', g.nodeValue u e 0 [u0.toB] s.world = some (.nt v, w') ∧
          parseStep gen u tf input ep s = .done (.ok v) { s with values := [], world := w' }) := by
  obtain ⟨q, rest, hst, hq⟩ := hi.stk.top
  have hhead : s.states.headD 0 = q := by rw [hst]; rfl
  rw [hhead] at hact
  obtain ⟨vs, hev, hvals⟩ := hi.eval
  have hlen := hev.length_eq
  obtain ⟨u0, rfl⟩ : ∃ u0, vs = [u0] := by
    cases vs with
    | nil => simp at hlen
    | cons u0 l =>
      cases l with
      | nil => exact ⟨u0, rfl⟩
      | cons _ _ => simp at hlen
  have hvals' : s.values = [u0] := by rw [hvals]; rfl
  refine ⟨u0, hvals', ?_⟩
  obtain ⟨pr, f, hpr, hf, hsf⟩ := hsem
  have hsyms : pr.syms = [.nonTerminal b] := by
    rw [← rhs_of_getProduction hpr]; exact hp.rhs_eq
  have htag := eval_tagged hc hev
  rw [← hsyms] at htag
  have hact' := hact
  unfold Generated.act at hact'
  obtain ⟨row, hrow, hcell⟩ := Option.bind_eq_some_iff.1 hact'
  have hstep : parseStep gen u tf input ep s =
      .done (acceptStep gen u ep.extract ep.actionIdx s).1
        (acceptStep gen u ep.extract ep.actionIdx s).2 := by
    unfold parseStep
    rw [hst, htok]
    simp only [lookaheadIdx]
    rw [hrow]
    simp only
    have hcell' : row[gen.nTerminals]? = some (some .accept) := hcell
    rw [hcell']
  rw [hstep]
  unfold acceptStep
  rw [hf]
  simp only
  have hrun := semFn_run (u := u) (tf := tf) hpr hsf htag [] s.world
  simp only [List.reverse_singleton, List.append_nil] at hrun
  rw [hvals']
  rcases stackAlg_node_cases (u := u) (tf := tf) (p := 0) hext [u0] s.world with
    ⟨h1, h2⟩ | ⟨v, w', h1, h2⟩
  · left
    refine ⟨h2, ?_⟩
    rcases hrun with ⟨v, w', h3, _⟩ | ⟨_, h3⟩
    · rw [h1] at h3; cases h3
    · rw [h3]
  · right
    refine ⟨v, w', h2, ?_⟩
    rcases hrun with ⟨v, w'', h3, h4⟩ | ⟨h3, _⟩
    · rw [h1] at h3; cases h3
      rw [h4]
      simp [extract]
    · rw [h1] at h3; cases h3

end Parsegen
