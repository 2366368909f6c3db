import Verif.Proofs.Param
import Verif.Props.Alpha
import Verif.Props.Run

/-! # C75: the parser is parametric in the values, tokens, errors and states it handles -/

namespace Parsegen

variable {X X' Ty Ty' V V' W W' Tok Tok' E E' : Type}

/-! ## The lowered grammars -/

theorem append_last_inj {α : Type} {q : α → Prop} : ∀ {L1 M1 L2 M2 : List α} {x y : α},
    L1 ++ x :: L2 = M1 ++ y :: M2 → q x → q y → (∀ z ∈ L2, ¬ q z) → (∀ z ∈ M2, ¬ q z) → L1 = M1
  | [], [], _, _, _, _, _, _, _, _, _ => rfl
  | [], m :: M1, L2, M2, x, y, h, hx, hy, hL, hM => by
    simp only [List.nil_append, List.cons_append, List.cons.injEq] at h
    exact absurd hy (hL y (by rw [h.2]; simp))
  | l :: L1, [], L2, M2, x, y, h, hx, hy, hL, hM => by
    simp only [List.nil_append, List.cons_append, List.cons.injEq] at h
    exact absurd hx (hM x (by rw [← h.2]; simp))
  | l :: L1, m :: M1, L2, M2, x, y, h, hx, hy, hL, hM => by
    simp only [List.cons_append, List.cons.injEq] at h
    rw [h.1, append_last_inj h.2 hx hy hL hM]

/-- Names have the same numbers. -/
theorem Lowered.same_index {mkPath : String → X} {mkPath' : String → X'}
    {asts : List (AstNonTerminal X Ty)} {asts' : List (AstNonTerminal X' Ty')}
    {cs : List (Conversion Ty)} {cs' : List (Conversion Ty')} {g : Grammar X Ty} {g' : Grammar X' Ty'}
    {nts ts nts' ts' : AMap String Nat} (hl : Lowered mkPath asts cs g nts ts)
    (hl' : Lowered mkPath' asts' cs' g' nts' ts')
    (h : asts.map (fun a => (a.name, a.isPub)) = asts'.map (fun a => (a.name, a.isPub)))
    {n : String} {j : Nat} (hn : nts.get? n = some j) : nts'.get? n = some j := by
  obtain ⟨a, ha, rfl⟩ := (hl.idx n).1 ⟨j, hn⟩
  have hm : (a.name, a.isPub) ∈ asts'.map (fun a => (a.name, a.isPub)) := by
    rw [← h]; exact List.mem_map.2 ⟨a, ha, rfl⟩
  obtain ⟨a', ha', e1⟩ := List.mem_map.1 hm
  obtain ⟨j', hn'⟩ := (hl'.idx a.name).2 ⟨a', ha', congrArg Prod.fst e1⟩
  obtain ⟨l1, b, l2, rfl, k1, k2, rfl⟩ := hl.num hn
  obtain ⟨m1, c, m2, rfl, k1', k2', rfl⟩ := hl'.num hn'
  simp only [List.map_append, List.map_cons] at h
  have h1 := append_last_inj (q := fun z : String × Bool => z.1 = a.name) h k1 k1'
    (by rintro z hz; obtain ⟨d, hd, rfl⟩ := List.mem_map.1 hz; exact k2 d hd)
    (by rintro z hz; obtain ⟨d, hd, rfl⟩ := List.mem_map.1 hz; exact k2' d hd)
  have h2 := congrArg (fun L => (L.map fun z : String × Bool => if z.2 then 2 else 1).sum) h1
  simp only [List.map_map, Function.comp_def] at h2
  rw [hn']
  simp only [Option.some.injEq]
  exact h2.symm

/-- Values of a symbol of the lowered grammar correspond if they do for the symbol of the user. -/
def Rels.low (R : Rels V V' W W') (nts ts : AMap String Nat) : SymRel V V' :=
  fun x v v' => ∃ y, Names nts ts y x ∧ R.sym y v v'

theorem userProds_param {R : Rels V V' W W'} {u : UserCode X V W} {u' : UserCode X' V' W'}
    {l : List (AstNonTerminal X Ty)} {l' : List (AstNonTerminal X' Ty')}
    (h : List.Forall₂ (R.Definition u u') l l') (n : String) :
    List.Forall₂ (fun p p' => p.symbols.map (·.plain) = p'.symbols.map (·.plain) ∧
      R.Actions u u' n p p') (userProds l n) (userProds l' n) := by
  induction h with
  | nil => exact .nil
  | @cons d d' l l' hd _ ih =>
    simp only [userProds, List.filter_cons, ← hd.name] at ih ⊢
    split
    · next hn =>
      simp only [List.flatMap_cons]
      have := hd.productions
      rw [beq_iff_eq.1 hn] at this
      exact List.rel_append this ih
    · exact ih

theorem Rels.low_vals {R : Rels V V' W W'} {mkPath : String → X} {asts : List (AstNonTerminal X Ty)}
    {cs : List (Conversion Ty)} {g : Grammar X Ty} {nts ts : AMap String Nat}
    (hl : Lowered mkPath asts cs g nts ts) {ss : List AstSymbol} {bs : List BoundSymbol}
    (h : List.Forall₂ (LowersSym nts ts) ss bs) : ∀ {zs : List (BVal V × BVal V')},
    (R.low nts ts).All (bs.map (·.symbol)) zs → R.Vals ss (zs.map (·.1)) (zs.map (·.2)) := by
  induction h with
  | nil => intro zs hz; cases hz; exact .nil
  | @cons s b ss bs hs _ ih =>
    intro zs hz
    cases hz with
    | cons hx hz =>
      obtain ⟨y, hy1, hy2⟩ := hx
      dsimp only at hy1
      have : s.plain = some y := by
        obtain ⟨_, ⟨n, i, e1, e2, e3⟩ | ⟨n, i, e1, e2, e3⟩⟩ := hs
        · rw [e3] at hy1
          rw [e1, hl.names_inj (u := .nt n) (v := y) (x := .nonTerminal i) e2 hy1]
        · rw [e3] at hy1
          rw [e1, hl.names_inj (u := .term n) (v := y) (x := .terminal i) e2 hy1]
      exact .cons this hy2 (ih hz)

/-- Corresponding definitions have the same rules. -/
theorem Rels.Definition.sameRules {R : Rels V V' W W'} {u : UserCode X V W} {u' : UserCode X' V' W'}
    {d : AstNonTerminal X Ty} {d' : AstNonTerminal X' Ty'} (h : R.Definition u u' d d') :
    SameRules (.nonTerminal d) (.nonTerminal d') := by
  refine .nonTerminal h.isPub h.name (forall₂_map_eq' ?_ h.productions)
  rintro p p' ⟨h1, h2⟩
  unfold Rels.Actions at h2
  simp only [AstProduction.rule, h1, Prod.mk.injEq, true_and]
  cases e : p.action with
  | infallible x =>
    cases e' : p'.action with
    | infallible x' => simp [AstProduction.shape, e, e']
    | fallible x' => rw [e, e'] at h2; exact h2.elim
  | fallible x =>
    cases e' : p'.action with
    | infallible x' => rw [e, e'] at h2; exact h2.elim
    | fallible x' => simp [AstProduction.shape, e, e']

/-- The erased definitions are related as C64 wants it. -/
theorem Rels.erased {R : Rels V V' W W'} {u : UserCode X V W} {u' : UserCode X' V' W'}
    {l : List (AstNonTerminal X Ty)} {l' : List (AstNonTerminal X' Ty')}
    (h : List.Forall₂ (R.Definition u u') l l') :
    List.Forall₂ (AlphaDefinition (trivialCode fun _ => ()) (trivialCode fun _ => ()))
      (l.map (·.mapA fun _ => ())) (l'.map (·.mapA fun _ => ())) := by
  induction h with
  | nil => exact .nil
  | cons h _ ih =>
    refine .cons ?_ ih
    have := alphaItem_erase (u := trivialCode fun _ => ()) h.sameRules fun _ _ _ _ _ => rfl
    cases this with
    | nonTerminal h => exact h

variable [DecidableEq Ty] [DecidableEq Ty'] {R : Rels V V' W W'} {P : Compiled X Ty V W Tok}
  {Q : Compiled X' Ty' V' W' Tok'}

/-- The lowered grammars, actions removed. -/
theorem Compiled.Corresponds.grammars (h : P.Corresponds R Q) {g : Grammar X Ty} {g' : Grammar X' Ty'}
    (e1 : lower P.code.mkPath P.defs P.tokens.conversions = .ok g)
    (e2 : lower Q.code.mkPath Q.defs Q.tokens.conversions = .ok g') :
    AlphaGrammar (trivialCode fun _ => ()) (trivialCode fun _ => ()) (g.mapA fun _ => ())
      (g'.mapA fun _ => ()) := by
  have hc : List.Forall₂ (fun c c' => c.from_ = c'.from_) P.tokens.conversions
      Q.tokens.conversions := by
    have := h.terminals
    rwa [← List.forall₂_eq_eq_eq, List.forall₂_map_left_iff, List.forall₂_map_right_iff] at this
  have f1 := lower_mapA (fun _ : X => ()) P.code.mkPath P.defs P.tokens.conversions
  have f2 := lower_mapA (fun _ : X' => ()) Q.code.mkPath Q.defs Q.tokens.conversions
  rw [e1] at f1
  rw [e2] at f2
  rcases lower_alpha (Rels.erased h.defs) hc with ⟨f, k1, _⟩ | ⟨x, x', k1, k2, hg⟩
  · rw [show (trivialCode fun _ => ()).mkPath = fun n => (fun _ : X => ()) (P.code.mkPath n) from rfl,
      f1] at k1
    cases k1
  · rw [show (trivialCode fun _ => ()).mkPath = fun n => (fun _ : X => ()) (P.code.mkPath n) from rfl,
      f1] at k1
    rw [show (trivialCode fun _ => ()).mkPath = fun n => (fun _ : X' => ()) (Q.code.mkPath n) from rfl,
      f2] at k2
    cases k1; cases k2
    exact hg

theorem Compiled.Corresponds.names (h : P.Corresponds R Q) :
    P.defs.map (fun a => (a.name, a.isPub)) = Q.defs.map (fun a => (a.name, a.isPub)) :=
  forall₂_map_eq' (fun _ _ hd => by rw [hd.name, hd.isPub]) h.defs

/-- The emitted tables are the same. -/
theorem Compiled.Corresponds.generated (h : P.Corresponds R Q)
    (hne : P.gen.entries ≠ [] ∨ Q.gen.entries ≠ []) : AlphaGenerated P.gen Q.gen := by
  obtain ⟨g, e1, k1, _⟩ := P.stages_ok
  obtain ⟨g', e2, k2, _⟩ := Q.stages_ok
  have hg := h.grammars e1 e2
  have hwd : (P.defs.map (·.width)).sum = (Q.defs.map (·.width)).sum := by
    have := congrArg (fun L => (L.map fun z : String × Bool => if z.2 then 2 else 1).sum) h.names
    simp only [List.map_map, Function.comp_def] at this
    exact this
  have hsz : (P.defs.map (·.width)).sum ≤ 4294967296 ∧ (Q.defs.map (·.width)).sum ≤ 4294967296 := by
    rcases hne with hne | hne
    · have := generateParser_size k1 hne
      rw [lower_length e1] at this
      omega
    · have := generateParser_size k2 hne
      rw [lower_length e2] at this
      omega
  obtain ⟨_, _, hl⟩ := lower_ok hsz.1 e1
  obtain ⟨_, _, hl'⟩ := lower_ok hsz.2 e2
  have e1' := lower_mapA (fun _ : X => ()) P.code.mkPath P.defs P.tokens.conversions
  have e2' := lower_mapA (fun _ : X' => ()) Q.code.mkPath Q.defs Q.tokens.conversions
  rw [e1] at e1'
  rw [e2] at e2'
  obtain ⟨_, _, hm⟩ := lower_ok (by rw [List.map_map]; exact hsz.1) e1'
  obtain ⟨_, _, hm'⟩ := lower_ok (by rw [List.map_map]; exact hsz.2) e2'
  rcases generateParser_alpha P.order hg hm.wf hm'.wf with ⟨f, q1, _⟩ | ⟨x, x', q1, q2, hx⟩
  · rw [generateParser_mapA, k1] at q1; cases q1
  · rw [generateParser_mapA, k1] at q1
    rw [generateParser_mapA, h.order, k2] at q2
    cases q1; cases q2
    exact ⟨hx.action, hx.goto, hx.expected, hx.terminalStrs, hx.nTerminals, hx.entries⟩

omit [DecidableEq Ty] in
theorem hasProd_mapA {A B : Type} (f : A → B) {g : Grammar A Ty} {b p : Nat} {α : List Symbol} :
    (g.mapA f).HasProd b p α ↔ g.HasProd b p α := by
  rw [hasProd_getProduction, hasProd_getProduction, Grammar.getProduction?_mapA]
  cases g.getProduction? b p <;> simp

omit [DecidableEq Ty] in
theorem isPublic_mapA {A B : Type} (f : A → B) {g : Grammar A Ty} (b : Nat) :
    (g.mapA f).isPublic b = g.isPublic b := by
  simp only [Grammar.isPublic, Grammar.mapA, List.getElem?_map]
  cases g.nonTerminals[b]? <;> rfl

/-- Corresponding entry points run in lock-step. -/
theorem Compiled.Corresponds.run (h : P.Corresponds R Q) {ep ep' : EntryPoint}
    (hep : ep ∈ P.gen.entries) (hep' : ep' ∈ Q.gen.entries) (hgen : AlphaGenerated P.gen Q.gen)
    (hee : AlphaEntry ep ep') :
    ∃ (S : SymRel V V') (g : Grammar X Ty) (g' : Grammar X' Ty') (a : Automaton) (g1 : Grammar Nat Ty)
      (g1' : Grammar Nat Ty') (T1 T1' : LRTable Nat) (e : Nat),
      RunParam P.order S R.world (R.nt ep.name) P.code Q.code g g' P.gen Q.gen a g1 g1' T1 T1' P.tf Q.tf
        e ep ep' ∧
      ∀ (E E' : Type) (RE : E → E' → Prop) x x', CorrespondingItems R RE P Q x x' →
        ItemRel S RE P.tf Q.tf x x' := by
  obtain ⟨g, nts, ts, a, g1, T1, G⟩ := P.setup hep
  obtain ⟨g', nts', ts', a', g1', T1', G'⟩ := Q.setup hep'
  have hg := h.grammars G.lower G'.lower
  have hprods : ∀ {b p α}, g.HasProd b p α ↔ g'.HasProd b p α := by
    intro b p α
    rw [← hasProd_mapA (fun _ : X => ()), ← hasProd_mapA (fun _ : X' => ()), hg.hasProd]
  have hpubs : ∀ b, g.isPublic b = g'.isPublic b := by
    intro b
    rw [← isPublic_mapA (fun _ : X => ()), ← isPublic_mapA (fun _ : X' => ()), hg.isPublic]
  have hterms : g.terminals = g'.terminals := hg.terms
  have hnT : g.nTerminals = g'.nTerminals := by simp only [Grammar.nTerminals, hterms]
  have haa : a = a' := by
    have e1 := G.stages.auto
    have e2 := G'.stages.auto
    rw [← generateAutomaton_mapA (fun _ : X => ()), ← generateFirstTable_mapA (fun _ : X => ()),
      hg.automaton, hg.first, h.order] at e1
    rw [← generateAutomaton_mapA (fun _ : X' => ()), ← generateFirstTable_mapA (fun _ : X' => ()), e1]
      at e2
    exact Except.ok.inj e2
  subst haa
  have st' := G'.stages
  rw [← h.order] at st'
  obtain ⟨e, nt, d1, d2, d3, h1, h2, h3, h4⟩ := G.run hep
  obtain ⟨e', nt', d1', d2', d3', h1', h2', h3', h4'⟩ := G'.run hep'
  rw [← h.order] at h2'
  have : e' = e := by
    obtain ⟨x, k1, k2⟩ := id h2
    obtain ⟨x', k1', k2'⟩ := id h2'
    rw [← hee.initState, k1] at k1'
    cases k1'
    have := (k2 _).1 ((k2' ⟨e', 0, 0, none⟩).2 .entry)
    exact (this.pub G.wf (by rw [hpubs]; exact h1')).1
  subst this
  refine ⟨R.low nts ts, g, g', a, g1, g1', T1, T1', e', ⟨G.stages, st', G.wf, G'.wf, hprods, hterms, hgen,
    G.cons, hnT ▸ G'.cons, h1, h1', h2, h2', hee.initState, h3, h3', h4, h4', ?_, ?_⟩, ?_⟩
  · -- actions
    intro b p α zs w w' hp hpriv hz hw
    obtain ⟨n, hn⟩ : ∃ n, nts.get? n = some b := by
      obtain ⟨m, pr, m1, m2, _⟩ := hp
      by_contra hno
      have hpr : m.isPublic = false := by
        simpa [Grammar.isPublic, m1] using hpriv
      have := G.lowered.priv m1 hpr fun n hn => hno ⟨n, hn⟩
      rw [this] at m2; simp at m2
    have hn' := G.lowered.same_index G'.lowered h.names hn
    obtain ⟨q, pr, q1, q2, q3, q4⟩ := G.lowered.hasProd_user hn hp
    obtain ⟨q', pr', q1', q2', q3', q4'⟩ := G'.lowered.hasProd_user hn' (hprods.1 hp)
    have hact : R.Actions P.code Q.code n q q' := by
      obtain ⟨x, hx1, hx2⟩ := forall₂_get' (userProds_param h.defs n) q1'
      rw [q1] at hx1; cases hx1
      exact hx2.2
    unfold Rels.Actions at hact
    rw [q2.2, q2'.2] at hact
    rw [q4] at hz
    have := hact _ _ w w' (Rels.low_vals G.lowered q2.1 hz) hw
    simp only [Grammar.nodeValue, q3, q3', bindEnv_user q2.1, bindEnv_user q2'.1]
    generalize P.code.run pr.action (userEnv q.symbols (zs.map (·.1))) w = r1 at this
    generalize Q.code.run pr'.action (userEnv q'.symbols (zs.map (·.2))) w' = r2 at this
    match r1, r2, this with
    | none, none, _ => trivial
    | some (v, w1), some (v', w1'), this => exact ⟨⟨.nt n, hn, this.1⟩, this.2⟩
    | none, some _, this => exact this.elim
    | some _, none, this => exact this.elim
  · -- the entry point
    rintro b x x' hp ⟨p, α, hp2⟩ ⟨y, hy1, hy2⟩
    obtain ⟨ad, b', n', ha, hap, han, _, hw, hb, hbp, _, hor⟩ := G.lowered.pub d1 d2
    obtain ⟨m, pr, m1, m2, m3⟩ := hp
    rw [d1] at m1; cases m1
    rw [hw] at m2
    simp only [List.getElem?_cons_zero, Option.some.injEq] at m2
    subst m2
    simp only [wrapperProd, List.map_cons, List.map_nil, List.cons.injEq, Symbol.nonTerminal.injEq,
      and_true] at m3
    subst m3
    have hnm : nts.get? nt.name = some b := by
      rcases hor with hor | hor
      · rw [han]; exact hor
      · obtain ⟨m, pr, m1, m2, _⟩ := hp2
        rw [hb] at m1; cases m1
        rw [hor] at m2; simp at m2
    have : y = .nt nt.name :=
      (G.lowered.names_inj (u := .nt nt.name) (v := y) (x := .nonTerminal b) hnm hy1).symm
    subst this
    match x, x', hy2 with
    | .nt v, .nt v', hy2 =>
      refine ⟨v, v', by rw [← d3]; exact hy2, fun w => ?_, fun w => ?_⟩
      · exact G.lowered.wrapper_node (Tok := Tok) (fields := P.fields) P.code d1 d2 v w
      · exact G'.lowered.wrapper_node (Tok := Tok') (fields := Q.fields) Q.code d1' d2' v' w
  · -- tokens
    intro E E' RE x x' hx
    match x, x', hx with
    | none, none, _ => trivial
    | some (.error e), some (.error e'), hx => exact hx
    | some (.ok t), some (.ok t'), hx =>
      obtain ⟨c1, c2⟩ := hx
      have k1 := G.cls t
      have k2 := G'.cls t'
      have hnm : Names nts ts (.term (P.cls t)) (.terminal (P.tf.terminalIdx t)) :=
        (G.lowered.tmap _ _).2 k1
      refine ⟨?_, _, hnm, ?_⟩
      · have k3 := (G.lowered.tmap (P.cls t) (Q.tf.terminalIdx t')).2 (by rw [hterms, c1]; exact k2)
        simp only [Names] at hnm
        rw [hnm] at k3
        exact Option.some.inj k3
      · simp only [Rels.sym]
        rw [G.fields, G'.fields]
        exact c2

/-- **C75.** Two programs with the same rules and corresponding actions have parsers of the same names,
in the same order.  Called on corresponding input in corresponding states both return, after the same
number of calls of `next()`, with corresponding outcomes and in corresponding states, or both do not
return. -/
theorem c75_parametric (h : P.Corresponds R Q) :
    List.Forall₂ (fun ep ep' => ep.name = ep'.name ∧
      ∀ (E E' : Type) (RE : E → E' → Prop) (input : Nat → Option (Except E Tok))
        (input' : Nat → Option (Except E' Tok')) (w : W) (w' : W'),
        (∀ i, CorrespondingItems R RE P Q (input i) (input' i)) → R.world w w' →
        (∀ o w1 n, P.Returns ep input w o w1 n → ∃ o' w1', Q.Returns ep' input' w' o' w1' n ∧
          CorrespondingOutcomes (R.nt ep.name) RE o o' ∧ R.world w1 w1') ∧
        (∀ o' w1' n, Q.Returns ep' input' w' o' w1' n → ∃ o w1, P.Returns ep input w o w1 n ∧
          CorrespondingOutcomes (R.nt ep.name) RE o o' ∧ R.world w1 w1'))
      P.gen.entries Q.gen.entries := by
  by_cases hne : P.gen.entries = [] ∧ Q.gen.entries = []
  · rw [hne.1, hne.2]; exact .nil
  have hgen := h.generated (by by_contra hno; push Not at hno; exact hne hno)
  rw [List.forall₂_iff_get]
  refine ⟨hgen.entries.length_eq, ?_⟩
  intro i hi hi'
  have hx := (List.forall₂_iff_get.1 hgen.entries).2 i hi hi'
  refine ⟨hx.name, ?_⟩
  intro E E' RE input input' w w' hin hw
  obtain ⟨S, g, g', a, g1, g1', T1, T1', e, hR, hitems⟩ :=
    h.run (List.getElem_mem hi) (List.getElem_mem hi') hgen hx
  have hit := fun i => hitems E E' RE _ _ (hin i)
  constructor
  · rintro o w1 n ⟨fuel, s, k1, rfl, rfl⟩
    rcases hR.parse hit w w' hw fuel with ⟨k4, _⟩ | ⟨x, x', t, t', k4, k5, k6, k7, k8⟩
    · rw [List.get_eq_getElem] at k1; rw [k1] at k4; cases k4
    · rw [List.get_eq_getElem] at k1; rw [k1] at k4; cases k4
      exact ⟨x', _, ⟨fuel, t', k5, rfl, k7.symm⟩, k8, k6⟩
  · rintro o w1 n ⟨fuel, s, k1, rfl, rfl⟩
    rcases hR.parse hit w w' hw fuel with ⟨_, k4⟩ | ⟨x, x', t, t', k4, k5, k6, k7, k8⟩
    · rw [List.get_eq_getElem] at k1; rw [k1] at k4; cases k4
    · rw [List.get_eq_getElem] at k1; rw [k1] at k5; cases k5
      exact ⟨x, _, ⟨fuel, t, k4, rfl, k7⟩, k8, k6⟩

/-! ## Special cases -/

theorem forall₂_self {α : Type} {r : α → α → Prop} : ∀ {l : List α}, (∀ x ∈ l, r x x) → List.Forall₂ r l l
  | [], _ => .nil
  | x :: _, h => .cons (h x (by simp)) (forall₂_self fun y hy => h y (by simp [hy]))

theorem Rels.Vals.nil_inv {vs : List (BVal V)} {vs' : List (BVal V')} (h : R.Vals [] vs vs') :
    vs = [] ∧ vs' = [] := by cases h; exact ⟨rfl, rfl⟩

theorem Rels.Vals.nt_cons {s : AstSymbol} {ss : List AstSymbol} {vs : List (BVal V)}
    {vs' : List (BVal V')} {n : String} (h : R.Vals (s :: ss) vs vs') (hs : s.plain = some (.nt n)) :
    ∃ a a' us us', vs = .nt a :: us ∧ vs' = .nt a' :: us' ∧ R.nt n a a' ∧ R.Vals ss us us' := by
  cases h with
  | @cons _ x v v' _ us us' h1 h2 h3 =>
    rw [hs] at h1
    cases h1
    match v, v', h2 with
    | .nt a, .nt a', h2 => exact ⟨a, a', us, us', rfl, rfl, h2, h3⟩

theorem Rels.Vals.term_cons {s : AstSymbol} {ss : List AstSymbol} {vs : List (BVal V)}
    {vs' : List (BVal V')} {t : String} (h : R.Vals (s :: ss) vs vs') (hs : s.plain = some (.term t)) :
    ∃ a a' us us', vs = .tok a :: us ∧ vs' = .tok a' :: us' ∧ R.term t a a' ∧ R.Vals ss us us' := by
  cases h with
  | @cons _ x v v' _ us us' h1 h2 h3 =>
    rw [hs] at h1
    cases h1
    match v, v', h2 with
    | .tok a, .tok a', h2 => exact ⟨a, a', us, us', rfl, rfl, h2, h3⟩

/-- A relation that only relates equal values. -/
def Rels.diag (I : Invariant V W) : Rels V V W W :=
  ⟨fun n v v' => v = v' ∧ I.nt n v, fun t fs fs' => fs = fs' ∧ I.term t fs, fun w w' => w = w' ∧ I.world w⟩

theorem Rels.diag_vals {I : Invariant V W} {ss : List AstSymbol} {vs vs' : List (BVal V)}
    (h : (Rels.diag I).Vals ss vs vs') : vs = vs' ∧ List.Forall₂ (fun s v => I.sym s.plain v) ss vs := by
  induction h with
  | nil => exact ⟨rfl, .nil⟩
  | @cons s x v v' ss vs vs' hs hv _ ih =>
    obtain ⟨rfl, ih⟩ := ih
    match x, v, v', hv with
    | .nt n, .nt a, .nt b, hv =>
      obtain ⟨rfl, hv⟩ := hv
      exact ⟨rfl, .cons (by rw [hs]; exact hv) ih⟩
    | .term n, .tok a, .tok b, hv =>
      obtain ⟨rfl, hv⟩ := hv
      exact ⟨rfl, .cons (by rw [hs]; exact hv) ih⟩

/-- A program whose actions preserve an invariant corresponds to itself. -/
theorem Compiled.Preserves.corresponds {I : Invariant V W} (h : P.Preserves I) :
    P.Corresponds (Rels.diag I) P where
  order := rfl
  terminals := rfl
  defs := by
    refine forall₂_self fun d hd => ⟨rfl, rfl, forall₂_self fun p hp => ⟨rfl, ?_⟩⟩
    unfold Rels.Actions
    cases e : p.action with
    | fallible x => trivial
    | infallible x =>
      rintro vals vals' w w' hv ⟨rfl, hw⟩
      obtain ⟨rfl, hv2⟩ := Rels.diag_vals hv
      cases hr : P.code.run x (userEnv p.symbols vals) w with
      | none => trivial
      | some r =>
        obtain ⟨v, w1⟩ := r
        obtain ⟨h1, h2⟩ := h d hd p hp x e vals w v w1 hv2 hw hr
        exact ⟨⟨rfl, h1⟩, rfl, h2⟩

theorem forall₂_mem_self {α : Type} {r : α → α → Prop} {l : List α} (h : List.Forall₂ r l l) {x : α}
    (hx : x ∈ l) : r x x := by
  obtain ⟨i, hi, rfl⟩ := List.mem_iff_getElem.1 hx
  exact (List.forall₂_iff_get.1 h).2 i hi hi

omit [DecidableEq Ty'] in
/-- **C75**, invariants: if every action preserves the conditions, and the tokens read and the initial
state satisfy them, then the state at the end does, and so does the value returned. -/
theorem c75_invariant {I : Invariant V W} (h : P.Preserves I) {ep : EntryPoint}
    (hep : ep ∈ P.gen.entries) {input : Nat → Option (Except E Tok)} {w w' : W} {o : Outcome V E} {n : Nat}
    (hin : ∀ i t, i < n → input i = some (.ok t) → I.term (P.cls t) (P.fields t)) (hw : I.world w)
    (hr : P.Returns ep input w o w' n) : I.world w' ∧ ∀ v, o = .ok v → I.nt ep.name v := by
  obtain ⟨_, h1⟩ := forall₂_mem_self (c75_parametric h.corresponds) hep
  -- input that was not read does not matter
  have hr' := c14_unread_input (P := P) (input' := fun i => if i < n then input i else none)
    (fun i hi => by simp [hi]) hr
  obtain ⟨h2, _⟩ := h1 E E Eq (fun i => if i < n then input i else none)
    (fun i => if i < n then input i else none) w w (by
      intro i
      by_cases hi : i < n
      · simp only [hi, if_true]
        cases h3 : input i with
        | none => trivial
        | some x =>
          cases x with
          | error e => rfl
          | ok t => exact ⟨rfl, rfl, hin i t hi h3⟩
      · simp only [hi, if_false]; trivial) ⟨rfl, hw⟩
  obtain ⟨o', w1', _, h4, h5⟩ := h2 o w' n hr'
  refine ⟨h5.2, ?_⟩
  rintro v rfl
  cases o' with
  | ok v' => exact h4.2
  | _ => exact h4.elim

omit [DecidableEq Ty'] in
/-- A program corresponds to itself. -/
theorem Compiled.corresponds_self (P : Compiled X Ty V W Tok) :
    P.Corresponds (⟨fun _ => Eq, fun _ => Eq, Eq⟩ : Rels V V W W) P where
  order := rfl
  terminals := rfl
  defs := by
    refine forall₂_self fun d _ => ⟨rfl, rfl, forall₂_self fun p _ => ⟨rfl, ?_⟩⟩
    unfold Rels.Actions
    have key : ∀ {ss : List AstSymbol} {vs vs' : List (BVal V)},
        (⟨fun _ => Eq, fun _ => Eq, Eq⟩ : Rels V V W W).Vals ss vs vs' → vs = vs' := by
      intro ss vs vs' h
      induction h with
      | nil => rfl
      | @cons s x v v' ss vs vs' _ hv _ ih =>
        subst ih
        match x, v, v', hv with
        | .nt n, .nt a, .nt b, hv => cases hv; rfl
        | .term n, .tok a, .tok b, hv => cases hv; rfl
    cases e : p.action with
    | fallible x => trivial
    | infallible x =>
      rintro vals vals' w w' hv rfl
      obtain rfl := key hv
      cases P.code.run x (userEnv p.symbols vals) w with
      | none => trivial
      | some r => exact ⟨rfl, rfl⟩

theorem correspondingOutcomes_eq {r : V → V → Prop} {o o' : Outcome V E} (hr : ∀ v v', r v v' → v = v')
    (h : CorrespondingOutcomes r Eq o o') : o = o' := by
  match o, o', h with
  | .ok v, .ok v', h => exact congrArg _ (hr v v' h)
  | .lexerError e, .lexerError e', h => exact congrArg _ h
  | .parserError f x, .parserError f' x', h => obtain ⟨rfl, rfl⟩ := h; rfl
  | .fault f, .fault f', h => exact congrArg _ h

omit [DecidableEq Ty'] in
/-- **C75**, tokens: nothing but the terminal a token belongs to and its captured values matters. -/
theorem c75_tokens {ep : EntryPoint} (hep : ep ∈ P.gen.entries)
    {input input' : Nat → Option (Except E Tok)}
    (hin : ∀ i, input i = input' i ∨ ∃ t t', input i = some (.ok t) ∧ input' i = some (.ok t') ∧
      P.cls t = P.cls t' ∧ P.fields t = P.fields t') {w w' : W} {o : Outcome V E} {n : Nat} :
    P.Returns ep input w o w' n ↔ P.Returns ep input' w o w' n := by
  obtain ⟨_, h1⟩ := forall₂_mem_self (c75_parametric P.corresponds_self) hep
  obtain ⟨h2, h3⟩ := h1 E E Eq input input' w w (by
    intro i
    rcases hin i with h | ⟨t, t', e1, e2, e3, e4⟩
    · rw [h]
      match input' i with
      | none => trivial
      | some (.error e) => rfl
      | some (.ok t) => exact ⟨rfl, rfl⟩
    · rw [e1, e2]; exact ⟨e3, e4⟩) rfl
  constructor
  · intro hr
    obtain ⟨o', w1, k1, k2, k3⟩ := h2 o w' n hr
    obtain rfl := correspondingOutcomes_eq (fun _ _ h => h) k2
    obtain rfl : w' = w1 := k3
    exact k1
  · intro hr
    obtain ⟨o', w1, k1, k2, k3⟩ := h3 o w' n hr
    obtain rfl := correspondingOutcomes_eq (fun _ _ h => h) k2
    obtain rfl : w1 = w' := k3
    exact k1

omit [DecidableEq Ty'] in
/-- **C75**, errors: converting lexer errors before parsing is converting them after parsing. -/
theorem c75_map_error {ep : EntryPoint} (hep : ep ∈ P.gen.entries) (f : E → E')
    {input : Nat → Option (Except E Tok)} {w w' : W} {o' : Outcome V E'} {n : Nat} :
    P.Returns ep (fun i => (input i).map (·.mapError f)) w o' w' n ↔
      ∃ o, P.Returns ep input w o w' n ∧ o' = o.mapError f := by
  obtain ⟨_, h1⟩ := forall₂_mem_self (c75_parametric P.corresponds_self) hep
  obtain ⟨h2, h3⟩ := h1 E E' (fun e e' => f e = e') input (fun i => (input i).map (·.mapError f)) w w (by
    intro i
    match input i with
    | none => trivial
    | some (.error e) => rfl
    | some (.ok t) => exact ⟨rfl, rfl⟩) rfl
  have key : ∀ {o : Outcome V E} {o' : Outcome V E'},
      CorrespondingOutcomes Eq (fun e e' => f e = e') o o' → o' = o.mapError f := by
    intro o o' h
    match o, o', h with
    | .ok v, .ok v', h => cases h; rfl
    | .lexerError e, .lexerError e', h => cases h; rfl
    | .parserError a x, .parserError a' x', h => obtain ⟨rfl, rfl⟩ := h; rfl
    | .fault a, .fault a', h => cases h; rfl
  constructor
  · intro hr
    obtain ⟨o, w1, k1, k2, k3⟩ := h3 o' w' n hr
    obtain rfl : w1 = w' := k3
    exact ⟨o, k1, key k2⟩
  · rintro ⟨o, hr, rfl⟩
    obtain ⟨o1, w1, k1, k2, k3⟩ := h2 o w' n hr
    obtain rfl : w' = w1 := k3
    rw [← key k2]
    exact k1

/-- **C75**, fusion: let the actions of `Q` compute from images under `h` the images of what the actions
of `P` compute.  Then `Q` returns the image of what `P` returns; for example `P` builds a syntax tree
and `Q` does at once what `h` would do with the tree. -/
theorem c75_fusion {Q : Compiled X' Ty' V' W Tok} (h : String → V → V') (ht : V → V')
    (hc : P.Corresponds ⟨fun n v v' => v' = h n v, fun _ fs fs' => fs' = fs.map ht, Eq⟩ Q)
    (htok : ∀ t, P.cls t = Q.cls t ∧ Q.fields t = (P.fields t).map ht) :
    List.Forall₂ (fun ep ep' => ep.name = ep'.name ∧
      ∀ (E : Type) (input : Nat → Option (Except E Tok)) (w w' : W) (v' : V') (n : Nat),
        Q.Returns ep' input w (.ok v' : Outcome V' E) w' n ↔
          ∃ v, P.Returns ep input w (.ok v : Outcome V E) w' n ∧ v' = h ep.name v)
      P.gen.entries Q.gen.entries := by
  refine (c75_parametric hc).imp ?_
  rintro ep ep' ⟨h1, h2⟩
  refine ⟨h1, ?_⟩
  intro E input w w' v' n
  obtain ⟨h3, h4⟩ := h2 E E Eq input input w w (by
    intro i
    match input i with
    | none => trivial
    | some (.error e) => rfl
    | some (.ok t) => exact ⟨(htok t).1, (htok t).2⟩) rfl
  constructor
  · intro hr
    obtain ⟨o, w1, k1, k2, k3⟩ := h4 _ w' n hr
    obtain rfl : w1 = w' := k3
    match o, k2 with
    | .ok v, k2 => exact ⟨v, k1, k2⟩
  · rintro ⟨v, hr, rfl⟩
    obtain ⟨o, w1, k1, k2, k3⟩ := h3 _ w' n hr
    obtain rfl : w' = w1 := k3
    match o, k2 with
    | .ok v1, k2 => cases k2; exact k1

namespace Examples

/-! ## A program that builds trees, and counts, on tokens with positions -/

/-- Syntax trees. -/
inductive Tree where
  | leaf (n : Nat)
  | add (a b : Tree)
  | paren (a : Tree)
deriving DecidableEq

/-- Their values. -/
def Tree.eval : Tree → Nat
  | .leaf n => n
  | .add a b => a.eval + b.eval
  | .paren a => a.eval

/-- Actions that compute trees and count. -/
abbrev TAct := Env Tree → Nat → Option (Tree × Nat)

def tcode : UserCode TAct Tree Nat :=
  ⟨fun x env w => x env w, fun n env w => match env n with
    | some (.nt v) => some (v, w)
    | _ => none, by intro n env w v h; simp [h]⟩

/-- The tree bound to a name. -/
def tree (env : Env Tree) (n : String) : Tree :=
  match env n with
  | some (.nt v) => v
  | some (.tok [v]) => v
  | _ => .leaf 0

def counted (f : Env Tree → Tree) : AstAction TAct := .infallible fun e w => some (f e, w + 1)

/-- The rules of `arith`; other binders, types and actions:
```
pub Expr: Tree = { <l:Expr> "+" <r:Term> => Add(l, r), <t:Term> => t }
pub Term: Tree = { <x:"n"> => Leaf(x), "(" <e:Expr> ")" => Paren(e) }
``` -/
def treeDefs : List (AstNonTerminal TAct String) :=
  [ ⟨true, "Expr", "Tree",
      [⟨[nm "l" (.nonTerminal "Expr"), .terminal "+", nm "r" (.nonTerminal "Term")],
          counted fun e => .add (tree e "l") (tree e "r")⟩,
        ⟨[nm "t" (.nonTerminal "Term")], counted fun e => tree e "t"⟩]⟩,
    ⟨true, "Term", "Tree",
      [⟨[nm "x" (.terminal "n")], counted fun e => tree e "x"⟩,
        ⟨[.terminal "(", nm "e" (.nonTerminal "Expr"), .terminal ")"],
          counted fun e => .paren (tree e "e")⟩]⟩ ]

/-- The token patterns: pairs of a token and its position, which is ignored. -/
def ptk : TokenEnum String :=
  { typeName := "(Tok, Pos)"
    conversions :=
      [⟨"+", .tuple [.path "Tok::Plus", .underscore]⟩,
        ⟨"n", .tuple [.enum "Tok::Num" [.choose "Tree"], .underscore]⟩,
        ⟨"(", .tuple [.path "Tok::LP", .underscore]⟩, ⟨")", .tuple [.path "Tok::RP", .underscore]⟩] }

def ptoR (t : Tk × Nat) : RVal := .tuple [t.1.toR, .tuple (List.replicate t.2 (.lit "1"))]

theorem ptk_simple : ∀ c ∈ ptk.conversions, NoOneTuple c.to := by
  intro c hc
  simp only [ptk, List.mem_cons, List.not_mem_nil, or_false] at hc
  rcases hc with rfl | rfl | rfl | rfl <;> simp [NoOneTuple, NoOneTupleList]

theorem ptk_total (t : Tk × Nat) : (classify ptk.conversions (ptoR t)).isSome = true := by
  obtain ⟨t, p⟩ := t
  cases t <;> simp [ptk, ptoR, Tk.toR, classify, capture, captureList]

set_option maxRecDepth 10000 in
theorem trees_ok : (parserMacro .insertion tcode.mkPath
    (.tokenEnum ptk :: treeDefs.map .nonTerminal)).isOk = true := by
  decide +kernel

def trees : Compiled TAct String Tree Nat (Tk × Nat) :=
  .ofItems .insertion tcode (.tokenEnum ptk :: treeDefs.map .nonTerminal) ptk ptoR
    (fun v => .leaf (inj v)) trees_ok (by simp [itemTokenEnums, treeDefs]) ptk_simple ptk_total

/-- Numbers correspond to trees with that value; the log to its length. -/
def evalRels : Rels Nat Tree Log Nat :=
  ⟨fun _ v t => t.eval = v, fun _ fs fs' => fs' = fs.map .leaf, fun w k => w.length = k⟩

/-- The hypotheses of `c75_parametric`. -/
theorem arith_trees : arith.Corresponds evalRels trees where
  order := rfl
  terminals := rfl
  defs := by
    rw [show arith.defs = arithDefs from defs_itemsOf arithDefs,
      show trees.defs = treeDefs from rfl]
    refine .cons ⟨rfl, rfl, .cons ⟨rfl, ?_⟩ (.cons ⟨rfl, ?_⟩ .nil)⟩
      (.cons ⟨rfl, rfl, .cons ⟨rfl, ?_⟩ (.cons ⟨rfl, ?_⟩ .nil)⟩ .nil)
    all_goals
      intro vals vals' w w' hv hw
      simp only [evalRels] at hw
      subst hw
    · obtain ⟨a, a', _, _, rfl, rfl, h1, hv⟩ := hv.nt_cons (n := "Expr") rfl
      obtain ⟨f, f', _, _, rfl, rfl, h2, hv⟩ := hv.term_cons (t := "+") rfl
      obtain ⟨b, b', _, _, rfl, rfl, h3, hv⟩ := hv.nt_cons (n := "Term") rfl
      obtain ⟨rfl, rfl⟩ := hv.nil_inv
      cases h1; cases h3
      exact ⟨rfl, by simp [evalRels]⟩
    · obtain ⟨a, a', _, _, rfl, rfl, h1, hv⟩ := hv.nt_cons (n := "Term") rfl
      obtain ⟨rfl, rfl⟩ := hv.nil_inv
      cases h1
      exact ⟨rfl, by simp [evalRels]⟩
    · obtain ⟨f, f', _, _, rfl, rfl, h2, hv⟩ := hv.term_cons (t := "n") rfl
      obtain ⟨rfl, rfl⟩ := hv.nil_inv
      cases h2
      refine ⟨?_, by simp [evalRels]⟩
      match f with
      | [] => rfl
      | [x] => rfl
      | x :: y :: l => rfl
    · obtain ⟨f, f', _, _, rfl, rfl, h2, hv⟩ := hv.term_cons (t := "(") rfl
      obtain ⟨a, a', _, _, rfl, rfl, h1, hv⟩ := hv.nt_cons (n := "Expr") rfl
      obtain ⟨g, g', _, _, rfl, rfl, h3, hv⟩ := hv.term_cons (t := ")") rfl
      obtain ⟨rfl, rfl⟩ := hv.nil_inv
      cases h1
      exact ⟨rfl, by simp [evalRels]⟩

/-- Tokens with positions correspond to tokens without. -/
theorem arith_trees_tok (t : Tk) (p : Nat) :
    arith.cls t = trees.cls (t, p) ∧ evalRels.term (arith.cls t) (arith.fields t) (trees.fields (t, p)) := by
  cases t <;>
    simp [Compiled.cls, Compiled.fields, arith, trees, Compiled.ofItems, tk, ptk, Tk.toR, ptoR, classify,
      capture, captureList, evalRels]

/-- The same items, with and without positions. -/
theorem arith_trees_items (x : Option (Except String Tk)) (p : Nat) :
    CorrespondingItems evalRels Eq arith trees x (x.map (·.map fun t => (t, p))) := by
  match x with
  | none => trivial
  | some (.error e) => rfl
  | some (.ok t) => exact arith_trees_tok t p

/-- `1 + (2 + 3)` with positions 5, 6, ...: by the run of `arith`, which gives 6 after 8 actions. -/
theorem c75_example : ∃ ep ∈ trees.gen.entries, ∃ t : Tree, trees.Returns ep
    (fun i => (stream [.num 1, .plus, .lp, .num 2, .plus, .num 3, .rp] i).map (·.map fun t => (t, i + 5))) 0
    (.ok t) 8 8 ∧ t.eval = 6 := by
  obtain ⟨ep, hep, _, h⟩ := run_returns arith_run
  obtain ⟨i, hi, rfl⟩ := List.mem_iff_getElem.1 hep
  obtain ⟨hl, h3⟩ := List.forall₂_iff_get.1 (c75_parametric arith_trees)
  obtain ⟨_, h4⟩ := h3 i hi (hl ▸ hi)
  obtain ⟨h5, _⟩ := h4 String String Eq (stream [.num 1, .plus, .lp, .num 2, .plus, .num 3, .rp])
    (fun i => (stream [.num 1, .plus, .lp, .num 2, .plus, .num 3, .rp] i).map (·.map fun t => (t, i + 5)))
    [] 0 (fun i => arith_trees_items _ (i + 5)) rfl
  obtain ⟨o, w1, k1, k2, k3⟩ := h5 _ _ _ h
  match o, k2 with
  | .ok t, k2 =>
    cases k3
    exact ⟨_, List.getElem_mem (hl ▸ hi), t, k1, k2⟩

set_option maxRecDepth 10000 in
/-- A run of the tree builder that ends in an error, computed. -/
example : trees.gen.entries[0]?.map (fun ep => (parse trees.gen trees.code trees.tf
      (fun i => (stream [.num 1, .plus, .lp, .num 2] i).map (·.map fun t => (t, i + 5))) ep 0 100).map
      fun r => (r.1, r.2.world)) =
    some (some (.parserError "end-of-input" "+, )", 2)) := by decide +kernel

/-- An invariant of the actions of `arith`: if the numbers read are positive, every value is. -/
theorem arith_preserves : arith.Preserves ⟨fun _ v => 0 < v, fun t fs => t = "n" → ∃ x, fs = [x] ∧ 0 < x,
    fun _ => True⟩ := by
  rw [Compiled.Preserves, show arith.defs = arithDefs from defs_itemsOf arithDefs]
  intro d hd p hp e he vals w v w' hv _ hr
  refine ⟨?_, trivial⟩
  simp only [arithDefs, List.mem_cons, List.not_mem_nil, or_false] at hd
  rcases hd with rfl | rfl <;> simp only [List.mem_cons, List.not_mem_nil, or_false] at hp <;>
    rcases hp with rfl | rfl <;> cases he
  · match vals, hv with
    | [.nt a, _, .nt b], .cons h1 (.cons _ (.cons h2 .nil)) =>
      cases hr
      exact Nat.add_pos_left h1 _
  · match vals, hv with
    | [.nt a], .cons h1 .nil =>
      cases hr
      exact h1
  · match vals, hv with
    | [.tok fs], .cons h1 .nil =>
      cases hr
      obtain ⟨x, rfl, h⟩ := h1 rfl
      exact h
  · match vals, hv with
    | [_, .nt a, _], .cons _ (.cons h1 (.cons _ .nil)) =>
      cases hr
      exact h1

/-- So every parse of positive numbers gives a positive number. -/
example {E : Type} {ep : EntryPoint} (hep : ep ∈ arith.gen.entries) {input : Nat → Option (Except E Tk)}
    (hin : ∀ i x, input i = some (.ok (.num x)) → 0 < x) {w w' : Log} {v n : Nat}
    (hr : arith.Returns ep input w (.ok v) w' n) : 0 < v := by
  refine (c75_invariant arith_preserves hep ?_ trivial hr).2 v rfl
  intro i t _ hi
  match t with
  | .num x =>
    intro _
    exact ⟨x, by simp [Compiled.fields, arith, Compiled.ofItems, tk, Tk.toR, classify, capture, captureList, inj],
      hin i x hi⟩
  | .plus => intro h; exact absurd h (by decide)
  | .lp => intro h; exact absurd h (by decide)
  | .rp => intro h; exact absurd h (by decide)

end Examples

end Parsegen
