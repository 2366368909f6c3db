import Verif.Proofs.Greedy
import Verif.Proofs.Complete
import Verif.Props.Knuth

/-! # Runs of the parser and shift-preferring derivations -/

namespace Parsegen

variable {X Ty V W Tok E : Type} [DecidableEq Ty] {P : Compiled X Ty V W Tok} {ep : EntryPoint}
  {g : Grammar X Ty} {nts ts : AMap String Nat} {a : Automaton} {g' : Grammar Nat Ty}
  {T : LRTable Nat} {e b : Nat} {input : Nat → Option (Except E Tok)} {w0 : W}

/-- The terminals of tokens as symbols. -/
def Compiled.termsOf (P : Compiled X Ty V W Tok) (toks : List Tok) : List USym :=
  (toks.map P.cls).map .term

/-- The algebra of the user's values. -/
abbrev Compiled.vals (P : Compiled X Ty V W Tok) : UAlg X Tok (BVal V) W := userValues P.code P.fields

theorem ESetup.names_tok (G : ESetup P ep g nts ts a g' T e b) (t : Tok) :
    Names nts ts (.term (P.cls t)) (.terminal (P.tf.terminalIdx t)) :=
  (G.setup.lowered.tmap (P.cls t) (P.tf.terminalIdx t)).2 (G.setup.cls t)

theorem ESetup.names_toks (G : ESetup P ep g nts ts a g' T e b) (l : List Tok) :
    List.Forall₂ (Names nts ts) (P.termsOf l) (l.map fun t => .terminal (P.tf.terminalIdx t)) := by
  induction l with
  | nil => exact .nil
  | cons t l ih => exact .cons (G.names_tok t) ih

theorem ESetup.namesLa (G : ESetup P ep g nts ts a g' T e b) (l : List Tok) :
    NamesLa ts (l.map P.cls).head? (look P.tf.terminalIdx l) := by
  cases l with
  | nil => trivial
  | cons t l => exact G.names_tok t

theorem forall₂_snoc {α β : Type} {R : α → β → Prop} {l : List α} {r : List β} {x : α} {y : β}
    (h : List.Forall₂ R l r) (hx : R x y) : List.Forall₂ R (l ++ [x]) (r ++ [y]) := by
  induction h with
  | nil => exact .cons hx .nil
  | cons h _ ih => exact .cons h ih

omit [DecidableEq Ty] in
/-- The tree of a node of the lowered grammar. -/
theorem nameAlg_node (hl : Lowered mkPath asts convs g nts ts) {n : String} {j p : Nat}
    (hn : nts.get? n = some j) (cs : List (UTree Tok)) :
    (nameAlg nts).node j p cs () = some (.node n p cs, ()) := by
  have hex : ∃ m, nts.get? m = some j := ⟨n, hn⟩
  simp only [nameAlg, dif_pos hex]
  rw [hl.inj hex.choose_spec hn]

/-- The value of a node of the user's grammar is that of the lowered grammar. -/
theorem Setup.node_value (S : Setup P g nts ts a g' T) {n : String} {j p : Nat}
    (hn : nts.get? n = some j) {α : List Symbol} (hp : g.HasProd j p α) (vs : List (BVal V)) (w : W) :
    ∃ q, (userProds P.defs n)[p]? = some q ∧
      P.vals.node n p q vs w = g.nodeValue P.code j p vs w := by
  obtain ⟨q, pr, h1, h2, h3, _⟩ := S.lowered.hasProd_user hn hp
  exact ⟨q, h1, ((algAgree_values (asts := P.defs) (nts := nts) (ts := ts) P.code P.fields).node hn h1
    h3 h2).symm⟩

/-- The forest of the stack: it derives what was read, and its values are those on the stack. -/
structure Forest (P : Compiled X Ty V W Tok) (g : Grammar X Ty) (nts : AMap String Nat) (w0 : W)
    (s : PState Tok V W E) (γ : List Symbol) (toks : List Tok) (trs : List (UTree Tok)) : Prop where
  eval : Eval g P.tf.terminalIdx (nameAlg nts) γ toks () trs ()
  vals : UTree.values P.defs P.vals trs w0 = some (s.values.reverse.map SAR.toB, s.world)

theorem forest_shift (S : Setup P g nts ts a g' T) {s : PState Tok V W E} {γ : List Symbol}
    {toks : List Tok} {trs : List (UTree Tok)} (h : Forest P g nts w0 s γ toks trs) {t : Tok} {r : Nat}
    (ht : s.token = some (.ok t)) :
    Forest P g nts w0 (shiftStep P.tf input r s) (γ ++ [.terminal (P.tf.terminalIdx t)])
      (toks ++ [t]) (trs ++ [.leaf t]) := by
  refine ⟨h.eval.append (.term rfl (.nil _)), ?_⟩
  rw [UTree.values_append, h.vals]
  have h1 : (P.tf.value t).toB = .tok (P.fields t) := by
    rw [S.cons.value, ← S.fields]; rfl
  simp [UTree.values, UTree.value, shiftStep, ht, Compiled.vals, userValues, h1]

/-- Splitting the values of a forest where the symbols split. -/
theorem forest_split {s : PState Tok V W E} {γ α : List Symbol} {toks : List Tok}
    {trs : List (UTree Tok)} (h : Forest P g nts w0 s (γ ++ α) toks trs) {us rest : List (SAR V)}
    (hl : us.length = α.length) (hv : s.values = us.reverse ++ rest) :
    ∃ trs1 trs2 w1 t1 t2, trs = trs1 ++ trs2 ∧ toks = t1 ++ t2 ∧
      Eval g P.tf.terminalIdx (nameAlg nts) γ t1 () trs1 () ∧
      Eval g P.tf.terminalIdx (nameAlg nts) α t2 () trs2 () ∧
      UTree.values P.defs P.vals trs1 w0 = some (rest.reverse.map SAR.toB, w1) ∧
      UTree.values P.defs P.vals trs2 w1 = some (us.map SAR.toB, s.world) := by
  obtain ⟨t1, t2, trs1, trs2, u1, rfl, rfl, h1, h2⟩ := h.eval.split
  have hv' := h.vals
  rw [UTree.values_append, hv] at hv'
  obtain ⟨⟨vs1, w1⟩, h3, h4⟩ := Option.bind_eq_some_iff.1 hv'
  simp only [Option.map_eq_some_iff] at h4
  obtain ⟨⟨vs2, w2⟩, h4, h5⟩ := h4
  simp only [List.reverse_append, List.reverse_reverse, List.map_append, Prod.mk.injEq] at h5
  obtain ⟨h5, rfl⟩ := h5
  have hl2 : vs2.length = (us.map SAR.toB).length := by
    rw [UTree.values_length h4, List.length_map, hl, h2.length_eq]
  obtain ⟨rfl, rfl⟩ := List.append_inj' h5 hl2
  exact ⟨trs1, trs2, w1, t1, t2, rfl, rfl, h1, h2, h3, h4⟩

theorem forest_reduce (S : Setup P g nts ts a g' T) {s s' : PState Tok V W E} {γ α : List Symbol}
    {toks : List Tok} {trs : List (UTree Tok)} (h : Forest P g nts w0 s (γ ++ α) toks trs)
    {us rest : List (SAR V)} {v : SAR V} {j p : Nat} {n : String} (hn : nts.get? n = some j)
    (hp : g.HasProd j p α) (hl : us.length = α.length) (hv : s.values = us.reverse ++ rest)
    (hnode : (g.stackAlg P.code P.tf).node j p us s.world = some (v, s'.world))
    (hv' : s'.values = v :: rest) :
    ∃ trs1 trs2, trs = trs1 ++ trs2 ∧ trs2.length = α.length ∧
      Forest P g nts w0 s' (γ ++ [.nonTerminal j]) toks (trs1 ++ [.node n p trs2]) := by
  obtain ⟨trs1, trs2, w1, t1, t2, rfl, rfl, h1, h2, h3, h4⟩ := forest_split h hl hv
  refine ⟨trs1, trs2, rfl, h2.length_eq, ?_, ?_⟩
  · refine h1.append ?_
    have := Eval.nt (ss := []) (t2 := []) hp h2 (nameAlg_node S.lowered hn (p := p) trs2) (.nil _)
    simpa using this
  · obtain ⟨x, k, h5, _, rfl⟩ := stackAlg_node hnode
    obtain ⟨q, h6, h7⟩ := S.node_value hn hp (us.map SAR.toB) s.world
    rw [UTree.values_append, h3]
    simp [UTree.values, UTree.value, h4, h6, h7, h5, hv', SAR.toB]

/-- What is known at the end of a run. -/
theorem GSetup.forward (G : GSetup P ep g nts ts a g' T e b) {fuel : Nat} {s s' : PState Tok V W E}
    {γ : List Symbol} {toks : List Tok} {v : V} {uγ : List USym} {trs : List (UTree Tok)}
    (hi : RunInv g P.code P.tf (StateAt g (generateFirstTable P.order g) a) e input w0 s γ toks)
    (hγ : List.Forall₂ (Names nts ts) uγ γ) (hf : Forest P g nts w0 s γ toks trs)
    (h : parseLoop P.gen P.code P.tf input ep fuel s = some (.ok v, s')) :
    ∃ rest tr ps, Ends input (toks ++ rest) ∧ IsUTree P.defs P.cls ep.name (toks ++ rest) tr ∧
      tr.value P.defs P.vals w0 = some (.nt v, s'.world) ∧
      UGreedy P.defs ep.name ps (uγ ++ P.termsOf rest) ∧
      tr.postorder = UTree.postorderList trs ++ ps := by
  induction fuel generalizing s γ toks uγ trs with
  | zero => cases h
  | succ fuel ih =>
    unfold parseLoop at h
    have hs := parseStep_spec (w0 := w0) G.setup.wf G.tables G.setup.cons G.pub G.ext G.sem hi
    obtain ⟨q, sts, hq, hat⟩ := hi.stk.top
    have hh : s.states.headD 0 = q := by rw [hq]; rfl
    cases hst : parseStep P.gen P.code P.tf input ep s with
    | done o' s2 =>
      rw [hst] at h hs
      simp only [Option.some.injEq, Prod.mk.injEq] at h
      obtain ⟨rfl, rfl⟩ := h
      cases hs with
      | @accept b' _ w' _ htok hγ' hact hp heval hs hval =>
        rw [hh] at hact
        obtain ⟨_, rfl⟩ := G.accept_inv hat hγ (fun _ h => by cases h) hact
        subst hγ'
        obtain ⟨us, hus, hnv⟩ := hval
        obtain ⟨tr, rfl⟩ : ∃ tr, trs = [tr] := by
          have := hf.eval.length_eq
          match trs, this with
          | [tr], _ => exact ⟨tr, rfl⟩
        obtain ⟨vs, hev, hvs⟩ := hi.eval
        obtain ⟨p, α, us', w1, x, rfl, hp', hc', hn⟩ := hev.nt_inv
        obtain ⟨x, k, h3, h4, rfl⟩ := stackAlg_node hn
        rw [hus] at hvs
        have : us = [.nonTerminal k x] := by simpa using congrArg List.reverse hvs
        subst this
        obtain ⟨nt, d1, d2, d3⟩ := G.decl
        have hw : g.nodeValue P.code e 0 [.nt x] s.world = some (.nt x, s.world) :=
          G.setup.lowered.wrapper_node (Tok := Tok) P.code (fields := P.fields) d1 d2 x s.world
        have hnv' : g.nodeValue P.code e 0 [.nt x] s.world = some (.nt v, w') := hnv
        rw [hw] at hnv'
        cases hnv'
        have hnone : input toks.length = none := by rw [← hi.token]; exact htok
        refine ⟨[], tr, [], ?_, ?_, ?_, ?_, ?_⟩
        · rw [List.append_nil]; exact ⟨hi.reads, hnone⟩
        · rw [List.append_nil]
          have hb : nts.get? ep.name = some b' := by
            cases hγ with
            | cons h1 _ => exact h1
          exact G.setup.lowered.eval_user G.setup.cls (algAgree_trees G.setup.lowered) hf.eval _
            (.cons (Or.inl ⟨ep.name, b', rfl, hb, rfl⟩) .nil)
        · have := hf.vals
          rw [hus] at this
          simp only [UTree.values, Option.bind_eq_bind, Option.bind_eq_some_iff] at this
          obtain ⟨⟨v1, w1⟩, h5, r, h6, h7⟩ := this
          cases h6
          simp [SAR.toB] at h7
          rw [h5, h7.1, h7.2, hs]
        · exact .start
        · simp [UTree.postorderList]
    | next s2 =>
      rw [hst] at h hs
      simp only at h
      cases hs with
      | @shift t r nt p α β la s2 htok hact hit hp hs hinv =>
        subst hs
        obtain ⟨rest, tr, ps, h1, h2, h3, h4, h5⟩ :=
          ih hinv (forall₂_snoc hγ (G.names_tok t)) (forest_shift G.setup hf htok) h
        refine ⟨t :: rest, tr, ps, ?_, ?_, h3, ?_, ?_⟩
        · simpa using h1
        · simpa using h2
        · simpa [Compiled.termsOf] using h4
        · rw [h5, UTree.postorderList_append]
          simp [UTree.postorderList, UTree.postorder]
      | @reduce c j p α γ' k s2 hla hact hγ' hp hit hpriv htok hval hinv =>
        subst hγ'
        obtain ⟨us, vrest, v1, a1, a2, a3, a4⟩ := hval
        obtain ⟨n, hn⟩ := G.setup.lowered.name_of_hasProd hp hpriv
        obtain ⟨uα, hα, hup⟩ := G.setup.lowered.hasProd_names hn hp
        obtain ⟨uγ', uα', rfl, h6, h7⟩ := forall₂_append_right hγ
        cases G.setup.lowered.names_inj_list h7 hα
        obtain ⟨trs1, trs2, rfl, _, hf'⟩ := forest_reduce G.setup hf hn hp a1 a2 a3 a4
        obtain ⟨rest, tr, ps, h1, h2, h3, h4, h5⟩ :=
          ih hinv (forall₂_snoc h6 (show Names nts ts (.nt n) (.nonTerminal j) from hn)) hf' h
        rw [hh] at hact
        have hlook : lookahead P.tf s.token = some (look P.tf.terminalIdx rest) := by
          rw [hi.token]; exact h1.lookahead
        rw [hla] at hlook
        have hlook := Option.some.inj hlook
        subst hlook
        refine ⟨rest, tr, (n, p) :: ps, h1, h2, h3, ?_, ?_⟩
        · refine .step uγ' (rest.map P.cls) (by simpa [Compiled.termsOf] using h4) hup ?_ ?_
          · intro t ht hv
            have hla' := G.namesLa rest
            rw [ht] at hla'
            obtain ⟨r, hr⟩ := G.act_shift hat hγ hla' hv.wants_shift
            rw [hr] at hact; cases hact
          · intro hw he
            have : rest = [] := List.map_eq_nil_iff.1 hw
            subst this
            rw [he] at hγ
            have := G.act_accept hat hγ
            rw [show look P.tf.terminalIdx [] = none from rfl, this] at hact
            cases hact
        · rw [h5, UTree.postorderList_append, UTree.postorderList_append]
          simp [UTree.postorderList, UTree.postorder]

/-! ## Greedy derivations are found -/

omit [DecidableEq Ty] in
theorem eval_terms {γ : List Symbol} {l : List String} (hγ : List.Forall₂ (Names nts ts) (l.map .term) γ)
    {toks : List Tok} {trs : List (UTree Tok)} {ti : Tok → Nat}
    (h : Eval g ti (nameAlg nts) γ toks () trs ()) : trs = toks.map .leaf := by
  induction l generalizing γ toks trs with
  | nil => cases hγ; cases h; rfl
  | cons t l ih =>
    cases hγ with
    | @cons _ x _ _ h1 h2 =>
      cases h with
      | term ht h => rw [ih h2 h]; rfl
      | nt _ _ _ _ => exact absurd h1 (by simp [Names])

theorem values_leaves (l : List Tok) (w : W) :
    UTree.values P.defs P.vals (l.map .leaf) w = some (l.map P.vals.leaf, w) := by
  induction l with
  | nil => rfl
  | cons t l ih => simp [UTree.values, UTree.value, ih]

theorem postorder_leaves (l : List Tok) : UTree.postorderList (l.map .leaf) = [] := by
  induction l with
  | nil => rfl
  | cons t l ih => simp [UTree.postorderList, UTree.postorder, ih]

theorem values_none_append {t1 t2 : List (UTree Tok)} {w : W}
    (h : UTree.values P.defs P.vals t1 w = none) :
    UTree.values P.defs P.vals (t1 ++ t2) w = none := by
  rw [UTree.values_append, h]; rfl


/-- A greedy derivation completes a forest to a tree, which fails if the forest does. -/
theorem ESetup.build (G : ESetup P ep g nts ts a g' T e b) {ps : List (String × Nat)} {F : List USym}
    (h : UGreedy P.defs ep.name ps F) : ∀ {γ : List Symbol} {toks : List Tok} {trs : List (UTree Tok)},
    List.Forall₂ (Names nts ts) F γ → Eval g P.tf.terminalIdx (nameAlg nts) γ toks () trs () →
    ∃ tr, IsUTree P.defs P.cls ep.name toks tr ∧ tr.postorder = UTree.postorderList trs ++ ps ∧
      ∀ w, UTree.values P.defs P.vals trs w = none → tr.value P.defs P.vals w = none := by
  induction h with
  | start =>
    intro γ toks trs hγ hev
    cases hγ with
    | @cons _ x _ _ h1 h2 =>
      cases h2
      cases x with
      | terminal t => exact absurd h1 (by simp [Names])
      | nonTerminal j =>
        obtain ⟨tr, rfl⟩ : ∃ tr, trs = [tr] := by
          have := hev.length_eq
          match trs, this with
          | [tr], _ => exact ⟨tr, rfl⟩
        refine ⟨tr, ?_, by simp [UTree.postorderList], ?_⟩
        · exact G.setup.lowered.eval_user G.setup.cls (algAgree_trees G.setup.lowered) hev _
            (.cons (Or.inl ⟨ep.name, j, rfl, h1, rfl⟩) .nil)
        · intro w hw
          cases hv : tr.value P.defs P.vals w with
          | none => rfl
          | some r => simp [UTree.values, hv] at hw
  | @step ps A i β α w h hp hs ha ih =>
    intro γ toks trs hγ hev
    obtain ⟨j, hj⟩ : ∃ j, nts.get? A = some j := by
      obtain ⟨d, hd, hn, _⟩ := Examples.hasProd_mem hp
      exact (G.setup.lowered.idx A).2 ⟨d, hd, hn⟩
    obtain ⟨β', hβ', hp'⟩ := G.setup.lowered.uhasProd_names hj hp
    obtain ⟨γ12, γ3, rfl, h12, h3⟩ := forall₂_append_left hγ
    obtain ⟨γ1, γ2, rfl, h1, h2⟩ := forall₂_append_left h12
    cases names_func h2 hβ'
    obtain ⟨t12, t3, tr12, tr3, _, rfl, rfl, hev12, hev3⟩ := hev.split
    obtain ⟨t1, t2, tr1, tr2, _, rfl, rfl, hev1, hev2⟩ := hev12.split
    have hnew : Eval g P.tf.terminalIdx (nameAlg nts) (γ1 ++ .nonTerminal j :: γ3)
        (t1 ++ t2 ++ t3) () (tr1 ++ .node A i tr2 :: tr3) () := by
      have := hev1.append (.nt hp' hev2 (nameAlg_node G.setup.lowered hj tr2) hev3)
      simpa using this
    obtain ⟨tr, b1, b2, b3⟩ := ih (forall₂_append h1
      (.cons (show Names nts ts (.nt A) (.nonTerminal j) from hj) h3)) hnew
    have hleaf := eval_terms h3 hev3
    subst hleaf
    refine ⟨tr, b1, ?_, ?_⟩
    · rw [b2]
      simp [UTree.postorderList_append, UTree.postorderList, UTree.postorder, postorder_leaves]
    · intro w hw
      refine b3 w ?_
      rw [List.append_assoc, UTree.values_append] at hw
      rw [UTree.values_append]
      cases hv1 : UTree.values P.defs P.vals tr1 w with
      | none => rfl
      | some r1 =>
        rw [hv1] at hw
        simp only [Option.bind_some, Option.map_eq_none_iff] at hw ⊢
        rw [UTree.values_append] at hw
        cases hv2 : UTree.values P.defs P.vals tr2 r1.2 with
        | none => simp [UTree.values, UTree.value, hv2]
        | some r2 =>
          rw [hv2] at hw
          simp [values_leaves] at hw

/-- Two reductions do not compete. -/
theorem ESetup.reduce_unique (G : ESetup P ep g nts ts a g' T e b) {γ : List Symbol} {c : Option Nat}
    {b1 p1 b2 p2 : Nat} {α1 α2 : List Symbol}
    (h1 : ItemsAt g (generateFirstTable P.order g) e γ ⟨b1, p1, α1.length, c⟩) (hp1 : g.HasProd b1 p1 α1)
    (hv1 : g.isPublic b1 = false)
    (h2 : ItemsAt g (generateFirstTable P.order g) e γ ⟨b2, p2, α2.length, c⟩) (hp2 : g.HasProd b2 p2 α2)
    (hv2 : g.isPublic b2 = false) : b1 = b2 ∧ p1 = p2 := by
  by_cases hne : (b1, p1) = (b2, p2)
  · cases hne; exact ⟨rfl, rfl⟩
  · obtain ⟨f, hf⟩ := c20_reduce_reduce G.setup.wf G.pub hne h1 hp1 h2 hp2 hv1 hv2
    obtain ⟨g2, l1, l2, _⟩ := P.stages_ok
    rw [G.setup.lower] at l1
    cases l1
    rw [l2] at hf
    cases hf

/-- A reduction that no shift and no acceptance competes with is performed. -/
theorem ESetup.step_reduce (G : ESetup P ep g nts ts a g' T e b) {s : PState Tok V W E}
    {γ : List Symbol} {toks : List Tok}
    (hi : RunInv g P.code P.tf (StateAt g (generateFirstTable P.order g) a) e input w0 s γ toks)
    {c : Option Nat} (hla : lookahead P.tf s.token = some c) {j p : Nat} {α : List Symbol}
    (hit : ItemsAt g (generateFirstTable P.order g) e γ ⟨j, p, α.length, c⟩) (hp : g.HasProd j p α)
    (hpriv : g.isPublic j = false)
    (hns : ∀ r, P.gen.act (s.states.headD 0) c ≠ some (some (.shift r)))
    (hna : P.gen.act (s.states.headD 0) c ≠ some (some .accept)) :
    ∃ γ' us rest, γ = γ' ++ α ∧ us.length = α.length ∧ s.values = us.reverse ++ rest ∧
      ((∃ v s', (g.stackAlg P.code P.tf).node j p us s.world = some (v, s'.world) ∧
          parseStep P.gen P.code P.tf input ep s = .next s' ∧ s'.values = v :: rest ∧
          s'.token = s.token ∧
          RunInv g P.code P.tf (StateAt g (generateFirstTable P.order g) a) e input w0 s'
            (γ' ++ [.nonTerminal j]) toks) ∨
        ((g.stackAlg P.code P.tf).node j p us s.world = none ∧
          parseStep P.gen P.code P.tf input ep s = .done (.fault .userPanic) s)) := by
  obtain ⟨q, sts, hq, hat⟩ := hi.stk.top
  have hh : s.states.headD 0 = q := by rw [hq]; rfl
  have hr : ∃ k, P.gen.act q c = some (some (.reduce j α.length k)) := by
    rcases G.tables.reduce_mk G.pub hat hit hp hpriv with ⟨k, hk, _⟩ | ⟨r, hr⟩ | ha
    · exact ⟨k, hk⟩
    · rw [hh] at hns; exact absurd hr (hns r)
    · rw [hh] at hna; exact absurd ha hna
  obtain ⟨k, hr⟩ := hr
  have hs := parseStep_spec (w0 := w0) G.setup.wf G.tables G.setup.cons G.pub G.ext G.sem hi
  generalize parseStep P.gen P.code P.tf input ep s = res at hs
  cases hs with
  | @shift t' r' nt p α β la s' htok hact hit hp hs hinv =>
    rw [htok] at hla; cases hla; rw [hh, hr] at hact; cases hact
  | @reduce c' b' p' α' γ' k' s' hla' hact hγ hp' hit' hpriv' htok hval hinv =>
    rw [hla] at hla'; cases hla'
    obtain ⟨rfl, rfl⟩ := G.reduce_unique hit hp hpriv hit' hp' hpriv'
    have hα : α = α' := hp.rhs_eq.symm.trans hp'.rhs_eq
    subst hα
    obtain ⟨us, rest, v, h1, h2, h3, h4⟩ := hval
    exact ⟨γ', us, rest, hγ, h1, h2, Or.inl ⟨v, s', h3, rfl, h4, htok, hinv⟩⟩
  | @panic c' b' p' α' γ' k' hla' hact hγ hp' hit' hpriv' hval =>
    rw [hla] at hla'; cases hla'
    obtain ⟨rfl, rfl⟩ := G.reduce_unique hit hp hpriv hit' hp' hpriv'
    have hα : α = α' := hp.rhs_eq.symm.trans hp'.rhs_eq
    subst hα
    obtain ⟨us, rest, ts, w1, h1, h2, _, h4⟩ := hval
    exact ⟨γ', us, rest, hγ, h1, h2, Or.inr ⟨h4, rfl⟩⟩
  | lexer htok => rw [htok] at hla; cases hla
  | «syntax» hla' hact => rw [hla] at hla'; cases hla'; rw [hh, hr] at hact; cases hact
  | accept htok hγ hact => rw [htok] at hla; cases hla; rw [hh, hr] at hact; cases hact
  | acceptPanic htok hact => rw [htok] at hla; cases hla; rw [hh, hr] at hact; cases hact

/-- A wanted shift is that of an item. -/
theorem GSetup.shift_item (G : GSetup P ep g nts ts a g' T e b) {γ : List Symbol} {uγ : List USym}
    (hγ : List.Forall₂ (Names nts ts) uγ γ) {uc : Option String} {t : Nat}
    (hc : NamesLa ts uc (some t)) (h : UWants P.defs ep.name uγ uc .shift) :
    ∃ nt p α β la, ItemsAt g (generateFirstTable P.order g) e γ ⟨nt, p, List.length α, la⟩ ∧
      g.HasProd nt p (α ++ .terminal t :: β) := by
  obtain ⟨γ1, c1, m, a1, a2, a3, a4⟩ := G.setup.lowered.user_wants G.pub G.prod G.name h
  cases names_func a1 hγ
  cases a2.func hc
  cases m with
  | reduce => exact absurd a3 (by simp [NamesMove])
  | accept => exact absurd a3 (by simp [NamesMove])
  | shift =>
    obtain ⟨nt, p, α, t, β, la, h1, h2, h3⟩ := a4
    cases h3
    exact ⟨nt, p, α, β, la, h1.itemsAt G.first G.setup.wf G.pub, h2⟩

/-- What a run from a state with forest `trs` and remaining greedy derivation `ps` does. -/
def Finds (P : Compiled X Ty V W Tok) (ep : EntryPoint) (input : Nat → Option (Except E Tok)) (w0 : W)
    (s : PState Tok V W E) (toks : List Tok) (trs : List (UTree Tok)) (ps : List (String × Nat)) :
    Prop :=
  (∃ fuel v s', parseLoop P.gen P.code P.tf input ep fuel s = some (.ok v, s')) ∨
  ∃ fuel s', parseLoop P.gen P.code P.tf input ep fuel s = some (.fault .userPanic, s') ∧
    ∃ tr, IsUTree P.defs P.cls ep.name toks tr ∧ tr.postorder = UTree.postorderList trs ++ ps ∧
      tr.value P.defs P.vals w0 = none

theorem Finds.next {s s1 : PState Tok V W E} {toks : List Tok} {trs trs1 : List (UTree Tok)}
    {ps ps1 : List (String × Nat)} (h : Finds P ep input w0 s1 toks trs1 ps1)
    (hs : parseStep P.gen P.code P.tf input ep s = .next s1)
    (hp : UTree.postorderList trs1 ++ ps1 = UTree.postorderList trs ++ ps) :
    Finds P ep input w0 s toks trs ps := by
  rcases h with ⟨fuel, v, s', h⟩ | ⟨fuel, s', h, tr, h1, h2, h3⟩
  · refine Or.inl ⟨fuel + 1, v, s', ?_⟩
    unfold parseLoop; rw [hs]; exact h
  · refine Or.inr ⟨fuel + 1, s', ?_, tr, h1, h2.trans hp, h3⟩
    unfold parseLoop; rw [hs]; exact h

theorem nt_not_terms {l α : List USym} {A : String} {l' : List USym} {w : List String}
    (h : l ++ .nt A :: l' = α ++ w.map .term) : l.length < α.length := by
  by_contra hc
  rw [Nat.not_lt] at hc
  rcases List.append_eq_append_iff.1 h with ⟨a', e1, e2⟩ | ⟨c', e1, e2⟩
  · subst e1
    rw [List.length_append] at hc
    have : a' = [] := List.length_eq_zero_iff.1 (by omega)
    subst this
    exact map_term_no_nt (l := []) e2.symm
  · exact map_term_no_nt e2

theorem GSetup.backward (G : GSetup P ep g nts ts a g' T e b) (hP : UProductive P.defs)
    {ps : List (String × Nat)} {F : List USym} (h : UGreedy P.defs ep.name ps F) :
    ∀ {s : PState Tok V W E} {uγ : List USym} {γ : List Symbol} {toks rest : List Tok}
      {trs : List (UTree Tok)}, F = uγ ++ P.termsOf rest →
    RunInv g P.code P.tf (StateAt g (generateFirstTable P.order g) a) e input w0 s γ toks →
    List.Forall₂ (Names nts ts) uγ γ → Forest P g nts w0 s γ toks trs → Ends input (toks ++ rest) →
    (uγ = [] ∨ ∃ l A, uγ = l ++ [.nt A]) → Finds P ep input w0 s (toks ++ rest) trs ps := by
  induction h with
  | start =>
    intro s uγ γ toks rest trs hF hi hγ hf hin hend
    have hrest : rest = [] ∧ uγ = [.nt ep.name] := by
      rcases uγ with _ | ⟨x, uγ⟩
      · cases rest with
        | nil => cases hF
        | cons t rest => simp [Compiled.termsOf] at hF
      · simp only [List.cons_append, List.cons.injEq, List.nil_eq, List.append_eq_nil_iff] at hF
        obtain ⟨rfl, rfl, h1⟩ := hF
        exact ⟨by simpa [Compiled.termsOf] using h1, rfl⟩
    obtain ⟨rfl, rfl⟩ := hrest
    obtain rfl : γ = [.nonTerminal b] :=
      names_func hγ (.cons (show Names nts ts (.nt ep.name) (.nonTerminal b) from G.name) .nil)
    rw [List.append_nil] at hin
    have htok : s.token = none := by rw [hi.token]; exact hin.2
    rcases step_accept G.setup.wf G.tables G.setup.cons G.pub G.ext G.sem G.prod hi htok with
      ⟨v, s', h1, _⟩ | ⟨_, us, h2, h3⟩
    · refine Or.inl ⟨1, v, s', ?_⟩
      unfold parseLoop; rw [h1]
    · obtain ⟨nt, d1, d2, d3⟩ := G.decl
      exact absurd h3 (G.setup.no_wrapper_panic d1 d2 h2)
  | @step ps A i β α w h hp hs ha ih =>
    intro s uγ γ toks rest trs hF hi hγ hf hin hend
    obtain ⟨j, hj⟩ : ∃ j, nts.get? A = some j := by
      obtain ⟨d, hd, hn, _⟩ := Examples.hasProd_mem hp
      exact (G.setup.lowered.idx A).2 ⟨d, hd, hn⟩
    have hh : UHandle P.defs ep.name α (some (A, i)) β w := .step h.rights hp
    have hle : uγ.length ≤ (α ++ β).length := by
      rcases hend with rfl | ⟨l, B, rfl⟩
      · simp
      · have : l ++ .nt B :: P.termsOf rest = (α ++ β) ++ w.map .term := by
          rw [hF]; simp
        have := nt_not_terms this
        simp only [List.length_append, List.length_singleton] at this ⊢
        omega
    clear hend
    generalize hk : (α ++ β).length - uγ.length = k
    induction k generalizing s uγ γ toks rest trs with
    | zero =>
      have hl : uγ.length = (α ++ β).length := by omega
      obtain ⟨rfl, hw⟩ := List.append_inj hF hl.symm
      have hw : w = rest.map P.cls :=
        (List.map_inj_right (f := USym.term) (fun _ _ h => by cases h; rfl)).1 hw
      subst hw
      obtain ⟨β', hβ', hp'⟩ := G.setup.lowered.uhasProd_names hj hp
      have hla : lookahead P.tf s.token = some (look P.tf.terminalIdx rest) := by
        rw [hi.token]; exact hin.lookahead
      have hnla := G.namesLa rest
      obtain ⟨q, sts, hq, hat⟩ := hi.stk.top
      have hhd : s.states.headD 0 = q := by rw [hq]; rfl
      have hlo := laOk_lookahead G.setup.cons hla
      obtain ⟨γ1, c1, m, a1, a2, a3, a4⟩ :=
        G.setup.lowered.user_wants G.pub G.prod G.name hh.wants
      cases names_func a1 hγ
      cases a2.func hnla
      cases m with
      | shift => exact absurd a3 (by simp [handleMove, NamesMove])
      | accept => exact absurd a3 (by simp [handleMove, NamesMove])
      | reduce n1 i1 =>
        obtain ⟨a3, rfl⟩ := a3
        rw [hj] at a3
        cases a3
        obtain ⟨ρ, r1, r2, r3⟩ := a4
        cases r2.rhs_eq.symm.trans hp'.rhs_eq
        have hit := r1.itemsAt G.first G.setup.wf G.pub
        obtain ⟨γ', us, vrest, rfl, hlen, hvs, hcase⟩ := G.step_reduce hi hla hit hp' r3
          (by
            intro r hr
            rw [hhd] at hr
            have := G.wants_shift hat hγ hnla hlo hr
            cases hr0 : rest with
            | nil => subst hr0; obtain ⟨_, _, _, _, _, _, _, _, _, _, _, h9⟩ := this; cases h9
            | cons t rest' =>
              subst hr0
              exact hs (P.cls t) rfl (viable_of_wants_shift hP this))
          (by
            intro hacc
            rw [hhd] at hacc
            obtain ⟨h1, h2⟩ := G.accept_inv hat hγ hlo hacc
            cases hr0 : rest with
            | nil => subst hr0; exact ha rfl h2
            | cons t rest' => subst hr0; cases h1)
        obtain ⟨uα', uβ', e1, hα', hβ2⟩ := forall₂_append_right hγ
        cases G.setup.lowered.names_inj_list hβ2 hβ'
        cases List.append_cancel_right e1
        rcases hcase with ⟨v, s', h1, h2, h3, h4, h5⟩ | ⟨h1, h2⟩
        · obtain ⟨trs1, trs2, rfl, _, hf'⟩ := forest_reduce G.setup hf hj hp' hlen hvs h1 h3
          refine Finds.next (ih (by simp [Compiled.termsOf]) h5
            (forall₂_snoc hα' (show Names nts ts (.nt A) (.nonTerminal j) from hj)) hf' hin
            (Or.inr ⟨_, _, rfl⟩)) h2 ?_
          simp [UTree.postorderList_append, UTree.postorderList, UTree.postorder]
        · refine Or.inr ⟨1, s, by unfold parseLoop; rw [h2], ?_⟩
          obtain ⟨trs1, trs2, w1, t1, t2, rfl, rfl, f1, f2, f3, f4⟩ := forest_split hf hlen hvs
          have hnone : g.nodeValue P.code j i (us.map SAR.toB) s.world = none := by
            cases hv : g.nodeValue P.code j i (us.map SAR.toB) s.world with
            | none => rfl
            | some r =>
              exfalso
              obtain ⟨n', pr, g1, g2, _⟩ := hp'
              obtain ⟨k', hk'⟩ := semanticActionVariants_some g g1
              obtain ⟨x, hx⟩ : ∃ x, r.1 = .nt x := by
                unfold Grammar.nodeValue at hv
                split at hv
                · cases hv
                · simp only [Option.map_eq_some_iff] at hv
                  obtain ⟨y, _, rfl⟩ := hv
                  exact ⟨_, rfl⟩
              unfold Grammar.stackAlg at h1
              simp only [hv, hk'] at h1
              obtain ⟨r1, r2⟩ := r
              cases hx
              cases h1
          have hnode : Eval g P.tf.terminalIdx (nameAlg nts) (γ' ++ [.nonTerminal j]) (t1 ++ t2) ()
              (trs1 ++ [.node A i trs2]) () := by
            refine f1.append ?_
            have := Eval.nt (ss := []) (t2 := []) hp' f2 (nameAlg_node G.setup.lowered hj (p := i) trs2)
              (.nil _)
            simpa using this
          have hrest : ∀ l : List Tok, Eval g P.tf.terminalIdx (nameAlg nts)
              (l.map fun t => .terminal (P.tf.terminalIdx t)) l () (l.map .leaf) () := by
            intro l
            induction l with
            | nil => exact .nil _
            | cons t l ih => exact .term rfl ih
          obtain ⟨tr, z1, z2, z3⟩ := G.build h
            (by simpa [Compiled.termsOf] using forall₂_append (forall₂_snoc hα'
              (show Names nts ts (.nt A) (.nonTerminal j) from hj)) (G.names_toks rest))
            (hnode.append (hrest rest))
          refine ⟨tr, z1, ?_, z3 w0 ?_⟩
          · rw [z2]
            simp [UTree.postorderList_append, UTree.postorderList, UTree.postorder, postorder_leaves]
          · apply values_none_append
            obtain ⟨q', y1, y2⟩ := G.setup.node_value hj hp' (us.map SAR.toB) s.world
            rw [UTree.values_append, f3]
            simp [UTree.values, UTree.value, f4, y1, y2, hnone]
    | succ k ihk =>
      obtain ⟨t, u, e1, e2⟩ := append_terms_longer (a := uγ) (v := rest.map P.cls) (b := α ++ β) (w := w)
        hF.symm (by omega)
      cases rest with
      | nil => cases e1
      | cons tk rest =>
        simp only [List.map_cons, List.cons.injEq] at e1
        obtain ⟨rfl, e1⟩ := e1
        obtain ⟨nt, p, α1, β1, la, s1, s2⟩ := G.shift_item hγ (G.namesLa (tk :: rest))
          (hh.wants_shift e2)
        have htok : s.token = some (.ok tk) := by
          rw [hi.token]; exact hin.1 toks.length tk (by simp)
        obtain ⟨r, h1, h2⟩ := step_shift G.setup.wf G.tables G.setup.cons G.pub G.ext G.sem hi htok s1 s2
        have := ihk (rest := rest) (uγ := uγ ++ [.term (P.cls tk)])
          (by rw [hF]; simp [Compiled.termsOf]) h2 (forall₂_snoc hγ (G.names_tok tk))
          (forest_shift G.setup hf htok) (by simpa using hin)
          (by simp only [List.length_append, List.length_singleton] at hk ⊢; omega)
          (by simp only [List.length_append, List.length_singleton] at hk ⊢; omega)
        rw [List.append_assoc] at this
        refine Finds.next this h1 ?_
        simp [UTree.postorderList_append, UTree.postorderList, UTree.postorder]

end Parsegen
