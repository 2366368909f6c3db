import Verif.Spec.Follow
import Verif.Proofs.Follow
import Verif.Props.TerminateLR1
import Verif.Props.Greedy

/-! # C68: LR(1) grammars are never parsed wrongly, at worst refused -/

namespace Parsegen

variable {X Ty V W Tok E : Type}

/-! ## Cuts -/

theorem UTree.Cut.children {n : String} {i : Nat} (cs : List (UTree Tok)) :
    UTree.Cut (.node n i cs) cs := by
  rcases List.eq_nil_or_concat cs with rfl | ⟨pre, t, rfl⟩
  · exact .start _
  · rw [List.concat_eq_append]
    exact .inside (post := []) (.done t)

theorem UTree.Cut.refine {tr : UTree Tok} {l : List (UTree Tok)} (h : tr.Cut l) :
    ∀ {xs : List (UTree Tok)} {x : UTree Tok} {ys : List (UTree Tok)}, l = xs ++ [x] → x.Cut ys →
      tr.Cut (xs ++ ys) := by
  induction h with
  | start => intro xs x ys e _; simp at e
  | done tr =>
    intro xs x ys e h
    have : xs = [] := by
      have := congrArg List.length e
      simp at this
      exact this
    subst this
    cases e
    exact h
  | @inside n i pre t post trs h ih =>
    intro xs x ys e hx
    rcases List.eq_nil_or_concat trs with rfl | ⟨l, y, rfl⟩
    · rw [List.append_nil] at e
      subst e
      simpa using UTree.Cut.inside (n := n) (i := i) (pre := xs) (post := t :: post) hx
    · rw [List.concat_eq_append, ← List.append_assoc] at e
      obtain ⟨rfl, e2⟩ := List.append_inj' e rfl
      cases e2
      rw [List.append_assoc]
      exact .inside (ih (List.concat_eq_append) hx)

/-- Unread tokens can be dropped. -/
theorem UTree.Cut.drop_leaves {tr : UTree Tok} {xs : List (UTree Tok)} :
    ∀ {l : List Tok}, tr.Cut (xs ++ l.map .leaf) → tr.Cut xs := by
  intro l
  induction l using List.reverseRecOn with
  | nil => intro h; simpa using h
  | append_singleton l t ih =>
    intro h
    refine ih ?_
    have := h.refine (xs := xs ++ l.map .leaf) (x := .leaf t) (by simp) (.start _)
    simpa using this

/-- The productions of a moment come first. -/
theorem UTree.Cut.postorder {tr : UTree Tok} {trs : List (UTree Tok)} (h : tr.Cut trs) :
    UTree.postorderList trs <+: tr.postorder := by
  induction h with
  | start => exact List.nil_prefix
  | done tr => simp [UTree.postorderList]
  | @inside n i pre t post trs h ih =>
    obtain ⟨r, hr⟩ := ih
    rw [UTree.postorderList_append]
    simp only [UTree.postorder, UTree.postorderList_append, UTree.postorderList]
    exact ⟨r ++ (UTree.postorderList post ++ [(n, i)]), by simp [← hr]⟩

theorem UTree.tokensList_append (a b : List (UTree Tok)) :
    UTree.tokensList (a ++ b) = UTree.tokensList a ++ UTree.tokensList b := by
  induction a with
  | nil => rfl
  | cons t a ih => simp [UTree.tokensList, ih]

/-! ## Trees and values -/

/-- An evaluation is that of a tree. -/
theorem UEval.tree_value {defs : List (AstNonTerminal X Ty)} {cls : Tok → String} {Val : Type}
    {alg : UAlg X Tok Val W} {ss : List AstSymbol} {toks : List Tok} {w w' : W} {vs : List Val}
    (h : UEval defs cls alg ss toks w vs w') :
    ∃ trs, UEval defs cls userTrees ss toks () trs () ∧ UTree.values defs alg trs w = some (vs, w') := by
  induction h with
  | nil w => exact ⟨[], .nil _, rfl⟩
  | term hs _ ih =>
    obtain ⟨trs, h1, h2⟩ := ih
    exact ⟨_, .term hs h1, by simp [UTree.values, UTree.value, userTrees, h2]⟩
  | nt hs hp _ ha _ ih1 ih2 =>
    obtain ⟨t1, h1, h2⟩ := ih1
    obtain ⟨t2, h3, h4⟩ := ih2
    exact ⟨_, .nt hs hp h1 (rfl : userTrees.node _ _ _ _ _ = _) h3,
      by simp [UTree.values, UTree.value, h2, h4, hp, ha]⟩

theorem UEval.tree_tokens {defs : List (AstNonTerminal X Ty)} {cls : Tok → String}
    {ss : List AstSymbol} {toks : List Tok} {u u' : Unit} {trs : List (UTree Tok)}
    (h : UEval defs cls userTrees ss toks u trs u') : UTree.tokensList trs = toks := by
  induction h with
  | nil => rfl
  | term _ _ ih => simp [UTree.tokensList, userTrees, UTree.tokens, ih]
  | nt _ _ _ ha _ ih1 ih2 =>
    cases ha
    simp [UTree.tokensList, UTree.tokens, ih1, ih2]

variable [DecidableEq Ty] {P P' : Compiled X Ty V W Tok} {ep ep' : EntryPoint}
  {g : Grammar X Ty} {nts ts : AMap String Nat} {a : Automaton} {g' : Grammar Nat Ty}
  {T : LRTable Nat} {e b : Nat}
  {input : Nat → Option (Except E Tok)} {w w' : W} {toks : List Tok} {n : Nat}

omit [DecidableEq Ty] in
theorem Eval.tree_tokens {ti : Tok → Nat} {γ : List Symbol} {u u' : Unit} {trs : List (UTree Tok)}
    (h : Eval g ti (nameAlg nts) γ toks u trs u') : UTree.tokensList trs = toks := by
  induction h with
  | nil => rfl
  | term _ _ ih => simp [UTree.tokensList, nameAlg, UTree.tokens, ih]
  | nt _ _ ha _ ih1 ih2 =>
    cases ha
    simp [UTree.tokensList, UTree.tokens, ih1, ih2]

/-- The forest before a reduction is a moment of the evaluation of a tree. -/
theorem ESetup.cut (G : ESetup P ep g nts ts a g' T e b) {ps : List (String × Nat)} {F : List USym}
    (h : UGreedy P.defs ep.name ps F) : ∀ {α : List USym} {A : String} {i : Nat} {β : List USym}
      {x : List String} {γ : List Symbol} {toks : List Tok} {trs : List (UTree Tok)},
    F = α ++ .nt A :: x.map .term → UHasProd P.defs A i β →
    List.Forall₂ (Names nts ts) (α ++ β ++ x.map .term) γ →
    Eval g P.tf.terminalIdx (nameAlg nts) γ toks () trs () →
    ∃ tr, IsUTree P.defs P.cls ep.name toks tr ∧ tr.Cut (trs.take (α ++ β).length) := by
  have split : ∀ {α : List USym} {A : String} {i : Nat} {β : List USym}
      {x : List String} {γ : List Symbol} {toks : List Tok} {trs : List (UTree Tok)},
      UHasProd P.defs A i β → List.Forall₂ (Names nts ts) (α ++ β ++ x.map .term) γ →
      Eval g P.tf.terminalIdx (nameAlg nts) γ toks () trs () →
      ∃ γ1 γ3 j tr1 tr2, ∃ l : List Tok, trs = tr1 ++ tr2 ++ l.map .leaf ∧ tr1.length = α.length ∧
        tr2.length = β.length ∧ List.Forall₂ (Names nts ts) α γ1 ∧ nts.get? A = some j ∧
        List.Forall₂ (Names nts ts) (x.map .term) γ3 ∧
        Eval g P.tf.terminalIdx (nameAlg nts) (γ1 ++ .nonTerminal j :: γ3)
          toks () (tr1 ++ .node A i tr2 :: l.map .leaf) () := by
    intro α A i β x γ toks trs hp hγ hev
    obtain ⟨j, hj⟩ : ∃ j, nts.get? A = some j := by
      obtain ⟨d, hd, hn, _⟩ := Examples.hasProd_mem hp
      exact (G.setup.lowered.idx A).2 ⟨d, hd, hn⟩
    obtain ⟨β', hβ', hp'⟩ := G.setup.lowered.uhasProd_names hj hp
    obtain ⟨γ12, γ3, rfl, h12, h3⟩ := forall₂_append_left hγ
    obtain ⟨γ1, γ2, rfl, h1, h2⟩ := forall₂_append_left h12
    cases names_func h2 hβ'
    obtain ⟨t12, t3, tr12, tr3, _, rfl, rfl, hev12, hev3⟩ := hev.split
    obtain ⟨t1, t2, tr1, tr2, _, rfl, rfl, hev1, hev2⟩ := hev12.split
    have hleaf := eval_terms h3 hev3
    subst hleaf
    refine ⟨γ1, γ3, j, tr1, tr2, t3, rfl, ?_, ?_, h1, hj, h3, ?_⟩
    · rw [hev1.length_eq, ← h1.length_eq]
    · rw [hev2.length_eq, ← h2.length_eq]
    · have := hev1.append (.nt hp' hev2 (nameAlg_node G.setup.lowered hj tr2) hev3)
      simpa using this
  induction h with
  | start =>
    intro α A i β x γ toks trs hF hp hγ hev
    obtain ⟨γ1, γ3, j, tr1, tr2, l, rfl, l1, l2, n1, hj, n3, hev'⟩ := split hp hγ hev
    have hα : α = [] ∧ A = ep.name ∧ x = [] := by
      rcases α with _ | ⟨y, α⟩
      · simp at hF; exact ⟨rfl, hF.1.symm, hF.2⟩
      · simp at hF
    obtain ⟨rfl, rfl, rfl⟩ := hα
    cases n1
    cases n3
    have : tr1 = [] := List.length_eq_zero_iff.1 l1
    subst this
    have hl : l = [] := by
      have := hev'.length_eq
      simpa using this
    subst hl
    refine ⟨.node ep.name i tr2, ?_, ?_⟩
    · exact G.setup.lowered.eval_user G.setup.cls (algAgree_trees G.setup.lowered) (by simpa using hev') _
        (.cons (Or.inl ⟨ep.name, j, rfl, hj, rfl⟩) .nil)
    · have : ([] ++ tr2 ++ ([] : List Tok).map UTree.leaf).take ([] ++ β).length = tr2 := by
        simp [← l2]
      rw [this]
      exact .children _
  | @step ps A' i' β' α' w' h hp' hs ha ih =>
    intro α A i β x γ toks trs hF hp hγ hev
    obtain ⟨γ1, γ3, j, tr1, tr2, l, rfl, l1, l2, n1, hj, n3, hev'⟩ := split hp hγ hev
    obtain ⟨tr, h1, h2⟩ := ih rfl hp' (by
      rw [hF]
      exact forall₂_append n1 (.cons (show Names nts ts (.nt A) (.nonTerminal j) from hj) n3)) hev'
    refine ⟨tr, h1, ?_⟩
    have hlt := nt_not_terms (l := α) (A := A) (α := α' ++ β') (w := w') hF.symm
    have hk : (tr1 ++ UTree.node A i tr2 :: l.map UTree.leaf).take (α' ++ β').length =
        (tr1 ++ [UTree.node A i tr2]) ++
          (l.take ((α' ++ β').length - (α.length + 1))).map UTree.leaf := by
      rw [show tr1 ++ UTree.node A i tr2 :: l.map UTree.leaf =
        (tr1 ++ [UTree.node A i tr2]) ++ l.map UTree.leaf by simp, List.take_append,
        List.take_of_length_le (by simp only [List.length_append, List.length_singleton, l1] at hlt ⊢; omega),
        List.map_take]
      simp only [List.length_append, List.length_singleton, l1]
    rw [hk] at h2
    have h3 := h2.drop_leaves.refine rfl (.children tr2)
    have : (tr1 ++ tr2 ++ l.map UTree.leaf).take (α ++ β).length = tr1 ++ tr2 := by
      rw [List.take_append, List.take_of_length_le (by simp [l1, l2])]
      simp [l1, l2]
    rw [this]
    exact h3

/-! ## Derivation trees of LR(1) grammars -/

/-- An LR(1) grammar gives a token string at most one derivation tree. -/
theorem ulr1_tree_unique (hnd : (P.defs.map (·.name)).Nodup) (hlr : ULR1 P.defs)
    (hep : ep ∈ P.gen.entries) {tr tr' : UTree Tok} (h : IsUTree P.defs P.cls ep.name toks tr)
    (h' : IsUTree P.defs P.cls ep.name toks tr') : tr = tr' := by
  obtain ⟨g, nts, ts, a, g', T, e, b, G⟩ := P.esetup hep hnd
  have S := G.setup
  exact (((S.lowered.lr1_iff S.wf hnd).2 hlr).eval_unique S.wf G.pub G.prod
    (S.lowered.user_eval S.cls (algAgree_trees S.lowered) h _ (lowersPlain_nt G.name))
    (S.lowered.user_eval S.cls (algAgree_trees S.lowered) h' _ (lowersPlain_nt G.name))).1

theorem ESetup.moves (G : ESetup P ep g nts ts a g' T e b) (hlr : ULR1 P.defs) :
    ∀ γ c m m', UWants P.defs ep.name γ c m → UWants P.defs ep.name γ c m' → m = m' := by
  obtain ⟨nt, d1, d2, d3⟩ := G.decl
  obtain ⟨d, _, _, hd, hp, hn, _⟩ := G.setup.lowered.pub d1 d2
  have := hlr d hd hp
  rwa [← hn, d3] at this

theorem following_init (G : ESetup P ep g nts ts a g' T e b) (hnd : (P.defs.map (·.name)).Nodup)
    (hlr : ULR1 P.defs) (hep : ep ∈ P.gen.entries) (hin : Ends input toks) {tr : UTree Tok}
    (htr : IsUTree P.defs P.cls ep.name toks tr) :
    Following P ep g nts ts a e input w (parseInit input ep w) [] toks [] tr.postorder := by
  have hs : USentence P.defs ep.name (toks.map P.cls) := UEval.sentence htr
  have hr : URights P.defs [.nt ep.name] (P.termsOf toks) := by
    have := (yields_of_derives hs).rights [] []
    simpa [Compiled.termsOf] using this
  obtain ⟨ps, hg⟩ := hr.greedy (G.moves hlr)
  obtain ⟨tr', h1, h2, _⟩ := G.build hg (G.names_toks toks) (eval_leaves toks)
  rw [postorder_leaves, List.nil_append] at h2
  cases ulr1_tree_unique hnd hlr hep htr h1
  rw [h2]
  exact ⟨⟨[], [], runInv_init G.ini, .nil, forest_init, .of_greedy hg (Or.inl rfl)⟩, by simpa using hin⟩

/-- A run that follows the derivation is in the middle of evaluating the tree. -/
theorem Following.moment (G : ESetup P ep g nts ts a g' T e b) (hnd : (P.defs.map (·.name)).Nodup)
    (hlr : ULR1 P.defs) (hep : ep ∈ P.gen.entries) {tr : UTree Tok}
    (htr : IsUTree P.defs P.cls ep.name toks tr) {s : PState Tok V W E} {read rest : List Tok}
    {trs : List (UTree Tok)} {ps : List (String × Nat)}
    (h : Following P ep g nts ts a e input w s read rest trs ps) (ht : read ++ rest = toks) :
    s.calls = read.length + 1 ∧ tr.Cut trs ∧ UTree.tokensList trs = read ∧
      ∃ vals, UTree.values P.defs P.vals trs w = some (vals, s.world) := by
  subst ht
  obtain ⟨⟨γ, uγ, hi, hγ, hf, α, q, β, x, hh, hF, hle, hq0, hq1⟩, hin⟩ := h
  refine ⟨hi.calls, ?_, hf.eval.tree_tokens, _, hf.vals⟩
  have hall := hf.eval.append (eval_leaves rest)
  have hnames := forall₂_append hγ (G.names_toks rest)
  have hlen : trs.length = uγ.length := by rw [hf.eval.length_eq, hγ.length_eq]
  cases q with
  | none =>
    cases hh
    have hr : rest = [] := by
      rcases uγ with _ | ⟨y, uγ⟩
      · cases rest with
        | nil => simp at hF
        | cons t rest => simp at hF
      · simp at hF
        exact hF.2.2
    subst hr
    have hu : uγ = [.nt ep.name] := by simpa using hF
    subst hu
    obtain ⟨tr', rfl⟩ : ∃ tr', trs = [tr'] := List.length_eq_one_iff.1 hlen
    have : IsUTree P.defs P.cls ep.name (read ++ []) tr' := by
      rw [List.append_nil]
      cases hγ with
      | @cons _ y _ _ h1 h2 =>
        cases h2
        cases y with
        | terminal => exact absurd h1 (by simp [Names])
        | nonTerminal j =>
          exact G.setup.lowered.eval_user G.setup.cls (algAgree_trees G.setup.lowered) hf.eval _
            (.cons (Or.inl ⟨ep.name, j, rfl, h1, rfl⟩) .nil)
    cases ulr1_tree_unique hnd hlr hep htr this
    exact .done _
  | some q =>
    obtain ⟨A, i⟩ := q
    obtain ⟨ps', rfl, hg⟩ := hq1 A i rfl
    cases hh with
    | step hr hp =>
      obtain ⟨tr', h1, h2⟩ := G.cut hg rfl hp (by
        rw [← hF]; simpa [Compiled.termsOf] using hnames) hall
      cases ulr1_tree_unique hnd hlr hep htr h1
      rw [List.take_append, List.take_of_length_le (by omega), ← List.map_take] at h2
      exact h2.drop_leaves

/-- Every moment of a run on a sentence is a moment of evaluating its tree. -/
theorem following_steps (G : ESetup P ep g nts ts a g' T e b) (hnd : (P.defs.map (·.name)).Nodup)
    (hlr : ULR1 P.defs) (hep : ep ∈ P.gen.entries) (hin : Ends input toks) {tr : UTree Tok}
    (htr : IsUTree P.defs P.cls ep.name toks tr) {s : PState Tok V W E}
    (h : Steps P.gen P.code P.tf input ep (parseInit input ep w) s) :
    ∃ read rest trs ps, Following P ep g nts ts a e input w s read rest trs ps ∧
      read ++ rest = toks ∧ UTree.postorderList trs ++ ps = tr.postorder := by
  induction h with
  | refl => exact ⟨[], toks, [], _, following_init G hnd hlr hep hin htr, rfl, rfl⟩
  | tail _ hn ih =>
    obtain ⟨read, rest, trs, ps, h1, h2, h3⟩ := ih
    have := G.follow (G.moves hlr) h1
    rw [hn] at this
    cases this with
    | next h4 h5 h6 => exact ⟨_, _, _, _, h4, h5.trans h2, h6.trans h3⟩

/-! ## C68 -/

/-- **C68.** On a sentence of an LR(1) grammar, whatever FIRST sets the macro computed: at every moment
of the call of `parse` the actions that have been run are those that a left-to-right bottom-up evaluation
of *the* derivation tree has run at some moment, over the tokens read before the lookahead, and they have
had their effects. -/
theorem c68_moment (hnd : (P.defs.map (·.name)).Nodup) (hlr : ULR1 P.defs) (hep : ep ∈ P.gen.entries)
    (hin : Ends input toks) {tr : UTree Tok} (htr : IsUTree P.defs P.cls ep.name toks tr)
    (h : P.During ep input w w' n) :
    ∃ read rest trs vals, toks = read ++ rest ∧ n = read.length + 1 ∧ tr.Cut trs ∧
      UTree.tokensList trs = read ∧
      UTree.values P.defs (userValues P.code P.fields) trs w = some (vals, w') := by
  obtain ⟨s, hs, rfl, rfl⟩ := h
  obtain ⟨g, nts, ts, a, g', T, e, b, G⟩ := P.esetup hep hnd
  obtain ⟨read, rest, trs, ps, h1, h2, _⟩ := following_steps G hnd hlr hep hin htr hs
  obtain ⟨h3, h4, h5, vals, h6⟩ := h1.moment G hnd hlr hep htr h2
  exact ⟨read, rest, trs, vals, h2.symm, h3, h4, h5, h6⟩

theorem parseLoop_steps {fuel : Nat} {s s' : PState Tok V W E} {o : Outcome V E}
    (h : parseLoop P.gen P.code P.tf input ep fuel s = some (o, s')) :
    ∀ {s0}, Steps P.gen P.code P.tf input ep s0 s → ∃ s1, Steps P.gen P.code P.tf input ep s0 s1 ∧
      parseStep P.gen P.code P.tf input ep s1 = .done o s' := by
  induction fuel generalizing s with
  | zero => cases h
  | succ fuel ih =>
    intro s0 hs
    unfold parseLoop at h
    split at h
    · next hd => cases h; exact ⟨s, hs, hd⟩
    · next s1 hd => exact ih h (.tail hs hd)

/-- **C68.** On a sentence of an LR(1) grammar, whatever FIRST sets the macro computed, `parse` returns
the value of *the* derivation with its effects, or panics because its evaluation does, or returns a
syntax error; then the actions run so far are those of a moment of evaluating the tree. -/
theorem c68_outcome (hnd : (P.defs.map (·.name)).Nodup) (hlr : ULR1 P.defs) (hep : ep ∈ P.gen.entries)
    (hin : Ends input toks) {tr : UTree Tok} (htr : IsUTree P.defs P.cls ep.name toks tr)
    {o : Outcome V E} (h : P.Returns ep input w o w' n) :
    (∃ v, o = .ok v ∧ tr.value P.defs (userValues P.code P.fields) w = some (.nt v, w') ∧
      n = toks.length + 1) ∨
    (o = .fault .userPanic ∧ tr.value P.defs (userValues P.code P.fields) w = none) ∨
    (∃ found expected, o = .parserError found expected ∧
      ∃ read rest trs vals, toks = read ++ rest ∧ n = read.length + 1 ∧ tr.Cut trs ∧
        UTree.tokensList trs = read ∧
        UTree.values P.defs (userValues P.code P.fields) trs w = some (vals, w')) := by
  obtain ⟨fuel, s', h, rfl, rfl⟩ := h
  obtain ⟨s, hs, hd⟩ := parseLoop_steps h (.refl _)
  obtain ⟨g, nts, ts, a, g', T, e, b, G⟩ := P.esetup hep hnd
  obtain ⟨read, rest, trs, ps, h1, h2, _⟩ := following_steps G hnd hlr hep hin htr hs
  have hst := G.follow (G.moves hlr) h1
  have hcalls := parseStep_calls hd
  obtain ⟨h3, h4, h5, vals, h6⟩ := h1.moment G hnd hlr hep htr h2
  rw [hd] at hst
  cases hst with
  | ok k1 k2 k3 k4 =>
    rw [h2] at k1
    cases ulr1_tree_unique hnd hlr hep htr k1
    subst k4
    rw [List.append_nil] at h2
    subst h2
    exact Or.inl ⟨_, rfl, k2, by omega⟩
  | panic k1 k2 k3 =>
    rw [h2] at k1
    cases ulr1_tree_unique hnd hlr hep htr k1
    exact Or.inr (Or.inl ⟨rfl, k2⟩)
  | error => exact Or.inr (Or.inr ⟨_, _, rfl, read, rest, trs, vals, h2.symm, h3, h4, h5, h6⟩)

/-- **C68.** If every non-terminal derives something, there is such an outcome: on a sentence `parse`
never goes on for ever. -/
theorem c68_returns (hnd : (P.defs.map (·.name)).Nodup) (hlr : ULR1 P.defs)
    (hP : ∀ d ∈ P.defs, ∃ x, USentence P.defs d.name x) (hep : ep ∈ P.gen.entries)
    (hin : Ends input toks) {tr : UTree Tok} (htr : IsUTree P.defs P.cls ep.name toks tr) :
    (∃ v w', P.Returns ep input w (.ok v) w' (toks.length + 1) ∧
      tr.value P.defs (userValues P.code P.fields) w = some (.nt v, w')) ∨
    (tr.value P.defs (userValues P.code P.fields) w = none ∧
      ∃ w' n, P.Returns ep input w (.fault .userPanic) w' n) ∨
    ∃ found expected w' n, P.Returns ep input w (.parserError found expected) w' n := by
  obtain ⟨o, w', n, h⟩ := c07_lr1 (w := w) (input := input) hnd hlr hP hep (k := toks.length)
    (by rw [hin.2]; simp)
  rcases c68_outcome hnd hlr hep hin htr h with ⟨v, rfl, hv, rfl⟩ | ⟨rfl, hv⟩ | ⟨f, x, rfl, _⟩
  · exact Or.inl ⟨v, w', h, hv⟩
  · exact Or.inr (Or.inl ⟨hv, w', n, h⟩)
  · exact Or.inr (Or.inr ⟨f, x, w', n, h⟩)

/-- What symbols mean in one program they mean in another one with the same definitions. -/
theorem Setup.means_same {g2 : Grammar X Ty} {nts2 ts2 : AMap String Nat} {a2 : Automaton}
    {g3 : Grammar Nat Ty} {T2 : LRTable Nat} (S' : Setup P' g2 nts2 ts2 a2 g3 T2)
    (hcode : P'.code = P.code) (hsd : SameDefinitions P.defs P'.defs)
    (hcls : ∀ t, P'.cls t = P.cls t) (hfields : ∀ t, P'.fields t = P.fields t)
    {ss : List AstSymbol} {vals : List (BVal V)} (h : P.Means ss toks w vals w') :
    (∀ s ∈ ss, ∀ n, s.plain = some (.nt n) → ∃ j, nts2.get? n = some j) → P'.Means ss toks w vals w' := by
  have e1 : P'.cls = P.cls := funext hcls
  have e2 : P'.fields = P.fields := funext hfields
  unfold Compiled.Means at h ⊢
  rw [hcode, e1, e2]
  induction h with
  | nil w => intro _; exact .nil w
  | term hs _ ih => intro hd; exact .term hs (ih fun s h => hd s (List.mem_cons_of_mem _ h))
  | @nt s name i p t1 t2 w us w1 v w2 ss vs w3 hs hp hc ha h ih1 ih2 =>
    intro hd
    obtain ⟨j, hj⟩ := hd s (by simp) name hs
    have hq : p ∈ userProds P.defs name := List.mem_of_getElem? hp
    have hdef : ∃ d ∈ P.defs, d.name = name := by
      obtain ⟨d, h1, _⟩ := List.mem_flatMap.1 hq
      obtain ⟨h1, h2⟩ := List.mem_filter.1 h1
      exact ⟨d, h1, by simpa using h2⟩
    rw [hsd name hdef ((S'.lowered.idx name).1 ⟨j, hj⟩)] at hq
    obtain ⟨i', hi'⟩ := List.mem_iff_getElem?.1 hq
    obtain ⟨pr, h4, _⟩ := S'.lowered.user_hasProd hj hi'
    refine .nt hs hi' (ih1 ?_) ha (ih2 fun s h => hd s (List.mem_cons_of_mem _ h))
    intro s' hs' n hn
    have hpl := h4.plain
    obtain ⟨x, _, hx⟩ : ∃ x ∈ pr.symbols.map (·.symbol), LowersPlain nts2 ts2 s' x := by
      generalize pr.symbols.map (·.symbol) = l at hpl
      clear hi' ih1 hc ha hq hp
      generalize p.symbols = m at hpl hs'
      induction hpl with
      | nil => cases hs'
      | cons h _ ih =>
        rcases List.mem_cons.1 hs' with rfl | h'
        · exact ⟨_, List.mem_cons_self, h⟩
        · obtain ⟨x, h1, h2⟩ := ih h'
          exact ⟨x, List.mem_cons_of_mem _ h1, h2⟩
    rcases hx with ⟨n', j', h5, h6, _⟩ | ⟨t, j', h5, _⟩
    · rw [hn] at h5; cases h5; exact ⟨j', h6⟩
    · rw [hn] at h5; cases h5

/-- **C68**, two programs with the same definitions in any order, one of which may have more (so that
different FIRST sets may be computed): if one returns a value, the other, if it is LR(1), returns the
same value with the same effects, or a syntax error. -/
theorem c68_rearranged (hcode : P'.code = P.code) (hnd' : (P'.defs.map (·.name)).Nodup)
    (hlr' : ULR1 P'.defs) (hsd : SameDefinitions P.defs P'.defs)
    (hcls : ∀ t, P'.cls t = P.cls t) (hfields : ∀ t, P'.fields t = P.fields t)
    (hep : ep ∈ P.gen.entries) (hep' : ep' ∈ P'.gen.entries) (hname : ep'.name = ep.name) {v : V}
    (h : P.Returns ep input w (.ok v) w' n) {o : Outcome V E} {w2 : W} {m : Nat}
    (h' : P'.Returns ep' input w o w2 m) :
    (o = .ok v ∧ w2 = w' ∧ m = n) ∨ ∃ found expected, o = .parserError found expected := by
  obtain ⟨toks, h1, h2, h3⟩ := c02_value hep h
  have hn : n = toks.length + 1 := by
    obtain ⟨t0, k1, k2⟩ := c13_lazy hep h
    obtain ⟨k3, _⟩ := c13_ok_reads_all hep h
    have : toks = t0 := ends_unique ⟨h1, h2⟩ ⟨k1, by rw [show t0.length = n - 1 by omega]; exact k3⟩
    rw [this]; exact k2
  obtain ⟨g, nts, ts, a, g', T, e, b, G⟩ := P'.esetup hep' hnd'
  have hm := G.setup.means_same hcode hsd hcls hfields h3 (by
    intro s hs n hn
    simp only [List.mem_singleton] at hs
    subst hs
    cases hn
    exact ⟨b, by rw [← hname]; exact G.name⟩)
  rw [← hname] at hm
  obtain ⟨trs, h4, h5⟩ := UEval.tree_value hm
  obtain ⟨tr, rfl⟩ : ∃ tr, trs = [tr] := by
    cases h4 with
    | term hs h => cases hs
    | nt hs hp hc ha h => cases h; exact ⟨_, rfl⟩
  simp only [UTree.values, Option.bind_eq_bind, Option.bind_eq_some_iff] at h5
  obtain ⟨⟨v1, w1⟩, h6, _, h7, h8⟩ := h5
  cases h7
  cases h8
  rcases c68_outcome hnd' hlr' hep' ⟨h1, h2⟩ h4 h' with ⟨v', rfl, hv, rfl⟩ | ⟨rfl, hv⟩ | ⟨f, x, rfl, _⟩
  · rw [h6] at hv
    cases hv
    exact Or.inl ⟨rfl, rfl, hn.symm⟩
  · rw [h6] at hv; cases hv
  · exact Or.inr ⟨f, x, rfl⟩

/-! ## A concrete case: `c55_order_matters` -/

namespace Examples

/-- The two orders of `c55_order_matters`: on `( n )` the first stops with an error, the second does not. -/
def order1 : Compiled (Act Unit) String Nat Unit Tk := program orderDefs order_ok
@[inherit_doc order1] def order2 : Compiled (Act Unit) String Nat Unit Tk := program orderDefs' order_ok'

theorem order1_names : (order1.defs.map (·.name)).Nodup := by
  rw [show order1.defs = orderDefs from defs_itemsOf _]; decide

set_option maxRecDepth 10000 in
theorem order1_ulr1 : ULR1 order1.defs := by
  obtain ⟨ep, hep, _⟩ := run_returns (P := order1) (c55_order_matters.2.1)
  obtain ⟨g, nts, ts, a, g', T, S⟩ := order1.setup hep
  exact (S.lowered.lr1_iff S.wf order1_names).1
    (lr1_of_check [⟨true, []⟩, ⟨true, [1]⟩, ⟨false, [1, 3]⟩, ⟨false, [2]⟩, ⟨false, [2]⟩, ⟨false, [2]⟩]
      (by decide +kernel) S.lower S.wf)

/-- The derivation tree of `( n )`. -/
def orderTree : UTree Tk :=
  .node "S" 0 [.node "X" 0 [.leaf .lp], .node "Y" 0 [.node "A" 0 [.leaf (.num 1)], .leaf .rp]]

theorem order_tree : IsUTree order1.defs order1.cls "S" [.lp, .num 1, .rp] orderTree := by
  rw [show order1.defs = orderDefs from defs_itemsOf _]
  refine .nt (w1 := ()) (t1 := [Tk.lp, .num 1, .rp]) (t2 := []) rfl (i := 0) rfl ?_ rfl (.nil _)
  refine .nt (w1 := ()) (t1 := [Tk.lp]) (t2 := [Tk.num 1, .rp]) rfl (i := 0) rfl
    (.term (t := Tk.lp) rfl (.nil _)) rfl ?_
  refine .nt (w1 := ()) (t1 := [Tk.num 1, .rp]) (t2 := []) rfl (i := 0) rfl ?_ rfl (.nil _)
  refine .nt (w1 := ()) (t1 := [Tk.num 1]) (t2 := [Tk.rp]) rfl (i := 0) rfl
    (.term (t := Tk.num 1) rfl (.nil _)) rfl ?_
  exact .term (t := Tk.rp) rfl (.nil _)

theorem order_ends : Ends (E := String) (stream [Tk.lp, .num 1, .rp]) [.lp, .num 1, .rp] :=
  ⟨fun i t ht => by simp [stream, ht], by simp [stream]⟩

theorem order1_entry : ∀ ep ∈ order1.gen.entries, ep.name = "S" := by
  have key : (order1.gen.entries.map EntryPoint.name) = ["S"] := by decide +kernel
  intro ep hep
  have := List.mem_map_of_mem (f := EntryPoint.name) hep
  rw [key] at this
  simpa using this

/-- `order1` is LR(1), so `c68_outcome` applies to the run of `c55_order_matters` that is refused: it was
in the middle of evaluating `orderTree` over `(`. -/
example : ∃ trs, orderTree.Cut trs ∧ UTree.tokensList trs = [Tk.lp] := by
  obtain ⟨ep, hep, _, h⟩ := run_returns (P := order1) (c55_order_matters.2.1)
  rcases c68_outcome order1_names order1_ulr1 hep order_ends
    (by rw [order1_entry ep hep]; exact order_tree) h with ⟨v, h, _⟩ | ⟨h, _⟩ | ⟨f, x, _, h⟩
  · cases h
  · cases h
  · obtain ⟨read, rest, trs, vals, h1, h2, h3, h4, _⟩ := h
    refine ⟨trs, h3, ?_⟩
    rw [h4]
    have : read.length = 1 := by omega
    match read, this with
    | [t], _ => simp at h1; rw [h1.1]

/-- And so does `c68_rearranged`: whenever `order2` returns a value, `order1` returns it or an error. -/
example {ep ep' : EntryPoint} (hep : ep ∈ order2.gen.entries) (hep' : ep' ∈ order1.gen.entries)
    (hname : ep'.name = ep.name) (toks : List Tk) {v : Nat} {n : Nat}
    (h : order2.Returns (E := String) ep (stream toks) () (.ok v) () n) {o : Outcome Nat String} {m : Nat}
    (h' : order1.Returns ep' (stream toks) () o () m) :
    (o = .ok v ∧ () = () ∧ m = n) ∨ ∃ found expected, o = .parserError found expected := by
  have hsd : SameDefinitions order2.defs order1.defs := by
    rw [show order1.defs = orderDefs from defs_itemsOf _, show order2.defs = orderDefs' from defs_itemsOf _]
    exact (c55_order_matters.1.symm.includes).sameDefinitions (by decide) (by decide)
  exact c68_rearranged (P := order2) (P' := order1) rfl order1_names order1_ulr1 hsd (fun _ => rfl) (fun _ => rfl) hep hep' hname h h'

/-- Every non-terminal of `order1` derives a sentence. -/
theorem order1_productive : ∀ d ∈ order1.defs, ∃ x, USentence order1.defs d.name x := by
  rw [show order1.defs = orderDefs from defs_itemsOf _]
  have mk : ∀ {name : String} {p : AstProduction (Act Unit)} (rhs : List USym),
      p ∈ userProds orderDefs name → p.symbols.map (·.plain) = rhs.map some →
      UDerives orderDefs [.nt name] rhs := by
    intro name p rhs h1 h2
    have := UProduces.mk [] [] rhs name p h1 h2
    exact .tail (.refl _) (by simpa using this)
  have hD : UDerives orderDefs [.nt "D"] [] :=
    mk (p := orderDefs[0].productions[0]) [] (by simp [userProds, orderDefs]) rfl
  have hA : UDerives orderDefs [.nt "A"] [.term "n"] :=
    mk (p := orderDefs[1].productions[0]) [.term "n"] (by simp [userProds, orderDefs]) rfl
  have hY : UDerives orderDefs [.nt "Y"] [.term "n", .term ")"] :=
    (mk (p := orderDefs[2].productions[0]) [.nt "A", .term ")"] (by simp [userProds, orderDefs]) rfl).trans
      (hA.append_right [.term ")"])
  have hX : UDerives orderDefs [.nt "X"] [.term "("] :=
    mk (p := orderDefs[3].productions[0]) [.term "("] (by simp [userProds, orderDefs]) rfl
  have hS : UDerives orderDefs [.nt "S"] [.term "(", .term "n", .term ")"] :=
    (mk (p := orderDefs[4].productions[0]) [.nt "X", .nt "Y"] (by simp [userProds, orderDefs]) rfl).trans
      ((hX.append_right [.nt "Y"]).trans (hY.append_left [.term "("]))
  intro d hd
  have : d.name ∈ ["D", "A", "Y", "X", "S"] := by
    simp only [orderDefs, List.mem_cons, List.not_mem_nil, or_false] at hd
    rcases hd with rfl | rfl | rfl | rfl | rfl <;> simp
  simp only [List.mem_cons, List.not_mem_nil, or_false] at this
  rcases this with h | h | h | h | h <;> rw [h]
  · exact ⟨[], hD⟩
  · exact ⟨["n"], hA⟩
  · exact ⟨["n", ")"], hY⟩
  · exact ⟨["("], hX⟩
  · exact ⟨["(", "n", ")"], hS⟩

/-- The hypotheses of `c68_returns` hold for `order1` and `( n )`. -/
example {ep : EntryPoint} (hep : ep ∈ order1.gen.entries) :=
  c68_returns (w := ()) order1_names order1_ulr1 order1_productive hep order_ends
    (by rw [order1_entry ep hep]; exact order_tree)

end Examples

end Parsegen
