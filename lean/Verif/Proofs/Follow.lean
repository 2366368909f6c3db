import Verif.Proofs.GreedyRun

/-! # The emitted parser follows the derivation of a sentence of an LR(1) grammar

Nothing is assumed about the computed FIRST sets, which may be too small: the parser may stop with a
syntax error, but until then it makes the moves the derivation asks for. -/

namespace Parsegen

variable {X Ty V W Tok E : Type}

/-- The derivation of `uγ rest` whose reductions still to come are `ps`, the next handle not ending
inside `uγ`. -/
def Ahead (defs : List (AstNonTerminal X Ty)) (S : String) (ps : List (String × Nat)) (uγ : List USym)
    (rest : List String) : Prop :=
  ∃ α q β w, UHandle defs S α q β w ∧ uγ ++ rest.map .term = α ++ β ++ w.map .term ∧
    uγ.length ≤ (α ++ β).length ∧ (q = none → ps = []) ∧
    ∀ A i, q = some (A, i) → ∃ ps', ps = (A, i) :: ps' ∧ UGreedy defs S ps' (α ++ .nt A :: w.map .term)

theorem Ahead.of_greedy {defs : List (AstNonTerminal X Ty)} {S : String} {ps : List (String × Nat)}
    {uγ : List USym} {rest : List String} (h : UGreedy defs S ps (uγ ++ rest.map .term))
    (hend : uγ = [] ∨ ∃ l A, uγ = l ++ [.nt A]) : Ahead defs S ps uγ rest := by
  generalize hF : uγ ++ rest.map .term = F at h
  cases h with
  | start =>
    refine ⟨[], none, [.nt S], [], .start, by simpa using hF, ?_, fun _ => rfl, fun _ _ h => (by cases h)⟩
    have := congrArg List.length hF
    simp at this ⊢
    omega
  | @step ps A i β α w h hp hs ha =>
    refine ⟨α, some (A, i), β, w, .step h.rights hp, hF, ?_, fun h => (by cases h), ?_⟩
    · rcases hend with rfl | ⟨l, B, rfl⟩
      · simp
      · have : l ++ .nt B :: rest.map .term = (α ++ β) ++ w.map .term := by rw [← hF]; simp
        have := nt_not_terms this
        simp only [List.length_append, List.length_singleton] at this ⊢
        omega
    · intro A' i' e
      cases e
      exact ⟨ps, rfl, h⟩

variable [DecidableEq Ty] {P : Compiled X Ty V W Tok} {ep : EntryPoint}
  {g : Grammar X Ty} {nts ts : AMap String Nat} {a : Automaton} {g' : Grammar Nat Ty}
  {T : LRTable Nat} {e b : Nat} {input : Nat → Option (Except E Tok)} {w0 : W}

/-- A reduction by an item is wanted. -/
theorem ESetup.wants_reduce (G : ESetup P ep g nts ts a g' T e b) {γ : List Symbol} {uγ : List USym}
    (hγ : List.Forall₂ (Names nts ts) uγ γ) {uc : Option String} {c : Option Nat}
    (hc : NamesLa ts uc c) {j p : Nat} {α : List Symbol} {n : String} (hn : nts.get? n = some j)
    (hit : ItemsAt g (generateFirstTable P.order g) e γ ⟨j, p, α.length, c⟩) (hp : g.HasProd j p α)
    (hpriv : g.isPublic j = false) : UWants P.defs ep.name uγ uc (.reduce n p) := by
  have hv := hit.valid (generateFirstTable_sound P.order g) G.setup.wf G.pub
  obtain ⟨uγ', uc', um, a1, a2, a3, a4⟩ := G.setup.lowered.wants_user G.setup.wf G.pub G.prod G.name
    (m := .reduce j p) ⟨α, hv, hp, hpriv⟩
  cases G.setup.lowered.names_inj_list a1 hγ
  cases G.setup.lowered.la_inj a2 hc
  cases um with
  | shift => exact absurd a3 (by simp [NamesMove])
  | accept => exact absurd a3 (by simp [NamesMove])
  | reduce n' p' =>
    obtain ⟨h1, rfl⟩ := a3
    cases G.setup.lowered.inj h1 hn
    exact a4

/-- The run so far follows a derivation of the whole input. -/
structure Following (P : Compiled X Ty V W Tok) (ep : EntryPoint) (g : Grammar X Ty)
    (nts ts : AMap String Nat) (a : Automaton) (e : Nat) (input : Nat → Option (Except E Tok)) (w0 : W)
    (s : PState Tok V W E) (toks rest : List Tok) (trs : List (UTree Tok)) (ps : List (String × Nat)) :
    Prop where
  ex : ∃ γ uγ, RunInv g P.code P.tf (StateAt g (generateFirstTable P.order g) a) e input w0 s γ toks ∧
    List.Forall₂ (Names nts ts) uγ γ ∧ Forest P g nts w0 s γ toks trs ∧
    Ahead P.defs ep.name ps uγ (rest.map P.cls)
  ends : Ends input (toks ++ rest)

/-- What one iteration does. -/
inductive FollowStep (P : Compiled X Ty V W Tok) (ep : EntryPoint) (g : Grammar X Ty)
    (nts ts : AMap String Nat) (a : Automaton) (e : Nat) (input : Nat → Option (Except E Tok)) (w0 : W)
    (s : PState Tok V W E) (toks rest : List Tok) (trs : List (UTree Tok)) (ps : List (String × Nat)) :
    StepResult Tok V W E → Prop
  | next {s' toks' rest' trs' ps'} (h : Following P ep g nts ts a e input w0 s' toks' rest' trs' ps')
      (ht : toks' ++ rest' = toks ++ rest)
      (hp : UTree.postorderList trs' ++ ps' = UTree.postorderList trs ++ ps) :
      FollowStep P ep g nts ts a e input w0 s toks rest trs ps (.next s')
  | ok {s' v tr} (htr : IsUTree P.defs P.cls ep.name (toks ++ rest) tr)
      (hv : tr.value P.defs P.vals w0 = some (.nt v, s'.world))
      (hp : tr.postorder = UTree.postorderList trs ++ ps) (hr : rest = []) :
      FollowStep P ep g nts ts a e input w0 s toks rest trs ps (.done (.ok v) s')
  | panic {tr} (htr : IsUTree P.defs P.cls ep.name (toks ++ rest) tr)
      (hv : tr.value P.defs P.vals w0 = none)
      (hp : tr.postorder = UTree.postorderList trs ++ ps) :
      FollowStep P ep g nts ts a e input w0 s toks rest trs ps (.done (.fault .userPanic) s)
  | error {f x} : FollowStep P ep g nts ts a e input w0 s toks rest trs ps (.done (.parserError f x) s)

omit [DecidableEq Ty] in
theorem eval_leaves {ti : Tok → Nat} (l : List Tok) : Eval g ti (nameAlg nts)
    (l.map fun t => .terminal (ti t)) l () (l.map .leaf) () := by
  induction l with
  | nil => exact .nil _
  | cons t l ih => exact .term rfl ih

theorem ESetup.follow (G : ESetup P ep g nts ts a g' T e b)
    (hlr : ∀ γ c m m', UWants P.defs ep.name γ c m → UWants P.defs ep.name γ c m' → m = m')
    {s : PState Tok V W E} {toks rest : List Tok} {trs : List (UTree Tok)} {ps : List (String × Nat)}
    (h : Following P ep g nts ts a e input w0 s toks rest trs ps) :
    FollowStep P ep g nts ts a e input w0 s toks rest trs ps (parseStep P.gen P.code P.tf input ep s) := by
  obtain ⟨⟨γ, uγ, hi, hγ, hf, α, q, β, w, hh, hF, hle, hq0, hq1⟩, hin⟩ := h
  obtain ⟨st, sts, hst, hat⟩ := hi.stk.top
  have hhd : s.states.headD 0 = st := by rw [hst]; rfl
  have hla0 : lookahead P.tf s.token = some (look P.tf.terminalIdx rest) := by
    rw [hi.token]; exact hin.lookahead
  -- the move of the derivation
  have hmove : (uγ.length = (α ++ β).length ∧ uγ = α ++ β ∧ w = rest.map P.cls ∧
        UWants P.defs ep.name uγ (rest.map P.cls).head? (handleMove q)) ∨
      (uγ.length < (α ++ β).length ∧ UWants P.defs ep.name uγ (rest.map P.cls).head? .shift) := by
    rcases Nat.lt_or_eq_of_le hle with hlt | heq
    · right
      refine ⟨hlt, ?_⟩
      obtain ⟨t, u, e1, e2⟩ := append_terms_longer hF hlt
      rw [e1]
      exact hh.wants_shift e2
    · left
      obtain ⟨rfl, hw⟩ := List.append_inj hF heq
      have hw := map_term_inj hw
      subst hw
      exact ⟨rfl, rfl, rfl, hh.wants⟩
  have hs := parseStep_spec (w0 := w0) G.setup.wf G.tables G.setup.cons G.pub G.ext G.sem hi
  generalize parseStep P.gen P.code P.tf input ep s = res at hs
  have hnla := G.namesLa rest
  have hlo := laOk_lookahead G.setup.cons hla0
  -- the same for a reduction
  have hred : ∀ {c : Option Nat} {j p : Nat} {ρ : List Symbol}, lookahead P.tf s.token = some c →
      g.HasProd j p ρ → ItemsAt g (generateFirstTable P.order g) e γ ⟨j, p, ρ.length, c⟩ →
      g.isPublic j = false → ∃ n ps' uγ', nts.get? n = some j ∧ ps = (n, p) :: ps' ∧ q = some (n, p) ∧
        uγ = α ++ β ∧ List.Forall₂ (Names nts ts) β ρ ∧ uγ' = α ∧ w = rest.map P.cls ∧
        UGreedy P.defs ep.name ps' (α ++ .nt n :: (rest.map P.cls).map .term) := by
    intro c j p ρ hla hp hit hpriv
    rw [hla0] at hla
    cases hla
    obtain ⟨n, hn⟩ := G.setup.lowered.name_of_hasProd hp hpriv
    have hw := G.wants_reduce hγ hnla hn hit hp hpriv
    rcases hmove with ⟨_, m1, m2, m3⟩ | ⟨_, m3⟩
    · have hm := hlr _ _ _ _ hw m3
      cases q with
      | none => cases hm
      | some q =>
        obtain ⟨A, i⟩ := q
        cases hm
        obtain ⟨ps', e1, e2⟩ := hq1 _ _ rfl
        rw [m2] at e2
        refine ⟨n, ps', α, hn, e1, rfl, m1, ?_, rfl, m2, e2⟩
        cases hh with
        | step _ hup =>
          obtain ⟨β', hβ', hp'⟩ := G.setup.lowered.uhasProd_names hn hup
          cases hp.rhs_eq.symm.trans hp'.rhs_eq
          exact hβ'
    · cases hlr _ _ _ _ hw m3
  cases hs with
  | @shift t r nt p α' β' la s' htok hact hit hp hs hinv =>
    subst hs
    have hla1 : look P.tf.terminalIdx rest = some (P.tf.terminalIdx t) := by
      rw [htok] at hla0; exact (Option.some.inj hla0).symm
    have htin : input toks.length = some (.ok t) := by rw [← hi.token]; exact htok
    obtain ⟨rest', rfl⟩ : ∃ rest', rest = t :: rest' := by
      cases rest with
      | nil => cases hla1
      | cons t' rest' =>
        have := hin.1 toks.length t' (by simp)
        rw [htin] at this
        cases this
        exact ⟨rest', rfl⟩
    rw [hhd] at hact
    have hw := G.wants_shift hat hγ hnla hlo (by rw [hla1]; exact hact)
    rcases hmove with ⟨_, m1, m2, m3⟩ | ⟨hlt, m3⟩
    · have := hlr _ _ _ _ hw m3
      cases q with
      | none => cases this
      | some q => cases this
    · refine .next (toks' := toks ++ [t]) (rest' := rest') (trs' := trs ++ [.leaf t]) (ps' := ps)
        ⟨⟨_, uγ ++ [.term (P.cls t)], hinv, forall₂_snoc hγ (G.names_tok t), forest_shift G.setup hf htok,
          α, q, β, w, hh, ?_, ?_, hq0, hq1⟩, by simpa using hin⟩ (by simp) ?_
      · simpa using hF
      · simp only [List.length_append, List.length_singleton] at hlt ⊢; omega
      · simp [UTree.postorderList_append, UTree.postorderList, UTree.postorder]
  | @reduce c j p ρ γ' k s' hla hact hγ' hp hit hpriv htok hval hinv =>
    obtain ⟨n, ps', _, hn, rfl, rfl, rfl, hβ, _, rfl, hgr⟩ := hred hla hp hit hpriv
    subst hγ'
    obtain ⟨us, vrest, v1, a1, a2, a3, a4⟩ := hval
    obtain ⟨uγ', uα', e1, h6, h7⟩ := forall₂_append_right hγ
    cases G.setup.lowered.names_inj_list h7 hβ
    cases List.append_cancel_right e1
    obtain ⟨trs1, trs2, rfl, _, hf'⟩ := forest_reduce G.setup hf hn hp a1 a2 a3 a4
    refine .next (toks' := toks) (rest' := rest) (ps' := ps') ⟨⟨_, α ++ [.nt n], hinv,
      forall₂_snoc h6 (show Names nts ts (.nt n) (.nonTerminal j) from hn), hf',
      .of_greedy (by simpa using hgr) (Or.inr ⟨_, _, rfl⟩)⟩, hin⟩ rfl ?_
    simp [UTree.postorderList_append, UTree.postorderList, UTree.postorder]
  | @panic c j p ρ γ' k hla hact hγ' hp hit hpriv hval =>
    obtain ⟨n, ps', _, hn, rfl, rfl, rfl, hβ, _, rfl, hgr⟩ := hred hla hp hit hpriv
    subst hγ'
    obtain ⟨us, vrest, ts1, w1, hlen, hvs, _, h1⟩ := hval
    obtain ⟨uγ', uα', e1, hα', h7⟩ := forall₂_append_right hγ
    cases G.setup.lowered.names_inj_list h7 hβ
    cases List.append_cancel_right e1
    obtain ⟨trs1, trs2, w1, t1, t2, rfl, rfl, f1, f2, f3, f4⟩ := forest_split hf hlen hvs
    have hnone : g.nodeValue P.code j p (us.map SAR.toB) s.world = none := by
      cases hv : g.nodeValue P.code j p (us.map SAR.toB) s.world with
      | none => rfl
      | some r =>
        exfalso
        obtain ⟨n', pr, g1, g2, _⟩ := hp
        obtain ⟨k', hk'⟩ := semanticActionVariants_some g g1
        obtain ⟨x, hx⟩ : ∃ x, r.1 = .nt x := by
          unfold Grammar.nodeValue at hv
          split at hv
          · cases hv
          · simp only [Option.map_eq_some_iff] at hv
            obtain ⟨y, _, rfl⟩ := hv
            exact ⟨_, rfl⟩
        unfold Grammar.stackAlg at h1
        simp only [hv, hk'] at h1
        obtain ⟨r1, r2⟩ := r
        cases hx
        cases h1
    have hnode : Eval g P.tf.terminalIdx (nameAlg nts) (γ' ++ [.nonTerminal j]) (t1 ++ t2) ()
        (trs1 ++ [.node n p trs2]) () := by
      refine f1.append ?_
      have := Eval.nt (ss := []) (t2 := []) hp f2 (nameAlg_node G.setup.lowered hn (p := p) trs2)
        (.nil _)
      simpa using this
    obtain ⟨tr, z1, z2, z3⟩ := G.build hgr
      (by simpa [Compiled.termsOf] using forall₂_append (forall₂_snoc hα'
        (show Names nts ts (.nt n) (.nonTerminal j) from hn)) (G.names_toks rest))
      (hnode.append (eval_leaves rest))
    refine .panic (tr := tr) z1 (z3 w0 ?_) ?_
    · apply values_none_append
      obtain ⟨q', y1, y2⟩ := G.setup.node_value hn hp (us.map SAR.toB) s.world
      rw [UTree.values_append, f3]
      simp [UTree.values, UTree.value, f4, y1, y2, hnone]
    · rw [z2]
      simp [UTree.postorderList_append, UTree.postorderList, UTree.postorder, postorder_leaves]
  | lexer htok => rw [htok] at hla0; cases hla0
  | «syntax» => exact .error
  | @accept b' v w' s' htok hγ' hact hp heval hs hval =>
    rw [hhd] at hact
    obtain ⟨_, hu⟩ := G.accept_inv hat hγ (fun _ h => by cases h) hact
    have hr : rest = [] := by
      cases rest with
      | nil => rfl
      | cons t rest => rw [htok] at hla0; cases hla0
    subst hr
    have hps : ps = [] := by
      have hacc : UWants P.defs ep.name uγ none .accept := ⟨hu, rfl⟩
      rcases hmove with ⟨_, m1, m2, m3⟩ | ⟨_, m3⟩
      · have := hlr _ _ _ _ hacc m3
        cases q with
        | none => exact hq0 rfl
        | some q => cases this
      · cases hlr _ _ _ _ hacc m3
    subst hps hγ'
    obtain ⟨us, hus, hnv⟩ := hval
    obtain ⟨tr, rfl⟩ : ∃ tr, trs = [tr] := by
      have := hf.eval.length_eq
      match trs, this with
      | [tr], _ => exact ⟨tr, rfl⟩
    obtain ⟨vs, hev, hvs⟩ := hi.eval
    obtain ⟨p, α, us', w1, x, rfl, hp', hc', hn⟩ := hev.nt_inv
    obtain ⟨x, k, h3, h4, rfl⟩ := stackAlg_node hn
    rw [hus] at hvs
    have : us = [.nonTerminal k x] := by simpa using congrArg List.reverse hvs
    subst this
    obtain ⟨nt, d1, d2, d3⟩ := G.decl
    have hw : g.nodeValue P.code e 0 [.nt x] s.world = some (.nt x, s.world) :=
      G.setup.lowered.wrapper_node (Tok := Tok) P.code (fields := P.fields) d1 d2 x s.world
    have hnv' : g.nodeValue P.code e 0 [.nt x] s.world = some (.nt v, w') := hnv
    rw [hw] at hnv'
    cases hnv'
    refine .ok (tr := tr) ?_ ?_ (by simp [UTree.postorderList]) rfl
    · rw [List.append_nil]
      rw [hu] at hγ
      have hb : nts.get? ep.name = some b' := by
        cases hγ with
        | cons h1 _ => exact h1
      exact G.setup.lowered.eval_user G.setup.cls (algAgree_trees G.setup.lowered) hf.eval _
        (.cons (Or.inl ⟨ep.name, b', rfl, hb, rfl⟩) .nil)
    · have := hf.vals
      rw [hus] at this
      simp only [UTree.values, Option.bind_eq_bind, Option.bind_eq_some_iff] at this
      obtain ⟨⟨v1, w1⟩, h5, r, h6, h7⟩ := this
      cases h6
      simp [SAR.toB] at h7
      rw [h5, h7.1, h7.2, hs]
  | acceptPanic htok hact hγ' hp hev hnode =>
    subst hγ'
    obtain ⟨nt, d1, d2, d3⟩ := G.decl
    exact absurd hnode (G.setup.no_wrapper_panic d1 d2 hev)

end Parsegen
