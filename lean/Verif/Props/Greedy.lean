import Verif.Proofs.GreedyRun
import Verif.Props.Complete

/-! # C62: what the parser does where the macro silently preferred to shift -/

namespace Parsegen

variable {X Ty V W Tok E : Type}

/-- A derivation tree is determined by its tokens and the order of its productions. -/
theorem UEval.tree_unique {defs : List (AstNonTerminal X Ty)} {cls : Tok → String}
    {ss : List AstSymbol} {toks : List Tok} {w : Unit} {trs : List (UTree Tok)} {w' : Unit}
    (h : UEval defs cls userTrees ss toks w trs w') :
    ∀ {toks' : List Tok} {u : Unit} {trs' : List (UTree Tok)} {u' : Unit} {x x' : List (String × Nat)}
      {y y' : List Tok}, UEval defs cls userTrees ss toks' u trs' u' →
      x ++ UTree.postorderList trs = x' ++ UTree.postorderList trs' → y ++ toks = y' ++ toks' →
      x = x' ∧ y = y' ∧ trs = trs' := by
  induction h with
  | nil =>
    intro toks' u trs' u' x x' y y' h' hx hy
    cases h'
    exact ⟨by simpa using hx, by simpa using hy, rfl⟩
  | @term s t ss ts w vs w' hs h ih =>
    intro toks' u trs' u' x x' y y' h' hx hy
    cases h' with
    | @term _ t' _ ts' _ vs' _ hs' h' =>
      obtain ⟨h1, h2, rfl⟩ := ih (x := x) (x' := x') (y := y ++ [t]) (y' := y' ++ [t']) h'
        (by simpa [UTree.postorderList, UTree.postorder, userTrees] using hx) (by simpa using hy)
      obtain ⟨h3, h4⟩ := List.append_inj' h2 rfl
      cases h4
      exact ⟨h1, h3, rfl⟩
    | nt hs' => rw [hs] at hs'; cases hs'
  | @nt s name i p t1 t2 w us w1 v w2 ss vs w3 hs hp hc ha h ih1 ih2 =>
    intro toks' u trs' u' x x' y y' h' hx hy
    cases h' with
    | term hs' => rw [hs] at hs'; cases hs'
    | @nt _ name' i' p' t1' t2' _ us' w1' v' w2' _ vs' _ hs' hp' hc' ha' h' =>
      rw [hs] at hs'
      cases hs'
      cases ha
      cases ha'
      obtain ⟨h1, h2, rfl⟩ := ih2 (x := x ++ UTree.postorderList us ++ [(name, i)])
        (x' := x' ++ UTree.postorderList us' ++ [(name, i')]) (y := y ++ t1) (y' := y' ++ t1') h'
        (by simpa [UTree.postorderList, UTree.postorder] using hx) (by simpa using hy)
      obtain ⟨h3, h4⟩ := List.append_inj' h1 rfl
      cases h4
      rw [hp] at hp'
      cases hp'
      obtain ⟨h5, h6, rfl⟩ := ih1 hc' h3 h2
      exact ⟨h5, h6, rfl⟩

variable [DecidableEq Ty] {P : Compiled X Ty V W Tok} {ep : EntryPoint}
  {input : Nat → Option (Except E Tok)} {w w' : W} {toks : List Tok}

theorem ends_unique {l l' : List Tok} (h : Ends input l) (h' : Ends input l') : l = l' := by
  have l1 := reads_unique_length h.1 (t2 := l') (by rw [h'.2]; simp)
  have l2 := reads_unique_length h'.1 (t2 := l) (by rw [h.2]; simp)
  refine List.ext_getElem? fun i => ?_
  rcases Nat.lt_or_ge i l.length with hlt | hge
  · have a1 := h.1 i _ (List.getElem?_eq_getElem hlt)
    have a2 := h'.1 i _ (List.getElem?_eq_getElem (show i < l'.length by omega))
    rw [a1] at a2
    rw [List.getElem?_eq_getElem hlt, List.getElem?_eq_getElem (show i < l'.length by omega)]
    simpa using a2
  · rw [List.getElem?_eq_none hge, List.getElem?_eq_none (show l'.length ≤ i by omega)]

theorem forest_init {g : Grammar X Ty} {nts : AMap String Nat} :
    Forest P g nts w (parseInit (V := V) input ep w) [] [] [] :=
  ⟨.nil _, by simp [UTree.values, parseInit]⟩

/-- **C62.** Whatever conflicts the macro resolved silently: if `parse` returns `Ok(v)`, the tokens have
a derivation that prefers shifting, `v` and the effects are those of its tree, and its order is the order
of the tree's productions. -/
theorem c62_sound (hnd : (P.defs.map (·.name)).Nodup) (hh : UHarmless P.defs)
    (hep : ep ∈ P.gen.entries) {v : V} {n : Nat} (h : P.Returns ep input w (.ok v) w' n) :
    ∃ toks tr, Ends input toks ∧ IsUTree P.defs P.cls ep.name toks tr ∧
      UGreedy P.defs ep.name tr.postorder ((toks.map P.cls).map .term) ∧
      tr.value P.defs (userValues P.code P.fields) w = some (.nt v, w') := by
  obtain ⟨g, nts, ts, a, g', T, e, b, G⟩ := P.gsetup hep hnd hh
  obtain ⟨fuel, s', h, rfl, _⟩ := h
  obtain ⟨rest, tr, ps, h1, h2, h3, h4, h5⟩ := G.forward (runInv_init G.ini) .nil forest_init h
  exact ⟨rest, tr, h1, h2, by rw [show tr.postorder = ps from h5]; exact h4, h3⟩

/-- **C62.** There is at most one such derivation of any token string, even if the grammar is ambiguous. -/
theorem c62_unique (hnd : (P.defs.map (·.name)).Nodup) (hh : UHarmless P.defs)
    (hep : ep ∈ P.gen.entries) {tr tr' : UTree Tok} (h : IsUTree P.defs P.cls ep.name toks tr)
    (h' : IsUTree P.defs P.cls ep.name toks tr')
    (hg : UGreedy P.defs ep.name tr.postorder ((toks.map P.cls).map .term))
    (hg' : UGreedy P.defs ep.name tr'.postorder ((toks.map P.cls).map .term)) : tr = tr' := by
  have hps := hg.unique (fun a b c d => c61_reduce_reduce hnd hh hep a b c d) hg'
  have := h.tree_unique (x := []) (x' := []) (y := []) (y' := []) h'
    (by simpa [UTree.postorderList] using hps) rfl
  simpa using this.2.2

/-- **C62.** Conversely, if the tokens have a derivation tree that prefers shifting, `parse` returns its
value, with its effects; if evaluating the tree panics, `parse` panics.  (Every non-terminal that is used
must derive some string.) -/
theorem c62_complete (hnd : (P.defs.map (·.name)).Nodup) (hh : UHarmless P.defs)
    (hP : UProductive P.defs) (hep : ep ∈ P.gen.entries) (hin : Ends input toks) {tr : UTree Tok}
    (htr : IsUTree P.defs P.cls ep.name toks tr)
    (hg : UGreedy P.defs ep.name tr.postorder ((toks.map P.cls).map .term)) :
    (∀ v w', tr.value P.defs (userValues P.code P.fields) w = some (.nt v, w') →
      ∃ n, P.Returns ep input w (.ok v) w' n) ∧
    (tr.value P.defs (userValues P.code P.fields) w = none →
      ∃ w' n, P.Returns ep input w (.fault .userPanic) w' n) := by
  obtain ⟨g, nts, ts, a, g', T, e, b, G⟩ := P.gsetup hep hnd hh
  have hb := G.backward (input := input) (w0 := w) hP hg (uγ := []) (toks := []) (rest := toks)
    (trs := []) rfl (runInv_init G.ini) .nil forest_init (by simpa using hin) (Or.inl rfl)
  have huniq : ∀ tr', IsUTree P.defs P.cls ep.name toks tr' → tr'.postorder = tr.postorder → tr' = tr := by
    intro tr' h1 h2
    have := UEval.tree_unique h1 (x := []) (x' := []) (y := []) (y' := []) htr
      (by simpa [UTree.postorderList] using h2) rfl
    simpa using this.2.2
  rcases hb with ⟨fuel, v, s', h⟩ | ⟨fuel, s', h, tr', h1, h2, h3⟩
  · obtain ⟨toks', tr', e1, e2, e3, e4⟩ := c62_sound hnd hh hep
      (show P.Returns ep input w (.ok v) s'.world s'.calls from ⟨fuel, s', h, rfl, rfl⟩)
    cases ends_unique e1 hin
    cases c62_unique hnd hh hep e2 htr e3 hg
    refine ⟨fun v' w' hv => ?_, fun hv => ?_⟩
    · rw [e4] at hv
      cases hv
      exact ⟨_, fuel, s', h, rfl, rfl⟩
    · rw [e4] at hv; cases hv
  · cases huniq tr' h1 h2
    refine ⟨fun v' w' hv => ?_, fun _ => ⟨_, _, fuel, s', h, rfl, rfl⟩⟩
    rw [show Compiled.vals P = userValues P.code P.fields from rfl, hv] at h3
    cases h3

/-- **C62.** If actions do not panic, `parse` accepts exactly the token strings with a shift-preferring
derivation. -/
theorem c62_accepts_iff (hnd : (P.defs.map (·.name)).Nodup) (hh : UHarmless P.defs)
    (hP : UProductive P.defs) (hep : ep ∈ P.gen.entries) (hin : Ends input toks)
    (hu : ∀ d ∈ P.defs, ∀ p ∈ d.productions, ∀ e, p.action = .infallible e →
      ∀ env w, P.code.run e env w ≠ none) :
    (∃ v w' n, P.Returns ep input w (.ok v) w' n) ↔
      ∃ ps, UGreedy P.defs ep.name ps ((toks.map P.cls).map .term) := by
  constructor
  · rintro ⟨v, w', n, h⟩
    obtain ⟨toks', tr, h1, _, h3, _⟩ := c62_sound hnd hh hep h
    cases ends_unique h1 hin
    exact ⟨_, h3⟩
  · rintro ⟨ps, hg⟩
    obtain ⟨g, nts, ts, a, g', T, e, b, G⟩ := P.gsetup hep hnd hh
    rcases G.backward (input := input) (w0 := w) hP hg (uγ := []) (toks := []) (rest := toks)
      (trs := []) rfl (runInv_init G.ini) .nil forest_init (by simpa using hin) (Or.inl rfl) with
      ⟨fuel, v, s', h⟩ | ⟨fuel, s', h, _⟩
    · exact ⟨v, _, _, fuel, s', h, rfl, rfl⟩
    · exact absurd ⟨fuel, s', h, rfl, rfl⟩ (c06_no_panic hep hu)

omit [DecidableEq Ty] in
/-- **C62.** For LR(1) grammars the preference excludes nothing: every rightmost derivation prefers
shifting. -/
theorem c62_lr1 {defs : List (AstNonTerminal X Ty)} (hlr : ULR1 defs) {d : AstNonTerminal X Ty}
    (hd : d ∈ defs) (hp : d.isPub = true) {F : List USym} :
    (∃ ps, UGreedy defs d.name ps F) ↔ URights defs [.nt d.name] F :=
  ⟨fun ⟨_, h⟩ => h.rights, fun h => h.greedy (hlr d hd hp)⟩

/-! ## Examples -/

namespace Examples

/-- The dangling else, `(` standing for `if` and `)` for `else`:
`pub S: u64 = { "(" S => .., "(" S ")" S => .., "n" => .. }`. -/
def ifDefs : List (AstNonTerminal (Act Log) String) :=
  [⟨true, "S", "u64",
    [⟨[.terminal "(", .nonTerminal "S"], logged (fun _ => 0) "S" 0⟩,
      ⟨[.terminal "(", .nonTerminal "S", .terminal ")", .nonTerminal "S"],
        logged (fun _ => 1) "S" 1⟩,
      ⟨[.terminal "n"], logged (fun _ => 2) "S" 2⟩]⟩]

set_option maxRecDepth 10000 in
theorem if_ok : (parserMacro .insertion code.mkPath (itemsOf ifDefs)).isOk = true := by
  decide +kernel

def ifElse : Compiled (Act Log) String Nat Log Tk := program ifDefs if_ok

set_option maxRecDepth 10000 in
/-- `if if n else n`: the `else` belongs to the inner `if` (production 1 before production 0). -/
theorem if_run : run ifElse 0 (stream [Tk.lp, .lp, .num 1, .rp, .num 1]) [] 100 =
    some (.ok 0, [("S", 2), ("S", 2), ("S", 1), ("S", 0)], 6) := by decide +kernel

theorem if_names : (ifElse.defs.map (·.name)).Nodup := by
  rw [show ifElse.defs = ifDefs from defs_itemsOf _]; decide

theorem if_harmless : UHarmless ifElse.defs := by
  rw [show ifElse.defs = ifDefs from defs_itemsOf _]
  refine .of_no_empty ?_
  intro d hd p hp
  simp only [ifDefs, List.mem_cons, List.not_mem_nil, or_false] at hd
  subst hd
  simp only [List.mem_cons, List.not_mem_nil, or_false] at hp
  rcases hp with rfl | rfl | rfl <;> simp

theorem if_productive : UProductive ifElse.defs := by
  rw [show ifElse.defs = ifDefs from defs_itemsOf _]
  intro A i rhs B h hB
  have : B = "S" := by
    obtain ⟨d, hd, _, p, hp, hs⟩ := hasProd_mem h
    have hm : some (USym.nt B) ∈ p.symbols.map (·.plain) := by
      rw [hs]; exact List.mem_map_of_mem hB
    simp only [ifDefs, List.mem_cons, List.not_mem_nil, or_false] at hd
    subst hd
    simp only [List.mem_cons, List.not_mem_nil, or_false] at hp
    rcases hp with rfl | rfl | rfl <;> simp [AstSymbol.plain] at hm <;> exact hm
  subst this
  exact ⟨["n"], .tail (.refl _) (.mk [] [] [.term "n"] "S" ⟨[.terminal "n"], logged (fun _ => 2) "S" 2⟩
    (by simp [userProds, ifDefs]) rfl)⟩

/-- `if if n else n` -/
def ifToks : List Tk := [.lp, .lp, .num 1, .rp, .num 1]

/-- The two ways to read `if if n else n`. -/
def innerElse : UTree Tk :=
  .node "S" 0 [.leaf .lp, .node "S" 1 [.leaf .lp, .node "S" 2 [.leaf (.num 1)], .leaf .rp,
    .node "S" 2 [.leaf (.num 1)]]]
@[inherit_doc innerElse] def outerElse : UTree Tk :=
  .node "S" 1 [.leaf .lp, .node "S" 0 [.leaf .lp, .node "S" 2 [.leaf (.num 1)]], .leaf .rp,
    .node "S" 2 [.leaf (.num 1)]]

theorem if_n {ss : List AstSymbol} {ts : List Tk} {vs : List (UTree Tk)}
    (h : UEval ifDefs ifElse.cls userTrees ss ts () vs ()) :
    UEval ifDefs ifElse.cls userTrees (.nonTerminal "S" :: ss) (.num 1 :: ts) ()
      (.node "S" 2 [.leaf (.num 1)] :: vs) () :=
  .nt (t1 := [Tk.num 1]) (t2 := ts) rfl (i := 2) rfl (.term (t := Tk.num 1) rfl (.nil _)) rfl h

theorem inner_tree : IsUTree ifElse.defs ifElse.cls "S" ifToks innerElse := by
  rw [show ifElse.defs = ifDefs from defs_itemsOf _]
  refine .nt (w1 := ()) (t1 := [Tk.lp, .lp, .num 1, .rp, .num 1]) (t2 := []) rfl (i := 0) rfl ?_ rfl (.nil _)
  refine .term (t := Tk.lp) rfl ?_
  refine .nt (w1 := ()) (t1 := [Tk.lp, .num 1, .rp, .num 1]) (t2 := []) rfl (i := 1) rfl ?_ rfl (.nil _)
  exact .term (t := Tk.lp) rfl (if_n (.term (t := Tk.rp) rfl (if_n (.nil _))))

theorem outer_tree : IsUTree ifElse.defs ifElse.cls "S" ifToks outerElse := by
  rw [show ifElse.defs = ifDefs from defs_itemsOf _]
  refine .nt (w1 := ()) (t1 := [Tk.lp, .lp, .num 1, .rp, .num 1]) (t2 := []) rfl (i := 1) rfl ?_ rfl (.nil _)
  refine .term (t := Tk.lp) rfl ?_
  refine .nt (w1 := ()) (t1 := [Tk.lp, .num 1]) (t2 := [Tk.rp, .num 1]) rfl (i := 0) rfl
    (.term (t := Tk.lp) rfl (if_n (.nil _))) rfl ?_
  exact .term (t := Tk.rp) rfl (if_n (.nil _))

mutual
/-- The log of a tree is its postorder. -/
theorem log_value : ∀ (t : UTree Tk) (l l' : Log) (v : BVal Nat), t.value ifElse.defs
    (userValues ifElse.code ifElse.fields) l = some (v, l') → l' = l ++ t.postorder
  | .leaf t, l, l', v, h => by
    simp only [UTree.value, Option.some.injEq, Prod.mk.injEq] at h
    simp [UTree.postorder, h.2]
  | .node n i cs, l, l', v, h => by
    rw [show ifElse.defs = ifDefs from defs_itemsOf _] at h
    simp only [UTree.value, Option.bind_eq_bind, Option.bind_eq_some_iff] at h
    obtain ⟨⟨vs, l1⟩, h1, p, h2, h3⟩ := h
    have := log_values cs l l1 vs h1
    subst this
    have hn : n = "S" := by
      have : p ∈ userProds ifDefs n := List.mem_of_getElem? h2
      by_contra hne
      simp [userProds, ifDefs, Ne.symm hne] at this
    subst hn
    have hp : userProds ifDefs "S" = ifDefs[0].productions := rfl
    rw [hp] at h2
    match i, h2 with
    | 0, h2 => cases h2; cases h3; simp [UTree.postorder]
    | 1, h2 => cases h2; cases h3; simp [UTree.postorder]
    | 2, h2 => cases h2; cases h3; simp [UTree.postorder]
    | k + 3, h2 => simp [ifDefs] at h2
/-- For a list of trees. -/
theorem log_values : ∀ (ts : List (UTree Tk)) (l l' : Log) (vs : List (BVal Nat)),
    UTree.values ifDefs (userValues ifElse.code ifElse.fields) ts l = some (vs, l') →
      l' = l ++ UTree.postorderList ts
  | [], l, l', vs, h => by
    simp only [UTree.values, Option.some.injEq, Prod.mk.injEq] at h
    simp [UTree.postorderList, h.2]
  | t :: ts, l, l', vs, h => by
    simp only [UTree.values, Option.bind_eq_bind, Option.bind_eq_some_iff] at h
    obtain ⟨⟨v, l1⟩, h1, ⟨vs', l2⟩, h2, h3⟩ := h
    cases h3
    have a1 := log_value t l l1 v (by rw [show ifElse.defs = ifDefs from defs_itemsOf _]; exact h1)
    have a2 := log_values ts l1 _ vs' h2
    rw [a2, a1]
    simp [UTree.postorderList]
end

/-- `S ⇒ ( S ⇒ ( ( S ) S ⇒ ( ( S ) n ⇒ ( ( n ) n` prefers shifting, as the run shows ... -/
theorem inner_greedy : UGreedy ifElse.defs "S" innerElse.postorder
    ((ifToks.map ifElse.cls).map .term) := by
  obtain ⟨ep, hep, he, h⟩ := run_returns if_run
  have hn : ep.name = "S" := by
    have : (ifElse.gen.entries[0]?).map (·.name) = some "S" := by decide +kernel
    rw [he] at this; simpa using this
  obtain ⟨toks, tr, h1, h2, h3, h4⟩ := c62_sound if_names if_harmless hep h
  have h0 : Ends (stream ifToks) ifToks :=
    ⟨fun i t ht => by simp [stream, ht], by simp [stream]⟩
  cases ends_unique h1 h0
  rw [hn] at h3
  have := log_value _ _ _ _ h4
  rw [List.nil_append] at this
  rw [show innerElse.postorder = [("S", 2), ("S", 2), ("S", 1), ("S", 0)] by
    simp [innerElse, UTree.postorder, UTree.postorderList], this]
  exact h3

/-- ... and the other reading does not. -/
theorem outer_not_greedy : ¬ UGreedy ifElse.defs "S" outerElse.postorder
    ((ifToks.map ifElse.cls).map .term) := by
  intro h
  obtain ⟨ep, hep, he, _⟩ := run_returns if_run
  have hn : ep.name = "S" := by
    have : (ifElse.gen.entries[0]?).map (·.name) = some "S" := by decide +kernel
    rw [he] at this; simpa using this
  have := c62_unique if_names if_harmless hep (hn ▸ inner_tree) (hn ▸ outer_tree) (hn ▸ inner_greedy)
    (hn ▸ h)
  simp [innerElse, outerElse] at this

/-- `ifElse` meets the hypotheses of `c62_complete`; the value of the inner reading is found. -/
example : ∃ ep ∈ ifElse.gen.entries, ∃ n,
    ifElse.Returns ep (stream ifToks) [] (.ok 0) [("S", 2), ("S", 2), ("S", 1), ("S", 0)] n := by
  obtain ⟨ep, hep, he, _⟩ := run_returns if_run
  have hn : ep.name = "S" := by
    have : (ifElse.gen.entries[0]?).map (·.name) = some "S" := by decide +kernel
    rw [he] at this; simpa using this
  exact ⟨ep, hep, (c62_complete if_names if_harmless if_productive hep
    ⟨fun i t ht => by simp [stream, ht], by simp [stream]⟩ (hn ▸ inner_tree)
    (hn ▸ inner_greedy)).1 0 _ rfl⟩

/-- `arith` is LR(1): every rightmost derivation prefers shifting. -/
example {F : List USym} : (∃ ps, UGreedy arith.defs "Expr" ps F) ↔ URights arith.defs [.nt "Expr"] F := by
  have hd : arithDefs[0] ∈ arith.defs := by
    rw [show arith.defs = arithDefs from defs_itemsOf _]; simp [arithDefs]
  exact c62_lr1 arith_ulr1 hd rfl

end Examples

end Parsegen
