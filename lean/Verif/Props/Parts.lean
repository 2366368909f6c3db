import Verif.Spec.Parts
import Verif.Props.Follow
import Verif.Props.Complete
import Verif.Props.UserLevel

/-! # C77: parsing is compositional -/

namespace Parsegen

variable {X Ty V W Tok E Val : Type}

/-! ## Trees -/

theorem UEval.append {defs : List (AstNonTerminal X Ty)} {cls : Tok → String}
    {alg : UAlg X Tok Val W} {ss ss' : List AstSymbol} {t t' : List Tok} {w w1 w2 : W}
    {vs vs' : List Val} (h : UEval defs cls alg ss t w vs w1) (h' : UEval defs cls alg ss' t' w1 vs' w2) :
    UEval defs cls alg (ss ++ ss') (t ++ t') w (vs ++ vs') w2 := by
  induction h with
  | nil => exact h'
  | term hs _ ih => exact .term hs (ih h')
  | nt hs hp hc ha _ _ ih =>
    rw [List.append_assoc]
    exact .nt hs hp hc ha (ih h')

theorem UEval.split {defs : List (AstNonTerminal X Ty)} {cls : Tok → String}
    {alg : UAlg X Tok Val W} {ss : List AstSymbol} {toks : List Tok} {w w2 : W}
    {l : List Val} {v : Val} {r : List Val} (h : UEval defs cls alg ss toks w (l ++ v :: r) w2) :
    ∃ s1 s s2 t1 t t2 u u', ss = s1 ++ s :: s2 ∧ toks = t1 ++ (t ++ t2) ∧
      UEval defs cls alg s1 t1 w l u ∧ UEval defs cls alg [s] t u [v] u' ∧
      UEval defs cls alg s2 t2 u' r w2 := by
  induction l generalizing ss toks w with
  | nil =>
    cases h with
    | @term s t ss ts _ _ _ hs h =>
      exact ⟨[], s, ss, [], [t], ts, w, w, rfl, rfl, .nil _, .term hs (.nil _), h⟩
    | @nt s name i p t1 t2 _ us w1 _ w2 ss _ _ hs hp hc ha h =>
      refine ⟨[], s, ss, [], t1, t2, w, w2, rfl, rfl, .nil _, ?_, h⟩
      simpa using UEval.nt hs hp hc ha (.nil _)
  | cons x l ih =>
    cases h with
    | @term s t ss ts _ _ _ hs h =>
      obtain ⟨s1, s', s2, t1, t', t2, u, u', rfl, rfl, h1, h2, h3⟩ := ih h
      exact ⟨s :: s1, s', s2, t :: t1, t', t2, u, u', rfl, rfl, .term hs h1, h2, h3⟩
    | @nt s name i p ta tb _ us w1 _ w2 ss _ _ hs hp hc ha h =>
      obtain ⟨s1, s', s2, t1, t', t2, u, u', rfl, rfl, h1, h2, h3⟩ := ih h
      exact ⟨s :: s1, s', s2, ta ++ t1, t', t2, u, u', rfl, by simp, .nt hs hp hc ha h1, h2, h3⟩

/-- The evaluation of a tree. -/
theorem UEval.of_tree {defs : List (AstNonTerminal X Ty)} {cls : Tok → String}
    {alg : UAlg X Tok Val W} {ss : List AstSymbol} {toks : List Tok} {u u' : Unit}
    {trs : List (UTree Tok)} (h : UEval defs cls userTrees ss toks u trs u') :
    ∀ {w w' : W} {vs : List Val}, UTree.values defs alg trs w = some (vs, w') →
      UEval defs cls alg ss toks w vs w' := by
  induction h with
  | nil => 
    intro w w' vs h
    cases h
    exact .nil _
  | @term s t ss ts _ trs _ hs _ ih =>
    intro w w' vs h
    simp only [UTree.values, UTree.value, userTrees, Option.bind_eq_bind, Option.bind_some,
      Option.bind_eq_some_iff] at h
    obtain ⟨⟨vs', w1⟩, h1, h2⟩ := h
    cases h2
    exact .term hs (ih h1)
  | @nt s name i p t1 t2 _ us w1 v w2 ss trs w3 hs hp hc ha h ih1 ih2 =>
    intro w w' vs hv
    cases ha
    simp only [UTree.values, UTree.value, Option.bind_eq_bind,
      Option.bind_eq_some_iff] at hv
    obtain ⟨⟨v, w2⟩, ⟨⟨vs1, w1⟩, h1, p', hp', h2⟩, ⟨vs2, w3⟩, h3, h4⟩ := hv
    cases h4
    rw [hp] at hp'
    cases hp'
    exact .nt hs hp (ih1 h1) h2 (ih2 h3)

/-- A symbol whose tree is a node of `A` is `A`. -/
theorem UEval.node_symbol {defs : List (AstNonTerminal X Ty)} {cls : Tok → String}
    {s : AstSymbol} {t : List Tok} {u u' : Unit} {A : String} {i : Nat} {cs : List (UTree Tok)}
    (h : UEval defs cls userTrees [s] t u [.node A i cs] u') : s.plain = some (.nt A) := by
  generalize hv : [UTree.node A i cs] = vs at h
  cases h with
  | term => cases hv
  | nt hs hp hc ha h =>
    cases ha
    cases hv
    exact hs

theorem AstSymbol.plain_nonTerminal (A : String) :
    (AstSymbol.nonTerminal A).plain = some (.nt A) := rfl

/-- Only the plain symbol matters. -/
theorem UEval.replain {defs : List (AstNonTerminal X Ty)} {cls : Tok → String}
    {alg : UAlg X Tok Val W}
    {s s' : AstSymbol} {t : List Tok} {u u' : W} {v : List Val} (e : s.plain = s'.plain)
    (h : UEval defs cls alg [s] t u v u') : UEval defs cls alg [s'] t u v u' := by
  generalize hss : [s] = ss at h
  cases h with
  | nil => cases hss
  | term hs h => cases hss; exact .term (e ▸ hs) h
  | nt hs hp hc ha h => cases hss; exact .nt (e ▸ hs) hp hc ha h

theorem UTree.Replaced.plug {defs : List (AstNonTerminal X Ty)} {cls : Tok → String}
    {sub sub' tr tr' : UTree Tok} {pre post : List Tok} (h : UTree.Replaced sub sub' tr tr' pre post)
    {A : String} {i : Nat} {cs : List (UTree Tok)} (hsub : sub = .node A i cs) :
    ∀ {s : AstSymbol} {toks : List Tok}, UEval defs cls userTrees [s] toks () [tr] () →
      ∃ part, toks = pre ++ part ++ post ∧ IsUTree defs cls A part sub ∧
        ∀ part', IsUTree defs cls A part' sub' →
          UEval defs cls userTrees [s] (pre ++ part' ++ post) () [tr'] () := by
  induction h with
  | here =>
    intro s toks h
    subst hsub
    have hs := h.node_symbol
    refine ⟨toks, by simp, h.replain (s' := .nonTerminal A) hs, fun part' h' => ?_⟩
    simpa using UEval.replain (s := .nonTerminal A) (s' := s) hs.symm h'
  | @inside n j l t t' r pre post h ih =>
    intro s toks hh
    generalize hv : [UTree.node n j (l ++ t :: r)] = vs at hh
    cases hh with
    | term => cases hv
    | nt hs hp hc ha h0 =>
      cases ha
      cases hv
      cases h0
      obtain ⟨s1, s', s2, t1, tm, t2, u, u', e, rfl, h1, h2, h3⟩ := hc.split
      obtain ⟨part, rfl, hp1, hp2⟩ := ih h2
      refine ⟨part, by simp [h1.tree_tokens, h3.tree_tokens], hp1, fun part' h' => ?_⟩
      have := (h1.append ((hp2 part' h').append h3))
      rw [List.singleton_append, List.singleton_append, ← e] at this
      have h4 := UEval.nt (w2 := ()) hs hp this (rfl : userTrees.node _ _ _ _ _ = _) (.nil _)
      simpa [h1.tree_tokens, h3.tree_tokens] using h4

theorem UTree.Occurs.value {defs : List (AstNonTerminal X Ty)} {alg : UAlg X Tok Val W}
    {sub tr : UTree Tok} {pre post : List Tok} (h : sub.Occurs tr pre post)
    {w w' : W} {v : Val} (hv : UTree.value defs alg tr w = some (v, w')) :
    ∃ u x u', UTree.value defs alg sub u = some (x, u') ∧
      ∀ sub', ∃ tr', UTree.Replaced sub sub' tr tr' pre post ∧
        (UTree.value defs alg sub' u = some (x, u') → UTree.value defs alg tr' w = some (v, w')) ∧
        (UTree.value defs alg sub' u = none → UTree.value defs alg tr' w = none) := by
  obtain ⟨t2, ht⟩ : ∃ t, UTree.Replaced sub sub tr t pre post := ⟨_, h⟩
  clear h
  induction ht generalizing w w' v with
  | here => exact ⟨w, v, w', hv, fun sub' => ⟨sub', .here, id, id⟩⟩
  | @inside n j l t t' r pre post _ ih =>
    simp only [UTree.value, UTree.values_append, UTree.values, Option.bind_eq_bind,
      Option.bind_eq_some_iff, Option.map_eq_some_iff] at hv
    obtain ⟨⟨vs, w1⟩, ⟨⟨vs1, w2⟩, h1, ⟨vs2, w3⟩, ⟨⟨v1, w4⟩, h2, ⟨vs3, w5⟩, h3, h4⟩, h5⟩, h6⟩ := hv
    obtain ⟨u, x, u', h7, h8⟩ := ih h2
    refine ⟨u, x, u', h7, fun sub' => ?_⟩
    obtain ⟨tr', h10, h11, h12⟩ := h8 sub'
    refine ⟨_, .inside h10, fun h9 => ?_, fun h9 => ?_⟩
    · simp only [UTree.value, UTree.values_append, UTree.values, Option.bind_eq_bind,
        Option.bind_eq_some_iff, Option.map_eq_some_iff]
      exact ⟨⟨vs, w1⟩, ⟨⟨vs1, w2⟩, h1, ⟨vs2, w3⟩, ⟨⟨v1, w4⟩, h11 h9, ⟨vs3, w5⟩, h3, h4⟩, h5⟩, h6⟩
    · simp [UTree.value, UTree.values_append, UTree.values, h1, h12 h9]

theorem UTree.values_single {defs : List (AstNonTerminal X Ty)} {alg : UAlg X Tok Val W}
    {tr : UTree Tok} {w w' : W} {v : Val} :
    UTree.values defs alg [tr] w = some ([v], w') ↔ UTree.value defs alg tr w = some (v, w') := by
  simp only [UTree.values, Option.bind_eq_bind, Option.bind_eq_some_iff]
  constructor
  · rintro ⟨⟨v1, w1⟩, h1, ⟨vs, w2⟩, h2, h3⟩
    cases h2
    cases h3
    exact h1
  · intro h
    exact ⟨_, h, _, rfl, rfl⟩

/-- The value of a node is that of a non-terminal. -/
theorem UTree.value_node {defs : List (AstNonTerminal X Ty)} {code : UserCode X V W}
    {fields : Tok → List V} {A : String} {i : Nat} {cs : List (UTree Tok)} {u u' : W} {x : BVal V}
    (h : UTree.value defs (userValues code fields) (.node A i cs) u = some (x, u')) :
    ∃ y, x = .nt y := by
  simp only [UTree.value, Option.bind_eq_bind, Option.bind_eq_some_iff] at h
  obtain ⟨r, -, p, -, h2⟩ := h
  simp only [userValues] at h2
  split at h2
  · obtain ⟨r', -, e⟩ := Option.map_eq_some_iff.mp h2
    cases e
    exact ⟨_, rfl⟩
  · cases h2

theorem IsUTree.not_leaf {defs : List (AstNonTerminal X Ty)} {cls : Tok → String} {A : String}
    {part : List Tok} (t : Tok) : ¬ IsUTree defs cls A part (.leaf t) := by
  intro h
  unfold IsUTree at h
  generalize hv : [UTree.leaf t] = vs at h
  generalize hw : () = w' at h
  cases h with
  | term hs => cases hs
  | nt hs hp hc ha h =>
    cases ha
    cases hv

/-- A subtree is a non-terminal of a sentential form. -/
theorem UTree.Replaced.derives {defs : List (AstNonTerminal X Ty)} {cls : Tok → String}
    {sub sub' tr tr' : UTree Tok} {pre post : List Tok} (h : UTree.Replaced sub sub' tr tr' pre post)
    {A : String} {i : Nat} {cs : List (UTree Tok)} (hsub : sub = .node A i cs) :
    ∀ {s : AstSymbol} {toks : List Tok}, UEval defs cls userTrees [s] toks () [tr] () →
      ∃ l, [s.plain] = l.map some ∧
        UDerives defs l ((pre.map fun t => .term (cls t)) ++ [.nt A] ++
          post.map fun t => .term (cls t)) := by
  induction h with
  | here =>
    intro s toks h
    subst hsub
    exact ⟨[.nt A], by simp [h.node_symbol], .refl _⟩
  | @inside n j l t t' r pre post h ih =>
    intro s toks hh
    generalize hv : [UTree.node n j (l ++ t :: r)] = vs at hh
    cases hh with
    | term => cases hv
    | @nt _ _ _ p _ _ _ _ _ _ _ _ _ _ hs hp hc ha h0 =>
      cases ha
      cases hv
      cases h0
      obtain ⟨s1, s', s2, t1, tm, t2, u, u', e, rfl, h1, h2, h3⟩ := hc.split
      obtain ⟨l2, e2, d2⟩ := ih h2
      obtain ⟨l1, e1, d1⟩ := h1.derives
      obtain ⟨l3, e3, d3⟩ := h3.derives
      refine ⟨[.nt n], by simp [hs], ?_⟩
      have hstep : UDerives defs [.nt n] (l1 ++ l2 ++ l3) :=
        .tail (.refl _) (by
          simpa using UProduces.mk (asts := defs) [] [] (l1 ++ l2 ++ l3) n p
            (List.mem_of_getElem? hp) (by rw [e]; simp [e1, ← e2, e3]))
      refine hstep.trans ?_
      have := (((d1.append_right l2).trans (d2.append_left _)).append_right l3).trans
        (d3.append_left _)
      simpa [h1.tree_tokens, h3.tree_tokens] using this

theorem Ends.unique {input : Nat → Option (Except E Tok)} {t t' : List Tok} (h : Ends input t)
    (h' : Ends input t') : t = t' := by
  have key : ∀ {t t' : List Tok}, Ends input t → Ends input t' → t.length ≤ t'.length := by
    intro t t' h h'
    by_contra hlt
    have := h.1 t'.length t[t'.length] (List.getElem?_eq_getElem (by omega))
    rw [h'.2] at this
    cases this
  have hl := Nat.le_antisymm (key h h') (key h' h)
  refine List.ext_getElem hl fun k hk hk' => ?_
  have h1 := h.1 k _ (List.getElem?_eq_getElem hk)
  rw [h'.1 k _ (List.getElem?_eq_getElem hk')] at h1
  exact (Except.ok.inj (Option.some.inj h1)).symm

/-! ## Parsers -/

variable [DecidableEq Ty] {P : Compiled X Ty V W Tok} {ep epA : EntryPoint}
  {input : Nat → Option (Except E Tok)} {w w' : W} {toks : List Tok} {n : Nat}
  {tr sub : UTree Tok} {pre post : List Tok} {A : String} {i : Nat} {cs : List (UTree Tok)}

/-- **C77.** What a non-terminal covers in a sentence can be replaced by any other sentence of that
non-terminal: the derivation tree is the old one with the subtree replaced. -/
theorem c77_replace {sub' tr' : UTree Tok} {part' : List Tok} {B : String}
    (htr : IsUTree P.defs P.cls B toks tr)
    (h : UTree.Replaced (.node A i cs) sub' tr tr' pre post)
    (h' : IsUTree P.defs P.cls A part' sub') :
    ∃ part, toks = pre ++ part ++ post ∧ IsUTree P.defs P.cls A part (.node A i cs) ∧
      IsUTree P.defs P.cls B (pre ++ part' ++ post) tr' := by
  obtain ⟨part, h1, h2, h3⟩ := h.plug rfl htr
  exact ⟨part, h1, h2, h3 part' h'⟩

/-- **C77.** ... and the parser of such a program accepts it (or an action panics). -/
theorem c77_sentence (hR : P.Regular) (hep : ep ∈ P.gen.entries)
    (htr : IsUTree P.defs P.cls ep.name toks tr) (h : (UTree.node A i cs).Occurs tr pre post)
    {part' : List Tok} (h' : P.IsSentence A part') (hin : Ends input (pre ++ part' ++ post)) :
    (∃ v w', P.Returns ep input w (.ok v) w' ((pre ++ part' ++ post).length + 1)) ∨
      ∃ w' n, P.Returns ep input w (.fault .userPanic) w' n := by
  refine c04_sentence hR hep hin ?_
  obtain ⟨l, hl, hd⟩ := h.derives rfl htr
  have e : l = [.nt ep.name] := by
    match l, hl with
    | [x], hl =>
      simp only [AstSymbol.plain, List.map_cons, List.map_nil, List.cons.injEq, and_true] at hl
      rw [Option.some.inj hl]
  subst e
  unfold Compiled.IsSentence USentence at h' ⊢
  refine hd.trans ?_
  have := (h'.append_left (pre.map fun t => .term (P.cls t))).append_right
    (post.map fun t => .term (P.cls t))
  simpa [Function.comp_def] using this

/-- **C77.** Let `B.parse` return `v` for an input in which the `pub` non-terminal `A` covers a part.
Then `A.parse` called with just that part, in the state `u` left by the actions before it, returns the
value `x` of the part; the part can be replaced by any other for which `A.parse` does the same, without
changing what `B.parse` returns; and if `A.parse` panics in an action for another sentence of `A`, so
does `B.parse` with that in place of the part. -/
theorem c77_part (hR : P.Regular) (hep : ep ∈ P.gen.entries) (hA : epA ∈ P.gen.entries)
    (htr : IsUTree P.defs P.cls ep.name toks tr)
    (h : (UTree.node epA.name i cs).Occurs tr pre post) (hin : Ends input toks) {v : V}
    (hv : P.Returns ep input w (.ok v) w' n) :
    ∃ part u x u', toks = pre ++ part ++ post ∧
      IsUTree P.defs P.cls epA.name part (.node epA.name i cs) ∧
      (∀ in1 : Nat → Option (Except E Tok), Ends in1 part →
        P.Returns epA in1 u (.ok x) u' (part.length + 1)) ∧
      (∀ (in1 in2 : Nat → Option (Except E Tok)) part' m, Ends in1 part' →
        P.Returns epA in1 u (.ok x) u' m → Ends in2 (pre ++ part' ++ post) →
        P.Returns ep in2 w (.ok v) w' ((pre ++ part' ++ post).length + 1)) ∧
      ∀ (in1 in2 : Nat → Option (Except E Tok)) part' sub' u1 m, Ends in1 part' →
        IsUTree P.defs P.cls epA.name part' sub' →
        P.Returns epA in1 u (.fault .userPanic) u1 m → Ends in2 (pre ++ part' ++ post) →
        ∃ w1 m', P.Returns ep in2 w (.fault .userPanic) w1 m' := by
  obtain ⟨toks2, hr, he, hm⟩ := c02_value hep hv
  have : toks2 = toks := Ends.unique ⟨hr, he⟩ hin
  subst this
  obtain ⟨trs, ht, hval⟩ := hm.tree_value
  obtain ⟨tr2, rfl⟩ : ∃ t, trs = [t] := by
    have := UTree.values_length hval
    match trs, this with
    | [t], _ => exact ⟨t, rfl⟩
  have := c05_unambiguous hR hep ht htr
  subst this
  have hval : UTree.value P.defs (userValues P.code P.fields) tr2 w = some (.nt v, w') :=
    UTree.values_single.mp hval
  obtain ⟨part, hpart, hsub, -⟩ := h.plug rfl htr
  obtain ⟨u, x, u', hx, hrep⟩ := h.value hval
  obtain ⟨y, rfl⟩ := UTree.value_node hx
  refine ⟨part, u, y, u', hpart, hsub, fun in1 h1 => ?_, fun in1 in2 part' m h1 h2 h3 => ?_,
    fun in1 in2 part' sub' u1 m h1 hs h2 h3 => ?_⟩
  · exact c04_value hR hA h1 (UEval.of_tree hsub (UTree.values_single.mpr hx))
  · obtain ⟨toks3, hr3, he3, hm3⟩ := c02_value hA h2
    have := Ends.unique ⟨hr3, he3⟩ h1
    subst this
    obtain ⟨trs, ht3, hv3⟩ := hm3.tree_value
    obtain ⟨sub', rfl⟩ : ∃ t, trs = [t] := by
      have := UTree.values_length hv3
      match trs, this with
      | [t], _ => exact ⟨t, rfl⟩
    obtain ⟨tr', h4, h5, -⟩ := hrep sub'
    have h5 := h5 (UTree.values_single.mp hv3)
    obtain ⟨-, -, -, h6⟩ := h4.plug rfl htr
    exact c04_value hR hep h3 (UEval.of_tree (h6 _ ht3) (UTree.values_single.mpr h5))
  · obtain ⟨tr', h4, -, h5⟩ := hrep sub'
    obtain ⟨-, -, -, h6⟩ := h4.plug rfl htr
    have h6 : IsUTree P.defs P.cls ep.name (pre ++ part' ++ post) tr' := h6 _ hs
    have h7 : UTree.value P.defs (userValues P.code P.fields) sub' u = none := by
      cases hx' : UTree.value P.defs (userValues P.code P.fields) sub' u with
      | none => rfl
      | some r =>
        obtain ⟨x2, u2⟩ := r
        cases sub' with
        | leaf t => exact absurd hs (IsUTree.not_leaf _)
        | node n j c =>
          obtain ⟨y2, rfl⟩ := UTree.value_node hx'
          have := c04_value hR hA h1 (UEval.of_tree hs (UTree.values_single.mpr hx'))
          cases (returns_unique this h2).1
    rcases c04_sentence (w := w) hR hep h3 h6.sentence with ⟨v2, w2, hok⟩ | hp
    · obtain ⟨toks3, hr3, he3, hm3⟩ := c02_value hep hok
      have := Ends.unique ⟨hr3, he3⟩ h3
      subst this
      obtain ⟨trs, ht3, hv3⟩ := hm3.tree_value
      obtain ⟨tr3, rfl⟩ : ∃ t, trs = [t] := by
        have := UTree.values_length hv3
        match trs, this with
        | [t], _ => exact ⟨t, rfl⟩
      have := c05_unambiguous hR hep ht3 h6
      subst this
      rw [UTree.values_single.mp hv3] at h5
      cases h5 h7
    · exact hp

namespace Examples

/-- The derivation tree of `1 + 2` ... -/
def sumTree : UTree Tk :=
  .node "Expr" 0 [.node "Expr" 1 [.node "Term" 0 [.leaf (.num 1)]], .leaf .plus,
    .node "Term" 0 [.leaf (.num 2)]]

theorem sumTree_is : IsUTree arith.defs arith.cls "Expr" [.num 1, .plus, .num 2] sumTree := by
  rw [show arith.defs = arithDefs from defs_itemsOf _]
  have t (k : Nat) : UEval arithDefs arith.cls userTrees [.nonTerminal "Term"] [.num k] ()
      [.node "Term" 0 [.leaf (.num k)]] () :=
    .nt (t1 := [Tk.num k]) (t2 := []) (i := 0) rfl rfl (.term rfl (.nil _)) rfl (.nil _)
  have e : UEval arithDefs arith.cls userTrees [.nonTerminal "Expr"] [.num 1] ()
      [.node "Expr" 1 [.node "Term" 0 [.leaf (.num 1)]]] () :=
    .nt (t1 := [Tk.num 1]) (t2 := []) (i := 1) rfl rfl ((t 1).replain (s := .nonTerminal "Term") rfl) rfl (.nil _)
  refine .nt (t1 := [Tk.num 1, .plus, .num 2]) (t2 := []) (i := 0) (w1 := ()) rfl rfl ?_ rfl (.nil _)
  have e' := e.replain (s := .nonTerminal "Expr") (s' := nm "a" (.nonTerminal "Expr")) rfl
  have t' := (t 2).replain (s := .nonTerminal "Term") (s' := nm "b" (.nonTerminal "Term")) rfl
  exact e'.append (UEval.term (s := .terminal "+") (t := Tk.plus) rfl t')

/-- ... in which `Term` covers the `2`. -/
theorem sumTree_part : (UTree.node "Term" 0 [.leaf (.num 2)]).Occurs sumTree [.num 1, .plus] [] :=
  UTree.Replaced.inside (l := [.node "Expr" 1 [.node "Term" 0 [.leaf (Tk.num 1)]], .leaf .plus]) (r := []) .here

theorem stream_ends (l : List Tk) : Ends (stream l) l :=
  ⟨fun i t h => by simp [stream, h], by simp [stream]⟩

set_option maxRecDepth 10000 in
theorem arith_sum : run arith 0 (stream [.num 1, .plus, .num 2]) [] 100 =
    some (.ok 3, [("Term", 0), ("Expr", 1), ("Term", 0), ("Expr", 0)], 4) := by decide +kernel

set_option maxRecDepth 10000 in
theorem arith_names : arith.gen.entries.map (·.name) = ["Expr", "Term"] := by decide +kernel

/-- `Expr.parse` of `1 + 2` gives 3, and `Term.parse` of the part `2` of it a value; `1 + (2 + 3)` is
then also parsed. -/
example : ∃ ep ∈ arith.gen.entries, ∃ epA ∈ arith.gen.entries, epA.name = "Term" ∧
    (∃ w', arith.Returns ep (stream [.num 1, .plus, .num 2]) [] (.ok 3) w' 4) ∧
    (∃ u x u', arith.Returns epA (stream [.num 2]) u (.ok x) u' 2) ∧
    ((∃ v w', arith.Returns ep (stream [.num 1, .plus, .lp, .num 2, .plus, .num 3, .rp]) [] (.ok v) w' 8) ∨
      ∃ w' n, arith.Returns ep (stream [.num 1, .plus, .lp, .num 2, .plus, .num 3, .rp]) []
        (.fault .userPanic) w' n) := by
  obtain ⟨ep, hep, h0, h1⟩ := run_returns arith_sum
  obtain ⟨epA, hA, h2, h3⟩ := run_returns arith_term
  have n0 : ep.name = "Expr" := by
    have := congrArg (·[0]?) arith_names
    simp only [List.getElem?_map, h0] at this
    exact Option.some.inj this
  have n1 : epA.name = "Term" := by
    have := congrArg (·[1]?) arith_names
    simp only [List.getElem?_map, h2] at this
    exact Option.some.inj this
  refine ⟨ep, hep, epA, hA, n1, ⟨_, h1⟩, ?_, ?_⟩
  · obtain ⟨part, u, x, u', hp, -, hx, -⟩ := c77_part arith_regular hep hA (n0 ▸ sumTree_is)
      (n1 ▸ sumTree_part) (stream_ends _) h1
    have : part = [.num 2] := by simpa using hp.symm
    subst this
    exact ⟨u, x, u', hx _ (stream_ends _)⟩
  · obtain ⟨part', hr, he, hs⟩ := c01_sentence hA h3
    have := Ends.unique ⟨hr, he⟩ (stream_ends [.lp, .num 1, .plus, .num 2, .rp])
    have hs : arith.IsSentence "Term" [.lp, .num 2, .plus, .num 3, .rp] := by
      subst this
      exact n1 ▸ hs
    exact c77_sentence arith_regular hep (n0 ▸ sumTree_is) sumTree_part hs (stream_ends _)

end Examples

end Parsegen
