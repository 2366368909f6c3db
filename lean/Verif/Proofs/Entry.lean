import Verif.Proofs.Complete
import Verif.Proofs.Names
import Verif.Proofs.Variants

/-! # Entry points of programs without repeated names -/

namespace Parsegen

variable {X Ty V W Tok E : Type}

section names
variable {asts : List (AstNonTerminal X Ty)} {convs : List (Conversion Ty)} {g : Grammar X Ty}
  {nts ts : AMap String Nat} {mkPath : String → X}

/-- Public names come from the `pub` definitions. -/
theorem decls_filter (asts : List (AstNonTerminal X Ty)) :
    ((asts.flatMap fun a => if a.isPub then [(a.name ++ "1", false, a.typeDecl), (a.name, true, a.typeDecl)]
      else [(a.name, false, a.typeDecl)]).filter fun d => d.2.1).map (·.1) =
      (asts.filter (·.isPub)).map (·.name) := by
  induction asts with
  | nil => rfl
  | cons a asts ih =>
    simp only [List.flatMap_cons, List.filter_append, List.map_append, ih]
    cases h : a.isPub <;> simp [h]

/-- Without repeated names, an entry point is determined by its name. -/
theorem Lowered.pub_unique (hl : Lowered mkPath asts convs g nts ts)
    (hnd : (asts.map (·.name)).Nodup) {E E' : Nat} {nt nt' : NonTerminal X Ty}
    (h1 : g.nonTerminals[E]? = some nt) (h2 : g.nonTerminals[E']? = some nt')
    (p1 : nt.isPublic = true) (p2 : nt'.isPublic = true) (hn : nt.name = nt'.name) : E = E' := by
  have key : (g.nonTerminals.map fun n => (n.name, n.isPublic, n.returnTy)).Pairwise
      (fun x y => x.2.1 = true → y.2.1 = true → x.1 ≠ y.1) := by
    rw [hl.decls]
    have h3 : ((asts.filter (·.isPub)).map (·.name)).Nodup :=
      hnd.sublist (List.Sublist.map _ (List.filter_sublist ..))
    rw [← decls_filter, List.Nodup, List.pairwise_map, List.pairwise_filter] at h3
    exact h3
  rw [List.pairwise_map] at key
  have hlt : ∀ {i j : Nat} {a b : NonTerminal X Ty}, g.nonTerminals[i]? = some a →
      g.nonTerminals[j]? = some b → a.isPublic = true → b.isPublic = true → a.name = b.name →
      ¬ i < j := by
    intro i j a b hi hj pa pb hab hij
    obtain ⟨li, ei⟩ := List.getElem?_eq_some_iff.1 hi
    obtain ⟨lj, ej⟩ := List.getElem?_eq_some_iff.1 hj
    have := List.pairwise_iff_getElem.1 key i j li lj hij
    rw [ei, ej] at this
    exact this pa pb hab
  rcases Nat.lt_trichotomy E E' with h | h | h
  · exact absurd h (hlt h1 h2 p1 p2 hn)
  · exact h
  · exact absurd h (hlt h2 h1 p2 p1 hn.symm)

/-- Without repeated names, an entry point wraps the non-terminal of its name. -/
theorem Lowered.entry_name (hl : Lowered mkPath asts convs g nts ts)
    (hnd : (asts.map (·.name)).Nodup) {E : Nat} {nt : NonTerminal X Ty}
    (h1 : g.nonTerminals[E]? = some nt) (p1 : nt.isPublic = true) :
    ∃ b, nts.get? nt.name = some b ∧ g.HasProd E 0 [.nonTerminal b] := by
  obtain ⟨a, _, _, ha, hpub, hname, _⟩ := hl.pub h1 p1
  obtain ⟨l1, l2, rfl⟩ := List.append_of_mem ha
  obtain ⟨E', nt', b, n', e1, e2, e3, e4, e5, e6, _⟩ := hl.pub_mk rfl hpub
  have := hl.pub_unique hnd h1 e1 p1 e2 (hname.trans e3.symm)
  subst this
  rw [h1] at e1; cases e1
  refine ⟨b, ?_, nt, wrapperProd mkPath b, h1, by rw [e4]; rfl, rfl⟩
  rw [hname]
  refine e6 ?_
  intro c hc hcn
  rw [List.map_append, List.map_cons, List.nodup_append] at hnd
  have := (List.nodup_cons.1 hnd.2.1).1
  exact this (List.mem_map.2 ⟨c, hc, hcn⟩)

/-- Derivation trees of the lowered grammar, labelled with names. -/
noncomputable def nameAlg (nts : AMap String Nat) : Alg Tok (UTree Tok) Unit :=
  ⟨.leaf, fun j p cs _ => some (.node (open Classical in
    if h : ∃ n, nts.get? n = some j then h.choose else "") p cs, ())⟩

theorem algAgree_trees (hl : Lowered mkPath asts convs g nts ts) :
    AlgAgree (Tok := Tok) asts g nts ts (nameAlg nts) userTrees where
  leaf _ := rfl
  node := by
    intro n j p q pr us w hn _ _ _
    have hex : ∃ m, nts.get? m = some j := ⟨n, hn⟩
    simp only [nameAlg, userTrees, dif_pos hex]
    rw [hl.inj hex.choose_spec hn]

end names

variable [DecidableEq Ty]

/-- Everything about an entry point of a regular program. -/
structure Regular' (P : Compiled X Ty V W Tok) (ep : EntryPoint) (g : Grammar X Ty)
    (nts ts : AMap String Nat) (a : Automaton) (g' : Grammar Nat Ty) (T : LRTable Nat) (e b : Nat) :
    Prop where
  setup : Setup P g nts ts a g' T
  pub : g.isPublic e = true
  decl : ∃ nt, g.nonTerminals[e]? = some nt ∧ nt.isPublic = true ∧ nt.name = ep.name
  ini : StateAt g (generateFirstTable P.order g) a e [] ep.initState
  ext : (semanticActionVariants g)[e]? = some ep.extract
  sem : P.gen.IsSem g ep.actionIdx e 0
  prod : g.HasProd e 0 [.nonTerminal b]
  name : nts.get? ep.name = some b
  conf : NoConflict g (generateFirstTable P.order g) e
  first : FirstEnough g (generateFirstTable P.order g)
  lr1 : g.IsLR1

theorem Compiled.Regular.get {P : Compiled X Ty V W Tok} (h : P.Regular) {ep : EntryPoint}
    (hep : ep ∈ P.gen.entries) :
    ∃ g nts ts a g' T e b, Regular' P ep g nts ts a g' T e b := by
  obtain ⟨g, nts, ts, a, g', T, S⟩ := P.setup hep
  obtain ⟨e, nt, h1, h2, h3, he, hini, hext, hsem⟩ := S.run hep
  obtain ⟨b, hb, hp⟩ := S.lowered.entry_name h.names h1 h2
  refine ⟨g, nts, ts, a, g', T, e, b, S, he, ⟨nt, h1, h2, h3⟩, hini, hext, hsem, hp, h3 ▸ hb, ?_,
    h.first g S.lower, h.lr1 g S.lower⟩
  exact (h.lr1 g S.lower).noConflict (generateFirstTable_sound P.order g) S.wf he

/-- The wrapper's action does not panic. -/
theorem Setup.no_wrapper_panic {P : Compiled X Ty V W Tok} {g nts ts a g' T}
    (S : Setup P g nts ts a g' T) {e b : Nat} {nt : NonTerminal X Ty}
    (h1 : g.nonTerminals[e]? = some nt) (h2 : nt.isPublic = true) {toks : List Tok} {w w' : W}
    {us : List (SAR V)}
    (hev : Eval g P.tf.terminalIdx (g.stackAlg P.code P.tf) [.nonTerminal b] toks w us w') :
    (g.stackAlg P.code P.tf).node e 0 us w' ≠ none := by
  intro hnode
  obtain ⟨p, α, us', w1, v, hv, hp', hc, hn⟩ := hev.nt_inv
  subst hv
  obtain ⟨x, k, h3, h4, rfl⟩ := stackAlg_node hn
  have hw := S.lowered.wrapper_node (Tok := Tok) P.code (fields := P.fields) h1 h2 x w'
  have hw' : g.nodeValue P.code e 0 [.nt x] w' = some (.nt x, w') := hw
  obtain ⟨k', hk'⟩ := semanticActionVariants_some g h1
  unfold Grammar.stackAlg at hnode
  simp only [List.map_cons, List.map_nil, SAR.toB, hw', hk'] at hnode
  cases hnode

end Parsegen
