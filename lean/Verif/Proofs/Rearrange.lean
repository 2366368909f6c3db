import Verif.Proofs.CorrStep
import Verif.Props.UserLevel
import Verif.Props.Entries

/-! # From programs that agree on common names to corresponding grammars -/

namespace Parsegen

variable {X Ty V W Tok E : Type} [DecidableEq Ty]

/-! ## Specification-level facts -/

omit [DecidableEq Ty] in
theorem userProds_of_mem {defs : List (AstNonTerminal X Ty)} (hnd : (defs.map (·.name)).Nodup)
    {d : AstNonTerminal X Ty} (hd : d ∈ defs) : userProds defs d.name = d.productions := by
  unfold userProds
  have : defs.filter (fun a => a.name == d.name) = [d] := by
    induction defs with
    | nil => cases hd
    | cons a l ih =>
      rw [List.map_cons, List.nodup_cons] at hnd
      rcases List.mem_cons.1 hd with rfl | hd
      · rw [List.filter_cons_of_pos (by simp)]
        congr 1
        refine List.filter_eq_nil_iff.2 fun b hb => ?_
        simp only [beq_iff_eq]
        intro h
        exact hnd.1 (List.mem_map.2 ⟨b, hb, h⟩)
      · rw [List.filter_cons_of_neg, ih hnd.2 hd]
        simp only [beq_iff_eq]
        intro h
        exact hnd.1 (List.mem_map.2 ⟨d, hd, h.symm⟩)
  rw [this]; simp

omit [DecidableEq Ty] in
theorem mem_unique {defs : List (AstNonTerminal X Ty)} (hnd : (defs.map (·.name)).Nodup)
    {d e : AstNonTerminal X Ty} (hd : d ∈ defs) (he : e ∈ defs) (h : d.name = e.name) : d = e :=
  List.inj_on_of_nodup_map hnd hd he h

omit [DecidableEq Ty] in
theorem Includes.sameDefinitions {defs defs' : List (AstNonTerminal X Ty)}
    (h : Includes defs defs') (hnd : (defs.map (·.name)).Nodup)
    (hnd' : (defs'.map (·.name)).Nodup) : SameDefinitions defs defs' := by
  rintro n ⟨d, hd, rfl⟩ ⟨d1, hd1, hn⟩ q
  obtain ⟨d', hd', hs⟩ := h d hd
  rw [userProds_of_mem hnd hd, ← hs.name, userProds_of_mem hnd' hd']
  exact hs.productions.mem_iff.symm

omit [DecidableEq Ty] in
theorem SameDefinitions.symm {defs defs' : List (AstNonTerminal X Ty)}
    (h : SameDefinitions defs defs') : SameDefinitions defs' defs :=
  fun n h1 h2 q => (h n h2 h1 q).symm

omit [DecidableEq Ty] in
theorem Rearranged.includes {defs defs' : List (AstNonTerminal X Ty)} (h : Rearranged defs defs') :
    Includes defs defs' := by
  obtain ⟨l, h1, h2⟩ := h
  intro d hd
  have : ∀ {l l' : List (AstNonTerminal X Ty)}, List.Forall₂ AstNonTerminal.SameAs l l' → d ∈ l →
      ∃ d' ∈ l', d.SameAs d' := by
    intro l l' h hd
    induction h with
    | nil => cases hd
    | @cons a b _ _ h0 _ ih =>
      rcases List.mem_cons.1 hd with rfl | hd
      · exact ⟨b, by simp, h0⟩
      · obtain ⟨d', h3, h4⟩ := ih hd
        exact ⟨d', by simp [h3], h4⟩
  obtain ⟨d', h3, h4⟩ := this h1 hd
  exact ⟨d', h2.mem_iff.1 h3, h4⟩

omit [DecidableEq Ty] in
theorem AstNonTerminal.SameAs.symm {d d' : AstNonTerminal X Ty} (h : d.SameAs d') : d'.SameAs d :=
  ⟨h.name.symm, h.isPub.symm, h.typeDecl.symm, h.productions.symm⟩

omit [DecidableEq Ty] in
theorem Rearranged.symm {defs defs' : List (AstNonTerminal X Ty)} (h : Rearranged defs defs') :
    Rearranged defs' defs := by
  obtain ⟨l, h1, h2⟩ := h
  obtain ⟨m, h3, h4⟩ := List.perm_comp_forall₂ h2.symm (r := flip AstNonTerminal.SameAs) h1.flip
  exact ⟨m, h3.imp fun _ _ h => AstNonTerminal.SameAs.symm h, h4⟩

omit [DecidableEq Ty] in
theorem Includes.prod {defs defs' : List (AstNonTerminal X Ty)} (h : Includes defs defs')
    {n : String} {q : AstProduction X} (hq : q ∈ userProds defs n) : q ∈ userProds defs' n := by
  obtain ⟨d, hd, hqd⟩ := List.mem_flatMap.1 hq
  obtain ⟨hd, hn⟩ := List.mem_filter.1 hd
  obtain ⟨d', hd', hs⟩ := h d hd
  exact List.mem_flatMap.2 ⟨d', List.mem_filter.2 ⟨hd', by rw [hs.name]; exact hn⟩,
    hs.productions.mem_iff.2 hqd⟩

omit [DecidableEq Ty] in
theorem Includes.derives {defs defs' : List (AstNonTerminal X Ty)} (h : Includes defs defs')
    {l r : List USym} (hd : UDerives defs l r) : UDerives defs' l r := by
  induction hd with
  | refl => exact .refl _
  | tail _ s ih =>
    cases s with
    | mk l r rhs name p hp hs => exact .tail ih (.mk l r rhs name p (h.prod hp) hs)

omit [DecidableEq Ty] in
theorem Includes.hasProd {defs defs' : List (AstNonTerminal X Ty)} (h : Includes defs defs')
    {n : String} {i : Nat} {r : List USym} (hd : UHasProd defs n i r) :
    ∃ i', UHasProd defs' n i' r := by
  obtain ⟨q, h1, h2⟩ := hd
  obtain ⟨i', hi⟩ := List.mem_iff_getElem?.1 (h.prod (List.mem_of_getElem? h1))
  exact ⟨i', q, hi, h2⟩

omit [DecidableEq Ty] in
/-- What derives something else has a production. -/
theorem UDerives.has_prod {defs : List (AstNonTerminal X Ty)} {b : String} {w : List USym}
    (h : UDerives defs [.nt b] w) (hw : w ≠ [.nt b]) : ∃ q, q ∈ userProds defs b := by
  have : ∀ {l r : List USym}, UDerives defs l r → l = [.nt b] → r ≠ [.nt b] →
      ∃ q, q ∈ userProds defs b := by
    intro l r h e
    induction h with
    | refl => intro hr; exact absurd e hr
    | @tail m r h s ih =>
      intro _
      by_cases hm : m = [.nt b]
      · subst hm
        generalize he : [USym.nt b] = m at s
        cases s with
        | mk l r rhs name p hp hs =>
          have : l = [] ∧ name = b := by
            cases l with
            | nil => simp at he; exact ⟨rfl, he.1.symm⟩
            | cons y ys => simp at he
          exact ⟨p, this.2 ▸ hp⟩
      · exact ih hm
  exact this h rfl hw

omit [DecidableEq Ty] in
theorem Includes.relevant {defs defs' : List (AstNonTerminal X Ty)} (h : Includes defs defs')
    {b : String} (hb : URelevant defs b) : URelevant defs' b := by
  induction hb with
  | behind hp hl =>
    obtain ⟨_, hp'⟩ := h.hasProd hp
    exact .behind hp' (h.derives hl)
  | leading _ hp hl ih =>
    obtain ⟨_, hp'⟩ := h.hasProd hp
    exact .leading ih hp' (h.derives hl)

omit [DecidableEq Ty] in
theorem Includes.harmless {defs defs' : List (AstNonTerminal X Ty)} (h : Includes defs defs')
    (hnd' : (defs'.map (·.name)).Nodup) (hh : UHarmless defs') : UHarmless defs := by
  intro A i l b r hA h1 h2 h3
  obtain ⟨i', h4⟩ := h.hasProd h1
  obtain ⟨⟨j, q, hj, hq⟩, h5⟩ := hh A i' l b r (h.relevant hA) h4 (h.derives h2) (h.derives h3)
  refine ⟨?_, h5.imp id fun hn t x hx => hn t x (h.derives hx)⟩
  obtain ⟨q0, hq0⟩ := h3.has_prod (by simp)
  obtain ⟨d, hd, _⟩ := List.mem_flatMap.1 hq0
  obtain ⟨hd, hn⟩ := List.mem_filter.1 hd
  obtain ⟨d', hd', hs⟩ := h d hd
  have hn' : d'.name = b := by rw [hs.name]; simpa using hn
  have hm := List.mem_of_getElem? hj
  rw [← hn', userProds_of_mem hnd' hd'] at hm
  have hm' : q ∈ userProds defs b :=
    List.mem_flatMap.2 ⟨d, List.mem_filter.2 ⟨hd, hn⟩, hs.productions.mem_iff.1 hm⟩
  obtain ⟨j', hj'⟩ := List.mem_iff_getElem?.1 hm'
  exact ⟨j', q, hj', hq⟩

/-! ## Corresponding grammars -/

variable {P P' : Compiled X Ty V W Tok} {g g' : Grammar X Ty} {nts ts nts' ts' : AMap String Nat}
  {a a' : Automaton} {g1 g1' : Grammar Nat Ty} {T1 T1' : LRTable Nat}

/-- The same name. -/
def NameRel (g g' : Grammar X Ty) (nts nts' : AMap String Nat) (j j' : Nat) : Prop :=
  (∃ n, nts.get? n = some j ∧ nts'.get? n = some j') ∨
  ∃ nt nt', g.nonTerminals[j]? = some nt ∧ g'.nonTerminals[j']? = some nt' ∧
    nt.isPublic = true ∧ nt'.isPublic = true ∧ nt.name = nt'.name

/-- The same terminal. -/
def TermRel (ts ts' : AMap String Nat) (t t' : Nat) : Prop :=
  ∃ s, ts.get? s = some t ∧ ts'.get? s = some t'

variable {mkPath : String → X} {asts asts' : List (AstNonTerminal X Ty)}
  {convs convs' : List (Conversion Ty)}

omit [DecidableEq Ty] in
theorem NameRel.conv {j j' : Nat} (h : NameRel g g' nts nts' j j') : NameRel g' g nts' nts j' j := by
  rcases h with ⟨n, h1, h2⟩ | ⟨nt, nt', h1, h2, h3, h4, h5⟩
  · exact .inl ⟨n, h2, h1⟩
  · exact .inr ⟨nt', nt, h2, h1, h4, h3, h5.symm⟩

theorem TermRel.conv {t t' : Nat} (h : TermRel ts ts' t t') : TermRel ts' ts t' t := by
  obtain ⟨s, h1, h2⟩ := h
  exact ⟨s, h2, h1⟩

omit [DecidableEq Ty] in
theorem nameRel_fun (hl : Lowered mkPath asts convs g nts ts)
    (hl' : Lowered mkPath asts' convs' g' nts' ts') (hnd' : (asts'.map (·.name)).Nodup)
    {j k k' : Nat} (h1 : NameRel g g' nts nts' j k) (h2 : NameRel g g' nts nts' j k') : k = k' := by
  have priv : ∀ {n : String} {nt : NonTerminal X Ty}, nts.get? n = some j →
      g.nonTerminals[j]? = some nt → nt.isPublic = true → False := by
    intro n nt e1 e2 e3
    have := hl.named_private e1
    unfold Grammar.isPublic at this
    rw [e2] at this
    simp [e3] at this
  rcases h1 with ⟨n, a1, a2⟩ | ⟨nt, nt', a1, a2, a3, a4, a5⟩ <;>
    rcases h2 with ⟨m, b1, b2⟩ | ⟨mt, mt', b1, b2, b3, b4, b5⟩
  · cases hl.inj a1 b1
    rw [a2] at b2; cases b2; rfl
  · exact (priv a1 b1 b3).elim
  · exact (priv b1 a1 a3).elim
  · rw [a1] at b1; cases b1
    exact hl'.pub_unique hnd' a2 b2 a4 b4 (a5.symm.trans b5)

theorem termRel_fun {l : List String} (hl : TermMap l ts) {t k k' : Nat}
    (h1 : TermRel ts ts' t k) (h2 : TermRel ts ts' t k') : k = k' := by
  obtain ⟨s, a1, a2⟩ := h1
  obtain ⟨s', b1, b2⟩ := h2
  have e1 := (hl s t).1 a1
  have e2 := (hl s' t).1 b1
  rw [e1] at e2; cases e2
  rw [a2] at b2; cases b2; rfl

omit [DecidableEq Ty] in
theorem lowersProd_corr {q : AstProduction X} {pr pr' : Production X}
    (h : LowersProd nts ts q pr) (h' : LowersProd nts' ts' q pr') :
    ProdCorr (NameRel g g' nts nts') (TermRel ts ts') pr pr' := by
  obtain ⟨h1, h2⟩ := h
  obtain ⟨h1', h2'⟩ := h'
  refine ⟨?_, ?_⟩
  · generalize q.symbols = l, pr.symbols = m, pr'.symbols = m' at h1 h1' ⊢
    clear h2 h2'
    induction h1 generalizing m' with
    | nil => cases h1'; exact .nil
    | @cons s b _ _ h3 _ ih =>
      cases h1' with
      | @cons _ b' _ _ h4 h5 =>
        refine .cons ⟨?_, ?_⟩ (ih _ h5)
        · rw [h3.boundName, h4.boundName]
        · obtain ⟨_, h3⟩ := h3
          obtain ⟨_, h4⟩ := h4
          rcases h3 with ⟨n, i, e1, e2, e3⟩ | ⟨n, i, e1, e2, e3⟩ <;>
            rcases h4 with ⟨m, k, f1, f2, f3⟩ | ⟨m, k, f1, f2, f3⟩ <;>
            rw [e1] at f1 <;> cases f1 <;> rw [e3, f3]
          · exact .inl ⟨n, e2, f2⟩
          · exact ⟨n, e2, f2⟩
  · rw [h2] at h2'
    exact AstAction.infallible.inj h2'

omit [DecidableEq Ty] in
theorem gcorr_fwd (hl : Lowered mkPath asts convs g nts ts)
    (hl' : Lowered mkPath asts' convs' g' nts' ts') (hnd : (asts.map (·.name)).Nodup)
    (hnd' : (asts'.map (·.name)).Nodup) (hsd : SameDefinitions asts asts')
    {b b' p : Nat} {pr : Production X} (hb : NameRel g g' nts nts' b b')
    (hp : g.getProduction? b p = some pr) :
    ∃ p' pr', g'.getProduction? b' p' = some pr' ∧
      ProdCorr (NameRel g g' nts nts') (TermRel ts ts') pr pr' := by
  rcases hb with ⟨n, a1, a2⟩ | ⟨nt, nt', a1, a2, a3, a4, a5⟩
  · obtain ⟨q, pr0, h1, h2, h3, _⟩ := hl.hasProd_user a1 (hasProd_getProduction.2 ⟨pr, hp, rfl⟩)
    rw [hp] at h3; cases h3
    have hq : q ∈ userProds asts n := List.mem_of_getElem? h1
    rw [hsd n ((hl.idx n).1 ⟨_, a1⟩) ((hl'.idx n).1 ⟨_, a2⟩)] at hq
    obtain ⟨p', hp'⟩ := List.mem_iff_getElem?.1 hq
    obtain ⟨pr', h4, h5, _⟩ := hl'.user_hasProd a2 hp'
    exact ⟨p', pr', h5, lowersProd_corr h2 h4⟩
  · obtain ⟨c, c1, c2⟩ := hl.entry_name hnd a1 a3
    obtain ⟨c', c1', c2'⟩ := hl'.entry_name hnd' a2 a4
    have key : ∀ {g : Grammar X Ty} {nts ts : AMap String Nat} {asts convs}
        (_ : Lowered mkPath asts convs g nts ts) {E c : Nat} {nt : NonTerminal X Ty}
        (_ : g.nonTerminals[E]? = some nt) (_ : nt.isPublic = true)
        (_ : g.HasProd E 0 [.nonTerminal c]), nt.productions = [wrapperProd mkPath c] := by
      intro g nts ts asts convs hl E c nt e1 e2 e3
      obtain ⟨_, d, _, _, _, _, _, e4, _⟩ := hl.pub e1 e2
      obtain ⟨n0, pr0, f1, f2, f3⟩ := e3
      rw [e1] at f1; cases f1
      rw [e4] at f2; cases f2
      simp only [wrapperProd, List.map_cons, List.map_nil, List.cons.injEq, and_true,
        Symbol.nonTerminal.injEq] at f3
      rw [f3]; exact e4
    have w := key hl a1 a3 c2
    have w' := key hl' a2 a4 c2'
    have hpr : pr = wrapperProd mkPath c := by
      unfold Grammar.getProduction? at hp
      rw [a1] at hp
      simp only [Option.bind_some, w] at hp
      have := List.mem_of_getElem? hp
      simpa using this
    subst hpr
    refine ⟨0, wrapperProd mkPath c', ?_, ?_, rfl⟩
    · unfold Grammar.getProduction?
      rw [a2]
      simp [w']
    · exact .cons ⟨rfl, .inl ⟨nt.name, c1, by rw [a5]; exact c1'⟩⟩ .nil

omit [DecidableEq Ty] in
theorem Lowered.gcorr (hl : Lowered mkPath asts convs g nts ts)
    (hl' : Lowered mkPath asts' convs' g' nts' ts') (hnd : (asts.map (·.name)).Nodup)
    (hnd' : (asts'.map (·.name)).Nodup) (hsd : SameDefinitions asts asts') :
    GCorr g g' (NameRel g g' nts nts') (TermRel ts ts') where
  nt_fun h1 h2 := nameRel_fun hl hl' hnd' h1 h2
  nt_inj h1 h2 := nameRel_fun hl' hl hnd h1.conv h2.conv
  t_fun h1 h2 := termRel_fun hl.tmap h1 h2
  t_inj h1 h2 := termRel_fun hl'.tmap h1.conv h2.conv
  pub {j j'} h := by
    rcases h with ⟨n, a1, a2⟩ | ⟨nt, nt', a1, a2, a3, a4, a5⟩
    · rw [hl.named_private a1, hl'.named_private a2]
    · unfold Grammar.isPublic; rw [a1, a2]; simp [a3, a4]
  fwd hb hp := gcorr_fwd hl hl' hnd hnd' hsd hb hp
  bwd {b b' p' pr'} hb hp := by
    obtain ⟨p, pr, h1, h2⟩ := gcorr_fwd hl' hl hnd' hnd hsd.symm hb.conv hp
    refine ⟨p, pr, h1, ?_⟩
    obtain ⟨h3, h4⟩ := h2
    refine ⟨?_, h4.symm⟩
    generalize pr.symbols = l, pr'.symbols = l' at h3 ⊢
    induction h3 with
    | nil => exact .nil
    | @cons s s' _ _ h _ ih =>
      refine .cons ⟨h.1.symm, ?_⟩ ih
      have h := h.2
      generalize s.symbol = x, s'.symbol = x' at h ⊢
      cases x <;> cases x' <;> first | exact NameRel.conv h | exact TermRel.conv h | exact h
  name := by
    rintro t t' ⟨s, h1, h2⟩
    exact ⟨s, (hl.tmap s t).1 h1, (hl'.tmap s t').1 h2⟩

omit [DecidableEq Ty] in
theorem nameRel_lt (hl' : Lowered mkPath asts' convs' g' nts' ts') {j j' : Nat}
    (h : NameRel g g' nts nts' j j') : j' < g'.nNonTerminals := by
  rcases h with ⟨n, _, a2⟩ | ⟨nt, nt', _, a2, _⟩
  · obtain ⟨nt, _, h1, _⟩ := hl'.prods a2
    exact (List.getElem?_eq_some_iff.1 h1).1
  · exact (List.getElem?_eq_some_iff.1 a2).1

/-- Two compiled programs that agree on common names. -/
theorem Setup.genCorr (S : Setup P g nts ts a g1 T1) (S' : Setup P' g' nts' ts' a' g1' T1')
    (hcode : P'.code = P.code) (hnd : (P.defs.map (·.name)).Nodup)
    (hnd' : (P'.defs.map (·.name)).Nodup) (hsd : SameDefinitions P.defs P'.defs)
    (hh : UHarmless P.defs) (hh' : UHarmless P'.defs) :
    GenCorr P.order P'.order g g' P.gen P'.gen a a' g1 g1' T1 T1' (NameRel g g' nts nts')
      (TermRel ts ts') := by
  have hl' : Lowered P.code.mkPath P'.defs P'.tokens.conversions g' nts' ts' := by
    rw [← hcode]; exact S'.lowered
  have hc := S.lowered.gcorr hl' hnd hnd' hsd
  refine ⟨S.stages, S'.stages, S.wf, S'.wf, hc, ?_, ?_⟩
  · exact hc.fcorr (generateFirstTable_sound _ _)
      (generateFirstTable_sound _ _)
      (generateFirstTable_enough S'.wf (S'.lowered.harmless S'.wf hh') P'.order)
  · exact hc.symm.fcorr (generateFirstTable_sound _ _) (generateFirstTable_sound _ _)
      (generateFirstTable_enough S.wf (S.lowered.harmless S.wf hh) P.order)

/-- From corresponding grammars to corresponding runs. -/
theorem Setup.runCorr_of (S : Setup P g nts ts a g1 T1) (S' : Setup P' g' nts' ts' a' g1' T1')
    (hC : GenCorr P.order P'.order g g' P.gen P'.gen a a' g1 g1' T1 T1' (NameRel g g' nts nts')
      (TermRel ts ts'))
    (hcls : ∀ t, P'.cls t = P.cls t) (hfields : ∀ t, P'.fields t = P.fields t)
    {ep ep' : EntryPoint} (hep : ep ∈ P.gen.entries) (hep' : ep' ∈ P'.gen.entries)
    (hname : ep'.name = ep.name) :
    ∃ e e', RunCorr P.order P'.order g g' P.gen P'.gen a a' g1 g1' T1 T1' (NameRel g g' nts nts')
      (TermRel ts ts') P.tf P'.tf e e' ep ep' := by
  obtain ⟨e, nt, h1, h2, h3, h4, h5, h6, h7⟩ := S.run hep
  obtain ⟨e', nt', h1', h2', h3', h4', h5', h6', h7'⟩ := S'.run hep'
  refine ⟨e, e', hC, S.cons, S'.cons, ?_, ?_, ?_, ?_, ?_, h4, h5, h5',
    h6, h6', h7, h7'⟩
  · intro t
    have k := S.cls t
    have k' := S'.cls t
    rw [hcls] at k'
    exact ⟨P.cls t, (S.lowered.tmap _ _).2 k, (S'.lowered.tmap _ _).2 k'⟩
  · rw [S.fields, S'.fields]; funext t; exact (hfields t).symm
  · rw [S.lowered.terminals]; exact S.lowered.tnodup
  · rw [S'.lowered.terminals]; exact S'.lowered.tnodup
  · exact .inr ⟨nt, nt', h1, h1', h2, h2', by rw [h3, h3', hname]⟩

/-- From corresponding grammars to the same behaviour. -/
theorem Setup.sameBehaviour (S : Setup P g nts ts a g1 T1) (S' : Setup P' g' nts' ts' a' g1' T1')
    (hC : GenCorr P.order P'.order g g' P.gen P'.gen a a' g1 g1' T1 T1' (NameRel g g' nts nts')
      (TermRel ts ts')) (hcode : P'.code = P.code)
    (hcls : ∀ t, P'.cls t = P.cls t) (hfields : ∀ t, P'.fields t = P.fields t)
    {ep ep' : EntryPoint} (hep : ep ∈ P.gen.entries) (hep' : ep' ∈ P'.gen.entries)
    (hname : ep'.name = ep.name) : SameBehaviour P P' ep ep' := by
  obtain ⟨e, e', hR⟩ := S.runCorr_of S' hC hcls hfields hep hep' hname
  intro E input w w' n
  have ht : g.terminals = P.terms := S.lowered.terminals
  have ht' : g'.terminals = P'.terms := S'.lowered.terminals
  refine ⟨?_, ?_⟩
  · rintro o ⟨fuel, s, h1, h2, h3⟩
    rcases hR.parse P.code input w fuel with ⟨h4, _⟩ | ⟨o1, o', t, t', h4, h5, h6, h7, h8⟩
    · rw [h1] at h4; cases h4
    · rw [h1] at h4; cases h4
      rw [ht, ht'] at h6
      rw [← hcode] at h5
      exact ⟨o', h6, fuel, t', h5, by rw [← h7, h2], by rw [← h8, h3]⟩
  · rintro o ⟨fuel, s, h1, h2, h3⟩
    rw [hcode] at h1
    rcases hR.parse P.code input w fuel with ⟨_, h4⟩ | ⟨o1, o', t, t', h4, h5, h6, h7, h8⟩
    · rw [h1] at h4; cases h4
    · rw [h1] at h5; cases h5
      rw [ht, ht'] at h6
      exact ⟨o1, h6, fuel, t, h4, by rw [h7, h2], by rw [h8, h3]⟩

end Parsegen
