import Verif.Proofs.EmitRun
import Verif.Spec.EmitRun
import Verif.Proofs.Compiled

/-! # The emitted module of a compiled program -/

namespace Parsegen

variable {X Ty V W Tok E : Type} [DecidableEq Ty]

omit [DecidableEq Ty] in
theorem runIdxArms_eq (cs : List (Conversion Ty)) (i : Nat) (v : RVal) :
    runIdxArms ((cs.zipIdx i).map fun e => (patternIgnore e.1.to, e.2)) v =
      match tokenTerminalIdx cs i v with
      | none => .error .noCompile
      | some k => .ok k := by
  induction cs generalizing i with
  | nil => rfl
  | cons c cs ih =>
    rw [List.zipIdx_cons, List.map_cons]
    unfold runIdxArms tokenTerminalIdx
    simp only
    cases matchR (patternIgnore c.to) v with
    | none => exact ih (i + 1)
    | some b => rfl

omit [DecidableEq Ty] in
theorem mapM_some_length {α β : Type} {f : α → Option β} {l : List α} {r : List β}
    (h : l.mapM f = some r) : r.length = l.length := by
  induction l generalizing r with
  | nil => simp at h; subst h; rfl
  | cons a l ih =>
    rw [List.mapM_cons] at h
    cases ha : f a with
    | none => rw [ha] at h; simp at h
    | some b =>
      rw [ha] at h
      cases hl : l.mapM f with
      | none => rw [hl] at h; simp at h
      | some bs =>
        rw [hl] at h
        simp at h
        subst h
        simp [ih hl]

theorem Sim.runValueArms {lc : String → String} {g : Grammar X Ty} {tokens : TokenEnum Ty}
    {m : EModule X Ty} {gen : Generated X} {us : List Ty} (S : Sim lc g tokens m gen us)
    (inj : RVal → V) (pre cs : List (Conversion Ty)) (hc : tokens.conversions = pre ++ cs) (v : RVal)
    {r : SAR RVal} (hv : tokenValue cs pre.length v = some r) :
    m.runValueArms inj ((cs.zipIdx pre.length).map fun e => (⟨(patternIdents e.1.to 0).1,
        tokenVariant e.2, (List.range (patternIdents e.1.to 0).2).map fieldIdent⟩ : EValueArm)) v =
      .ok (r.map inj).enc ∧ (r.map inj).Valid tokens.conversions us := by
  induction cs generalizing pre with
  | nil => cases hv
  | cons c cs ih =>
    rw [List.zipIdx_cons, List.map_cons]
    unfold EModule.runValueArms
    unfold tokenValue at hv
    simp only at hv ⊢
    cases hm : matchR (patternIdents c.to 0).1 v with
    | none =>
      rw [hm] at hv
      have := ih (pre ++ [c]) (by simp [hc]) (by simpa using hv)
      simpa using this
    | some b =>
      rw [hm] at hv
      simp only [Option.map_eq_some_iff] at hv
      obtain ⟨vs, h1, rfl⟩ := hv
      simp only [h1]
      have hget : tokens.conversions[pre.length]? = some c := by rw [hc]; simp
      have hlen : (vs.map inj).length = (patternTypes c.to).length := by
        have := mapM_some_length h1
        rw [List.length_map, this]; simp [patternIdents_count]
      exact ⟨S.construct_token hget hlen, c, hget, hlen⟩

omit [DecidableEq Ty] in
/-- The production bindings of the lowered grammar. -/
theorem Lowered.binders {mkPath : String → X} {asts : List (AstNonTerminal X Ty)}
    {convs : List (Conversion Ty)} {g : Grammar X Ty} {nts ts : AMap String Nat}
    (hl : Lowered mkPath asts convs g nts ts) {e : Nat × Nat × Production X} (he : e ∈ g.listing) :
    e.2.2.binders = ["x"] ∨ ∃ d ∈ asts, ∃ p ∈ d.productions,
      e.2.2.binders = p.symbols.filterMap AstSymbol.boundName := by
  have hpr := mem_listing he
  unfold Grammar.getProduction? at hpr
  obtain ⟨nt, h1, h2⟩ := Option.bind_eq_some_iff.1 hpr
  cases hp : nt.isPublic with
  | true =>
    obtain ⟨a, b, n', _, _, _, _, h3, _⟩ := hl.pub h1 hp
    rw [h3] at h2
    have : e.2.2 = wrapperProd mkPath b := by
      have := List.mem_of_getElem? h2
      simpa using this
    left
    rw [this]; rfl
  | false =>
    right
    by_cases hn : ∃ n, nts.get? n = some e.1
    · obtain ⟨n, hn⟩ := hn
      obtain ⟨nt', a, h3, h4, h5, _, _, h6⟩ := hl.prods hn
      rw [h1] at h3; cases h3
      obtain ⟨p, hp1, hp2⟩ := forall₂_getElem?' h6 h2
      have hp3 := List.mem_of_getElem? hp1
      unfold userProds at hp3
      obtain ⟨d, hd, hpd⟩ := List.mem_flatMap.1 hp3
      refine ⟨d, (List.mem_filter.1 hd).1, p, hpd, ?_⟩
      have key : ∀ {ss : List AstSymbol} {bs : List BoundSymbol},
          List.Forall₂ (LowersSym nts ts) ss bs →
          bs.filterMap (fun s => s.binder.map (·.name)) = ss.filterMap AstSymbol.boundName := by
        intro ss bs hs
        induction hs with
        | nil => rfl
        | cons h _ ih => rw [List.filterMap_cons, List.filterMap_cons, ih, h.boundName]
      exact key hp2.1
    · have := hl.priv h1 hp (fun n h => hn ⟨n, h⟩)
      rw [this] at h2
      simp at h2

/-- The simulation applies to every module emitted for a lowered grammar. -/
theorem sim_of_lowered {h : HashOrder} {lc : String → String} {mkPath : String → X}
    {asts : List (AstNonTerminal X Ty)} {tokens : TokenEnum Ty} {g : Grammar X Ty}
    {nts ts : AMap String Nat} {m : EModule X Ty} {gen : Generated X}
    (hl : Lowered mkPath asts tokens.conversions g nts ts) (hm : emitParser h lc g tokens = .ok m)
    (hrel : ModRel lc g tokens m gen) (hgen : generateParser h g = .ok gen)
    (hb : NoStackBinder asts) : ∃ us, Sim lc g tokens m gen us := by
  obtain ⟨us, hu⟩ := ntTypes g tokens.conversions
  refine ⟨us, hrel, hu, fns_names_nodup hm, ?_⟩
  intro f hf
  obtain ⟨a, g', T, hst⟩ := generateParser_ok hgen
  obtain ⟨_, _, hlen, hall⟩ := generateSemanticActionTable_ok hst.sem
  -- the production of `f`
  obtain ⟨k, hk⟩ := List.getElem?_of_mem hf
  have hkl : k < g.listing.length := by
    have h1 := (List.getElem?_eq_some_iff.1 hk).1
    have h2 := (listing_aux g.nonTerminals 0).1
    rw [hlen] at h1
    simpa [Grammar.listing, Grammar.nNonTerminals, h2] using h1
  obtain ⟨⟨nt, p, pr⟩, he⟩ : ∃ e, g.listing[k]? = some e := ⟨_, List.getElem?_eq_getElem hkl⟩
  have hmem := List.mem_of_getElem? he
  have hpr := mem_listing hmem
  obtain ⟨_, f', hf', hsem⟩ := hall _ _ _ hpr
  have hki := listing_index he
  simp only at hpr hf' hsem
  rw [← hki, hk] at hf'
  cases hf'
  have hvar : ∀ (b kk : Nat), (semanticActionVariants g)[b]? = some kk → kk < us.length := by
    intro b kk hb
    have hbl : b < g.nonTerminals.length := by
      have := (List.getElem?_eq_some_iff.1 hb).1
      obtain ⟨ff, hff, _⟩ := semanticActionVariants_spec g
      rw [hff] at this
      simpa using this
    have := hu.num b _ kk (List.getElem?_eq_getElem hbl) hb
    exact (List.getElem?_eq_some_iff.1 this).1
  refine ⟨hvar nt f.variant hsem.variant, ?_⟩
  intro n ex hn
  have hpops := hsem.pops
  rw [popStmts_mapM] at hpops
  have hF := mapM_ok_iff.1 hpops
  obtain ⟨i, hi⟩ := List.getElem?_of_mem hn
  obtain ⟨bs, hbs, hst'⟩ := forall₂_getElem?' hF hi
  have hbm : bs ∈ pr.symbols := by simpa using List.mem_of_getElem? hbs
  unfold popStmt at hst'
  cases hbn : bs.binder with
  | none => rw [hbn] at hst'; cases hst'
  | some nm =>
    rw [hbn] at hst'
    have hprod : g.HasProd nt p (pr.symbols.map (·.symbol)) := by
      unfold Grammar.getProduction? at hpr
      obtain ⟨n', h1, h2⟩ := Option.bind_eq_some_iff.1 hpr
      exact ⟨n', pr, h1, h2, rfl⟩
    have hname : nm.name ∈ pr.binders :=
      List.mem_filterMap.2 ⟨bs, hbm, by rw [hbn]; rfl⟩
    have hne : nm.name ≠ "value_stack" := by
      intro e
      rcases hl.binders hmem with h1 | ⟨d, hd, q, hq, h1⟩
      · simp only at h1
        rw [h1, e] at hname
        exact absurd hname (by decide)
      · simp only at h1
        rw [h1] at hname
        obtain ⟨s, hs, hs'⟩ := List.mem_filterMap.1 hname
        exact hb d hd q hq s hs (by rw [hs', e])
    cases hsy : bs.symbol with
    | terminal t =>
      rw [hsy] at hst'
      cases hst'
      refine ⟨hne, ?_⟩
      have := hl.wf.term_lt hprod (t := t) (List.mem_map.2 ⟨bs, hbm, hsy⟩)
      rw [Grammar.nTerminals, hl.terminals, List.length_map] at this
      exact this
    | nonTerminal b =>
      rw [hsy] at hst'
      cases hv : (semanticActionVariants g)[b]? with
      | none => simp only [hv] at hst'; cases hst'
      | some kk =>
        simp only [hv] at hst'
        cases hst'
        exact ⟨hne, hvar b kk hv⟩

/-- Whenever the macro succeeds, it emits a module, and only then. -/
theorem emitMacro_rel (h : HashOrder) (lc : String → String) (mkPath : String → X)
    (items : List (GrammarItem X Ty)) :
    FailRel (fun m r => ∃ g, lower mkPath (itemNonTerminals items) r.2.conversions = .ok g ∧
        emitParser h lc g r.2 = .ok m ∧ generateParser h g = .ok r.1 ∧ ModRel lc g r.2 m r.1)
      (emitMacro h lc mkPath items) (parserMacro h mkPath items) := by
  unfold emitMacro parserMacro
  cases hi : macroItems items with
  | error e => exact .error e
  | ok r =>
    obtain ⟨nts, t⟩ := r
    simp only [Except.bind_ok]
    cases hl : lower mkPath nts t.conversions with
    | error e => exact .error e
    | ok g =>
      simp only [Except.bind_ok]
      have hr := emitParser_rel h lc g t
      cases hg : generateParser h g with
      | error e =>
        rw [hg] at hr
        cases he : emitParser h lc g t with
        | ok m => rw [he] at hr; cases hr
        | error e' => rw [he] at hr; cases hr; exact .error e
      | ok gen =>
        obtain ⟨m, hm, hrel⟩ := hr.right hg
        rw [hm]
        refine .ok ⟨g, ?_, hm, hg, hrel⟩
        have : nts = itemNonTerminals items := by
          exact ((macroItems_iff items nts t).1 hi).1
        rw [← this]; exact hl

theorem Compiled.emits_rel {P : Compiled X Ty V W Tok} {lc : String → String} {m : EModule X Ty}
    (hm : P.Emits lc m) : ∃ g, lower P.code.mkPath P.defs P.tokens.conversions = .ok g ∧
      emitParser P.order lc g P.tokens = .ok m ∧ generateParser P.order g = .ok P.gen ∧
      ModRel lc g P.tokens m P.gen := by
  obtain ⟨r, h1, g, h2⟩ := (emitMacro_rel P.order lc P.code.mkPath P.items).left hm
  rw [P.accepted] at h1
  cases h1
  exact ⟨g, h2⟩

theorem Sim.tokSim {lc : String → String} {g : Grammar X Ty} {m : EModule X Ty} {us : List Ty}
    {P : Compiled X Ty V W Tok} (S : Sim lc g P.tokens m P.gen us) :
    TokSim P.tokens us m P.toR P.inj P.tf := by
  have hval : ∀ t, m.callValue P.inj (P.toR t) = .ok (P.tf.value t).enc ∧
      (P.tf.value t).Valid P.tokens.conversions us := by
    intro t
    obtain ⟨r, h1, h2⟩ := Option.map_eq_some_iff.1 (P.value t)
    have := S.runValueArms P.inj [] P.tokens.conversions (by simp) (P.toR t) (r := r) (by simpa using h1)
    rw [h2] at this
    unfold EModule.callValue
    rw [if_pos S.rel.valueCall, S.rel.valueArms]
    exact this
  refine ⟨fun t => ?_, fun t => (hval t).1, fun t => (hval t).2⟩
  unfold EModule.callIdx
  rw [if_pos S.rel.idxCall, S.rel.idxArms]
  unfold emitIdxArms
  rw [runIdxArms_eq, P.idx t]

omit [DecidableEq Ty] in
theorem forall₂_imp_mem {α β : Type} {R S : α → β → Prop} {l : List α} {l' : List β}
    (h : List.Forall₂ R l l') (hi : ∀ a b, a ∈ l → b ∈ l' → R a b → S a b) :
    List.Forall₂ S l l' := by
  induction h with
  | nil => exact .nil
  | cons h _ ih =>
    exact .cons (hi _ _ (by simp) (by simp) h)
      (ih fun a b ha hb => hi a b (by simp [ha]) (by simp [hb]))

/-- Runs by name and runs by index agree, step budget by step budget. -/
theorem Compiled.emit_parse {P : Compiled X Ty V W Tok} {lc : String → String} {m : EModule X Ty}
    (hm : P.Emits lc m) (hb : NoStackBinder P.defs) :
    List.Forall₂ (fun s ep => s.name = ep.name ∧
      ∀ (E : Type) (input : Nat → Option (Except E Tok)) (w : W) (fuel : Nat),
        m.parse P.code P.toR P.inj input s w fuel =
          (Parsegen.parse P.gen P.code P.tf input ep w fuel).map fun r => (some r.1, r.2.enc))
      m.structs P.gen.entries := by
  obtain ⟨g, h1, h2, h3, hrel⟩ := P.emits_rel hm
  have hF := hrel.structs
  refine forall₂_imp_mem hF ?_
  intro s ep _ hep hs
  obtain ⟨g0, nts, ts, a, g', T, S⟩ := P.setup hep
  have hg : g0 = g := by
    have := S.lower; rw [h1] at this; exact (Except.ok.inj this).symm
  subst hg
  obtain ⟨us, hsim⟩ := sim_of_lowered S.lowered h2 hrel h3 hb
  refine ⟨hs.name, fun E input w fuel => ?_⟩
  refine hsim.parse P.code hsim.tokSim input hs ?_ w fuel
  obtain ⟨e, nt, hnt, _, _, _, _, hext, _⟩ := S.run hep
  have := hsim.types.num e nt _ hnt hext
  exact (List.getElem?_eq_some_iff.1 this).1

end Parsegen
