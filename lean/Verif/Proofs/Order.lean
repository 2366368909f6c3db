import Verif.Proofs.OrderFirst
import Verif.Proofs.Conflict

/-! # Closures, automaton and tables do not depend on the iteration order -/

namespace Parsegen

variable {A Ty : Type} {g : Grammar A Ty} {F F' : FirstTable}

theorem FirstTable.Same.symm (hs : F.Same F') : F'.Same F :=
  ⟨hs.len.symm, fun nt => (hs.empty nt).symm, fun nt t => (hs.mem nt t).symm⟩

theorem InFirst.same (hs : F.Same F') {la c : Option Nat} {β : List Symbol}
    (h : InFirst F la β c) : InFirst F' la β c := by
  induction h with
  | nil => exact .nil
  | term t ss => exact .term t ss
  | nt h => exact .nt ((hs.mem _ _).1 h)
  | skip he _ ih => exact .skip ((hs.empty _).symm.trans he) ih

theorem Clo.same (hs : F.Same F') {K : Item → Prop} {x : Item} (h : Clo g F K x) :
    Clo g F' K x := by
  induction h with
  | base h => exact .base h
  | pred _ hp hq hf ih => exact .pred ih hp hq (hf.same hs)

theorem ItemsAt.same (hs : F.Same F') {E : Nat} {γ : List Symbol} {x : Item}
    (h : ItemsAt g F E γ x) : ItemsAt g F' E γ x := by
  induction h with
  | entry => exact .entry
  | advance _ hp ih => exact .advance ih hp
  | pred _ hp hq hf ih => exact .pred ih hp hq (hf.same hs)

theorem computeClosure_same (hwf : g.WF) (hF : F.Ok g.nTerminals) (hF' : F'.Ok g.nTerminals)
    (hs : F.Same F') (h h' : HashOrder) {I : List Item} (hla : ∀ x ∈ I, LaOk g.nTerminals x.la) :
    computeClosure h g F I = computeClosure h' g F' I := by
  refine BTSorted.ext (computeClosure_sorted h F I) (computeClosure_sorted h' F' I) ?_
  intro x
  rw [mem_computeClosure hwf hF h hla, mem_computeClosure hwf hF' h' hla]
  exact ⟨fun h => h.same hs, fun h => h.same hs.symm⟩

theorem computeGoto_same (hwf : g.WF) (hF : F.Ok g.nTerminals) (hF' : F'.Ok g.nTerminals)
    (hs : F.Same F') (h h' : HashOrder) {I : List Item} (hla : ∀ x ∈ I, LaOk g.nTerminals x.la)
    (X : Symbol) : computeGoto h g F I X = computeGoto h' g F' I X := by
  refine BTSorted.ext (computeGoto_sorted h F I X) (computeGoto_sorted h' F' I X) ?_
  intro x
  rw [mem_computeGoto hwf hF h hla, mem_computeGoto hwf hF' h' hla]
  exact ⟨fun h => h.same hs, fun h => h.same hs.symm⟩

theorem initStates_same (hwf : g.WF) (hF : F.Ok g.nTerminals) (hF' : F'.Ok g.nTerminals)
    (hs : F.Same F') (h h' : HashOrder) (l : List (NonTerminal A Ty × Nat)) :
    ∀ s, initStates h g F l s = initStates h' g F' l s := by
  induction l with
  | nil => intro s; rfl
  | cons e l ih =>
    intro s
    obtain ⟨n, nt⟩ := e
    obtain ⟨st, en⟩ := s
    have hc : computeClosure h g F [⟨nt, 0, 0, none⟩] = computeClosure h' g F' [⟨nt, 0, 0, none⟩] :=
      computeClosure_same hwf hF hF' hs h h' (by
        intro x hx
        rw [List.mem_singleton] at hx
        subst hx
        intro t ht; cases ht)
    simp only [initStates, hc, ih]

theorem foldl_congr' {α β : Type} {f f' : β → α → β} (l : List α)
    (hf : ∀ a ∈ l, ∀ b, f b a = f' b a) : ∀ b, l.foldl f b = l.foldl f' b := by
  induction l with
  | nil => intro b; rfl
  | cons a l ih =>
    intro b
    rw [List.foldl_cons, List.foldl_cons, hf a (List.mem_cons_self ..)]
    exact ih (fun a' ha' => hf a' (List.mem_cons_of_mem _ ha')) _

theorem passAll_same (hwf : g.WF) (hF : F.Ok g.nTerminals) (hF' : F'.Ok g.nTerminals)
    (hs : F.Same F') (h h' : HashOrder) {st : AutoState} (hst : AutoInv h g F st) :
    passAll h g F st = passAll h' g F' st := by
  rw [passAll_eq, passAll_eq]
  refine foldl_congr' _ ?_ _
  rintro ⟨s, i, X⟩ hm ps
  obtain ⟨h1, _⟩ := mem_passPairs.1 hm
  have hla : ∀ x ∈ s.items, LaOk g.nTerminals x.la := fun x hx =>
    ((hst.reach i s h1).itemOk hwf hF x hx).2.2
  simp only [passSymbol, computeGoto_same hwf hF hF' hs h h' hla]

theorem autoPass_same (hwf : g.WF) (hF : F.Ok g.nTerminals) (hF' : F'.Ok g.nTerminals)
    (hs : F.Same F') (h h' : HashOrder) {st : AutoState} (hst : AutoInv h g F st) :
    autoPass h g F st = autoPass h' g F' st := by
  unfold autoPass
  rw [passAll_same hwf hF hF' hs h h' hst]

theorem generateAutomaton_same (hwf : g.WF) (hF : F.Ok g.nTerminals) (hF' : F'.Ok g.nTerminals)
    (hs : F.Same F') (h h' : HashOrder) :
    generateAutomaton h g F = generateAutomaton h' g F' := by
  unfold generateAutomaton
  rw [← initStates_same hwf hF hF' hs h h']
  obtain ⟨st, en, h1, h2⟩ := initStates_spec hwf hF h
  rw [h1, Except.bind_ok, Except.bind_ok]
  have := whileUpdated_rel (R := fun s s' => s = s' ∧ AutoInv h g F s) (body := autoPass h g F)
    (body' := autoPass h' g F') (by
      rintro s s' ⟨rfl, hst⟩
      rw [← autoPass_same hwf hF hF' hs h h' hst]
      exact ⟨⟨rfl, (autoPass_inv hwf hF hst).1⟩, rfl⟩) (autoFuel g) (s := st) (s' := st) ⟨rfl, h2.inv⟩
  simp only [this.1.1, this.2]

/-- Tables that answer every lookup in the same way. -/
structure LRTable.Same (T T' : LRTable A) : Prop where
  action : T.action = T'.action
  nStates : T.nStates = T'.nStates
  goto : ∀ k, T.goto.get? k = T'.goto.get? k

theorem AMap.get?_perm {K V : Type} [DecidableEq K] {m m' : AMap K V} (hn : (m.map (·.1)).Nodup)
    (hp : m.Perm m') (k : K) : m.get? k = m'.get? k := by
  have hn' : (m'.map (·.1)).Nodup := ((hp.map _).nodup_iff).1 hn
  apply Option.ext
  intro v
  rw [← AMap.mem_iff_get? hn, ← AMap.mem_iff_get? hn', hp.mem_iff]

theorem gotos_fold (i : Nat) : ∀ (l : AMap Symbol Nat) (T : LRTable A), (l.map (·.1)).Nodup →
    ∀ k, (l.foldl (fun t e => match e.1 with
      | .nonTerminal b => t.addGoto i b e.2
      | .terminal _ => t) T).goto.get? k =
      if k.1 = i then (AMap.get? l (.nonTerminal k.2)).or (T.goto.get? k) else T.goto.get? k := by
  intro l
  induction l with
  | nil => intro T _ k; simp
  | cons e l ih =>
    intro T hn k
    obtain ⟨X, r⟩ := e
    obtain ⟨j, b⟩ := k
    simp only [List.map_cons, List.nodup_cons] at hn
    rw [List.foldl_cons, ih _ hn.2]
    cases X with
    | terminal t => simp [AMap.get?]
    | nonTerminal b' =>
      simp only [LRTable.addGoto, AMap.get?_insert, AMap.get?, Prod.mk.injEq,
        Symbol.nonTerminal.injEq]
      by_cases hj : j = i
      · subst hj
        by_cases hb : b' = b
        · subst hb
          have : AMap.get? l (.nonTerminal b') = none := AMap.get?_eq_none_iff.2 hn.1
          simp [this]
        · simp [hb]
      · simp [hj, Ne.symm hj]

theorem ruleGotos_same (h h' : HashOrder) (i : Nat) {st : LR1State}
    (hn : (st.goto.map (·.1)).Nodup) {T T' : LRTable A} (hT : T.Same T') :
    (ruleGotos h i st T).Same (ruleGotos h' i st T') := by
  obtain ⟨a1, a2, _⟩ := ruleGotos_spec h i st T
  obtain ⟨b1, b2, _⟩ := ruleGotos_spec h' i st T'
  refine ⟨a1.trans (hT.action.trans b1.symm), a2.trans (hT.nStates.trans b2.symm), fun k => ?_⟩
  unfold ruleGotos
  have hp := h.perm st.goto
  have hp' := h'.perm st.goto
  have n1 : ((h.iter st.goto).map (·.1)).Nodup := ((hp.map _).nodup_iff).2 hn
  have n2 : ((h'.iter st.goto).map (·.1)).Nodup := ((hp'.map _).nodup_iff).2 hn
  refine (gotos_fold i _ T n1 k).trans (Eq.trans ?_ (gotos_fold i _ T' n2 k).symm)
  rw [hT.goto, AMap.get?_perm n1 (hp.trans hp'.symm)]

/-- Both succeed with related results or both fail alike. -/
inductive ExRel {α β : Type} (R : α → β → Prop) : Except Fault α → Except Fault β → Prop
  | ok {a b} (h : R a b) : ExRel R (.ok a) (.ok b)
  | error (f) : ExRel R (.error f) (.error f)

theorem ExRel.bind {α β α' β' : Type} {R : α → β → Prop} {R' : α' → β' → Prop}
    {x : Except Fault α} {y : Except Fault β} {k : α → Except Fault α'} {k' : β → Except Fault β'}
    (h : ExRel R x y) (hk : ∀ a b, R a b → ExRel R' (k a) (k' b)) :
    ExRel R' (x >>= k) (y >>= k') := by
  cases h with
  | ok h => exact hk _ _ h
  | error f => exact .error f

theorem ExRel.foldlM {α β β' : Type} {R : β → β' → Prop} {f : β → α → Except Fault β}
    {f' : β' → α → Except Fault β'} (l : List α)
    (hf : ∀ a ∈ l, ∀ b b', R b b' → ExRel R (f b a) (f' b' a)) :
    ∀ {b b'}, R b b' → ExRel R (l.foldlM f b) (l.foldlM f' b') := by
  induction l with
  | nil => intro b b' h; exact .ok h
  | cons a l ih =>
    intro b b' h
    rw [List.foldlM_cons, List.foldlM_cons]
    exact (hf a (List.mem_cons_self ..) _ _ h).bind
      (fun _ _ h' => ih (fun a' ha' => hf a' (List.mem_cons_of_mem _ ha')) h')

theorem addShift_same {T T' : LRTable A} (hT : T.Same T') (i t n : Nat) :
    ExRel LRTable.Same (T.addShift i t n) (T'.addShift i t n) := by
  unfold LRTable.addShift
  dsimp only
  rw [hT.action]
  have : LRTable.Same { T with action := T'.action.insert (i, some t) (.shift n) }
      { T' with action := T'.action.insert (i, some t) (.shift n) } := ⟨rfl, hT.nStates, hT.goto⟩
  split
  · exact .ok this
  · split
    · exact .error _
    · exact .ok this
  · exact .ok this
  · exact .error _

theorem addReduce_same {T T' : LRTable A} (hT : T.Same T') (i : Nat) (c : Option Nat) (n p : Nat)
    (a : A) : ExRel LRTable.Same (T.addReduce i c n p a) (T'.addReduce i c n p a) := by
  unfold LRTable.addReduce
  dsimp only
  rw [hT.action]
  split
  · exact .ok ⟨rfl, hT.nStates, hT.goto⟩
  all_goals exact .error _

theorem buildItem_same (h h' : HashOrder) (g : Grammar A Ty) (i : Nat) {st : LR1State}
    (hn : (st.goto.map (·.1)).Nodup) (it : Item) {T T' : LRTable A} (hT : T.Same T') :
    ExRel LRTable.Same (buildItem h g i st T it) (buildItem h' g i st T' it) := by
  unfold buildItem
  refine ExRel.bind (R := LRTable.Same) ?_ fun T T' hT => ?_
  · unfold ruleShift
    split
    · exact .ok hT
    · split
      · exact .ok hT
      · exact addShift_same hT ..
  · split
    · exact .error _
    · refine ExRel.bind (R := LRTable.Same) ?_ fun T T' hT => ?_
      · unfold ruleReduce
        split
        · split
          · exact .error _
          · exact addReduce_same hT ..
        · exact .ok hT
      · refine ExRel.bind (R := LRTable.Same) ?_ fun T T' hT => ?_
        · unfold ruleAccept
          split
          · split
            · exact .ok ⟨by simp only [LRTable.addAccept, hT.action], hT.nStates, hT.goto⟩
            · exact .error _
          · exact .ok hT
        · exact .ok (ruleGotos_same h h' i hn hT)

theorem buildTable_same (h h' : HashOrder) (g : Grammar A Ty) {states : List LR1State}
    (hn : ∀ st ∈ states, (st.goto.map (·.1)).Nodup) :
    ExRel LRTable.Same (buildTable h g states) (buildTable h' g states) := by
  unfold buildTable
  refine ExRel.foldlM _ ?_ ⟨rfl, rfl, fun _ => rfl⟩
  rintro ⟨st, i⟩ hm T T' hT
  unfold buildState
  refine ExRel.foldlM _ (fun it _ T T' hT => ?_) hT
  exact buildItem_same h h' g i (hn st (List.fst_mem_of_mem_zipIdx hm)) it hT

theorem mapM_perm_ok {α β : Type} {f : α → Except Fault β} {l l' : List α} (hp : l.Perm l') :
    ∀ {r}, l.mapM f = .ok r → ∃ r', l'.mapM f = .ok r' ∧ r'.Perm r := by
  simp only [mapM_ok_iff]
  induction hp with
  | nil => intro r hr; exact ⟨r, hr, .refl _⟩
  | cons x _ ih =>
    intro r hr
    cases hr with
    | cons h1 h2 =>
      obtain ⟨r', h3, h4⟩ := ih h2
      exact ⟨_, .cons h1 h3, h4.cons _⟩
  | swap x y l =>
    intro r hr
    cases hr with
    | cons h1 h2 =>
      cases h2 with
      | cons h3 h4 => exact ⟨_, .cons h3 (.cons h1 h4), .swap _ _ _⟩
  | trans _ _ ih1 ih2 =>
    intro r hr
    obtain ⟨r1, h1, h2⟩ := ih1 hr
    obtain ⟨r2, h3, h4⟩ := ih2 h1
    exact ⟨r2, h3, h4.trans h2⟩

/-- Two generated parsers that differ at most in the order in which the parser structs are
emitted. -/
structure Generated.Same {X : Type} (a b : Generated X) : Prop where
  rest : b = { a with entries := b.entries }
  entries : b.entries.Perm a.entries

theorem generateParser_same [DecidableEq Ty] {X : Type} {g : Grammar X Ty} (hwf : g.WF)
    (h h' : HashOrder) : ExRel Generated.Same (generateParser h g) (generateParser h' g) := by
  have hF := generateFirstTable_ok hwf h
  have hF' := generateFirstTable_ok hwf h'
  have hs := generateFirstTable_same h h' g
  obtain ⟨a, ha, has⟩ := generateAutomaton_spec hwf hF h
  have ha' := ha
  rw [generateAutomaton_same hwf hF hF' hs h h'] at ha'
  unfold generateParser
  dsimp only
  rw [ha, ha', Except.bind_ok, Except.bind_ok]
  rcases hsem : generateSemanticActionTable g (semanticActionVariants g) with f | ⟨fns, g'⟩
  · exact .error f
  obtain ⟨hsh, hfns, hlen, hprod⟩ := generateSemanticActionTable_ok hsem
  rw [Except.bind_ok, Except.bind_ok]
  refine (buildTable_same h h' g' (fun st hst => ?_)).bind fun T T' hT => ?_
  · obtain ⟨q, hq⟩ := List.getElem?_of_mem hst
    exact has.nodup q st hq
  have e1 : actionTableVec g' T T.nStates = actionTableVec g' T' T'.nStates := by
    unfold actionTableVec; rw [hT.action, hT.nStates]
  have e2 : generateGotoVec T T.nStates g'.nNonTerminals =
      generateGotoVec T' T'.nStates g'.nNonTerminals := by
    unfold generateGotoVec; rw [hT.nStates]; simp only [hT.goto]
  have e3 : generateExpected g' T = generateExpected g' T' := by
    unfold generateExpected expectedTerminals LRTable.getAction
    rw [hT.action, hT.nStates]
  rw [e1, e2, e3, hT.nStates]
  rcases generateActionArray g' (actionTableVec g' T' T'.nStates) T'.nStates g.nTerminals with f | act
  · exact .error f
  rw [Except.bind_ok, Except.bind_ok]
  rcases generateGotoVec T' T'.nStates g'.nNonTerminals with f | gv
  · exact .error f
  rw [Except.bind_ok, Except.bind_ok]
  rcases generateGotoArray gv with f | gt
  · exact .error f
  rw [Except.bind_ok, Except.bind_ok]
  have herr : ∀ (h : HashOrder) f,
      (h.iter a.entries).mapM (entryPoint g' (semanticActionVariants g)) = .error f →
        f = .u32Overflow := by
    intro h f he
    obtain ⟨e, hm, he⟩ := mapM_error _ he
    rcases Except.bind_eq_error.1 he with he | ⟨_, _, he⟩
    · exact (tryU32_error he).1
    · exfalso
      rw [HashOrder.mem_iter] at hm
      have hpub := (has.ent_dom e.1).1 (by
        rw [(AMap.mem_iff_get? has.ent_nodup).1 hm]; rfl)
      obtain ⟨_, b, n, pr, h1, h2, _⟩ := hwf.pub hpub
      obtain ⟨n', h3, _⟩ := hsh.nt e.1 n h1
      have h4 : g.getProduction? e.1 0 = some pr := by
        simp [Grammar.getProduction?, h1, h2]
      have h5 := (hprod _ _ _ h4).1
      have hlen : (semanticActionVariants g).length = g.nonTerminals.length := by
        simp [semanticActionVariants, variantNames_length]
      have h6 : e.1 < (semanticActionVariants g).length := by
        rw [hlen]; exact (List.getElem?_eq_some_iff.1 h1).1
      rw [show g'.getNonTerminal? e.1 = some n' from h3, h5, List.getElem?_eq_getElem h6] at he
      cases he
  have hp : (h.iter a.entries).Perm (h'.iter a.entries) := (h.perm _).trans (h'.perm _).symm
  rcases he1 : (h.iter a.entries).mapM (entryPoint g' (semanticActionVariants g)) with f | en
  · rcases he2 : (h'.iter a.entries).mapM (entryPoint g' (semanticActionVariants g)) with f' | en'
    · rw [herr h f he1, herr h' f' he2]; exact .error _
    · obtain ⟨_, h1, _⟩ := mapM_perm_ok hp.symm he2
      rw [he1] at h1; cases h1
  · obtain ⟨en', h1, h2⟩ := mapM_perm_ok hp he1
    rw [h1]
    exact .ok ⟨rfl, h2⟩

end Parsegen
