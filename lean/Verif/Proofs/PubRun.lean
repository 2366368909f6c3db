import Verif.Proofs.PubPass
import Verif.Proofs.CorrAccept
import Verif.Proofs.Tables

/-! # Programs that differ in `pub`: runs and acceptance -/

namespace Parsegen

variable {X Ty V W Tok : Type}

section
variable {defs defs' : List (AstNonTerminal X Ty)}

theorem SameButPub.symm (h : SameButPub defs defs') : SameButPub defs' defs := by
  unfold SameButPub at h ⊢
  induction h with
  | nil => exact .nil
  | cons h1 _ ih => exact .cons ⟨h1.name.symm, h1.typeDecl.symm, h1.productions.symm⟩ ih

theorem SameButPub.names (h : SameButPub defs defs') : defs'.map (·.name) = defs.map (·.name) :=
  (forall₂_map_eq (fun _ _ h => h.name.symm) h).symm

theorem SameButPub.userProds_eq (h : SameButPub defs defs') (n : String) :
    userProds defs' n = userProds defs n := by
  unfold SameButPub at h
  induction h with
  | nil => rfl
  | @cons d d' l l' h1 _ ih =>
    unfold userProds at ih ⊢
    simp only [List.filter_cons, h1.name]
    split
    · rw [List.flatMap_cons, List.flatMap_cons, ih, h1.productions]
    · exact ih

theorem SameButPub.sameDefinitions (h : SameButPub defs defs') : SameDefinitions defs defs' :=
  fun n _ _ q => by rw [h.userProds_eq]

end

variable {mkPath : String → X} {asts asts' : List (AstNonTerminal X Ty)}
  {convs convs' : List (Conversion Ty)} {g g' : Grammar X Ty} {nts ts nts' ts' : AMap String Nat}

theorem fcorr_pub (hl : Lowered mkPath asts convs g nts ts)
    (hl' : Lowered mkPath asts' convs' g' nts' ts') (hnd : (asts.map (·.name)).Nodup)
    (hnd' : (asts'.map (·.name)).Nodup) (o o' : HashOrder) (h : SameButPub asts asts') :
    FCorr g g' (generateFirstTable o g) (generateFirstTable o' g') (NameRel g g' nts nts')
      (TermRel ts ts') := by
  have key : ∀ {b b'}, NameRel g g' nts nts' b b' → g.isPublic b = false → CoreRel nts nts' b b' := by
    rintro b b' (hb | ⟨nt, nt', h1, _, h2, _⟩) hp
    · exact hb
    · unfold Grammar.isPublic at hp
      rw [h1] at hp
      simp [h2] at hp
  refine ⟨generateFirstTable_sound _ _, generateFirstTable_sound _ _, ?_, ?_⟩
  · intro b b' t hb hp _ ht
    obtain ⟨t', h1, h2⟩ := (firstTable_pub hl hl' hnd hnd' o o' h (key hb (hp.priv hl.wf).2)).2.fwd t ht
    exact ⟨t', h2, h1⟩
  · intro b b' hb hp _ he
    rw [← (firstTable_pub hl hl' hnd hnd' o o' h (key hb (hp.priv hl.wf).2)).1]; exact he

theorem FCorr.mono_conv {F F' : FirstTable} (h : FCorr g' g F' F (NameRel g' g nts' nts) (TermRel ts' ts)) :
    FCorr g' g F' F (conv (NameRel g g' nts nts')) (conv (TermRel ts ts')) where
  sound := h.sound
  sound' := h.sound'
  terms hb hp hp' ht := by
    obtain ⟨t', h1, h2⟩ := h.terms (NameRel.conv hb) hp hp' ht
    exact ⟨t', TermRel.conv h1, h2⟩
  empty hb hp hp' he := h.empty (NameRel.conv hb) hp hp' he

theorem Setup.genCorr_pub [DecidableEq Ty] {P P' : Compiled X Ty V W Tok} {a a' : Automaton}
    {g1 g1' : Grammar Nat Ty} {T1 T1' : LRTable Nat}
    (S : Setup P g nts ts a g1 T1) (S' : Setup P' g' nts' ts' a' g1' T1')
    (hcode : P'.code = P.code) (hnd : (P.defs.map (·.name)).Nodup) (h : SameButPub P.defs P'.defs) :
    GenCorr P.order P'.order g g' P.gen P'.gen a a' g1 g1' T1 T1' (NameRel g g' nts nts')
      (TermRel ts ts') := by
  have hl' : Lowered P.code.mkPath P'.defs P'.tokens.conversions g' nts' ts' := by
    rw [← hcode]; exact S'.lowered
  have hnd' : (P'.defs.map (·.name)).Nodup := by rw [h.names]; exact hnd
  exact ⟨S.stages, S'.stages, S.wf, S'.wf, S.lowered.gcorr hl' hnd hnd' h.sameDefinitions,
    fcorr_pub S.lowered hl' hnd hnd' _ _ h,
    (fcorr_pub hl' S.lowered hnd' hnd _ _ h.symm).mono_conv⟩

/-! ## Acceptance -/

/-- The positions of definitions are in the same order. -/
theorem coreRel_lt (hl : Lowered mkPath asts convs g nts ts)
    (hl' : Lowered mkPath asts' convs' g' nts' ts') (hnd : (asts.map (·.name)).Nodup)
    (hnd' : (asts'.map (·.name)).Nodup) (h : SameButPub asts asts') {j j' k k' : Nat}
    (hj : CoreRel nts nts' j j') (hk : CoreRel nts nts' k k') : j < k ↔ j' < k' := by
  have pos : ∀ {asts : List (AstNonTerminal X Ty)} {convs g nts ts}
      (_ : Lowered mkPath asts convs g nts ts) (_ : (asts.map (·.name)).Nodup) {n : String} {j : Nat}
      (_ : nts.get? n = some j), ∃ i, (asts.map (·.name))[i]? = some n ∧
        j = ((asts.take i).map (·.width)).sum := by
    intro asts convs g nts ts hl hnd n j hn
    obtain ⟨l1, b, l2, e1, e2, _, e3⟩ := hl.num hn
    refine ⟨l1.length, ?_, ?_⟩
    · rw [e1]; simp [e2]
    · rw [e3, e1]; simp
  have mono : ∀ {asts : List (AstNonTerminal X Ty)} {i k : Nat}, i < k → k < asts.length →
      ((asts.take i).map (·.width)).sum < ((asts.take k).map (·.width)).sum := by
    intro asts i k hik hk
    obtain ⟨d, rfl⟩ : ∃ d, k = i + 1 + d := ⟨k - (i + 1), by omega⟩
    rw [List.take_add, List.take_add, List.map_append, List.map_append, List.sum_append,
      List.sum_append]
    have : (asts.drop i).take 1 = [asts[i]] := by
      rw [List.drop_eq_getElem_cons (by omega), List.take_succ_cons, List.take_zero]
    rw [this]
    have := (asts[i]).one_le_width
    simp only [List.map_cons, List.map_nil, List.sum_cons, List.sum_nil]
    omega
  have iff : ∀ {asts : List (AstNonTerminal X Ty)} {i k : Nat}, i < asts.length → k < asts.length →
      (((asts.take i).map (·.width)).sum < ((asts.take k).map (·.width)).sum ↔ i < k) := by
    intro asts i k hi hk
    constructor
    · intro hlt
      by_contra hc
      rcases Nat.lt_or_ge k i with h1 | h1
      · have := mono h1 hi; omega
      · have : i = k := by omega
        subst this; omega
    · intro hlt; exact mono hlt hk
  obtain ⟨n, n1, n2⟩ := hj
  obtain ⟨m, m1, m2⟩ := hk
  obtain ⟨i1, a1, rfl⟩ := pos hl hnd n1
  obtain ⟨i2, a2, rfl⟩ := pos hl' hnd' n2
  obtain ⟨i3, a3, rfl⟩ := pos hl hnd m1
  obtain ⟨i4, a4, rfl⟩ := pos hl' hnd' m2
  rw [h.names] at a2 a4
  have lt : ∀ {i : Nat} {n : String}, (asts.map (·.name))[i]? = some n → i < asts.length := by
    intro i n e
    have := (List.getElem?_eq_some_iff.1 e).1
    simpa using this
  have hlen : asts'.length = asts.length := by
    have := congrArg List.length h.names
    simpa using this
  have e1 : i2 = i1 := (hnd.getElem_inj_iff).1
    ((List.getElem?_eq_some_iff.1 a2).2.trans (List.getElem?_eq_some_iff.1 a1).2.symm)
  have e2 : i4 = i3 := (hnd.getElem_inj_iff).1
    ((List.getElem?_eq_some_iff.1 a4).2.trans (List.getElem?_eq_some_iff.1 a3).2.symm)
  subst e1 e2
  rw [iff (lt a1) (lt a3), iff (by rw [hlen]; exact lt a1) (by rw [hlen]; exact lt a3)]

/-- Public non-terminals follow what they wrap. -/
theorem Lowered.entry_succ (hl : Lowered mkPath asts convs g nts ts)
    (hnd : (asts.map (·.name)).Nodup) {E : Nat} {nt : NonTerminal X Ty}
    (h1 : g.nonTerminals[E]? = some nt) (p1 : nt.isPublic = true) :
    ∃ b, nts.get? nt.name = some b ∧ E = b + 1 := by
  obtain ⟨b, hb, hp⟩ := hl.entry_name hnd h1 p1
  obtain ⟨pr, hpr, hs⟩ := hasProd_getProduction.1 hp
  obtain ⟨k1, k2, _⟩ := hl.wrapped h1 p1
  have : g.getProduction? E 0 = some (wrapperProd mkPath (E - 1)) := by
    simp [Grammar.getProduction?, h1, k2]
  rw [this] at hpr; cases hpr
  simp only [Production.syms, wrapperProd, List.map_cons, List.map_nil, List.cons.injEq, and_true,
    Symbol.nonTerminal.injEq] at hs
  exact ⟨b, hb, by omega⟩

theorem nameRel_lt_core (hl : Lowered mkPath asts convs g nts ts)
    (hl' : Lowered mkPath asts' convs' g' nts' ts') (hnd : (asts.map (·.name)).Nodup)
    (hnd' : (asts'.map (·.name)).Nodup) (h : SameButPub asts asts') {j j' k k' : Nat}
    (hj : NameRel g g' nts nts' j j') (hk : CoreRel nts nts' k k') (hlt : j' < k') : j < k := by
  rcases hj with hj | ⟨nt, nt', a1, a2, a3, a4, a5⟩
  · exact (coreRel_lt hl hl' hnd hnd' h hj hk).2 hlt
  · obtain ⟨b, b1, rfl⟩ := hl.entry_succ hnd a1 a3
    obtain ⟨b', b1', rfl⟩ := hl'.entry_succ hnd' a2 a4
    rw [← a5] at b1'
    have h1 := (coreRel_lt hl hl' hnd hnd' h ⟨_, b1, b1'⟩ hk).2 (by omega)
    obtain ⟨n, n1, _⟩ := hk
    have h2 : k ≠ b + 1 := by
      rintro rfl
      have := hl.named_private n1
      unfold Grammar.isPublic at this
      rw [a1] at this
      simp [a3] at this
    omega

/-- Corresponding productions have the same number. -/
theorem prod_same (hl : Lowered mkPath asts convs g nts ts)
    (hl' : Lowered mkPath asts' convs' g' nts' ts') (hnd : (asts.map (·.name)).Nodup)
    (hnd' : (asts'.map (·.name)).Nodup) (h : SameButPub asts asts')
    {b b' p : Nat} {pr : Production X} (hb : NameRel g g' nts nts' b b')
    (hp : g.getProduction? b p = some pr) :
    ∃ pr', g'.getProduction? b' p = some pr' ∧
      ProdCorr (NameRel g g' nts nts') (TermRel ts ts') pr pr' := by
  rcases hb with ⟨n, a1, a2⟩ | hb
  · obtain ⟨q, pr0, h1, h2, h3, _⟩ := hl.hasProd_user a1 (hasProd_getProduction.2 ⟨pr, hp, rfl⟩)
    rw [hp] at h3; cases h3
    rw [← h.userProds_eq] at h1
    obtain ⟨pr', h4, h5, _⟩ := hl'.user_hasProd a2 h1
    exact ⟨pr', h5, lowersProd_corr h2 h4⟩
  · obtain ⟨nt, nt', a1, a2, a3, a4, a5⟩ := hb
    obtain ⟨p', pr', h1, h2⟩ := gcorr_fwd hl hl' hnd hnd' h.sameDefinitions
      (.inr ⟨nt, nt', a1, a2, a3, a4, a5⟩) hp
    have one : ∀ {g : Grammar X Ty} {nts ts : AMap String Nat} {asts convs}
        (_ : Lowered mkPath asts convs g nts ts) {E p : Nat} {nt : NonTerminal X Ty} {pr : Production X}
        (_ : g.nonTerminals[E]? = some nt) (_ : nt.isPublic = true)
        (_ : g.getProduction? E p = some pr), p = 0 := by
      intro g nts ts asts convs hl E p nt pr e1 e2 e3
      obtain ⟨_, k2, _⟩ := hl.wrapped e1 e2
      simp only [Grammar.getProduction?, e1, k2, Option.bind_some] at e3
      have := (List.getElem?_eq_some_iff.1 e3).1
      simp at this
      exact this
    have e1 := one hl a1 a3 hp
    have e2 := one hl' a2 a4 h1
    subst e1 e2
    exact ⟨pr', h1, h2⟩

/-- Items with the same production number. -/
theorem items_same (hl : Lowered mkPath asts convs g nts ts)
    (hl' : Lowered mkPath asts' convs' g' nts' ts') (hnd : (asts.map (·.name)).Nodup)
    (hnd' : (asts'.map (·.name)).Nodup) (h : SameButPub asts asts') (o o' : HashOrder)
    {E E' : Nat} (hE : NameRel g g' nts nts' E E') (hpub : g.isPublic E = true)
    {γ γ' : List Symbol} (hγ : List.Forall₂ (SymCorr (NameRel g g' nts nts') (TermRel ts ts')) γ γ')
    {it : Item} (hi : ItemsAt g (generateFirstTable o g) E γ it) :
    ∃ it', ItemCorr g g' (NameRel g g' nts nts') (TermRel ts ts') it it' ∧ it'.prod = it.prod ∧
      ItemsAt g' (generateFirstTable o' g') E' γ' it' := by
  have hc := hl.gcorr hl' hnd hnd' h.sameDefinitions
  obtain ⟨y, h1, h2⟩ := hc.itemsAt (fcorr_pub hl hl' hnd hnd' o o' h) hl.wf hl'.wf hE hpub hγ hi
  obtain ⟨pr, pr', h3, h4, h5⟩ := h1.prod
  obtain ⟨pr2, h6, h7⟩ := prod_same hl hl' hnd hnd' h h1.nt h3
  refine ⟨⟨y.nt, it.prod, y.cursor, y.la⟩, ⟨h1.nt, ⟨pr, pr2, h3, h6, h7⟩, h1.cursor, h1.la⟩, rfl, ?_⟩
  refine h2.duplicate hl'.wf (by rw [← hc.pub hE]; exact hpub)
    (hasProd_getProduction.2 ⟨pr', h4, rfl⟩) (hasProd_getProduction.2 ⟨pr2, h6, ?_⟩)
  exact hc.syms_fun h5.syms h7.syms

theorem ItemCorr.wantsReduce {N T : Nat → Nat → Prop} (hc : GCorr g g' N T) {it it' : Item}
    (h : ItemCorr g g' N T it it') {c c' : Option Nat} (hcc : LaCorr T c c')
    (hw : WantsReduce g it c) : WantsReduce g' it' c' := by
  obtain ⟨h1, h2, h3⟩ := hw
  obtain ⟨pr, pr', h4, h5, h6⟩ := h.prod
  refine ⟨?_, by rw [← hc.pub h.nt]; exact h2, ?_⟩
  · rw [rhs_of_getProduction h4] at h1
    rw [rhs_of_getProduction h5, ← h.cursor, h1]
    exact h6.syms.length_eq
  · subst h3
    exact hc.la_fun h.la hcc

/-- With fewer `pub`s there are no new clashes. -/
theorem stateFine_pub [DecidableEq Ty] (hl : Lowered mkPath asts convs g nts ts)
    (hl' : Lowered mkPath asts' convs' g' nts' ts') (hnd : (asts.map (·.name)).Nodup)
    (h : SameButPub asts asts') {o o' : HashOrder} {a a' : Automaton}
    (ha : AutoSpec o g (generateFirstTable o g) a)
    (ha' : AutoSpec o' g' (generateFirstTable o' g') a')
    (hfine : ∀ st ∈ a.states, StateFine g st)
    (hpub : ∀ E', g'.isPublic E' = true → ∃ E, NameRel g g' nts nts' E E') {q' : Nat} {st' : LR1State}
    (hq' : a'.states[q']? = some st') {it it' : Item} (hit : it ∈ st'.items) (hit' : it' ∈ st'.items)
    {c' : Option Nat} (hlt : Item.lt it it' = true) (hr : WantsReduce g' it' c')
    (hw : WantsShift g' st'.goto it c' ∨ WantsReduce g' it c' ∨ WantsAccept g' it c') : False := by
  have hnd' : (asts'.map (·.name)).Nodup := by rw [h.names]; exact hnd
  have hc := hl.gcorr hl' hnd hnd' h.sameDefinitions
  have hc' := hl'.gcorr hl hnd' hnd h.symm.sameDefinitions
  have hF := generateFirstTable_ok hl.wf o
  obtain ⟨E', γ', hE', hI', _⟩ := ha'.reach q' st' hq'
  obtain ⟨E, hE⟩ := hpub E' hE'
  have hEp : g.isPublic E = true := by rw [hc.pub hE]; exact hE'
  have hx := (hI' it).1 hit
  have hx' := (hI' it').1 hit'
  obtain ⟨γ, y0, hγ, _, _⟩ := hc'.itemsAt_ex (fcorr_pub hl' hl hnd' hnd o' o h.symm) hl'.wf hl.wf
    (NameRel.conv hE) hE' hx
  obtain ⟨y, y1, y2, y3⟩ := items_same hl' hl hnd' hnd h.symm o' o (NameRel.conv hE) hE' hγ hx
  obtain ⟨z, z1, z2, z3⟩ := items_same hl' hl hnd' hnd h.symm o' o (NameRel.conv hE) hE' hγ hx'
  obtain ⟨q, st, hq, hI⟩ := ha.state_of hl.wf hF hEp y3
  have hy := (hI y).2 y3
  have hz := (hI z).2 z3
  have hzr : WantsReduce g z z.la := by
    refine z1.wantsReduce hc' ?_ hr
    rw [← hr.2.2]; exact z1.la
  have hlacorr : LaCorr (TermRel ts' ts) c' z.la := by rw [← hr.2.2]; exact z1.la
  refine hfine st (List.mem_of_getElem? hq) y hy z hz z.la ?_ hzr ?_
  · -- the order
    have hcore : CoreRel nts nts' z.nt it'.nt := by
      rcases z1.nt with ⟨n, n1, n2⟩ | ⟨nt, nt', a1, _, a2, _⟩
      · exact ⟨n, n2, n1⟩
      · have := hr.2.1
        unfold Grammar.isPublic at this
        rw [a1] at this
        simp [a2] at this
    unfold Item.lt at hlt ⊢
    rw [y2, z2, ← y1.cursor, ← z1.cursor]
    simp only [Bool.or_eq_true, Bool.and_eq_true, decide_eq_true_eq] at hlt ⊢
    rcases hlt with h1 | ⟨h1, hlt⟩
    · exact .inl (nameRel_lt_core hl hl' hnd hnd' h (NameRel.conv y1.nt) hcore h1)
    · refine .inr ⟨hc.nt_inj (NameRel.conv y1.nt) (h1 ▸ NameRel.conv z1.nt), ?_⟩
      rcases hlt with h2 | ⟨h2, hlt⟩
      · exact .inl h2
      · refine .inr ⟨h2, ?_⟩
        rcases hlt with h3 | ⟨h3, hlt⟩
        · exact .inl h3
        · exfalso
          have hsame : WantsReduce g' it it.la :=
            ⟨by rw [h1, h2, h3]; exact hr.1, by rw [h1]; exact hr.2.1, rfl⟩
          rcases hw with hw | hw | hw
          · exact hw.not_reduce hsame
          · rw [hw.2.2, hr.2.2] at hlt; omega
          · have := hw.1; rw [hsame.2.1] at this; cases this
  · rcases hw with ⟨t', rfl, hn, _⟩ | hw | hw
    · left
      cases hzl : z.la with
      | none => rw [hzl] at hlacorr; cases hlacorr
      | some t =>
        rw [hzl] at hlacorr
        obtain ⟨α', β', hp, hlen⟩ := Item.nextSymbol_iff.1 hn
        obtain ⟨_, k1, k2⟩ := y1.hasProd hp
        obtain ⟨α, r, rfl, k3, k4⟩ := forall₂_append_left k1
        cases k4 with
        | @cons _ s _ β k5 _ =>
          cases s with
          | nonTerminal _ => cases k5
          | terminal t2 =>
            have : t2 = t := termRel_fun hl'.tmap k5 hlacorr
            subst this
            have hcur : α.length = y.cursor := by
              rw [← k3.length_eq, hlen, y1.cursor]
            have hyi : ItemsAt g (generateFirstTable o g) E γ ⟨y.nt, y.prod, α.length, y.la⟩ := by
              rw [hcur]; exact y3
            obtain ⟨r, hr⟩ := goto_isSome hl.wf hF ha hEp hq hI hyi k2
            refine ⟨t2, rfl, Item.nextSymbol_iff.2 ⟨α, β, k2, hcur⟩, by rw [hr]; rfl⟩
    · exact .inr (.inl (y1.wantsReduce hc' hlacorr hw))
    · right; right
      obtain ⟨h1, h2, h3, h4⟩ := hw
      subst h4
      have hla := y1.la
      rw [h3] at hla
      refine ⟨by rw [← hc'.pub y1.nt]; exact h1, by rw [← y1.cursor]; exact h2, ?_, ?_⟩
      · cases e : y.la with
        | none => rfl
        | some _ => rw [e] at hla; cases hla
      · cases e : z.la with
        | none => rfl
        | some _ => rw [e] at hlacorr; cases hlacorr

/-- The generator accepts with fewer `pub`s and with the tokens in another order. -/
theorem generateParser_pub [DecidableEq Ty] {o o' : HashOrder} {gen : Generated X}
    (h : SameButPub asts asts') (hfew : FewerPub asts asts') (hnd : (asts.map (·.name)).Nodup)
    (hn : loweredCount asts' ≤ 65536)
    (hp : (asts'.map (·.productions.length)).sum + (asts'.filter (·.isPub)).length ≤ 65536)
    (hs : ∀ d ∈ asts', ∀ p ∈ d.productions, p.symbols.length ≤ 65535)
    (hsz : loweredCount asts ≤ 4294967296)
    (hl : lower mkPath asts convs = .ok g) (hl' : lower mkPath asts' convs' = .ok g')
    (hg : generateParser o g = .ok gen) : ∃ gen', generateParser o' g' = .ok gen' := by
  have hsz' : loweredCount asts' ≤ 4294967296 := by omega
  have hnd' : (asts'.map (·.name)).Nodup := by rw [h.names]; exact hnd
  obtain ⟨nts, ts, L⟩ := lower_ok (by rw [← loweredCount_eq]; exact hsz) hl
  obtain ⟨nts', ts', L'⟩ := lower_ok (by rw [← loweredCount_eq]; exact hsz') hl'
  obtain ⟨a, g1, T1, S⟩ := generateParser_ok hg
  have ha := S.autoSpec L.wf
  have hfine : ∀ st ∈ a.states, StateFine g st := by
    intro st hst x hx y hy c hlt hr
    have := (S.tableSpec L.wf).1 st hst x hx y hy c hlt ((S.shape.wantsReduce _ _).2 hr)
    rwa [S.shape.wantsShift, S.shape.wantsReduce, S.shape.wantsAccept] at this
  have hpub : ∀ E', g'.isPublic E' = true → ∃ E, NameRel g g' nts nts' E E' := by
    intro E' hE'
    have hnt : ∃ nt, g'.nonTerminals[E']? = some nt ∧ nt.isPublic = true := by
      unfold Grammar.isPublic at hE'
      cases e : g'.nonTerminals[E']? with
      | none => rw [e] at hE'; cases hE'
      | some nt => rw [e] at hE'; exact ⟨nt, rfl, hE'⟩
    obtain ⟨nt', h1', h2'⟩ := hnt
    obtain ⟨d', _, _, hd', hdp', hname', _⟩ := L'.pub h1' h2'
    obtain ⟨d, hd, hdn, hdp⟩ : ∃ d ∈ asts, d.name = d'.name ∧ (d'.isPub = true → d.isPub = true) := by
      obtain ⟨i, hi⟩ := List.mem_iff_getElem?.1 hd'
      obtain ⟨d, h1, h2⟩ := forall₂_getElem?' h hi
      obtain ⟨d2, h3, h4⟩ := forall₂_getElem?' hfew hi
      rw [h1] at h3; cases h3
      exact ⟨d, List.mem_of_getElem? h1, h2.name.symm, h4⟩
    obtain ⟨l1, l2, rfl⟩ := List.append_of_mem hd
    obtain ⟨E, nt, _, _, h1, h2, h3, _⟩ := L.pub_mk rfl (hdp hdp')
    exact ⟨E, .inr ⟨nt, nt', h1, h1', h2, h2', by rw [h3, hdn, hname']⟩⟩
  cases hgen : generateParser o' g' with
  | ok gen' => exact ⟨gen', rfl⟩
  | error f =>
    exfalso
    obtain ⟨a', e', hcause⟩ := generateParser_error L'.wf hgen
    obtain ⟨b', e2, ha'⟩ := generateAutomaton_spec L'.wf (generateFirstTable_ok L'.wf o') o'
    rw [e'] at e2; cases e2
    have hcount : ∀ {j p pr}, g'.getProduction? j p = some pr → pr.symbols.length ≤ 65535 := by
      intro j p pr hpr
      rcases L'.key_cases hnd' hpr with ⟨d, hd, _, q, h1, h2⟩ | ⟨_, _, _, _, h1, _⟩
      · rw [← h2]; exact hs d hd q (List.mem_of_getElem? h1)
      · omega
    have hsmall : g'.nNonTerminals ≤ 65536 := by
      rw [L'.size, ← loweredCount_eq]; exact hn
    have hlist : prodBase g'.nonTerminals g'.nonTerminals.length ≤ 65536 := by
      rw [← (listing_aux g'.nonTerminals 0).1]
      exact Nat.le_trans (L'.listing_le hnd') hp
    have hc := L.gcorr L' hnd hnd' h.sameDefinitions
    have hstates : a'.states.length ≤ 4294967296 :=
      Nat.le_trans (hc.states_le L.wf L'.wf (generateFirstTable_ok L.wf o)
        (fcorr_pub L L' hnd hnd' o o' h) (fcorr_pub L' L hnd' hnd o' o h.symm).mono_conv ha ha' hpub)
        (S.small L.wf)
    rcases hcause with hcause | ⟨q, st, hq, ⟨it, h1, it', h2, h3, h4, h5⟩, _⟩
    · rcases hcause with ⟨_, hx | hx | ⟨nt, p, α, hx, hlt⟩⟩ | ⟨_, hx | hx⟩
      · omega
      · omega
      · obtain ⟨pr, h2, rfl⟩ := hasProd_getProduction.1 hx
        have := hcount h2
        simp [Production.syms] at hlt
        omega
      · omega
      · omega
    · refine stateFine_pub L L' hnd h ha ha' hfine hpub hq h1 h2 h3 h4 ?_
      rcases h5 with ⟨_, _, h5, _⟩ | ⟨_, h5⟩ | ⟨_, h5⟩
      · exact .inl h5
      · exact .inr (.inl h5)
      · exact .inr (.inr h5)

end Parsegen
