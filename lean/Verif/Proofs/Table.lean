import Verif.Proofs.Automaton
import Verif.Model.Table

/-! # The parse table (`build_lr1_table`) -/

namespace Parsegen

variable {A Ty : Type} {g : Grammar A Ty}

/-- `it` asks for a shift on lookahead `c` in a state with transitions `G`. -/
def WantsShift (g : Grammar A Ty) (G : AMap Symbol Nat) (it : Item) (c : Option Nat) : Prop :=
  ∃ t, c = some t ∧ it.nextSymbol g = some (.terminal t) ∧ (G.get? (.terminal t)).isSome = true

/-- `it` asks for a reduction on lookahead `c`. -/
def WantsReduce (g : Grammar A Ty) (it : Item) (c : Option Nat) : Prop :=
  it.cursor = (g.rhs it.nt it.prod).length ∧ g.isPublic it.nt = false ∧ it.la = c

/-- `it` asks for accepting on lookahead `c`. -/
def WantsAccept (g : Grammar A Ty) (it : Item) (c : Option Nat) : Prop :=
  g.isPublic it.nt = true ∧ it.cursor = 1 ∧ it.la = none ∧ c = none

theorem WantsShift.not_reduce {G : AMap Symbol Nat} {it : Item} {c d : Option Nat}
    (h : WantsShift g G it c) : ¬ WantsReduce g it d := by
  obtain ⟨t, _, hn, _⟩ := h
  rintro ⟨h1, _⟩
  unfold Item.nextSymbol at hn
  rw [h1, List.getElem?_eq_none (Nat.le_refl _)] at hn
  cases hn

/-- The actions in the row of state `i` after processing the items `D` of the state, whose
transitions are `G`. -/
structure ActInv (g : Grammar A Ty) (G : AMap Symbol Nat) (i : Nat) (T : LRTable A)
    (D : List Item) : Prop where
  shift_of : ∀ c n, T.getAction i c = some (.shift n) →
    ∃ it ∈ D, ∃ t, c = some t ∧ it.nextSymbol g = some (.terminal t) ∧ G.get? (.terminal t) = some n
  reduce_of : ∀ c nt p a, T.getAction i c = some (.reduce nt p a) →
    ∃ it ∈ D, it.nt = nt ∧ it.prod = p ∧ WantsReduce g it c ∧
      ∃ pr, g.getProduction? nt p = some pr ∧ pr.action = a
  accept_of : ∀ c, T.getAction i c = some .accept → ∃ it ∈ D, WantsAccept g it c
  shift_mk : ∀ it ∈ D, ∀ t n, it.nextSymbol g = some (.terminal t) →
    G.get? (.terminal t) = some n → T.getAction i (some t) = some (.shift n)
  accept_mk : ∀ it ∈ D, ∀ c, WantsAccept g it c → T.getAction i c = some .accept
  reduce_mk : ∀ it ∈ D, ∀ c, WantsReduce g it c → (T.getAction i c).isSome = true
  order : ∀ it ∈ D, ∀ it' ∈ D, ∀ c, WantsReduce g it' c →
    (WantsShift g G it c ∨ WantsReduce g it c ∨ WantsAccept g it c) →
    it = it' ∨ Item.lt it' it = true ∧ ¬ WantsReduce g it c

/-- The gotos in the row of state `i` after processing the items `D`. -/
structure GoInv (G : AMap Symbol Nat) (i : Nat) (T : LRTable A) (D : List Item) : Prop where
  goto_of : ∀ b r, T.getGoto i b = some r → G.get? (.nonTerminal b) = some r
  goto_mk : D ≠ [] → ∀ b r, G.get? (.nonTerminal b) = some r → T.getGoto i b = some r

/-- Rows other than `i` are the same. -/
structure SameRows (i : Nat) (T T' : LRTable A) : Prop where
  action : ∀ j c, j ≠ i → T'.getAction j c = T.getAction j c
  goto : ∀ j b, j ≠ i → T'.getGoto j b = T.getGoto j b
  n : T'.nStates = T.nStates

theorem SameRows.refl (i : Nat) (T : LRTable A) : SameRows i T T := ⟨by simp, by simp, rfl⟩

theorem SameRows.trans {i : Nat} {T T' T'' : LRTable A} (h : SameRows i T T')
    (h' : SameRows i T' T'') : SameRows i T T'' :=
  ⟨fun j c hj => (h'.action j c hj).trans (h.action j c hj),
   fun j c hj => (h'.goto j c hj).trans (h.goto j c hj), h'.n.trans h.n⟩

/-! ## The gotos -/

theorem ruleGotos_spec (h : HashOrder) (i : Nat) (st : LR1State) (T : LRTable A) :
    (ruleGotos h i st T).action = T.action ∧ (ruleGotos h i st T).nStates = T.nStates ∧
    (∀ j b, j ≠ i → (ruleGotos h i st T).getGoto j b = T.getGoto j b) ∧
    (∀ b r, (ruleGotos h i st T).getGoto i b = some r →
      T.getGoto i b = some r ∨ (.nonTerminal b, r) ∈ st.goto) ∧
    (∀ b, (T.getGoto i b).isSome = true → ((ruleGotos h i st T).getGoto i b).isSome = true) ∧
    (∀ b r, (.nonTerminal b, r) ∈ st.goto → ((ruleGotos h i st T).getGoto i b).isSome = true) := by
  have key := foldl_done
    (f := fun (T : LRTable A) (e : Symbol × Nat) => match e.1 with
      | .nonTerminal b => T.addGoto i b e.2
      | .terminal _ => T)
    (P := fun T' done => T'.action = T.action ∧ T'.nStates = T.nStates ∧
      (∀ j b, j ≠ i → T'.getGoto j b = T.getGoto j b) ∧
      (∀ b r, T'.getGoto i b = some r → T.getGoto i b = some r ∨ (.nonTerminal b, r) ∈ done) ∧
      (∀ b, (T.getGoto i b).isSome = true → (T'.getGoto i b).isSome = true) ∧
      (∀ b r, (.nonTerminal b, r) ∈ done → (T'.getGoto i b).isSome = true))
    (h.iter st.goto) T ⟨rfl, rfl, fun _ _ _ => rfl, fun _ _ h => Or.inl h, fun _ h => h, by simp⟩
    (by
      rintro T' done ⟨s, r⟩ _ ⟨h1, h2, h3, h4, h5, h6⟩
      cases s with
      | terminal t =>
        simp only
        refine ⟨h1, h2, h3, ?_, h5, ?_⟩
        · intro b r' hr
          rcases h4 b r' hr with h | h
          · exact Or.inl h
          · exact Or.inr (by simp [h])
        · intro b r' hm
          simp only [List.mem_append, List.mem_singleton, Prod.mk.injEq, reduceCtorEq, false_and,
            or_false] at hm
          exact h6 b r' hm
      | nonTerminal x =>
        simp only [LRTable.addGoto, LRTable.getGoto] at *
        refine ⟨h1, h2, ?_, ?_, ?_, ?_⟩
        · intro j b hj
          rw [AMap.get?_insert, if_neg (by simp; intro h; exact absurd h.symm hj), h3 j b hj]
        · intro b r' hr
          rw [AMap.get?_insert] at hr
          split at hr
          · next he =>
            simp only [Prod.mk.injEq, true_and] at he; subst he; cases hr
            exact Or.inr (by simp)
          · rcases h4 b r' hr with h | h
            · exact Or.inl h
            · exact Or.inr (by simp [h])
        · intro b hb
          rw [AMap.get?_insert]
          split
          · rfl
          · exact h5 b hb
        · intro b r' hm
          rw [AMap.get?_insert]
          split
          · rfl
          · next hne =>
            simp only [List.mem_append, List.mem_singleton, Prod.mk.injEq,
              Symbol.nonTerminal.injEq] at hm
            rcases hm with hm | ⟨rfl, rfl⟩
            · exact h6 b r' hm
            · exact absurd rfl hne)
  obtain ⟨h1, h2, h3, h4, h5, h6⟩ := key
  refine ⟨h1, h2, h3, ?_, h5, ?_⟩
  · intro b r hr; simpa using h4 b r hr
  · intro b r hr; exact h6 b r (by simpa using hr)

theorem GoInv.step {h : HashOrder} {i : Nat} {st : LR1State} {T : LRTable A} {D : List Item}
    (hn : (st.goto.map (·.1)).Nodup) (hi : GoInv st.goto i T D) (D' : List Item) :
    GoInv st.goto i (ruleGotos h i st T) D' := by
  obtain ⟨_, _, _, h4, _, h6⟩ := ruleGotos_spec h i st T
  have hof : ∀ b r, (ruleGotos h i st T).getGoto i b = some r →
      st.goto.get? (.nonTerminal b) = some r := by
    intro b r hr
    rcases h4 b r hr with h | h
    · exact hi.goto_of b r h
    · exact (AMap.mem_iff_get? hn).1 h
  refine ⟨hof, ?_⟩
  intro _ b r hr
  have := h6 b r (AMap.mem_of_get? hr)
  obtain ⟨r', hr'⟩ := Option.isSome_iff_exists.1 this
  have h2 := hof b r' hr'
  rw [hr] at h2; cases h2; exact hr'

/-! ## One item -/

theorem buildItem_cases (hwf : g.WF) {a : Item} (ha : ItemOk g a) (h : HashOrder) (i : Nat)
    (st : LR1State) (T : LRTable A) :
    (∃ t n, a.nextSymbol g = some (.terminal t) ∧ st.goto.get? (.terminal t) = some n ∧
      (∀ c, ¬ WantsReduce g a c) ∧ (∀ c, ¬ WantsAccept g a c) ∧
      buildItem h g i st T a = (T.addShift i t n).map (ruleGotos h i st)) ∨
    (WantsReduce g a a.la ∧ (∀ c, ¬ WantsAccept g a c) ∧ (∀ c, ¬ WantsShift g st.goto a c) ∧
      ∃ pr, g.getProduction? a.nt a.prod = some pr ∧
      buildItem h g i st T a =
        (T.addReduce i a.la a.nt a.prod pr.action).map (ruleGotos h i st)) ∨
    (WantsAccept g a none ∧ (∀ c, ¬ WantsReduce g a c) ∧ (∀ c, ¬ WantsShift g st.goto a c) ∧
      buildItem h g i st T a = .ok (ruleGotos h i st (T.addAccept i))) ∨
    ((∀ c, ¬ WantsReduce g a c) ∧ (∀ c, ¬ WantsAccept g a c) ∧ (∀ c, ¬ WantsShift g st.goto a c) ∧
      buildItem h g i st T a = .ok (ruleGotos h i st T)) := by
  obtain ⟨h1, h2, h3⟩ := ha
  have hlt := Grammar.lt_of_nProductions h1
  have hnt : g.nonTerminals[a.nt]? = some g.nonTerminals[a.nt] := List.getElem?_eq_getElem hlt
  generalize g.nonTerminals[a.nt] = n at hnt
  have hpub : g.isPublic a.nt = n.isPublic := by unfold Grammar.isPublic; rw [hnt]
  have hnp : g.nProductions a.nt = n.productions.length := by unfold Grammar.nProductions; rw [hnt]
  have hpr : ∃ pr, g.getProduction? a.nt a.prod = some pr := by
    unfold Grammar.getProduction?
    rw [hnt]
    exact ⟨n.productions[a.prod]'(by omega), by simp [List.getElem?_eq_getElem (show a.prod < n.productions.length by omega)]⟩
  obtain ⟨pr, hpr⟩ := hpr
  have hpubl : g.isPublic a.nt = true → ∃ b, g.rhs a.nt a.prod = [.nonTerminal b] := by
    intro hp
    obtain ⟨h4, b, hb⟩ := hwf.pub hp
    have : a.prod = 0 := by omega
    exact ⟨b, by rw [this]; exact hb.rhs_eq⟩
  have hred : ∀ T1, ruleReduce g i a n T1 = if a.cursor = (g.rhs a.nt a.prod).length ∧
      g.isPublic a.nt = false then T1.addReduce i a.la a.nt a.prod pr.action else .ok T1 := by
    intro T1
    unfold ruleReduce Item.isComplete
    rw [hpr, hpub]
    by_cases hc : a.cursor = (g.rhs a.nt a.prod).length <;> cases n.isPublic <;> simp [hc]
  have hacc : ∀ T1, ruleAccept i a n T1 = if g.isPublic a.nt = true ∧ a.cursor = 1 ∧ a.la = none
      then .ok (T1.addAccept i) else .ok T1 := by
    intro T1
    unfold ruleAccept
    rw [hpub]
    by_cases hp : n.isPublic = true
    · have : n.productions.length = 1 := by
        rw [← hnp]; exact (hwf.pub (hpub.trans hp)).1
      by_cases hc : a.cursor = 1 <;> cases hl : a.la <;> simp [hp, hc, this]
    · simp [hp]
  have hbuild : buildItem h g i st T a = (ruleShift g i st a T >>= fun T1 =>
      ruleReduce g i a n T1 >>= fun T2 => ruleAccept i a n T2 >>= fun T3 =>
        .ok (ruleGotos h i st T3)) := by
    unfold buildItem Grammar.getNonTerminal?
    rw [hnt]
  rw [hbuild]
  have hshift : ∀ t, a.nextSymbol g = some (.terminal t) →
      ruleShift g i st a T = match st.goto.get? (.terminal t) with
        | none => .ok T
        | some next => T.addShift i t next := by
    intro t ht
    unfold ruleShift
    rw [Item.nextTerminal_iff.2 ht]
    simp only
    cases st.goto.get? (.terminal t) <;> rfl
  have hshift' : (∀ t, a.nextSymbol g ≠ some (.terminal t)) → ruleShift g i st a T = .ok T := by
    intro ht
    unfold ruleShift
    have : a.nextTerminal g = none := by
      cases hx : a.nextTerminal g with
      | none => rfl
      | some t => exact absurd (Item.nextTerminal_iff.1 hx) (ht t)
    rw [this]
  by_cases hs : ∃ t n, a.nextSymbol g = some (.terminal t) ∧ st.goto.get? (.terminal t) = some n
  · left
    obtain ⟨t, m, ht, hm⟩ := hs
    have hws : WantsShift g st.goto a (some t) := ⟨t, rfl, ht, by rw [hm]; rfl⟩
    have hnr : ∀ c, ¬ WantsReduce g a c := fun c => hws.not_reduce
    have hna : ∀ c, ¬ WantsAccept g a c := by
      rintro c ⟨h4, h5, _⟩
      obtain ⟨b, hb⟩ := hpubl h4
      unfold Item.nextSymbol at ht
      rw [hb, h5] at ht; simp at ht
    refine ⟨t, m, ht, hm, hnr, hna, ?_⟩
    rw [hshift t ht, hm]
    simp only
    cases T.addShift i t m with
    | error e => rfl
    | ok T1 =>
      simp only [Except.bind_ok, hred]
      rw [if_neg (fun hc => hnr a.la ⟨hc.1, hc.2, rfl⟩)]
      simp only [Except.bind_ok, hacc]
      rw [if_neg (fun hc => hna none ⟨hc.1, hc.2.1, hc.2.2, rfl⟩)]
      rfl
  · right
    have hnws : ∀ c, ¬ WantsShift g st.goto a c := by
      rintro c ⟨t, _, ht, hg⟩
      obtain ⟨m, hm⟩ := Option.isSome_iff_exists.1 hg
      exact hs ⟨t, m, ht, hm⟩
    have hrs : ruleShift g i st a T = .ok T := by
      by_cases ht : ∃ t, a.nextSymbol g = some (.terminal t)
      · obtain ⟨t, ht⟩ := ht
        rw [hshift t ht]
        cases hm : st.goto.get? (.terminal t) with
        | none => rfl
        | some m => exact absurd ⟨t, m, ht, hm⟩ hs
      · exact hshift' (fun t ht' => ht ⟨t, ht'⟩)
    rw [hrs]
    simp only [Except.bind_ok, hred]
    by_cases hr : a.cursor = (g.rhs a.nt a.prod).length ∧ g.isPublic a.nt = false
    · left
      have hna : ∀ c, ¬ WantsAccept g a c := by
        rintro c ⟨h4, _⟩; rw [hr.2] at h4; cases h4
      refine ⟨⟨hr.1, hr.2, rfl⟩, hna, hnws, pr, hpr, ?_⟩
      rw [if_pos hr]
      cases T.addReduce i a.la a.nt a.prod pr.action with
      | error e => rfl
      | ok T1 =>
        simp only [Except.bind_ok, hacc]
        rw [if_neg (fun hc => hna none ⟨hc.1, hc.2.1, hc.2.2, rfl⟩)]
        rfl
    · right
      have hnr : ∀ c, ¬ WantsReduce g a c := by
        rintro c ⟨h4, h5, _⟩; exact hr ⟨h4, h5⟩
      rw [if_neg hr]
      simp only [Except.bind_ok, hacc]
      by_cases hac : g.isPublic a.nt = true ∧ a.cursor = 1 ∧ a.la = none
      · left
        refine ⟨⟨hac.1, hac.2.1, hac.2.2, rfl⟩, hnr, hnws, ?_⟩
        rw [if_pos hac]; rfl
      · right
        refine ⟨hnr, ?_, hnws, ?_⟩
        · rintro c ⟨h4, h5, h6, _⟩; exact hac ⟨h4, h5, h6⟩
        · rw [if_neg hac]; rfl

/-- The item does not panic. -/
def ItemFine (g : Grammar A Ty) (G : AMap Symbol Nat) (D : List Item) (a : Item) : Prop :=
  ∀ c, WantsReduce g a c → ∀ it ∈ D,
    ¬ (WantsShift g G it c ∨ WantsReduce g it c ∨ WantsAccept g it c)

theorem ActInv.none_iff {G : AMap Symbol Nat} {i : Nat} {T : LRTable A} {D : List Item}
    (hi : ActInv g G i T D) (c : Option Nat) : T.getAction i c = none ↔
      ∀ it ∈ D, ¬ (WantsShift g G it c ∨ WantsReduce g it c ∨ WantsAccept g it c) := by
  constructor
  · rintro hn it hit (⟨t, rfl, h1, h2⟩ | h | h)
    · obtain ⟨m, hm⟩ := Option.isSome_iff_exists.1 h2
      rw [hi.shift_mk it hit t m h1 hm] at hn; cases hn
    · have := hi.reduce_mk it hit c h
      rw [hn] at this; cases this
    · rw [hi.accept_mk it hit c h] at hn; cases hn
  · intro hall
    cases hx : T.getAction i c with
    | none => rfl
    | some act =>
      exfalso
      cases act with
      | shift n =>
        obtain ⟨it, hit, t, h1, h2, h3⟩ := hi.shift_of c n hx
        exact hall it hit (Or.inl ⟨t, h1, h2, by rw [h3]; rfl⟩)
      | reduce nt p a =>
        obtain ⟨it, hit, _, _, h1, _⟩ := hi.reduce_of c nt p a hx
        exact hall it hit (Or.inr (Or.inl h1))
      | accept =>
        obtain ⟨it, hit, h1⟩ := hi.accept_of c hx
        exact hall it hit (Or.inr (Or.inr h1))

theorem ActInv.congr {G : AMap Symbol Nat} {i : Nat} {T T' : LRTable A} {D : List Item}
    (hi : ActInv g G i T D) (h : T'.action = T.action) : ActInv g G i T' D := by
  have : ∀ i c, T'.getAction i c = T.getAction i c := by
    intro i c; unfold LRTable.getAction; rw [h]
  constructor <;> try simp only [this]
  · exact hi.shift_of
  · exact hi.reduce_of
  · exact hi.accept_of
  · exact hi.shift_mk
  · exact hi.accept_mk
  · exact hi.reduce_mk
  · exact hi.order

theorem getAction_insert (T : LRTable A) (i : Nat) (c : Option Nat) (act : LRAction A) (j : Nat)
    (d : Option Nat) : ({ T with action := T.action.insert (i, c) act } : LRTable A).getAction j d =
      if i = j ∧ c = d then some act else T.getAction j d := by
  unfold LRTable.getAction
  rw [AMap.get?_insert]
  simp only [Prod.mk.injEq]

theorem ActInv.shift {G : AMap Symbol Nat} {i : Nat} {T : LRTable A} {D : List Item} {a : Item}
    (hi : ActInv g G i T D) (hlt : ∀ d ∈ D, Item.lt d a = true) {t n : Nat}
    (ht : a.nextSymbol g = some (.terminal t)) (hn : G.get? (.terminal t) = some n)
    (hnr : ∀ c, ¬ WantsReduce g a c) (hna : ∀ c, ¬ WantsAccept g a c) :
    ActInv g G i { T with action := T.action.insert (i, some t) (.shift n) } (D ++ [a]) := by
  have hws : ∀ c, WantsShift g G a c → c = some t := by
    rintro c ⟨t', rfl, h1, _⟩; rw [ht] at h1; cases h1; rfl
  constructor <;> try simp only [getAction_insert, true_and]
  · intro c m hc
    split at hc
    · next he => cases hc; exact ⟨a, by simp, t, he.symm, ht, hn⟩
    · obtain ⟨it, h1, h2⟩ := hi.shift_of c m hc
      exact ⟨it, by simp [h1], h2⟩
  · intro c nt p x hc
    split at hc
    · cases hc
    · obtain ⟨it, h1, h2⟩ := hi.reduce_of c nt p x hc
      exact ⟨it, by simp [h1], h2⟩
  · intro c hc
    split at hc
    · cases hc
    · obtain ⟨it, h1, h2⟩ := hi.accept_of c hc
      exact ⟨it, by simp [h1], h2⟩
  · intro it hit t' m h1 h2
    simp only [List.mem_append, List.mem_singleton] at hit
    split
    · next he => cases he; rw [hn] at h2; cases h2; rfl
    · next hne =>
      rcases hit with hit | rfl
      · exact hi.shift_mk it hit t' m h1 h2
      · rw [ht] at h1; cases h1; exact absurd rfl hne
  · intro it hit c hc
    simp only [List.mem_append, List.mem_singleton] at hit
    rcases hit with hit | rfl
    · rw [if_neg]
      · exact hi.accept_mk it hit c hc
      · rw [hc.2.2.2]; simp
    · exact absurd hc (hna c)
  · intro it hit c hc
    simp only [List.mem_append, List.mem_singleton] at hit
    split
    · rfl
    · rcases hit with hit | rfl
      · exact hi.reduce_mk it hit c hc
      · exact absurd hc (hnr c)
  · intro it hit it' hit' c hr hw
    simp only [List.mem_append, List.mem_singleton] at hit hit'
    rcases hit' with hit' | rfl
    · rcases hit with hit | rfl
      · exact hi.order it hit it' hit' c hr hw
      · exact Or.inr ⟨hlt it' hit', hnr c⟩
    · exact absurd hr (hnr c)

theorem ActInv.reduce {G : AMap Symbol Nat} {i : Nat} {T : LRTable A} {D : List Item} {a : Item}
    (hi : ActInv g G i T D)
    (hr : WantsReduce g a a.la) (hna : ∀ c, ¬ WantsAccept g a c) (hns : ∀ c, ¬ WantsShift g G a c)
    {pr : Production A} (hpr : g.getProduction? a.nt a.prod = some pr)
    (hnone : T.getAction i a.la = none) :
    ActInv g G i { T with action := T.action.insert (i, a.la) (.reduce a.nt a.prod pr.action) }
      (D ++ [a]) := by
  have hno := (hi.none_iff a.la).1 hnone
  constructor <;> try simp only [getAction_insert, true_and]
  · intro c m hc
    split at hc
    · cases hc
    · obtain ⟨it, h1, h2⟩ := hi.shift_of c m hc
      exact ⟨it, by simp [h1], h2⟩
  · intro c nt p x hc
    split at hc
    · next he => cases hc; exact ⟨a, by simp, rfl, rfl, by rw [← he]; exact hr, pr, hpr, rfl⟩
    · obtain ⟨it, h1, h2⟩ := hi.reduce_of c nt p x hc
      exact ⟨it, by simp [h1], h2⟩
  · intro c hc
    split at hc
    · cases hc
    · obtain ⟨it, h1, h2⟩ := hi.accept_of c hc
      exact ⟨it, by simp [h1], h2⟩
  · intro it hit t' m h1 h2
    simp only [List.mem_append, List.mem_singleton] at hit
    rcases hit with hit | rfl
    · split
      · next he =>
        exact absurd (Or.inl ⟨t', he, h1, by rw [h2]; rfl⟩) (hno it hit)
      · exact hi.shift_mk it hit t' m h1 h2
    · exact absurd ⟨t', rfl, h1, by rw [h2]; rfl⟩ (hns (some t'))
  · intro it hit c hc
    simp only [List.mem_append, List.mem_singleton] at hit
    rcases hit with hit | rfl
    · split
      · next he => subst he; exact absurd (Or.inr (Or.inr hc)) (hno it hit)
      · exact hi.accept_mk it hit c hc
    · exact absurd hc (hna c)
  · intro it hit c hc
    simp only [List.mem_append, List.mem_singleton] at hit
    split
    · rfl
    · next hne =>
      rcases hit with hit | rfl
      · exact hi.reduce_mk it hit c hc
      · exact absurd hc.2.2 hne
  · intro it hit it' hit' c hr' hw
    simp only [List.mem_append, List.mem_singleton] at hit hit'
    rcases hit' with hit' | rfl
    · rcases hit with hit | rfl
      · exact hi.order it hit it' hit' c hr' hw
      · rcases hw with hw | hw | hw
        · exact absurd hw (hns c)
        · have := hw.2.2
          subst this
          exact absurd (Or.inr (Or.inl hr')) (hno it' hit')
        · exact absurd hw (hna c)
    · rcases hit with hit | rfl
      · have := hr'.2.2
        subst this
        exact absurd hw (hno it hit)
      · exact Or.inl rfl

theorem ActInv.accept {G : AMap Symbol Nat} {i : Nat} {T : LRTable A} {D : List Item} {a : Item}
    (hi : ActInv g G i T D) (hlt : ∀ d ∈ D, Item.lt d a = true)
    (ha : WantsAccept g a none) (hnr : ∀ c, ¬ WantsReduce g a c)
    (hns : ∀ c, ¬ WantsShift g G a c) :
    ActInv g G i (T.addAccept i) (D ++ [a]) := by
  unfold LRTable.addAccept
  constructor <;> try simp only [getAction_insert, true_and]
  · intro c m hc
    split at hc
    · cases hc
    · obtain ⟨it, h1, h2⟩ := hi.shift_of c m hc
      exact ⟨it, by simp [h1], h2⟩
  · intro c nt p x hc
    split at hc
    · cases hc
    · obtain ⟨it, h1, h2⟩ := hi.reduce_of c nt p x hc
      exact ⟨it, by simp [h1], h2⟩
  · intro c hc
    split at hc
    · next he => subst he; exact ⟨a, by simp, ha⟩
    · obtain ⟨it, h1, h2⟩ := hi.accept_of c hc
      exact ⟨it, by simp [h1], h2⟩
  · intro it hit t' m h1 h2
    simp only [List.mem_append, List.mem_singleton] at hit
    rcases hit with hit | rfl
    · rw [if_neg (by simp)]
      exact hi.shift_mk it hit t' m h1 h2
    · exact absurd ⟨t', rfl, h1, by rw [h2]; rfl⟩ (hns (some t'))
  · intro it hit c hc
    rw [if_pos hc.2.2.2.symm]
  · intro it hit c hc
    simp only [List.mem_append, List.mem_singleton] at hit
    split
    · rfl
    · rcases hit with hit | rfl
      · exact hi.reduce_mk it hit c hc
      · exact absurd hc (hnr c)
  · intro it hit it' hit' c hr hw
    simp only [List.mem_append, List.mem_singleton] at hit hit'
    rcases hit' with hit' | rfl
    · rcases hit with hit | rfl
      · exact hi.order it hit it' hit' c hr hw
      · exact Or.inr ⟨hlt it' hit', hnr c⟩
    · exact absurd hr (hnr c)

theorem ActInv.skip {G : AMap Symbol Nat} {i : Nat} {T : LRTable A} {D : List Item} {a : Item}
    (hi : ActInv g G i T D) (hnr : ∀ c, ¬ WantsReduce g a c)
    (hna : ∀ c, ¬ WantsAccept g a c) (hns : ∀ c, ¬ WantsShift g G a c) :
    ActInv g G i T (D ++ [a]) := by
  constructor
  · intro c m hc
    obtain ⟨it, h1, h2⟩ := hi.shift_of c m hc
    exact ⟨it, by simp [h1], h2⟩
  · intro c nt p x hc
    obtain ⟨it, h1, h2⟩ := hi.reduce_of c nt p x hc
    exact ⟨it, by simp [h1], h2⟩
  · intro c hc
    obtain ⟨it, h1, h2⟩ := hi.accept_of c hc
    exact ⟨it, by simp [h1], h2⟩
  · intro it hit t' m h1 h2
    simp only [List.mem_append, List.mem_singleton] at hit
    rcases hit with hit | rfl
    · exact hi.shift_mk it hit t' m h1 h2
    · exact absurd ⟨t', rfl, h1, by rw [h2]; rfl⟩ (hns (some t'))
  · intro it hit c hc
    simp only [List.mem_append, List.mem_singleton] at hit
    rcases hit with hit | rfl
    · exact hi.accept_mk it hit c hc
    · exact absurd hc (hna c)
  · intro it hit c hc
    simp only [List.mem_append, List.mem_singleton] at hit
    rcases hit with hit | rfl
    · exact hi.reduce_mk it hit c hc
    · exact absurd hc (hnr c)
  · intro it hit it' hit' c hr hw
    simp only [List.mem_append, List.mem_singleton] at hit hit'
    rcases hit' with hit' | rfl
    · rcases hit with hit | rfl
      · exact hi.order it hit it' hit' c hr hw
      · rcases hw with hw | hw | hw
        · exact absurd hw (hns c)
        · exact absurd hw (hnr c)
        · exact absurd hw (hna c)
    · exact absurd hr (hnr c)

theorem buildItem_step (hwf : g.WF) (h : HashOrder) {i : Nat} {st : LR1State} {T : LRTable A}
    {D : List Item} {a : Item} (ha : ItemOk g a) (hn : (st.goto.map (·.1)).Nodup)
    (hi : ActInv g st.goto i T D) (hg : GoInv st.goto i T D) (hlt : ∀ d ∈ D, Item.lt d a = true) :
    (ItemFine g st.goto D a → ∃ T', buildItem h g i st T a = .ok T') ∧
    ∀ T', buildItem h g i st T a = .ok T' → ItemFine g st.goto D a ∧
      ActInv g st.goto i T' (D ++ [a]) ∧ GoInv st.goto i T' (D ++ [a]) ∧ SameRows i T T' := by
  have fin : ∀ T1, ActInv g st.goto i T1 (D ++ [a]) → T1.goto = T.goto → T1.nStates = T.nStates →
      (∀ j c, j ≠ i → T1.getAction j c = T.getAction j c) →
      ActInv g st.goto i (ruleGotos h i st T1) (D ++ [a]) ∧
      GoInv st.goto i (ruleGotos h i st T1) (D ++ [a]) ∧ SameRows i T (ruleGotos h i st T1) := by
    intro T1 h1 h2 h3 h4
    obtain ⟨e1, e2, e3, _⟩ := ruleGotos_spec h i st T1
    refine ⟨h1.congr e1, GoInv.step hn (D := D) ?_ _, ?_, ?_, ?_⟩
    · have : ∀ i b, T1.getGoto i b = T.getGoto i b := by
        intro i b; unfold LRTable.getGoto; rw [h2]
      constructor <;> try simp only [this]
      · exact hg.goto_of
      · exact hg.goto_mk
    · intro j c hj
      rw [← h4 j c hj]; unfold LRTable.getAction; rw [e1]
    · intro j b hj
      rw [e3 j b hj]; unfold LRTable.getGoto; rw [h2]
    · rw [e2, h3]
  have hother : ∀ (c : Option Nat) (act : LRAction A) (j : Nat) (d : Option Nat), j ≠ i →
      ({ T with action := T.action.insert (i, c) act } : LRTable A).getAction j d =
        T.getAction j d := by
    intro c act j d hj
    rw [getAction_insert, if_neg (fun hc => hj hc.1.symm)]
  rcases buildItem_cases hwf ha h i st T with ⟨t, n, ht, hm, hnr, hna, he⟩ |
    ⟨hr, hna, hns, pr, hpr, he⟩ | ⟨hac, hnr, hns, he⟩ | ⟨hnr, hna, hns, he⟩
  · have hfine : ItemFine g st.goto D a := fun c hc => absurd hc (hnr c)
    have hok : T.addShift i t n =
        .ok { T with action := T.action.insert (i, some t) (.shift n) } := by
      unfold LRTable.addShift
      simp only
      have hga : T.action.get? (i, some t) = T.getAction i (some t) := rfl
      rw [hga]
      cases hx : T.getAction i (some t) with
      | none => rfl
      | some act =>
        cases act with
        | shift m =>
          obtain ⟨it, _, t', h1, _, h3⟩ := hi.shift_of _ _ hx
          cases h1
          rw [hm] at h3; cases h3
          simp
        | reduce => rfl
        | accept =>
          obtain ⟨it, _, h1⟩ := hi.accept_of _ hx
          have := h1.2.2.2; cases this
    rw [he, hok]
    refine ⟨fun _ => ⟨_, rfl⟩, ?_⟩
    intro T' hT'
    cases hT'
    exact ⟨hfine, fin _ (hi.shift hlt ht hm hnr hna) rfl rfl (hother _ _)⟩
  · rw [he]
    have hiff : ItemFine g st.goto D a ↔ T.getAction i a.la = none := by
      rw [hi.none_iff]
      constructor
      · intro hf; exact hf a.la hr
      · intro hf c hc; have := hc.2.2; subst this; exact hf
    have hga : T.action.get? (i, a.la) = T.getAction i a.la := rfl
    cases hx : T.getAction i a.la with
    | none =>
      have hok : T.addReduce i a.la a.nt a.prod pr.action =
          .ok { T with action := T.action.insert (i, a.la) (.reduce a.nt a.prod pr.action) } := by
        unfold LRTable.addReduce
        simp only
        rw [hga, hx]
      rw [hok]
      refine ⟨fun _ => ⟨_, rfl⟩, ?_⟩
      intro T' hT'
      cases hT'
      exact ⟨hiff.2 hx, fin _ (hi.reduce hr hna hns hpr hx) rfl rfl (hother _ _)⟩
    | some act =>
      have hno : ¬ ItemFine g st.goto D a := by rw [hiff, hx]; simp
      have herr : ∃ e, T.addReduce i a.la a.nt a.prod pr.action = .error e := by
        unfold LRTable.addReduce
        simp only
        rw [hga, hx]
        cases act <;> exact ⟨_, rfl⟩
      obtain ⟨e, herr⟩ := herr
      rw [herr]
      exact ⟨fun hf => absurd hf hno, fun T' hT' => by cases hT'⟩
  · rw [he]
    refine ⟨fun _ => ⟨_, rfl⟩, ?_⟩
    intro T' hT'
    cases hT'
    exact ⟨fun c hc => absurd hc (hnr c), fin _ (hi.accept hlt hac hnr hns) rfl rfl (hother _ _)⟩
  · rw [he]
    refine ⟨fun _ => ⟨_, rfl⟩, ?_⟩
    intro T' hT'
    cases hT'
    exact ⟨fun c hc => absurd hc (hnr c), fin _ (hi.skip hnr hna hns) rfl rfl (fun _ _ _ => rfl)⟩

/-! ## One state -/

/-- No panic in this state. -/
def StateFine (g : Grammar A Ty) (st : LR1State) : Prop :=
  ∀ it ∈ st.items, ∀ it' ∈ st.items, ∀ c, Item.lt it it' = true → WantsReduce g it' c →
    ¬ (WantsShift g st.goto it c ∨ WantsReduce g it c ∨ WantsAccept g it c)

/-- The row of a finished state. -/
structure RowSpec (g : Grammar A Ty) (i : Nat) (st : LR1State) (T : LRTable A) : Prop where
  act : ActInv g st.goto i T st.items
  go : GoInv st.goto i T st.items

theorem buildState_step (hwf : g.WF) (h : HashOrder) {i : Nat} {st : LR1State} {T : LRTable A}
    (hok : ∀ x ∈ st.items, ItemOk g x) (hsort : BTSorted st.items)
    (hn : (st.goto.map (·.1)).Nodup) (h0 : ∀ c, T.getAction i c = none)
    (h0' : ∀ b, T.getGoto i b = none) :
    (StateFine g st → ∃ T', buildState h g T (st, i) = .ok T') ∧
    ∀ T', buildState h g T (st, i) = .ok T' → StateFine g st ∧ RowSpec g i st T' ∧
      SameRows i T T' := by
  have key : ∀ (l D : List Item) (T1 : LRTable A), st.items = D ++ l →
      ActInv g st.goto i T1 D → GoInv st.goto i T1 D →
      (StateFine g st → ∃ T', l.foldlM (buildItem h g i st) T1 = .ok T') ∧
      ∀ T', l.foldlM (buildItem h g i st) T1 = .ok T' →
        (∀ it ∈ st.items, ∀ it' ∈ l, ∀ c, Item.lt it it' = true → WantsReduce g it' c →
          ¬ (WantsShift g st.goto it c ∨ WantsReduce g it c ∨ WantsAccept g it c)) ∧
        RowSpec g i st T' ∧ SameRows i T1 T' := by
    intro l
    induction l with
    | nil =>
      intro D T1 hD ha hg
      simp only [List.append_nil] at hD
      refine ⟨fun _ => ⟨T1, rfl⟩, ?_⟩
      intro T' hT'
      cases hT'
      refine ⟨by simp, ⟨by rw [hD]; exact ha, by rw [hD]; exact hg⟩, SameRows.refl _ _⟩
    | cons a l ih =>
      intro D T1 hD ha hg
      have hs : BTSorted (D ++ a :: l) := hD ▸ hsort
      have hlt : ∀ d ∈ D, Item.lt d a = true := by
        intro d hd
        exact (List.pairwise_append.1 hs).2.2 d hd a (by simp)
      have hgt : ∀ d ∈ l, Item.lt a d = true := by
        intro d hd
        exact (List.pairwise_cons.1 (List.pairwise_append.1 hs).2.1).1 d hd
      obtain ⟨h1, h2⟩ := buildItem_step hwf h (hok a (by rw [hD]; simp)) hn ha hg hlt
      constructor
      · intro hf
        obtain ⟨T2, hT2⟩ := h1 (by
          intro c hc it hit
          exact hf it (by rw [hD]; simp [hit]) a (by rw [hD]; simp) c (hlt it hit) hc)
        obtain ⟨_, h4, h5, h6⟩ := h2 T2 hT2
        obtain ⟨T3, hT3⟩ := (ih (D ++ [a]) T2 (by simpa using hD) h4 h5).1 hf
        exact ⟨T3, by rw [List.foldlM_cons, hT2]; exact hT3⟩
      · intro T' hT'
        rw [List.foldlM_cons] at hT'
        obtain ⟨T2, hT2, hT3⟩ := Except.bind_eq_ok.1 hT'
        obtain ⟨h3, h4, h5, h6⟩ := h2 T2 hT2
        obtain ⟨h7, h8, h9⟩ := (ih (D ++ [a]) T2 (by simpa using hD) h4 h5).2 T' hT3
        refine ⟨?_, h8, h6.trans h9⟩
        intro it hit it' hit' c hl hr
        simp only [List.mem_cons] at hit'
        rcases hit' with rfl | hit'
        · rw [hD] at hit
          simp only [List.mem_append, List.mem_cons] at hit
          rcases hit with hit | rfl | hit
          · exact h3 c hr it hit
          · exact absurd hl (Item.lt_irrefl _)
          · exact absurd (Item.lt_trans hl (hgt it hit)) (Item.lt_irrefl _)
        · exact h7 it hit it' hit' c hl hr
  have ha : ActInv g st.goto i T [] := by
    constructor <;> simp [h0]
  have hg : GoInv st.goto i T [] := by
    constructor <;> simp [h0']
  obtain ⟨h1, h2⟩ := key st.items [] T rfl ha hg
  exact ⟨h1, fun T' hT' => h2 T' hT'⟩

/-! ## All states -/

/-- Specification of the table built from `states`. -/
structure TableSpec (g : Grammar A Ty) (states : List LR1State) (T : LRTable A) : Prop where
  row : ∀ (i : Nat) (st : LR1State), states[i]? = some st → RowSpec g i st T
  out : ∀ i, states.length ≤ i → (∀ c, T.getAction i c = none) ∧ ∀ b, T.getGoto i b = none
  n : T.nStates = states.length

theorem RowSpec.same {i j : Nat} {st : LR1State} {T T' : LRTable A} (h : RowSpec g i st T)
    (hs : SameRows j T T') (hij : i ≠ j) : RowSpec g i st T' := by
  have h1 : ∀ c, T'.getAction i c = T.getAction i c := fun c => hs.action i c hij
  have h2 : ∀ c, T'.getGoto i c = T.getGoto i c := fun c => hs.goto i c hij
  refine ⟨?_, ?_⟩
  · constructor <;> try simp only [h1]
    · exact h.act.shift_of
    · exact h.act.reduce_of
    · exact h.act.accept_of
    · exact h.act.shift_mk
    · exact h.act.accept_mk
    · exact h.act.reduce_mk
    · exact h.act.order
  · constructor <;> try simp only [h2]
    · exact h.go.goto_of
    · exact h.go.goto_mk

theorem buildTable_spec (hwf : g.WF) (h : HashOrder) {states : List LR1State}
    (hst : ∀ (i : Nat) (st : LR1State), states[i]? = some st → (∀ x ∈ st.items, ItemOk g x) ∧
      BTSorted st.items ∧ (st.goto.map (·.1)).Nodup) :
    ((∀ st ∈ states, StateFine g st) → ∃ T, buildTable h g states = .ok T) ∧
    ∀ T, buildTable h g states = .ok T → (∀ st ∈ states, StateFine g st) ∧
      TableSpec g states T := by
  have key : ∀ (l : List LR1State) (k : Nat) (T : LRTable A),
      (∀ (i : Nat) (st : LR1State), l[i]? = some st → states[k + i]? = some st) →
      (∀ (i : Nat) (st : LR1State), i < k → states[i]? = some st → RowSpec g i st T) →
      (∀ i, k ≤ i → (∀ c, T.getAction i c = none) ∧ ∀ b, T.getGoto i b = none) →
      ((∀ st ∈ l, StateFine g st) → ∃ T', (l.zipIdx k).foldlM (buildState h g) T = .ok T') ∧
      ∀ T', (l.zipIdx k).foldlM (buildState h g) T = .ok T' → (∀ st ∈ l, StateFine g st) ∧
        (∀ (i : Nat) (st : LR1State), i < k + l.length → states[i]? = some st →
          RowSpec g i st T') ∧
        (∀ i, k + l.length ≤ i → (∀ c, T'.getAction i c = none) ∧ ∀ b, T'.getGoto i b = none) ∧
        T'.nStates = T.nStates := by
    intro l
    induction l with
    | nil =>
      intro k T _ h2 h3
      refine ⟨fun _ => ⟨T, rfl⟩, ?_⟩
      intro T' hT'
      cases hT'
      exact ⟨by simp, by simpa using h2, by simpa using h3, rfl⟩
    | cons st l ih =>
      intro k T h1 h2 h3
      have hk : states[k]? = some st := by simpa using h1 0 st rfl
      obtain ⟨o1, o2, o3⟩ := hst k st hk
      obtain ⟨s1, s2⟩ := buildState_step hwf h o1 o2 o3 (h3 k (Nat.le_refl _)).1
        (h3 k (Nat.le_refl _)).2
      have h1' : ∀ (i : Nat) (st' : LR1State), l[i]? = some st' → states[k + 1 + i]? = some st' := by
        intro i st' hi
        have := h1 (i + 1) st' (by simpa using hi)
        rw [← this]; congr 1; omega
      have hnext : ∀ T2, buildState h g T (st, k) = .ok T2 →
          (∀ (i : Nat) (st : LR1State), i < k + 1 → states[i]? = some st → RowSpec g i st T2) ∧
          (∀ i, k + 1 ≤ i → (∀ c, T2.getAction i c = none) ∧ ∀ b, T2.getGoto i b = none) := by
        intro T2 hT2
        obtain ⟨_, h5, h6⟩ := s2 T2 hT2
        constructor
        · intro i st' hi hst'
          by_cases he : i = k
          · subst he; rw [hk] at hst'; cases hst'; exact h5
          · exact (h2 i st' (by omega) hst').same h6 he
        · intro i hi
          have hne : i ≠ k := by omega
          have := h3 i (by omega)
          exact ⟨fun c => by rw [h6.action i c hne]; exact this.1 c,
            fun b => by rw [h6.goto i b hne]; exact this.2 b⟩
      rw [List.zipIdx_cons]
      have hlen : k + (st :: l).length = k + 1 + l.length := by simp; omega
      rw [hlen]
      constructor
      · intro hf
        obtain ⟨T2, hT2⟩ := s1 (hf st (by simp))
        obtain ⟨n1, n2⟩ := hnext T2 hT2
        obtain ⟨T3, hT3⟩ := (ih (k + 1) T2 h1' n1 n2).1 (fun x hx => hf x (by simp [hx]))
        exact ⟨T3, by rw [List.foldlM_cons, hT2]; exact hT3⟩
      · intro T' hT'
        rw [List.foldlM_cons] at hT'
        obtain ⟨T2, hT2, hT3⟩ := Except.bind_eq_ok.1 hT'
        obtain ⟨n1, n2⟩ := hnext T2 hT2
        obtain ⟨i1, i2, i3, i4⟩ := (ih (k + 1) T2 h1' n1 n2).2 T' hT3
        obtain ⟨f1, _, f2⟩ := s2 T2 hT2
        refine ⟨?_, i2, i3, i4.trans f2.n⟩
        intro x hx
        simp only [List.mem_cons] at hx
        rcases hx with rfl | hx
        · exact f1
        · exact i1 x hx
  obtain ⟨h1, h2⟩ := key states 0 (LRTable.new states.length) (by simp) (by simp)
    (by intro i _; exact ⟨fun _ => rfl, fun _ => rfl⟩)
  refine ⟨h1, ?_⟩
  intro T hT
  obtain ⟨h3, h4, h5, h6⟩ := h2 T hT
  refine ⟨h3, ?_, ?_, h6⟩
  · intro i st hi
    exact h4 i st (by simpa using (List.getElem?_eq_some_iff.1 hi).1) hi
  · intro i hi; exact h5 i (by omega)

end Parsegen
