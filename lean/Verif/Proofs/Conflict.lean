import Verif.Proofs.Tables
import Verif.Proofs.Valid

/-! # The ways in which the generator can reject a grammar -/

namespace Parsegen

variable {A X Ty : Type} {g : Grammar A Ty}

theorem Except.bind_eq_error {ε α β : Type} {x : Except ε α} {f : α → Except ε β} {e : ε} :
    (x >>= f) = .error e ↔ x = .error e ∨ ∃ a, x = .ok a ∧ f a = .error e := by
  cases x <;> simp [bind, Except.bind]

theorem foldlM_error {α β ε : Type} {f : β → α → Except ε β} {e : ε} :
    ∀ (l : List α) (b : β), l.foldlM f b = .error e →
      ∃ l1 a l2 b', l = l1 ++ a :: l2 ∧ l1.foldlM f b = .ok b' ∧ f b' a = .error e := by
  intro l
  induction l with
  | nil => intro b h; cases h
  | cons a l ih =>
    intro b h
    rw [List.foldlM_cons] at h
    rcases Except.bind_eq_error.1 h with h | ⟨b', h1, h2⟩
    · exact ⟨[], a, l, b, rfl, rfl, h⟩
    · obtain ⟨l1, a', l2, b'', rfl, h3, h4⟩ := ih b' h2
      refine ⟨a :: l1, a', l2, b'', rfl, ?_, h4⟩
      rw [List.foldlM_cons, h1]
      exact h3

theorem mapM_error {α β ε : Type} {f : α → Except ε β} {e : ε} :
    ∀ (l : List α), l.mapM f = .error e → ∃ a ∈ l, f a = .error e := by
  intro l
  induction l with
  | nil => intro h; cases h
  | cons a l ih =>
    intro h
    rw [List.mapM_cons] at h
    rcases Except.bind_eq_error.1 h with h | ⟨b, _, h2⟩
    · exact ⟨a, by simp, h⟩
    · rcases Except.bind_eq_error.1 h2 with h3 | ⟨_, _, h4⟩
      · obtain ⟨x, hx, hx'⟩ := ih h3
        exact ⟨x, by simp [hx], hx'⟩
      · cases h4

/-- The panic of `add_reduce` belonging to the earlier claim of item `it`. -/
def ConflictFault (g : Grammar A Ty) (G : AMap Symbol Nat) (q : Nat) (it : Item) (c : Option Nat)
    (nt p : Nat) (f : Fault) : Prop :=
  (∃ r, f = .reduceOverShift q c r nt p ∧ WantsShift g G it c ∧
    ∀ t, c = some t → G.get? (.terminal t) = some r) ∨
    (f = .reduceOverReduce q c it.nt it.prod nt p ∧ WantsReduce g it c) ∨
    (f = .reduceOverAccept q c nt p ∧ WantsAccept g it c)

theorem Except.map_error {ε α β : Type} {x : Except ε α} {f : α → β} {e : ε}
    (h : x.map f = .error e) : x = .error e := by
  cases x with
  | ok => cases h
  | error => cases h; rfl

theorem buildItem_error (hwf : g.WF) (h : HashOrder) {i : Nat} {st : LR1State} {T : LRTable A}
    {D : List Item} {a : Item} (ha : ItemOk g a)
    (hi : ActInv g st.goto i T D) {f : Fault} (he : buildItem h g i st T a = .error f) :
    ∃ it ∈ D, WantsReduce g a a.la ∧ ConflictFault g st.goto i it a.la a.nt a.prod f := by
  rcases buildItem_cases hwf ha h i st T with ⟨t, n, h1, h2, _, _, h5⟩ | ⟨h1, _, _, pr, _, h5⟩ |
    ⟨_, _, _, h5⟩ | ⟨_, _, _, h5⟩
  · rw [h5] at he
    have he := Except.map_error he
    unfold LRTable.addShift at he
    simp only at he
    split at he
    · cases he
    · next s hs =>
      obtain ⟨it, _, t', ht, _, hg⟩ := hi.shift_of (some t) s hs
      cases ht
      rw [h2] at hg; cases hg
      simp at he
    · cases he
    · next hs =>
      obtain ⟨it, _, hw⟩ := hi.accept_of (some t) hs
      exact absurd hw.2.2.2 (by simp)
  · rw [h5] at he
    have he := Except.map_error he
    unfold LRTable.addReduce at he
    simp only at he
    split at he
    · cases he
    · next s hs =>
      cases he
      obtain ⟨it, hit, t', ht, hn, hg⟩ := hi.shift_of _ s hs
      exact ⟨it, hit, h1, .inl ⟨s, rfl, ⟨t', ht, hn, by simp [hg]⟩, by
        intro t'' ht''
        rw [ht] at ht''; cases ht''; exact hg⟩⟩
    · next nt p k hs =>
      cases he
      obtain ⟨it, hit, rfl, rfl, hr, _⟩ := hi.reduce_of _ _ _ _ hs
      exact ⟨it, hit, h1, .inr (.inl ⟨rfl, hr⟩)⟩
    · next hs =>
      cases he
      obtain ⟨it, hit, hr⟩ := hi.accept_of _ hs
      exact ⟨it, hit, h1, .inr (.inr ⟨rfl, hr⟩)⟩
  · rw [h5] at he; cases he
  · rw [h5] at he; cases he

/-- A panic of the builder in a state comes from an item that wants to reduce on a lookahead already
claimed by an earlier item. -/
def StateClash (g : Grammar A Ty) (q : Nat) (st : LR1State) (f : Fault) : Prop :=
  ∃ it ∈ st.items, ∃ it' ∈ st.items, Item.lt it it' = true ∧ WantsReduce g it' it'.la ∧
    ConflictFault g st.goto q it it'.la it'.nt it'.prod f

theorem buildState_error (hwf : g.WF) (h : HashOrder) {i : Nat} {st : LR1State} {T : LRTable A}
    (hok : ∀ x ∈ st.items, ItemOk g x) (hsort : BTSorted st.items)
    (hn : (st.goto.map (·.1)).Nodup) (h0 : ∀ c, T.getAction i c = none)
    (h0' : ∀ b, T.getGoto i b = none) {f : Fault}
    (he : buildState h g T (st, i) = .error f) : StateClash g i st f := by
  obtain ⟨l1, a, l2, T1, hD, h1, h2⟩ := foldlM_error _ _ he
  simp only at hD h1 h2
  have hs : BTSorted (l1 ++ a :: l2) := hD ▸ hsort
  have key : ∀ (l D : List Item) (T1 T2 : LRTable A), l1 = D ++ l →
      ActInv g st.goto i T1 D → GoInv st.goto i T1 D →
      l.foldlM (buildItem h g i st) T1 = .ok T2 → ActInv g st.goto i T2 l1 := by
    intro l
    induction l with
    | nil =>
      intro D T1 T2 hD ha hg hT
      cases hT
      rw [hD]; simpa using ha
    | cons x l ih =>
      intro D T1 T2 hD' ha hg hT
      rw [List.foldlM_cons] at hT
      obtain ⟨T3, h3, h4⟩ := Except.bind_eq_ok.1 hT
      have hxs : x ∈ st.items := by rw [hD, hD']; simp
      have hlt : ∀ d ∈ D, Item.lt d x = true := by
        intro d hd
        rw [hD', List.append_assoc] at hs
        exact (List.pairwise_append.1 hs).2.2 d hd x (by simp)
      obtain ⟨_, a1, a2, _⟩ := (buildItem_step hwf h (hok x hxs) hn ha hg hlt).2 T3 h3
      exact ih (D ++ [x]) T3 T2 (by simpa using hD') a1 a2 h4
  have ha : ActInv g st.goto i T [] := by constructor <;> simp [h0]
  have hg : GoInv st.goto i T [] := by constructor <;> simp [h0']
  have h3 := key l1 [] T T1 rfl ha hg h1
  obtain ⟨it, hit, h4, h5⟩ := buildItem_error hwf h (hok a (by rw [hD]; simp)) h3 h2
  exact ⟨it, by rw [hD]; simp [hit], a, by rw [hD]; simp,
    (List.pairwise_append.1 hs).2.2 it hit a (by simp), h4, h5⟩

theorem buildTable_error (hwf : g.WF) (h : HashOrder) {states : List LR1State}
    (hst : ∀ (i : Nat) (st : LR1State), states[i]? = some st → (∀ x ∈ st.items, ItemOk g x) ∧
      BTSorted st.items ∧ (st.goto.map (·.1)).Nodup) {f : Fault}
    (he : buildTable h g states = .error f) : ∃ (q : Nat) (st : LR1State), states[q]? = some st ∧
      StateClash g q st f ∧ ∀ q' < q, ∀ st', states[q']? = some st' → StateFine g st' := by
  have key : ∀ (l : List LR1State) (k : Nat) (T : LRTable A),
      (∀ (i : Nat) (st : LR1State), l[i]? = some st → states[k + i]? = some st) →
      (∀ i, k ≤ i → (∀ c, T.getAction i c = none) ∧ ∀ b, T.getGoto i b = none) →
      (∀ q' < k, ∀ st', states[q']? = some st' → StateFine g st') →
      (l.zipIdx k).foldlM (buildState h g) T = .error f →
      ∃ (q : Nat) (st : LR1State), states[q]? = some st ∧ StateClash g q st f ∧
        ∀ q' < q, ∀ st', states[q']? = some st' → StateFine g st' := by
    intro l
    induction l with
    | nil => intro k T _ _ _ h; cases h
    | cons st l ih =>
      intro k T h1 h3 hfine he
      have hk : states[k]? = some st := by simpa using h1 0 st rfl
      obtain ⟨o1, o2, o3⟩ := hst k st hk
      rw [List.zipIdx_cons, List.foldlM_cons] at he
      rcases Except.bind_eq_error.1 he with he | ⟨T2, h4, h5⟩
      · exact ⟨k, st, hk, buildState_error hwf h o1 o2 o3
          (h3 k (Nat.le_refl _)).1 (h3 k (Nat.le_refl _)).2 he, hfine⟩
      · obtain ⟨h7, _, h6⟩ := (buildState_step hwf h o1 o2 o3 (h3 k (Nat.le_refl _)).1
          (h3 k (Nat.le_refl _)).2).2 T2 h4
        refine ih (k + 1) T2 ?_ ?_ ?_ h5
        · intro i st' hi
          have := h1 (i + 1) st' (by simpa using hi)
          rw [← this]; congr 1; omega
        · intro i hi
          have hne : i ≠ k := by omega
          have := h3 i (by omega)
          exact ⟨fun c => by rw [h6.action i c hne]; exact this.1 c,
            fun b => by rw [h6.goto i b hne]; exact this.2 b⟩
        · intro q' hq' st' hst'
          rcases Nat.lt_or_ge q' k with hlt | hge
          · exact hfine q' hlt st' hst'
          · have : q' = k := by omega
            subst this
            rw [hk] at hst'; cases hst'
            exact h7
  exact key states 0 (LRTable.new states.length) (by simp)
    (by intro i _; exact ⟨fun _ => rfl, fun _ => rfl⟩) (by simp) he

/-! ## The other stages fail only on sizes -/

theorem tryU16_error {n : Nat} {f : Fault} (h : tryU16 n = .error f) :
    f = .u16Overflow ∧ 65536 ≤ n := by
  unfold tryU16 at h; split at h <;> cases h; exact ⟨rfl, by omega⟩

theorem tryU32_error {n : Nat} {f : Fault} (h : tryU32 n = .error f) :
    f = .u32Overflow ∧ 4294967296 ≤ n := by
  unfold tryU32 at h; split at h <;> cases h; exact ⟨rfl, by omega⟩

theorem popStmts_noerror {variants : List Nat} {l : List BoundSymbol}
    (hl : ∀ s ∈ l, ∀ b, s.symbol = .nonTerminal b → b < variants.length) {f : Fault} :
    popStmts variants l ≠ .error f := by
  induction l with
  | nil => intro h; cases h
  | cons s l ih =>
    intro h
    rcases Except.bind_eq_error.1 h with h | ⟨p, _, h2⟩
    · unfold popStmt at h
      split at h
      · cases h
      · split at h
        · cases h
        · next b hb =>
          split at h
          · next hv =>
            rw [List.getElem?_eq_none_iff] at hv
            have := hl s (by simp) b hb
            omega
          · cases h
    · rcases Except.bind_eq_error.1 h2 with h3 | ⟨_, _, h4⟩
      · exact ih (fun s hs => hl s (by simp [hs])) h3
      · cases h4

theorem semProductions_error {variants : List Nat} {nt : Nat} {ps : List (Production X)}
    {fns : List (SemFn X)} {f : Fault} (hnt : nt < variants.length)
    (hps : ∀ p ∈ ps, ∀ s ∈ p.symbols, ∀ b, s.symbol = .nonTerminal b → b < variants.length)
    (h : semProductions variants nt ps fns = .error f) :
    f = .u16Overflow ∧ 65536 < fns.length + ps.length := by
  induction ps generalizing fns with
  | nil => cases h
  | cons p ps ih =>
    rcases Except.bind_eq_error.1 h with h | ⟨⟨p', fns'⟩, h1, h2⟩
    · unfold semProduction at h
      rcases Except.bind_eq_error.1 h with h | ⟨pops, _, h2⟩
      · exact absurd h (popStmts_noerror (fun s hs => hps p (by simp) s (by simpa using hs)))
      · split at h2
        · next hv => rw [List.getElem?_eq_none_iff] at hv; omega
        · rcases Except.bind_eq_error.1 h2 with h3 | ⟨_, _, h4⟩
          · obtain ⟨e1, e2⟩ := tryU16_error h3
            exact ⟨e1, by simp; omega⟩
          · cases h4
    · rcases Except.bind_eq_error.1 h2 with h3 | ⟨_, _, h4⟩
      · obtain ⟨e1, e2⟩ := ih (fun p hp => hps p (by simp [hp])) h3
        obtain ⟨_, _, _, he⟩ := semProduction_ok h1
        cases he
        refine ⟨e1, ?_⟩
        simp only [List.length_append, List.length_cons, List.length_nil] at e2 ⊢
        omega
      · cases h4

theorem semNonTerminals_error {variants : List Nat} {l : List (NonTerminal X Ty)} {nt : Nat}
    {fns : List (SemFn X)} {f : Fault} (hnt : nt + l.length ≤ variants.length)
    (hl : ∀ n ∈ l, ∀ p ∈ n.productions, ∀ s ∈ p.symbols, ∀ b, s.symbol = .nonTerminal b →
      b < variants.length)
    (h : semNonTerminals variants nt l fns = .error f) :
    f = .u16Overflow ∧ 65536 < fns.length + prodBase l l.length := by
  induction l generalizing fns nt with
  | nil => cases h
  | cons n l ih =>
    simp only [List.length_cons] at hnt
    have hb : prodBase (n :: l) (n :: l).length = n.productions.length + prodBase l l.length := by
      simp [prodBase]
    rw [hb]
    rcases Except.bind_eq_error.1 h with h | ⟨⟨ps, fns'⟩, h1, h2⟩
    · obtain ⟨e1, e2⟩ := semProductions_error (by omega) (hl n (by simp)) h
      exact ⟨e1, by omega⟩
    · rcases Except.bind_eq_error.1 h2 with h3 | ⟨_, _, h4⟩
      · obtain ⟨e1, e2⟩ := ih (by omega) (fun n hn => hl n (by simp [hn])) h3
        obtain ⟨ext, he, hf, _⟩ := semProductions_ok h1
        have hlen := hf.length_eq
        refine ⟨e1, ?_⟩
        simp only at he
        rw [he, List.length_append] at e2
        omega
      · cases h4

theorem variantNames_length [DecidableEq Ty] (l : List Ty) (seen : AMap Ty Nat) (i : Nat) :
    (variantNames l seen i).length = l.length := by
  induction l generalizing seen i with
  | nil => rfl
  | cons t l ih =>
    unfold variantNames
    split <;> simp [ih]

theorem generateSemanticActionTable_error [DecidableEq Ty] {g : Grammar X Ty} (hwf : g.WF)
    {f : Fault} (h : generateSemanticActionTable g (semanticActionVariants g) = .error f) :
    f = .u16Overflow ∧ 65536 < prodBase g.nonTerminals g.nonTerminals.length := by
  have hlen : (semanticActionVariants g).length = g.nonTerminals.length := by
    simp [semanticActionVariants, variantNames_length]
  rcases Except.bind_eq_error.1 h with h | ⟨⟨_, _⟩, _, h4⟩
  · have hmain := semNonTerminals_error (l := g.nonTerminals) (nt := 0) (fns := []) (f := f)
      (by omega) ?_ h
    · simpa using hmain
    intro n hn p hp s hs b hb
    obtain ⟨i, hi⟩ := List.getElem?_of_mem hn
    obtain ⟨j, hj⟩ := List.getElem?_of_mem hp
    have := hwf.nt_lt (b := b) ⟨n, p, hi, hj, rfl⟩ (List.mem_map.2 ⟨s, hs, hb⟩)
    rw [hlen]; exact this
  · cases h4

theorem generateActionArray_error {g : Grammar Nat Ty} {T : LRTable Nat} {nT n : Nat}
    (hnT : nT = g.nTerminals)
    (hS : ∀ q c r, T.getAction q c = some (.shift r) → r < n)
    (hT : ∀ q c nt p k, T.getAction q c = some (.reduce nt p k) →
      (g.getProduction? nt p).isSome = true) {f : Fault}
    (h : generateActionArray g (actionTableVec g T T.nStates) T.nStates nT = .error f) :
    (f = .u32Overflow ∧ 4294967296 < n) ∨ (f = .u16Overflow ∧ (65536 < g.nNonTerminals ∨
      ∃ nt p α, g.HasProd nt p α ∧ 65535 < α.length)) := by
  unfold generateActionArray at h
  rw [if_pos (by simp [actionTableVec])] at h
  obtain ⟨row, hr, h⟩ := mapM_error _ h
  unfold actionTableVec at hr
  obtain ⟨q, _, rfl⟩ := List.mem_map.1 hr
  rw [if_pos (by simp [hnT])] at h
  obtain ⟨o, ho, h⟩ := mapM_error _ h
  have ho' : ∃ c, o = T.getAction q c := by
    simp only [List.mem_append, List.mem_map, List.mem_range, List.mem_singleton] at ho
    rcases ho with ⟨x, _, rfl⟩ | rfl
    · exact ⟨some x, rfl⟩
    · exact ⟨none, rfl⟩
  obtain ⟨c, hc⟩ := ho'
  cases o with
  | none => cases h
  | some act =>
    rcases Except.bind_eq_error.1 h with h | ⟨_, _, h4⟩
    · cases act with
      | shift r =>
        rcases Except.bind_eq_error.1 h with h | ⟨_, _, h4⟩
        · obtain ⟨e1, e2⟩ := tryU32_error h
          have := hS q c r hc.symm
          exact .inl ⟨e1, by omega⟩
        · cases h4
      | accept => cases h
      | reduce nt p k =>
        unfold encodeAction at h
        simp only at h
        split at h
        · next hn =>
          have := hT q c nt p k hc.symm
          rw [hn] at this; cases this
        · next pr hpr =>
          have hlt : nt < g.nNonTerminals := by
            unfold Grammar.getProduction? at hpr
            cases hx : g.nonTerminals[nt]? with
            | none => rw [hx] at hpr; cases hpr
            | some _ => exact (List.getElem?_eq_some_iff.1 hx).1
          rcases Except.bind_eq_error.1 h with h | ⟨_, _, h⟩
          · obtain ⟨e1, e2⟩ := tryU16_error h
            refine .inr ⟨e1, .inr ⟨nt, p, _, hasProd_of_getProduction hpr, ?_⟩⟩
            simp only [Production.syms, List.length_map]; omega
          · rcases Except.bind_eq_error.1 h with h | ⟨_, _, h4⟩
            · obtain ⟨e1, e2⟩ := tryU16_error h
              exact .inr ⟨e1, .inl (by omega)⟩
            · cases h4
    · cases h4

theorem generateGoto_error {T : LRTable A} {n m : Nat} {f : Fault}
    (h : generateGotoVec T n m = .error f) : f = .u32Overflow ∧ 4294967296 < m := by
  obtain ⟨s, _, h⟩ := mapM_error _ h
  obtain ⟨x, hx, h⟩ := mapM_error _ h
  rw [List.mem_range] at hx
  rcases Except.bind_eq_error.1 h with h | ⟨_, _, h4⟩
  · obtain ⟨e1, e2⟩ := tryU32_error h
    exact ⟨e1, by omega⟩
  · cases h4

theorem generateGotoArray_error {t : List (List (Option Nat))} {n : Nat}
    (ht : ∀ row ∈ t, ∀ r, some r ∈ row → r < n) {f : Fault}
    (h : generateGotoArray t = .error f) : f = .u32Overflow ∧ 4294967296 < n := by
  obtain ⟨s, hs, h⟩ := mapM_error _ h
  obtain ⟨x, hx, h⟩ := mapM_error _ h
  cases x with
  | none => cases h
  | some x =>
    rcases Except.bind_eq_error.1 h with h | ⟨_, _, h4⟩
    · obtain ⟨e1, e2⟩ := tryU32_error h
      have := ht s hs x hx
      exact ⟨e1, by omega⟩
    · cases h4

/-- A size limit is exceeded. -/
def SizeCause (g : Grammar A Ty) (nStates : Nat) (f : Fault) : Prop :=
  (f = .u16Overflow ∧ (65536 < prodBase g.nonTerminals g.nonTerminals.length ∨
    65536 < g.nNonTerminals ∨ ∃ nt p α, g.HasProd nt p α ∧ 65535 < α.length)) ∨
  (f = .u32Overflow ∧ (4294967296 < g.nNonTerminals ∨ 4294967296 < nStates))

/-- Every failure of the generator is a size limit or a clash of two items of a state. -/
theorem generateParser_error [DecidableEq Ty] {g : Grammar X Ty} (hwf : g.WF) {h : HashOrder}
    {f : Fault} (he : generateParser h g = .error f) :
    ∃ a, generateAutomaton h g (generateFirstTable h g) = .ok a ∧ (SizeCause g a.states.length f ∨
      ∃ (q : Nat) (st : LR1State), a.states[q]? = some st ∧ StateClash g q st f ∧
        ∀ q' < q, ∀ st', a.states[q']? = some st' → StateFine g st') := by
  have hF := generateFirstTable_ok hwf h
  obtain ⟨a, ha, has⟩ := generateAutomaton_spec hwf hF h
  refine ⟨a, ha, ?_⟩
  unfold generateParser at he
  simp only at he
  rw [ha, Except.bind_ok] at he
  rcases Except.bind_eq_error.1 he with he | ⟨⟨fns, g'⟩, hsem, he⟩
  · obtain ⟨e1, e2⟩ := generateSemanticActionTable_error hwf he
    exact .inl (.inl ⟨e1, .inl e2⟩)
  obtain ⟨hsh, hfns, hlen, hprod⟩ := generateSemanticActionTable_ok hsem
  have hwf' := hsh.wf hwf
  have hst : ∀ (i : Nat) (st : LR1State), a.states[i]? = some st → (∀ x ∈ st.items, ItemOk g' x) ∧
      BTSorted st.items ∧ (st.goto.map (·.1)).Nodup := by
    intro i st hi
    exact ⟨fun x hx => (hsh.itemOk x).2 ((has.reach i st hi).itemOk hwf hF x hx),
      has.sorted i st hi, has.nodup i st hi⟩
  rcases Except.bind_eq_error.1 he with he | ⟨T, hT, he⟩
  · right
    obtain ⟨q, st, hs, ⟨it, h1, it', h2, h3, h4, h5⟩, h6⟩ := buildTable_error hwf' h hst he
    refine ⟨q, st, hs, ⟨it, h1, it', h2, h3, (hsh.wantsReduce _ _).1 h4, ?_⟩, ?_⟩
    swap
    · intro q' hq' st' hst'
      have := h6 q' hq' st' hst'
      unfold StateFine at this ⊢
      intro a ha b hb c hlt hr
      have := this a ha b hb c hlt ((hsh.wantsReduce _ _).2 hr)
      rwa [hsh.wantsShift, hsh.wantsReduce, hsh.wantsAccept] at this
    unfold ConflictFault at h5 ⊢
    rw [hsh.wantsReduce, hsh.wantsShift, hsh.wantsAccept] at h5
    exact h5
  left
  obtain ⟨_, htab⟩ := (buildTable_spec hwf' h hst).2 T hT
  have hred : ∀ q c nt p k, T.getAction q c = some (.reduce nt p k) →
      (g'.getProduction? nt p).isSome = true := by
    intro q c nt p k hq
    by_cases hlt : q < a.states.length
    · obtain ⟨_, _, _, _, _, pr, hpr, _⟩ := (htab.row q _ (List.getElem?_eq_getElem hlt)).act.reduce_of
        _ _ _ _ hq
      simp [hpr]
    · rw [(htab.out q (by omega)).1 c] at hq; cases hq
  have hgo : ∀ (q : Nat) (Y : Symbol) (st : LR1State) (r : Nat), a.states[q]? = some st →
      st.goto.get? Y = some r → r < a.states.length := by
    intro q Y st r h1 h2
    obtain ⟨_, s', h3, _⟩ := has.edge q st Y r h1 h2
    exact (List.getElem?_eq_some_iff.1 h3).1
  have hsh' : ∀ q c r, T.getAction q c = some (.shift r) → r < a.states.length := by
    intro q c r hq
    by_cases hlt : q < a.states.length
    · have h1 := List.getElem?_eq_getElem hlt
      obtain ⟨_, _, _, _, _, h2⟩ := (htab.row q _ h1).act.shift_of _ _ hq
      exact hgo q _ _ r h1 h2
    · rw [(htab.out q (by omega)).1 c] at hq; cases hq
  have hgt : ∀ q b r, T.getGoto q b = some r → r < a.states.length := by
    intro q b r hq
    by_cases hlt : q < a.states.length
    · have h1 := List.getElem?_eq_getElem hlt
      exact hgo q _ _ r h1 ((htab.row q _ h1).go.goto_of _ _ hq)
    · rw [(htab.out q (by omega)).2 b] at hq; cases hq
  rcases Except.bind_eq_error.1 he with he | ⟨_, _, he⟩
  · rcases generateActionArray_error (hsh.nTerminals.symm) hsh' hred he with
      ⟨e1, e2⟩ | ⟨e1, e2 | ⟨nt, p, α, e2, e3⟩⟩
    · exact .inr ⟨e1, .inr e2⟩
    · exact .inl ⟨e1, .inr (.inl (by rw [← hsh.nNonTerminals]; exact e2))⟩
    · exact .inl ⟨e1, .inr (.inr ⟨nt, p, α, hsh.hasProd.1 e2, e3⟩)⟩
  rcases Except.bind_eq_error.1 he with he | ⟨gv, hgv, he⟩
  · obtain ⟨e1, e2⟩ := generateGoto_error he
    exact .inr ⟨e1, .inl (by rw [← hsh.nNonTerminals]; exact e2)⟩
  rcases Except.bind_eq_error.1 he with he | ⟨_, _, he⟩
  · have hrow : ∀ row ∈ gv, ∀ r, some r ∈ row → r < a.states.length := by
      intro row hrow r hr
      obtain ⟨i, hi⟩ := List.getElem?_of_mem hrow
      obtain ⟨q, _, f1⟩ := forall₂_getElem?' (mapM_ok_iff.1 hgv) hi
      obtain ⟨j, hj⟩ := List.getElem?_of_mem hr
      obtain ⟨b, _, f2⟩ := forall₂_getElem?' (mapM_ok_iff.1 f1) hj
      obtain ⟨b', _, f3⟩ := Except.bind_eq_ok.1 f2
      cases hx : T.getGoto q b' with
      | none =>
        have : T.goto.get? (q, b') = none := hx
        rw [this] at f3; cases f3
      | some r' =>
        have h5 : T.goto.get? (q, b') = some r' := hx
        rw [h5] at f3
        cases f3
        exact hgt q b' _ hx
    obtain ⟨e1, e2⟩ := generateGotoArray_error hrow he
    exact .inr ⟨e1, .inr e2⟩
  rcases Except.bind_eq_error.1 he with he | ⟨_, _, he⟩
  · obtain ⟨e, hm, he⟩ := mapM_error _ he
    rcases Except.bind_eq_error.1 he with he | ⟨_, _, he⟩
    · obtain ⟨e1, e2⟩ := tryU32_error he
      rw [HashOrder.mem_iter] at hm
      obtain ⟨s, h1, _⟩ := has.ent e.1 e.2 ((AMap.mem_iff_get? has.ent_nodup).1 hm)
      have := (List.getElem?_eq_some_iff.1 h1).1
      exact .inr ⟨e1, .inr (by omega)⟩
    · exfalso
      rw [HashOrder.mem_iter] at hm
      have hpub := (has.ent_dom e.1).1 (by
        rw [(AMap.mem_iff_get? has.ent_nodup).1 hm]; rfl)
      obtain ⟨_, b, n, pr, h1, h2, _⟩ := hwf.pub hpub
      obtain ⟨n', h3, _⟩ := hsh.nt e.1 n h1
      have h4 : g.getProduction? e.1 0 = some pr := by
        simp [Grammar.getProduction?, h1, h2]
      have h5 := (hprod _ _ _ h4).1
      have hlen : (semanticActionVariants g).length = g.nonTerminals.length := by
        simp [semanticActionVariants, variantNames_length]
      have h6 : e.1 < (semanticActionVariants g).length := by
        rw [hlen]; exact (List.getElem?_eq_some_iff.1 h1).1
      rw [show g'.getNonTerminal? e.1 = some n' from h3, h5, List.getElem?_eq_getElem h6] at he
      cases he
  · cases he

end Parsegen
