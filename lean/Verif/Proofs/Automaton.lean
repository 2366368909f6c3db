import Verif.Proofs.ItemsAt
import Mathlib.Data.List.Sublists

/-! # The LR(1) automaton construction (`generate_lr1_automaton`) -/

namespace Parsegen

variable {A Ty : Type} {g : Grammar A Ty} {F : FirstTable}

/-- Fold invariant that keeps track of the elements already processed. -/
theorem foldl_done {α β : Type} {f : β → α → β} {P : β → List α → Prop} (l : List α) (b : β)
    (h0 : P b []) (hs : ∀ b done a, a ∈ l → P b done → P (f b a) (done ++ [a])) :
    P (l.foldl f b) l := by
  have key : ∀ (l' done : List α) (b : β), (∀ a ∈ l', a ∈ l) → P b done →
      P (l'.foldl f b) (done ++ l') := by
    intro l'
    induction l' with
    | nil => intro done b _ h; simpa using h
    | cons a l' ih =>
      intro done b hsub h
      have := ih (done ++ [a]) (f b a) (fun x hx => hsub x (by simp [hx]))
        (hs b done a (hsub a (by simp)) h)
      simpa using this
  simpa using key l [] b (fun a ha => ha) h0

/-- `I` is the non-empty item set of a state reached from an entry point. -/
def Reachable (g : Grammar A Ty) (F : FirstTable) (I : List Item) : Prop :=
  ∃ E γ, g.isPublic E = true ∧ (∀ x, x ∈ I ↔ ItemsAt g F E γ x) ∧ I ≠ []

theorem Reachable.itemOk (hwf : g.WF) (hF : F.Ok g.nTerminals) {I : List Item}
    (h : Reachable g F I) : ∀ x ∈ I, ItemOk g x := by
  obtain ⟨E, γ, hE, hI, _⟩ := h
  intro x hx
  exact ((hI x).1 hx).itemOk hwf hF hE

theorem mem_goto_itemsAt (hwf : g.WF) (hF : F.Ok g.nTerminals) (h : HashOrder) {I : List Item}
    {E : Nat} {γ : List Symbol} (hE : g.isPublic E = true) (hI : ∀ x, x ∈ I ↔ ItemsAt g F E γ x)
    (s : Symbol) (x : Item) :
    x ∈ computeGoto h g F I s ↔ ItemsAt g F E (γ ++ [s]) x := by
  rw [mem_computeGoto hwf hF h (fun x hx => (((hI x).1 hx).itemOk hwf hF hE).2.2),
    itemsAt_snoc_iff]
  exact Clo.congr (fun y => Advance.congr hI s y) x

theorem Reachable.goto (hwf : g.WF) (hF : F.Ok g.nTerminals) (h : HashOrder) {I : List Item}
    (hI : Reachable g F I) (s : Symbol) (hne : computeGoto h g F I s ≠ []) :
    Reachable g F (computeGoto h g F I s) := by
  obtain ⟨E, γ, hE, hI, _⟩ := hI
  exact ⟨E, γ ++ [s], hE, mem_goto_itemsAt hwf hF h hE hI s, hne⟩

theorem computeGoto_sorted (h : HashOrder) (F : FirstTable) (I : List Item) (s : Symbol) :
    BTSorted (computeGoto h g F I s) := computeClosure_sorted h F _

/-- Loop invariant of the automaton construction. -/
structure AutoInv (h : HashOrder) (g : Grammar A Ty) (F : FirstTable) (st : AutoState) : Prop where
  idx : ∀ (I : List Item) (q : Nat), st.index.get? I = some q ↔ ∃ s : LR1State, st.states[q]? = some s ∧ s.items = I
  edge : ∀ (q : Nat) (s : LR1State) (X : Symbol) (r : Nat), st.states[q]? = some s → s.goto.get? X = some r →
    computeGoto h g F s.items X ≠ [] ∧
      ∃ s' : LR1State, st.states[r]? = some s' ∧ s'.items = computeGoto h g F s.items X
  reach : ∀ (q : Nat) (s : LR1State), st.states[q]? = some s → Reachable g F s.items
  sorted : ∀ (q : Nat) (s : LR1State), st.states[q]? = some s → BTSorted s.items
  nodup : ∀ (q : Nat) (s : LR1State), st.states[q]? = some s → (s.goto.map (·.1)).Nodup

/-- Every non-empty transition is recorded. -/
def AutoComplete (h : HashOrder) (g : Grammar A Ty) (F : FirstTable) (st : AutoState) : Prop :=
  ∀ (q : Nat) (s : LR1State) X, st.states[q]? = some s → X ∈ g.allSymbols → computeGoto h g F s.items X ≠ [] →
    (s.goto.get? X).isSome = true

/-! ## One pass -/

/-- The (state, symbol) pairs visited by a pass. -/
def passPairs (g : Grammar A Ty) (st : AutoState) : List (LR1State × Nat × Symbol) :=
  st.states.zipIdx.flatMap fun e => g.allSymbols.map fun X => (e.1, e.2, X)

theorem passAll_eq (h : HashOrder) (st : AutoState) : passAll h g F st =
    (passPairs g st).foldl (fun ps p => passSymbol h g F st.states.length p.1 p.2.1 ps p.2.2)
      ⟨st.index, [], []⟩ := by
  unfold passAll passPairs
  rw [List.foldl_flatMap]
  simp only [List.foldl_map]

theorem mem_passPairs {st : AutoState} {s : LR1State} {i : Nat} {X : Symbol} :
    (s, i, X) ∈ passPairs g st ↔ st.states[i]? = some s ∧ X ∈ g.allSymbols := by
  unfold passPairs
  simp only [List.mem_flatMap, List.mem_map, Prod.mk.injEq]
  constructor
  · rintro ⟨e, he, X', hX, rfl, rfl, rfl⟩
    exact ⟨by simpa using (List.mem_zipIdx_iff_getElem?.1 he), hX⟩
  · rintro ⟨h1, h2⟩
    exact ⟨(s, i), List.mem_zipIdx_iff_getElem?.2 (by simpa using h1), X, h2, rfl, rfl, rfl⟩

/-- Invariant of one pass; `done` are the pairs already visited. -/
structure PassInv (h : HashOrder) (g : Grammar A Ty) (F : FirstTable) (st : AutoState)
    (ps : PassState) (done : List (LR1State × Nat × Symbol)) : Prop where
  idx : ∀ (I : List Item) (q : Nat), ps.index.get? I = some q ↔
    ∃ s, (st.states ++ ps.newStates)[q]? = some s ∧ s.items = I
  new : ∀ s ∈ ps.newStates, s.goto = [] ∧ Reachable g F s.items ∧ BTSorted s.items
  edge : ∀ (i : Nat) (X : Symbol) (j : Nat), (i, X, j) ∈ ps.newGotos → ∃ s s' : LR1State, st.states[i]? = some s ∧
    X ∈ g.allSymbols ∧ computeGoto h g F s.items X ≠ [] ∧ (st.states ++ ps.newStates)[j]? = some s' ∧
    s'.items = computeGoto h g F s.items X
  cover : ∀ s i X, (s, i, X) ∈ done → computeGoto h g F s.items X ≠ [] →
    ∃ j, (i, X, j) ∈ ps.newGotos
  missing : ps.newStates ≠ [] → ¬ AutoComplete h g F st

theorem getElem?_append_some {α : Type} {l l' : List α} {i : Nat} {x : α} (h : l[i]? = some x) :
    (l ++ l')[i]? = some x := by
  rw [List.getElem?_append_left]
  · exact h
  · exact (List.getElem?_eq_some_iff.1 h).1

theorem PassInv.step (hwf : g.WF) (hF : F.Ok g.nTerminals) {h : HashOrder} {st : AutoState}
    (hst : AutoInv h g F st) {ps : PassState} {done : List (LR1State × Nat × Symbol)}
    (hi : PassInv h g F st ps done) {p : LR1State × Nat × Symbol} (hp : p ∈ passPairs g st) :
    PassInv h g F st (passSymbol h g F st.states.length p.1 p.2.1 ps p.2.2) (done ++ [p]) := by
  obtain ⟨s, i, X⟩ := p
  obtain ⟨hs, hX⟩ := mem_passPairs.1 hp
  unfold passSymbol
  simp only
  split
  · next hemp =>
    refine ⟨hi.idx, hi.new, hi.edge, ?_, hi.missing⟩
    intro s' i' X' hm hne
    simp only [List.mem_append, List.mem_singleton, Prod.mk.injEq] at hm
    rcases hm with hm | ⟨rfl, rfl, rfl⟩
    · exact hi.cover _ _ _ hm hne
    · exact absurd (List.isEmpty_iff.1 hemp) hne
  · next hemp =>
    have hne : computeGoto h g F s.items X ≠ [] := fun he => hemp (List.isEmpty_iff.2 he)
    split
    · next j hj =>
      obtain ⟨sj, hsj, hij⟩ := (hi.idx _ _).1 hj
      refine ⟨hi.idx, hi.new, ?_, ?_, hi.missing⟩
      · intro i' X' j' hm
        simp only [List.mem_append, List.mem_singleton, Prod.mk.injEq] at hm
        rcases hm with hm | ⟨rfl, rfl, rfl⟩
        · exact hi.edge _ _ _ hm
        · exact ⟨s, sj, hs, hX, hne, hsj, hij⟩
      · intro s' i' X' hm hne'
        simp only [List.mem_append, List.mem_singleton, Prod.mk.injEq] at hm ⊢
        rcases hm with hm | ⟨rfl, rfl, rfl⟩
        · obtain ⟨j', hj'⟩ := hi.cover _ _ _ hm hne'
          exact ⟨j', Or.inl hj'⟩
        · exact ⟨j, Or.inr ⟨rfl, rfl, rfl⟩⟩
    · next hnone =>
      have hlen : (st.states ++ ps.newStates).length = st.states.length + ps.newStates.length :=
        List.length_append
      refine ⟨?_, ?_, ?_, ?_, ?_⟩
      · intro I q
        simp only
        rw [AMap.get?_insert, ← List.append_assoc]
        split
        · next he =>
          subst he
          constructor
          · intro hq
            cases hq
            refine ⟨⟨computeGoto h g F s.items X, []⟩, ?_, rfl⟩
            rw [← hlen, List.getElem?_concat_length]
          · rintro ⟨s', hs', he⟩
            by_cases hq : q < (st.states ++ ps.newStates).length
            · rw [List.getElem?_append_left hq] at hs'
              rw [(hi.idx _ q).2 ⟨s', hs', he⟩] at hnone
              cases hnone
            · have hq' := (List.getElem?_eq_some_iff.1 hs').1
              simp only [List.length_append, List.length_singleton] at hq' hq
              congr 1
              omega
        · next hneq =>
          rw [hi.idx]
          constructor
          · rintro ⟨s', hs', he⟩
            exact ⟨s', getElem?_append_some hs', he⟩
          · rintro ⟨s', hs', he⟩
            by_cases hq : q < (st.states ++ ps.newStates).length
            · rw [List.getElem?_append_left hq] at hs'
              exact ⟨s', hs', he⟩
            · have hq' := (List.getElem?_eq_some_iff.1 hs').1
              have : q = (st.states ++ ps.newStates).length := by
                simp only [List.length_append, List.length_singleton] at hq' hq ⊢
                omega
              subst this
              rw [List.getElem?_concat_length] at hs'
              cases hs'
              exact absurd he hneq
      · intro s' hs'
        simp only [List.mem_append, List.mem_singleton] at hs'
        rcases hs' with hs' | rfl
        · exact hi.new _ hs'
        · exact ⟨rfl, (hst.reach _ _ hs).goto hwf hF h X hne, computeGoto_sorted h F _ X⟩
      · intro i' X' j' hm
        simp only [List.mem_append, List.mem_singleton, Prod.mk.injEq] at hm
        rcases hm with hm | ⟨rfl, rfl, rfl⟩
        · obtain ⟨s1, s2, h1, h1', h2, h3, h4⟩ := hi.edge _ _ _ hm
          refine ⟨s1, s2, h1, h1', h2, ?_, h4⟩
          rw [← List.append_assoc]; exact getElem?_append_some h3
        · refine ⟨s, ⟨computeGoto h g F s.items X', []⟩, hs, hX, hne, ?_, rfl⟩
          rw [← List.append_assoc, ← hlen, List.getElem?_concat_length]
      · intro s' i' X' hm hne'
        simp only [List.mem_append, List.mem_singleton, Prod.mk.injEq] at hm ⊢
        rcases hm with hm | ⟨rfl, rfl, rfl⟩
        · obtain ⟨j', hj'⟩ := hi.cover _ _ _ hm hne'
          exact ⟨j', Or.inl hj'⟩
        · exact ⟨_, Or.inr ⟨rfl, rfl, rfl⟩⟩
      · intro _ hc
        have := hc i s X hs hX hne
        obtain ⟨r, hr⟩ := Option.isSome_iff_exists.1 this
        obtain ⟨_, s', hs', he⟩ := hst.edge _ _ _ _ hs hr
        have := (hi.idx _ r).2 ⟨s', getElem?_append_some hs', he⟩
        rw [hnone] at this; cases this

theorem passAll_inv (hwf : g.WF) (hF : F.Ok g.nTerminals) {h : HashOrder} {st : AutoState}
    (hst : AutoInv h g F st) : PassInv h g F st (passAll h g F st) (passPairs g st) := by
  rw [passAll_eq]
  apply foldl_done (P := fun ps done => PassInv h g F st ps done)
  · exact ⟨by simpa using hst.idx, by simp, by simp, by simp, by simp⟩
  · intro ps done p hp hi
    exact hi.step hwf hF hst hp

/-! ## Recording the transitions -/

structure GotoInv (L : List LR1State) (u : Bool) (R : List LR1State × Bool)
    (done : List (Nat × Symbol × Nat)) : Prop where
  len : R.1.length = L.length
  st : ∀ (q : Nat) (s' : LR1State), R.1[q]? = some s' → ∃ s, L[q]? = some s ∧ s'.items = s.items ∧
    (∀ X r, s'.goto.get? X = some r → s.goto.get? X = some r ∨ (q, X, r) ∈ done) ∧
    (∀ X, (s.goto.get? X).isSome = true → (s'.goto.get? X).isSome = true) ∧
    (∀ X r, (q, X, r) ∈ done → (s'.goto.get? X).isSome = true) ∧
    ((s.goto.map (·.1)).Nodup → (s'.goto.map (·.1)).Nodup)
  upd : R.2 = true → u = true ∨
    ∃ e ∈ done, ∃ s, L[e.1]? = some s ∧ s.goto.get? e.2.1 = none
  mono : u = true → R.2 = true

theorem gotoInv_fold (L : List LR1State) (u : Bool) (es : List (Nat × Symbol × Nat)) :
    GotoInv L u (es.foldl addGoto (L, u)) es := by
  apply foldl_done (P := fun R done => GotoInv L u R done)
  · refine ⟨rfl, ?_, fun h => Or.inl h, fun h => h⟩
    intro q s hs
    exact ⟨s, hs, rfl, fun _ _ h => Or.inl h, fun _ h => h, by simp, fun h => h⟩
  · rintro R done ⟨i, X, j⟩ _ hR
    unfold addGoto
    simp only
    split
    · next hnone =>
      refine ⟨hR.len, ?_, ?_, hR.mono⟩
      · intro q s' hs'
        obtain ⟨s, h1, h2, h3, h4, h5, h6⟩ := hR.st q s' hs'
        refine ⟨s, h1, h2, ?_, h4, ?_, h6⟩
        · intro Y r hr
          rcases h3 Y r hr with h | h
          · exact Or.inl h
          · exact Or.inr (by simp [h])
        · intro Y r hm
          simp only [List.mem_append, List.mem_singleton, Prod.mk.injEq] at hm
          rcases hm with hm | ⟨rfl, rfl, rfl⟩
          · exact h5 Y r hm
          · rw [hnone] at hs'; cases hs'
      · intro hu
        rcases hR.upd hu with h | ⟨e, he, h⟩
        · exact Or.inl h
        · exact Or.inr ⟨e, by simp [he], h⟩
    · next st hst =>
      have hil := (List.getElem?_eq_some_iff.1 hst).1
      obtain ⟨s0, g1, g2, g3, g4, g5, g6⟩ := hR.st i st hst
      refine ⟨by simpa using hR.len, ?_, ?_, ?_⟩
      · intro q s' hs'
        by_cases hq : i = q
        · subst hq
          simp only [List.getElem?_set_self hil] at hs'
          cases hs'
          refine ⟨s0, g1, g2, ?_, ?_, ?_, ?_⟩
          · intro Y r hr
            simp only at hr
            rw [AMap.get?_insert] at hr
            split at hr
            · next he => cases hr; subst he; exact Or.inr (by simp)
            · rcases g3 Y r hr with h | h
              · exact Or.inl h
              · exact Or.inr (by simp [h])
          · intro Y hY
            simp only
            rw [AMap.get?_insert]
            split
            · rfl
            · exact g4 Y hY
          · intro Y r hm
            simp only
            rw [AMap.get?_insert]
            split
            · rfl
            · next hne =>
              simp only [List.mem_append, List.mem_singleton, Prod.mk.injEq] at hm
              rcases hm with hm | ⟨_, rfl, rfl⟩
              · exact g5 Y r hm
              · exact absurd rfl hne
          · intro hn
            exact AMap.nodup_insert (g6 hn) X j
        · simp only [List.getElem?_set_ne hq] at hs'
          obtain ⟨s, h1, h2, h3, h4, h5, h6⟩ := hR.st q s' hs'
          refine ⟨s, h1, h2, ?_, h4, ?_, h6⟩
          · intro Y r hr
            rcases h3 Y r hr with h | h
            · exact Or.inl h
            · exact Or.inr (by simp [h])
          · intro Y r hm
            simp only [List.mem_append, List.mem_singleton, Prod.mk.injEq] at hm
            rcases hm with hm | ⟨rfl, rfl, rfl⟩
            · exact h5 Y r hm
            · exact absurd rfl hq
      · intro hu
        simp only [Bool.or_eq_true] at hu
        rcases hu with hu | hu
        · rcases hR.upd hu with h | ⟨e, he, h⟩
          · exact Or.inl h
          · exact Or.inr ⟨e, by simp [he], h⟩
        · refine Or.inr ⟨(i, X, j), by simp, s0, g1, ?_⟩
          simp only
          cases hg : s0.goto.get? X with
          | none => rfl
          | some r =>
            have := g4 X (by rw [hg]; rfl)
            simp only [Option.isNone_iff_eq_none] at hu
            rw [hu] at this; cases this
      · intro hu; simp [hR.mono hu]

/-! ## The loop -/

theorem autoPass_inv (hwf : g.WF) (hF : F.Ok g.nTerminals) {h : HashOrder} {st : AutoState}
    (hst : AutoInv h g F st) : AutoInv h g F (autoPass h g F st).1 ∧
      (∀ (q : Nat) (s : LR1State), st.states[q]? = some s →
        ∃ s', (autoPass h g F st).1.states[q]? = some s' ∧ s'.items = s.items) := by
  have hp := passAll_inv hwf hF hst
  unfold autoPass
  simp only
  generalize passAll h g F st = ps at hp
  have hg := gotoInv_fold (st.states ++ ps.newStates) (!ps.newStates.isEmpty) ps.newGotos
  generalize ps.newGotos.foldl addGoto (st.states ++ ps.newStates, !ps.newStates.isEmpty) = R at hg
  have fwd : ∀ (q : Nat) (s : LR1State), (st.states ++ ps.newStates)[q]? = some s →
      ∃ s', R.1[q]? = some s' ∧ s'.items = s.items := by
    intro q s hs
    have hq : q < R.1.length := by
      rw [hg.len]; exact (List.getElem?_eq_some_iff.1 hs).1
    obtain ⟨s0, h1, h2, _⟩ := hg.st q R.1[q] (List.getElem?_eq_getElem hq)
    rw [hs] at h1; cases h1
    exact ⟨R.1[q], List.getElem?_eq_getElem hq, h2⟩
  have old : ∀ (q : Nat) (s : LR1State), (st.states ++ ps.newStates)[q]? = some s →
      st.states[q]? = some s ∨ s ∈ ps.newStates := by
    intro q s hs
    by_cases hq : q < st.states.length
    · rw [List.getElem?_append_left hq] at hs; exact Or.inl hs
    · rw [List.getElem?_append_right (by omega)] at hs
      exact Or.inr (List.mem_of_getElem? hs)
  refine ⟨⟨?_, ?_, ?_, ?_, ?_⟩, ?_⟩
  · intro I q
    simp only
    rw [hp.idx]
    constructor
    · rintro ⟨s, hs, rfl⟩
      exact fwd q s hs
    · rintro ⟨s', hs', rfl⟩
      obtain ⟨s, h1, h2, _⟩ := hg.st q s' hs'
      exact ⟨s, h1, h2.symm⟩
  · intro q s' X r hs' hr
    simp only at hs'
    obtain ⟨s, h1, h2, h3, _⟩ := hg.st q s' hs'
    rw [h2]
    simp only
    rcases h3 X r hr with h4 | h4
    · rcases old q s h1 with h5 | h5
      · obtain ⟨h6, s2, h7, h8⟩ := hst.edge q s X r h5 h4
        obtain ⟨s3, h9, h10⟩ := fwd r s2 (getElem?_append_some h7)
        exact ⟨h6, s3, h9, h10.trans h8⟩
      · rw [(hp.new s h5).1] at h4; cases h4
    · obtain ⟨s1, s2, h5, hX, h6, h7, h8⟩ := hp.edge q X r h4
      have : s1 = s := by
        have := getElem?_append_some (l' := ps.newStates) h5
        rw [h1] at this; cases this; rfl
      subst this
      obtain ⟨s3, h9, h10⟩ := fwd r s2 h7
      exact ⟨h6, s3, h9, h10.trans h8⟩
  · intro q s' hs'
    obtain ⟨s, h1, h2, _⟩ := hg.st q s' hs'
    rw [h2]
    rcases old q s h1 with h5 | h5
    · exact hst.reach q s h5
    · exact (hp.new s h5).2.1
  · intro q s' hs'
    obtain ⟨s, h1, h2, _⟩ := hg.st q s' hs'
    rw [h2]
    rcases old q s h1 with h5 | h5
    · exact hst.sorted q s h5
    · exact (hp.new s h5).2.2
  · intro q s' hs'
    obtain ⟨s, h1, h2, _, _, _, h6⟩ := hg.st q s' hs'
    apply h6
    rcases old q s h1 with h5 | h5
    · exact hst.nodup q s h5
    · rw [(hp.new s h5).1]; simp
  · intro q s hs
    exact fwd q s (getElem?_append_some hs)

/-- If a pass creates no state, every transition is recorded after it. -/
theorem autoPass_complete (hwf : g.WF) (hF : F.Ok g.nTerminals) {h : HashOrder} {st : AutoState}
    (hst : AutoInv h g F st) (hn : (passAll h g F st).newStates = []) :
    AutoComplete h g F (autoPass h g F st).1 := by
  have hp := passAll_inv hwf hF hst
  unfold autoPass
  simp only
  generalize passAll h g F st = ps at hp hn
  have hg := gotoInv_fold (st.states ++ ps.newStates) (!ps.newStates.isEmpty) ps.newGotos
  generalize ps.newGotos.foldl addGoto (st.states ++ ps.newStates, !ps.newStates.isEmpty) = R at hg
  intro q s' X hs' hX hne
  simp only at hs'
  obtain ⟨s, h1, h2, h3, h4, h5, h6⟩ := hg.st q s' hs'
  rw [hn, List.append_nil] at h1
  rw [h2] at hne
  obtain ⟨j, hj⟩ := hp.cover s q X (mem_passPairs.2 ⟨h1, hX⟩) hne
  exact h5 X j hj

theorem autoPass_exit (hwf : g.WF) (hF : F.Ok g.nTerminals) {h : HashOrder} {st : AutoState}
    (hst : AutoInv h g F st) (hn : (autoPass h g F st).2 = false) :
    AutoComplete h g F (autoPass h g F st).1 := by
  apply autoPass_complete hwf hF hst
  by_contra hne
  have hg := gotoInv_fold (st.states ++ (passAll h g F st).newStates)
    (!(passAll h g F st).newStates.isEmpty) (passAll h g F st).newGotos
  have := hg.mono (by simpa using hne)
  unfold autoPass at hn
  simp only at hn
  rw [this] at hn; cases hn

open Classical in
/-- Progress measure. -/
noncomputable def autoMeasure (h : HashOrder) (g : Grammar A Ty) (F : FirstTable)
    (st : AutoState) : Nat :=
  st.states.length + if AutoComplete h g F st then 1 else 0

theorem autoPass_progress (hwf : g.WF) (hF : F.Ok g.nTerminals) {h : HashOrder} {st : AutoState}
    (hst : AutoInv h g F st) (hu : (autoPass h g F st).2 = true) :
    autoMeasure h g F st < autoMeasure h g F (autoPass h g F st).1 := by
  have hp := passAll_inv hwf hF hst
  have hc := autoPass_complete hwf hF hst
  have hg := gotoInv_fold (st.states ++ (passAll h g F st).newStates)
    (!(passAll h g F st).newStates.isEmpty) (passAll h g F st).newGotos
  have hlen : (autoPass h g F st).1.states.length =
      st.states.length + (passAll h g F st).newStates.length := by
    have := hg.len
    rw [List.length_append] at this
    unfold autoPass; exact this
  have hincomplete : ¬ AutoComplete h g F st := by
    rcases hg.upd hu with h1 | ⟨e, he, s, hs, hnone⟩
    · exact hp.missing (by simpa using h1)
    · obtain ⟨s1, s2, h5, hX, h6, h7, h8⟩ := hp.edge e.1 e.2.1 e.2.2 he
      have : s1 = s := by
        have := getElem?_append_some (l' := (passAll h g F st).newStates) h5
        rw [hs] at this; cases this; rfl
      subst this
      intro hcomp
      have := hcomp e.1 s1 e.2.1 h5 hX h6
      rw [hnone] at this; cases this
  unfold autoMeasure
  rw [if_neg hincomplete, hlen]
  by_cases hn : (passAll h g F st).newStates = []
  · rw [if_pos (hc hn), hn]; simp
  · have : 0 < (passAll h g F st).newStates.length := List.length_pos_iff.2 hn
    omega

/-! ## Bound on the number of states -/

theorem autoInv_length_le (hwf : g.WF) (hF : F.Ok g.nTerminals) {h : HashOrder} {st : AutoState}
    (hst : AutoInv h g F st) : st.states.length ≤ 2 ^ g.nItems := by
  have hsub : ∀ I ∈ st.states.map (·.items), I ∈ (btCollect (allItems g)).sublists := by
    intro I hI
    obtain ⟨s, hs, rfl⟩ := List.mem_map.1 hI
    obtain ⟨q, hq⟩ := List.getElem?_of_mem hs
    rw [List.mem_sublists]
    have he : s.items = (btCollect (allItems g)).filter (· ∈ s.items) := by
      apply (hst.sorted q s hq).ext
      · exact List.Pairwise.filter _ (btSorted_btCollect _)
      · intro x
        simp only [List.mem_filter, mem_btCollect, mem_allItems, decide_eq_true_eq]
        exact ⟨fun hx => ⟨(hst.reach q s hq).itemOk hwf hF x hx, hx⟩, fun hx => hx.2⟩
    rw [he]; exact List.filter_sublist
  have hnd : (st.states.map (·.items)).Nodup := by
    rw [List.nodup_iff_getElem?_ne_getElem?]
    intro i j hij hj heq
    have hj' : j < st.states.length := by simpa using hj
    have hi' : i < st.states.length := by omega
    rw [List.getElem?_map, List.getElem?_map, List.getElem?_eq_getElem hi',
      List.getElem?_eq_getElem hj'] at heq
    simp only [Option.map_some, Option.some.injEq] at heq
    have h1 := (hst.idx _ i).2 ⟨_, List.getElem?_eq_getElem hi', rfl⟩
    have h2 := (hst.idx _ j).2 ⟨_, List.getElem?_eq_getElem hj', rfl⟩
    rw [heq, h2] at h1
    cases h1; omega
  have hle : (btCollect (allItems g)).length ≤ g.nItems := by
    rw [← length_allItems]
    exact (List.subperm_of_subset (btSorted_btCollect _).nodup
      (fun x hx => by simpa using hx)).length_le
  have := (List.subperm_of_subset hnd hsub).length_le
  rw [List.length_map, List.length_sublists] at this
  exact this.trans (Nat.pow_le_pow_right (by omega) hle)

theorem autoMeasure_le (hwf : g.WF) (hF : F.Ok g.nTerminals) {h : HashOrder} {st : AutoState}
    (hst : AutoInv h g F st) : autoMeasure h g F st ≤ 2 ^ g.nItems + 1 := by
  have := autoInv_length_le hwf hF hst
  unfold autoMeasure
  split <;> omega

/-! ## Entry states -/

/-- What the entry-state loop has established after visiting non-terminals below `k`. -/
structure InitInv (h : HashOrder) (g : Grammar A Ty) (F : FirstTable) (k : Nat)
    (st : AutoState) (entries : AMap Nat Nat) : Prop where
  inv : AutoInv h g F st
  nodup : (entries.map (·.1)).Nodup
  dom : ∀ E, (entries.get? E).isSome = true ↔ E < k ∧ g.isPublic E = true
  ent : ∀ (E q : Nat), entries.get? E = some q → ∃ s : LR1State, st.states[q]? = some s ∧
    ∀ x, x ∈ s.items ↔ ItemsAt g F E [] x
  st : ∀ (q : Nat) (s : LR1State), st.states[q]? = some s → s.goto = [] ∧
    ∃ E < k, g.isPublic E = true ∧ ∀ x, x ∈ s.items ↔ ItemsAt g F E [] x

theorem mem_entryClosure (hwf : g.WF) (hF : F.Ok g.nTerminals) (h : HashOrder) (E : Nat)
    (x : Item) : x ∈ computeClosure h g F [⟨E, 0, 0, none⟩] ↔ ItemsAt g F E [] x := by
  rw [mem_computeClosure hwf hF h (by intro x hx; simp at hx; subst hx; intro t ht; cases ht),
    itemsAt_nil_iff]
  exact Clo.congr (fun y => by simp) x

theorem InitInv.step (hwf : g.WF) (hF : F.Ok g.nTerminals) {h : HashOrder} {k : Nat}
    {st : AutoState} {entries : AMap Nat Nat} (hi : InitInv h g F k st entries)
    (hk : g.isPublic k = true) :
    InitInv h g F (k + 1)
      ⟨st.states ++ [⟨computeClosure h g F [⟨k, 0, 0, none⟩], []⟩],
        st.index.insert (computeClosure h g F [⟨k, 0, 0, none⟩]) st.states.length⟩
      (entries.insert k st.states.length) := by
  have hmem := mem_entryClosure hwf hF h k
  have hsort := computeClosure_sorted (g := g) h F [⟨k, 0, 0, none⟩]
  generalize computeClosure h g F [⟨k, 0, 0, none⟩] = I at hmem hsort ⊢
  have hreach : Reachable g F I := ⟨k, [], hk, hmem, List.ne_nil_of_mem ((hmem _).2 .entry)⟩
  have hfresh : ∀ (q : Nat) (s : LR1State), st.states[q]? = some s → s.items ≠ I := by
    intro q s hs he
    obtain ⟨_, E, hE, _, hx⟩ := hi.st q s hs
    have h1 : (⟨k, 0, 0, none⟩ : Item) ∈ s.items := by
      rw [he]; exact (hmem _).2 .entry
    have := (((hx _).1 h1).pub hwf hk).1
    simp only at this; omega
  have hnone : st.index.get? I = none := by
    cases hq : st.index.get? I with
    | none => rfl
    | some q =>
      obtain ⟨s, hs, he⟩ := (hi.inv.idx I q).1 hq
      exact absurd he (hfresh q s hs)
  have old : ∀ (q : Nat) (s : LR1State), (st.states ++ [⟨I, []⟩])[q]? = some s →
      st.states[q]? = some s ∨ (q = st.states.length ∧ s = ⟨I, []⟩) := by
    intro q s hs
    by_cases hq : q < st.states.length
    · rw [List.getElem?_append_left hq] at hs; exact Or.inl hs
    · have hq' := (List.getElem?_eq_some_iff.1 hs).1
      have : q = st.states.length := by
        simp only [List.length_append, List.length_singleton] at hq'; omega
      subst this
      rw [List.getElem?_concat_length] at hs
      cases hs
      exact Or.inr ⟨rfl, rfl⟩
  refine ⟨⟨?_, ?_, ?_, ?_, ?_⟩, ?_, ?_, ?_, ?_⟩
  · intro J q
    simp only
    rw [AMap.get?_insert]
    split
    · next he =>
      subst he
      constructor
      · intro hq; cases hq
        exact ⟨_, List.getElem?_concat_length .., rfl⟩
      · rintro ⟨s, hs, he⟩
        rcases old q s hs with h1 | ⟨rfl, _⟩
        · exact absurd he (hfresh q s h1)
        · rfl
    · next hne =>
      rw [hi.inv.idx]
      constructor
      · rintro ⟨s, hs, he⟩; exact ⟨s, getElem?_append_some hs, he⟩
      · rintro ⟨s, hs, he⟩
        rcases old q s hs with h1 | ⟨_, rfl⟩
        · exact ⟨s, h1, he⟩
        · exact absurd he hne
  · intro q s X r hs hr
    simp only at hs
    rcases old q s hs with h1 | ⟨_, rfl⟩
    · rw [(hi.st q s h1).1] at hr; cases hr
    · cases hr
  · intro q s hs
    rcases old q s hs with h1 | ⟨_, rfl⟩
    · exact hi.inv.reach q s h1
    · exact hreach
  · intro q s hs
    rcases old q s hs with h1 | ⟨_, rfl⟩
    · exact hi.inv.sorted q s h1
    · exact hsort
  · intro q s hs
    rcases old q s hs with h1 | ⟨_, rfl⟩
    · exact hi.inv.nodup q s h1
    · simp
  · exact AMap.nodup_insert hi.nodup _ _
  · intro E
    rw [AMap.get?_insert]
    split
    · next he => subst he; simp [hk]
    · next hne =>
      rw [hi.dom]
      constructor
      · rintro ⟨h1, h2⟩; exact ⟨by omega, h2⟩
      · rintro ⟨h1, h2⟩; exact ⟨by omega, h2⟩
  · intro E q hq
    rw [AMap.get?_insert] at hq
    split at hq
    · next he =>
      subst he; cases hq
      exact ⟨_, List.getElem?_concat_length .., hmem⟩
    · obtain ⟨s, hs, hx⟩ := hi.ent E q hq
      exact ⟨s, getElem?_append_some hs, hx⟩
  · intro q s hs
    rcases old q s hs with h1 | ⟨_, rfl⟩
    · obtain ⟨h2, E, hE, h3⟩ := hi.st q s h1
      exact ⟨h2, E, by omega, h3⟩
    · exact ⟨rfl, k, by omega, hk, hmem⟩

theorem InitInv.skip {h : HashOrder} {k : Nat} {st : AutoState} {entries : AMap Nat Nat}
    (hi : InitInv h g F k st entries) (hk : g.isPublic k = false) :
    InitInv h g F (k + 1) st entries := by
  refine ⟨hi.inv, hi.nodup, ?_, hi.ent, ?_⟩
  · intro E
    rw [hi.dom]
    constructor
    · rintro ⟨h1, h2⟩; exact ⟨by omega, h2⟩
    · rintro ⟨h1, h2⟩
      refine ⟨?_, h2⟩
      by_contra hc
      have : E = k := by omega
      subst this; rw [hk] at h2; cases h2
  · intro q s hs
    obtain ⟨h2, E, hE, h3⟩ := hi.st q s hs
    exact ⟨h2, E, by omega, h3⟩

theorem initStates_spec (hwf : g.WF) (hF : F.Ok g.nTerminals) (h : HashOrder) :
    ∃ st entries, initStates h g F g.nonTerminals.zipIdx (⟨[], []⟩, []) = .ok (st, entries) ∧
      InitInv h g F g.nNonTerminals st entries := by
  have key : ∀ (l : List (NonTerminal A Ty)) (k : Nat) (st : AutoState) (entries : AMap Nat Nat),
      (∀ i n, l[i]? = some n → g.nonTerminals[k + i]? = some n) → InitInv h g F k st entries →
      ∃ st' entries', initStates h g F (l.zipIdx k) (st, entries) = .ok (st', entries') ∧
        InitInv h g F (k + l.length) st' entries' := by
    intro l
    induction l with
    | nil => intro k st entries _ hi; exact ⟨st, entries, rfl, hi⟩
    | cons n l ih =>
      intro k st entries hl hi
      have hn := hl 0 n rfl
      rw [Nat.add_zero] at hn
      have hpub : g.isPublic k = n.isPublic := by unfold Grammar.isPublic; rw [hn]
      have hl' : ∀ i m, l[i]? = some m → g.nonTerminals[k + 1 + i]? = some m := by
        intro i m hm
        have := hl (i + 1) m (by simpa using hm)
        rw [← this]; congr 1; omega
      rw [List.zipIdx_cons]
      simp only [initStates]
      have hlen : k + (n :: l).length = k + 1 + l.length := by simp; omega
      rw [hlen]
      cases hp : n.isPublic with
      | true =>
        have hk : g.isPublic k = true := by rw [hpub, hp]
        have h1 : n.productions.length = 1 := by
          have := (hwf.pub hk).1
          unfold Grammar.nProductions at this; rw [hn] at this; exact this
        simp only [if_true, h1]
        exact ih _ _ _ hl' (hi.step hwf hF hk)
      | false =>
        simp only [Bool.false_eq_true, if_false]
        exact ih _ _ _ hl' (hi.skip (by rw [hpub, hp]))
  have h0 : InitInv h g F 0 ⟨[], []⟩ [] := by
    refine ⟨⟨by simp, by simp, by simp, by simp, by simp⟩, by simp, by simp, by simp, by simp⟩
  obtain ⟨st, entries, h1, h2⟩ := key g.nonTerminals 0 _ _ (by simp) h0
  exact ⟨st, entries, h1, by simpa [Grammar.nNonTerminals] using h2⟩

/-! ## Result -/

/-- What the automaton construction guarantees. -/
structure AutoSpec (h : HashOrder) (g : Grammar A Ty) (F : FirstTable) (a : Automaton) : Prop where
  reach : ∀ (q : Nat) (s : LR1State), a.states[q]? = some s → Reachable g F s.items
  sorted : ∀ (q : Nat) (s : LR1State), a.states[q]? = some s → BTSorted s.items
  distinct : ∀ (q r : Nat) (s s' : LR1State), a.states[q]? = some s → a.states[r]? = some s' →
    s.items = s'.items → q = r
  nodup : ∀ (q : Nat) (s : LR1State), a.states[q]? = some s → (s.goto.map (·.1)).Nodup
  edge : ∀ (q : Nat) (s : LR1State) (X : Symbol) (r : Nat), a.states[q]? = some s →
    s.goto.get? X = some r → computeGoto h g F s.items X ≠ [] ∧
      ∃ s' : LR1State, a.states[r]? = some s' ∧ s'.items = computeGoto h g F s.items X
  complete : ∀ (q : Nat) (s : LR1State) (X : Symbol), a.states[q]? = some s →
    X ∈ g.allSymbols → computeGoto h g F s.items X ≠ [] → (s.goto.get? X).isSome = true
  ent_nodup : (a.entries.map (·.1)).Nodup
  ent_dom : ∀ E, (a.entries.get? E).isSome = true ↔ g.isPublic E = true
  ent : ∀ (E q : Nat), a.entries.get? E = some q → ∃ s : LR1State, a.states[q]? = some s ∧
    ∀ x, x ∈ s.items ↔ ItemsAt g F E [] x

/-- lr1.rs:239-344 never panics on a well-formed grammar, always terminates, and builds the
canonical automaton. -/
theorem generateAutomaton_spec (hwf : g.WF) (hF : F.Ok g.nTerminals) (h : HashOrder) :
    ∃ a, generateAutomaton h g F = .ok a ∧ AutoSpec h g F a := by
  obtain ⟨st0, entries, hinit, hi⟩ := initStates_spec hwf hF h
  let P : AutoState → Prop := fun st => AutoInv h g F st ∧
    ∀ (q : Nat) (s : LR1State), st0.states[q]? = some s →
      ∃ s' : LR1State, st.states[q]? = some s' ∧ s'.items = s.items
  have hP : ∀ st, P st → P (autoPass h g F st).1 := by
    intro st hst
    obtain ⟨h1, h2⟩ := autoPass_inv hwf hF hst.1
    refine ⟨h1, ?_⟩
    intro q s hs
    obtain ⟨s', h3, h4⟩ := hst.2 q s hs
    obtain ⟨s'', h5, h6⟩ := h2 q s' h3
    exact ⟨s'', h5, h6.trans h4⟩
  have h0 : P st0 := ⟨hi.inv, fun q s hs => ⟨s, hs, rfl⟩⟩
  have hterm : (whileUpdated (autoPass h g F) (autoFuel g) st0).2 = false :=
    whileUpdated_terminates (P := P) (autoMeasure h g F) (2 ^ g.nItems + 1) hP
      (fun st hst => autoMeasure_le hwf hF hst.1)
      (fun st hst hu => autoPass_progress hwf hF hst.1 hu) _ st0 h0
      (by unfold autoFuel; omega)
  obtain ⟨st', hst', hbody⟩ := whileUpdated_exit (P := P) hP _ st0 h0 hterm
  have hcomp := autoPass_exit hwf hF hst'.1 (by rw [hbody])
  have hfin := whileUpdated_inv (P := P) hP (autoFuel g) st0 h0
  rw [hbody] at hcomp
  refine ⟨⟨(whileUpdated (autoPass h g F) (autoFuel g) st0).1.states, entries⟩, ?_, ?_⟩
  · unfold generateAutomaton
    rw [hinit]
    simp only [Except.bind_ok, hterm]
    rfl
  · generalize (whileUpdated (autoPass h g F) (autoFuel g) st0).1 = fin at hcomp hfin
    refine ⟨hfin.1.reach, hfin.1.sorted, ?_, hfin.1.nodup, hfin.1.edge, hcomp, hi.nodup, ?_, ?_⟩
    · intro q r s s' h1 h2 he
      have h3 := (hfin.1.idx _ q).2 ⟨s, h1, rfl⟩
      have h4 := (hfin.1.idx _ r).2 ⟨s', h2, rfl⟩
      rw [he, h4] at h3; cases h3; rfl
    · intro E
      rw [hi.dom]
      constructor
      · exact fun h => h.2
      · intro hE
        refine ⟨?_, hE⟩
        unfold Grammar.isPublic at hE
        unfold Grammar.nNonTerminals
        by_contra hc
        rw [List.getElem?_eq_none (by omega)] at hE
        cases hE
    · intro E q hq
      obtain ⟨s, hs, hx⟩ := hi.ent E q hq
      obtain ⟨s', hs', he⟩ := hfin.2 q s hs
      exact ⟨s', hs', by rw [he]; exact hx⟩

end Parsegen
