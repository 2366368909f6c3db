import Verif.Proofs.Automaton
import Verif.Spec.LR0

/-! # The LR(0) automaton of lr0.rs is the canonical one -/

namespace Parsegen

variable {A Ty : Type} {g : Grammar A Ty}

/-! ## Closure -/

/-- The least set containing `K` and closed under prediction. -/
inductive Clo0 (g : Grammar A Ty) (K : Item → Prop) : Item → Prop
  | base {it} (h : K it) : Clo0 g K it
  | pred {it b q} (h : Clo0 g K it) (hs : it.nextSymbol g = some (.nonTerminal b))
      (hq : q < g.nProductions b) : Clo0 g K (lr0Item b q)

/-- `x` is predicted by `it`. -/
def Pred0 (g : Grammar A Ty) (it x : Item) : Prop :=
  ∃ b q, it.nextSymbol g = some (.nonTerminal b) ∧ q < g.nProductions b ∧ x = lr0Item b q

theorem mem_lr0Fresh {cl : List Item} {x : Item} :
    x ∈ lr0Fresh g cl ↔ x ∉ cl ∧ ∃ it ∈ cl, Pred0 g it x := by
  have inner : ∀ (b : Nat) (l : List Nat) (s : List Item),
      x ∈ l.foldl (fun s p => if lr0Item b p ∈ cl then s else setInsert s (lr0Item b p)) s ↔
        x ∈ s ∨ (x ∉ cl ∧ ∃ p ∈ l, x = lr0Item b p) := by
    intro b l
    induction l with
    | nil => simp
    | cons p l ih =>
      intro s
      rw [List.foldl_cons, ih]
      split
      · next hc =>
        constructor
        · rintro (h | ⟨h, p', hp, e⟩)
          · exact Or.inl h
          · exact Or.inr ⟨h, p', List.mem_cons_of_mem _ hp, e⟩
        · rintro (h | ⟨h, p', hp, e⟩)
          · exact Or.inl h
          · rcases List.mem_cons.1 hp with rfl | hp
            · rw [e] at h; exact absurd hc h
            · exact Or.inr ⟨h, p', hp, e⟩
      · next hc =>
        rw [mem_setInsert]
        constructor
        · rintro ((h | h) | ⟨h, p', hp, e⟩)
          · exact Or.inl h
          · exact Or.inr ⟨by rw [h]; exact hc, p, by simp, h⟩
          · exact Or.inr ⟨h, p', List.mem_cons_of_mem _ hp, e⟩
        · rintro (h | ⟨h, p', hp, e⟩)
          · exact Or.inl (Or.inl h)
          · rcases List.mem_cons.1 hp with rfl | hp
            · exact Or.inl (Or.inr e)
            · exact Or.inr ⟨h, p', hp, e⟩
  have outer : ∀ (l s : List Item), x ∈ l.foldl (fun s it =>
      match it.nextNonTerminal g with
      | none => s
      | some b => (List.range (g.nProductions b)).foldl
          (fun s p => if lr0Item b p ∈ cl then s else setInsert s (lr0Item b p)) s) s ↔
        x ∈ s ∨ (x ∉ cl ∧ ∃ it ∈ l, Pred0 g it x) := by
    intro l
    induction l with
    | nil => simp
    | cons it l ih =>
      intro s
      rw [List.foldl_cons, ih]
      split
      · next hn =>
        have hno : ¬ Pred0 g it x := by
          rintro ⟨b, q, hs, _⟩
          rw [Item.nextNonTerminal_iff.2 hs] at hn; cases hn
        constructor
        · rintro (h | ⟨h, it', hi, e⟩)
          · exact Or.inl h
          · exact Or.inr ⟨h, it', List.mem_cons_of_mem _ hi, e⟩
        · rintro (h | ⟨h, it', hi, e⟩)
          · exact Or.inl h
          · rcases List.mem_cons.1 hi with rfl | hi
            · exact absurd e hno
            · exact Or.inr ⟨h, it', hi, e⟩
      · next b hn =>
        have hs := Item.nextNonTerminal_iff.1 hn
        rw [inner]
        constructor
        · rintro ((h | ⟨h, p, hp, e⟩) | ⟨h, it', hi, e⟩)
          · exact Or.inl h
          · exact Or.inr ⟨h, it, by simp, b, p, hs, List.mem_range.1 hp, e⟩
          · exact Or.inr ⟨h, it', List.mem_cons_of_mem _ hi, e⟩
        · rintro (h | ⟨h, it', hi, e⟩)
          · exact Or.inl (Or.inl h)
          · rcases List.mem_cons.1 hi with rfl | hi
            · obtain ⟨b', q, hs', hq, e⟩ := e
              rw [hs] at hs'; cases hs'
              exact Or.inl (Or.inr ⟨h, q, List.mem_range.2 hq, e⟩)
            · exact Or.inr ⟨h, it', hi, e⟩
  exact (outer cl []).trans (by simp)

theorem mem_foldl_btInsert {x : Item} : ∀ (l cl : List Item),
    x ∈ l.foldl (fun cl x => btInsert x cl) cl ↔ x ∈ cl ∨ x ∈ l := by
  intro l
  induction l with
  | nil => simp
  | cons y l ih =>
    intro cl
    rw [List.foldl_cons, ih, mem_btInsert, List.mem_cons]
    constructor
    · rintro ((h | h) | h)
      · exact Or.inr (Or.inl h)
      · exact Or.inl h
      · exact Or.inr (Or.inr h)
    · rintro (h | h | h)
      · exact Or.inl (Or.inr h)
      · exact Or.inl (Or.inl h)
      · exact Or.inr h

theorem sorted_foldl_btInsert : ∀ (l cl : List Item), BTSorted cl →
    BTSorted (l.foldl (fun cl x => btInsert x cl) cl) := by
  intro l
  induction l with
  | nil => intro cl h; exact h
  | cons y l ih => intro cl h; exact ih _ (h.insert y)

theorem mem_lr0ClosurePass {h : HashOrder} {cl : List Item} {x : Item} :
    x ∈ (lr0ClosurePass h g cl).1 ↔ x ∈ cl ∨ ∃ it ∈ cl, Pred0 g it x := by
  unfold lr0ClosurePass
  rw [mem_foldl_btInsert, HashOrder.mem_iter, mem_lr0Fresh]
  constructor
  · rintro (h | ⟨_, h⟩)
    · exact Or.inl h
    · exact Or.inr h
  · rintro (h | h)
    · exact Or.inl h
    · by_cases hx : x ∈ cl
      · exact Or.inl hx
      · exact Or.inr ⟨hx, h⟩

theorem lr0ClosurePass_sorted {h : HashOrder} {cl : List Item} (hs : BTSorted cl) :
    BTSorted (lr0ClosurePass h g cl).1 := sorted_foldl_btInsert _ _ hs

theorem lr0ClosurePass_false {h : HashOrder} {cl : List Item} (hf : (lr0ClosurePass h g cl).2 = false) :
    ∀ it ∈ cl, ∀ x, Pred0 g it x → x ∈ cl := by
  intro it hi x hx
  by_contra hc
  have : x ∈ lr0Fresh g cl := mem_lr0Fresh.2 ⟨hc, it, hi, hx⟩
  simp only [lr0ClosurePass, Bool.not_eq_false', List.isEmpty_iff] at hf
  rw [hf] at this; cases this

theorem lr0ClosurePass_grows {h : HashOrder} {cl : List Item} (hs : BTSorted cl)
    (hf : (lr0ClosurePass h g cl).2 = true) : cl.length < (lr0ClosurePass h g cl).1.length := by
  have hne : lr0Fresh g cl ≠ [] := by
    intro e
    simp [lr0ClosurePass, e] at hf
  obtain ⟨x, hx⟩ := List.exists_mem_of_ne_nil _ hne
  have hx' := mem_lr0Fresh.1 hx
  have hnd : (x :: cl).Nodup := List.nodup_cons.2 ⟨hx'.1, hs.nodup⟩
  have hsub : ∀ y ∈ x :: cl, y ∈ (lr0ClosurePass h g cl).1 := by
    intro y hy
    rw [mem_lr0ClosurePass]
    rcases List.mem_cons.1 hy with rfl | hy
    · exact Or.inr hx'.2
    · exact Or.inl hy
  have := (List.subperm_of_subset hnd hsub).length_le
  simp only [List.length_cons] at this
  omega

/-- What holds during the closure loop. -/
def CloInv0 (g : Grammar A Ty) (items cl : List Item) : Prop :=
  BTSorted cl ∧ (∀ x ∈ items, x ∈ cl) ∧ ∀ x ∈ cl, Clo0 g (· ∈ items) x

theorem CloInv0.pass {h : HashOrder} {items cl : List Item} (hi : CloInv0 g items cl) :
    CloInv0 g items (lr0ClosurePass h g cl).1 := by
  refine ⟨lr0ClosurePass_sorted hi.1, fun x hx => mem_lr0ClosurePass.2 (Or.inl (hi.2.1 x hx)), ?_⟩
  intro x hx
  rcases mem_lr0ClosurePass.1 hx with hx | ⟨it, hit, b, q, hs, hq, rfl⟩
  · exact hi.2.2 x hx
  · exact .pred (hi.2.2 it hit) hs hq

theorem CloInv0.length_le {items cl : List Item} (hi : CloInv0 g items cl) :
    cl.length ≤ items.length + g.totalProductions * (g.nTerminals + 1) := by
  have hsub : ∀ x ∈ cl, x ∈ items ++ startItems g := by
    intro x hx
    rw [List.mem_append]
    cases hi.2.2 x hx with
    | base hb => exact Or.inl hb
    | pred _ _ hq => exact Or.inr (mem_startItems.2 ⟨hq, rfl, by intro t ht; cases ht⟩)
  have := (List.subperm_of_subset hi.1.nodup hsub).length_le
  rwa [List.length_append, length_startItems] at this

theorem lr0Closure_spec (h : HashOrder) {items : List Item} (hs : BTSorted items) :
    (lr0ClosureLoop h g items).2 = false ∧ BTSorted (lr0Closure h g items) ∧
    ∀ x, x ∈ lr0Closure h g items ↔ Clo0 g (· ∈ items) x := by
  have h0 : CloInv0 g items items := ⟨hs, fun x hx => hx, fun x hx => .base hx⟩
  have hb : ∀ cl, CloInv0 g items cl → CloInv0 g items (lr0ClosurePass h g cl).1 := fun cl hi => hi.pass
  have hterm : (lr0ClosureLoop h g items).2 = false := by
    refine whileUpdated_terminates (P := CloInv0 g items) (fun cl => cl.length)
      (items.length + g.totalProductions * (g.nTerminals + 1)) hb (fun cl hi => hi.length_le)
      (fun cl hi hu => lr0ClosurePass_grows hi.1 hu) _ _ h0 ?_
    unfold closureFuel; omega
  have hinv := whileUpdated_inv (P := CloInv0 g items) hb (closureFuel g items) items h0
  obtain ⟨cl, hcl, he⟩ := whileUpdated_exit (P := CloInv0 g items) hb (closureFuel g items) items h0 hterm
  refine ⟨hterm, hinv.1, fun x => ⟨fun hx => hinv.2.2 x hx, fun hx => ?_⟩⟩
  have hf : (lr0ClosurePass h g cl).2 = false := by rw [he]
  have hmem : ∀ y, y ∈ lr0Closure h g items ↔ y ∈ cl := by
    intro y
    have : (lr0ClosurePass h g cl).1 = lr0Closure h g items := by rw [he]; rfl
    rw [← this, mem_lr0ClosurePass]
    constructor
    · rintro (h | ⟨it, hit, hp⟩)
      · exact h
      · exact lr0ClosurePass_false hf it hit y hp
    · exact Or.inl
  induction hx with
  | base hb => exact hinv.2.1 _ hb
  | pred h hs hq ih =>
    rw [hmem] at ih ⊢
    exact lr0ClosurePass_false hf _ ih _ ⟨_, _, hs, hq, rfl⟩

theorem mem_lr0Kernel {items : List Item} {s : Symbol} {x : Item} :
    x ∈ lr0Kernel g items s ↔ ∃ it ∈ items, it.nextSymbol g = some s ∧ x = it.advance := by
  have key : ∀ (l acc : List Item), x ∈ l.foldl
      (fun acc it => if it.nextSymbol g = some s then btInsert it.advance acc else acc) acc ↔
      x ∈ acc ∨ ∃ it ∈ l, it.nextSymbol g = some s ∧ x = it.advance := by
    intro l
    induction l with
    | nil => simp
    | cons y l ih =>
      intro acc
      rw [List.foldl_cons, ih]
      split
      · next hy =>
        simp only [mem_btInsert, List.mem_cons]
        constructor
        · rintro ((rfl | h) | ⟨it, h1, h2⟩)
          · exact Or.inr ⟨y, Or.inl rfl, hy, rfl⟩
          · exact Or.inl h
          · exact Or.inr ⟨it, Or.inr h1, h2⟩
        · rintro (h | ⟨it, rfl | h1, h2, h3⟩)
          · exact Or.inl (Or.inr h)
          · exact Or.inl (Or.inl h3)
          · exact Or.inr ⟨it, h1, h2, h3⟩
      · next hy =>
        simp only [List.mem_cons]
        constructor
        · rintro (h | ⟨it, h1, h2⟩)
          · exact Or.inl h
          · exact Or.inr ⟨it, Or.inr h1, h2⟩
        · rintro (h | ⟨it, rfl | h1, h2, h3⟩)
          · exact Or.inl h
          · exact absurd h2 hy
          · exact Or.inr ⟨it, h1, h2, h3⟩
  unfold lr0Kernel
  rw [key]; simp

theorem lr0Kernel_sorted (items : List Item) (s : Symbol) : BTSorted (lr0Kernel g items s) := by
  have key : ∀ (l acc : List Item), BTSorted acc → BTSorted (l.foldl
      (fun acc it => if it.nextSymbol g = some s then btInsert it.advance acc else acc) acc) := by
    intro l
    induction l with
    | nil => intro acc h; exact h
    | cons y l ih =>
      intro acc h
      rw [List.foldl_cons]
      split
      · exact ih _ (h.insert _)
      · exact ih _ h
  exact key items [] List.Pairwise.nil

/-! ## Items for a symbol string -/

/-- The canonical LR(0) items for the symbols `γ`. -/
inductive At0 (g : Grammar A Ty) : List Symbol → Item → Prop
  | entry : At0 g [] (lr0Item 0 0)
  | advance {γ it X} (h : At0 g γ it) (hs : it.nextSymbol g = some X) : At0 g (γ ++ [X]) it.advance
  | pred {γ it b q} (h : At0 g γ it) (hs : it.nextSymbol g = some (.nonTerminal b))
      (hq : q < g.nProductions b) : At0 g γ (lr0Item b q)

theorem at0_nil_iff {x : Item} : At0 g [] x ↔ Clo0 g (· ∈ [lr0Item 0 0]) x := by
  constructor
  · intro h
    have : ∀ {γ x}, At0 g γ x → γ = [] → Clo0 g (· ∈ [lr0Item 0 0]) x := by
      intro γ x h
      induction h with
      | entry => intro _; exact .base (by simp)
      | advance => intro h; simp at h
      | pred _ hs hq ih => intro hγ; exact .pred (ih hγ) hs hq
    exact this h rfl
  · intro h
    induction h with
    | base hb => simp at hb; subst hb; exact .entry
    | pred _ hs hq ih => exact .pred ih hs hq

theorem at0_snoc_iff {γ : List Symbol} {s : Symbol} {x : Item} {K : Item → Prop}
    (hK : ∀ x, K x ↔ ∃ it, At0 g γ it ∧ it.nextSymbol g = some s ∧ x = it.advance) :
    At0 g (γ ++ [s]) x ↔ Clo0 g K x := by
  constructor
  · intro h
    have : ∀ {δ x}, At0 g δ x → δ = γ ++ [s] → Clo0 g K x := by
      intro δ x h
      induction h with
      | entry => intro h; simp at h
      | @advance γ' it X hi hs _ =>
        intro hγ
        obtain ⟨rfl, hX⟩ := List.append_inj' hγ rfl
        simp at hX; subst hX
        exact .base ((hK _).2 ⟨_, hi, hs, rfl⟩)
      | pred _ hs hq ih => intro hγ; exact .pred (ih hγ) hs hq
    exact this h rfl
  · intro h
    induction h with
    | base hb =>
      obtain ⟨it, h1, h2, rfl⟩ := (hK _).1 hb
      exact .advance h1 h2
    | pred _ hs hq ih => exact .pred ih hs hq

theorem lr0Goto_spec (h : HashOrder) {I : List Item} {γ : List Symbol} (hI : ∀ x, x ∈ I ↔ At0 g γ x)
    (s : Symbol) : BTSorted (lr0Goto h g I s) ∧ ∀ x, x ∈ lr0Goto h g I s ↔ At0 g (γ ++ [s]) x := by
  obtain ⟨_, h2, h3⟩ := lr0Closure_spec (g := g) h (lr0Kernel_sorted (g := g) I s)
  refine ⟨h2, fun x => (h3 x).trans (at0_snoc_iff fun y => ?_).symm⟩
  rw [mem_lr0Kernel]
  constructor
  · rintro ⟨it, h1, h2⟩; exact ⟨it, (hI it).1 h1, h2⟩
  · rintro ⟨it, h1, h2⟩; exact ⟨it, (hI it).2 h1, h2⟩

theorem At0.itemOk (hwf : g.WF) (h0 : g.isPublic 0 = true) {γ : List Symbol} {x : Item}
    (h : At0 g γ x) : ItemOk g x ∧ x.la = none := by
  induction h with
  | entry =>
    refine ⟨⟨?_, Nat.zero_le _, by intro t ht; cases ht⟩, rfl⟩
    have := (hwf.pub h0).1
    simp only [lr0Item]; omega
  | @advance γ it X _ hs ih =>
    refine ⟨⟨ih.1.1, ?_, ih.1.2.2⟩, ih.2⟩
    have := List.getElem?_eq_some_iff.1 hs
    exact this.1
  | pred _ _ hq ih => exact ⟨⟨hq, Nat.zero_le _, by intro t ht; cases ht⟩, rfl⟩

theorem mem_lr0NextSymbols {items : List Item} {X : Symbol} :
    X ∈ lr0NextSymbols g items ↔ ∃ it ∈ items, it.nextSymbol g = some X := by
  have key : ∀ (l : List Item) (acc : List Symbol), X ∈ l.foldl
      (fun s it => match it.nextSymbol g with | some x => setInsert s x | none => s) acc ↔
      X ∈ acc ∨ ∃ it ∈ l, it.nextSymbol g = some X := by
    intro l
    induction l with
    | nil => simp
    | cons y l ih =>
      intro acc
      rw [List.foldl_cons, ih]
      split
      · next z hz =>
        simp only [mem_setInsert, List.mem_cons, exists_eq_or_imp, hz, Option.some.injEq, or_assoc]
        rw [eq_comm (a := X)]
      · next hz => simp [hz]
  exact (key items []).trans (by simp)

/-! ## The automaton -/

theorem BTSorted.length_le_pow {g : Grammar A Ty} {L : List (List Item)} (hnd : L.Nodup)
    (hL : ∀ I ∈ L, BTSorted I ∧ ∀ x ∈ I, ItemOk g x) : L.length ≤ 2 ^ g.nItems := by
  have hsub : ∀ I ∈ L, I ∈ (btCollect (allItems g)).sublists := by
    intro I hI
    rw [List.mem_sublists]
    have he : I = (btCollect (allItems g)).filter (· ∈ I) := by
      apply (hL I hI).1.ext
      · exact List.Pairwise.filter _ (btSorted_btCollect _)
      · intro x
        simp only [List.mem_filter, mem_btCollect, mem_allItems, decide_eq_true_eq]
        exact ⟨fun hx => ⟨(hL I hI).2 x hx, hx⟩, fun hx => hx.2⟩
    rw [he]; exact List.filter_sublist
  have hle : (btCollect (allItems g)).length ≤ g.nItems := by
    rw [← length_allItems]
    exact (List.subperm_of_subset (btSorted_btCollect _).nodup
      (fun x hx => by simpa using hx)).length_le
  have := (List.subperm_of_subset hnd hsub).length_le
  rw [List.length_sublists] at this
  exact this.trans (Nat.pow_le_pow_right (by omega) hle)

/-- States keep their items and gotos. -/
def Ext0 (L L' : List LR1State) : Prop :=
  ∀ (q : Nat) (s : LR1State), L[q]? = some s → ∃ s', L'[q]? = some s' ∧ s'.items = s.items ∧
    ∀ X r, s.goto.get? X = some r → s'.goto.get? X = some r

theorem Path0.ext {L L' : List LR1State} (he : Ext0 L L') {γ : List Symbol} {q : Nat}
    (h : Path0 L γ q) : Path0 L' γ q := by
  induction h with
  | nil => exact .nil
  | snoc _ hq hr ih =>
    obtain ⟨s', h1, _, h3⟩ := he _ _ hq
    exact .snoc ih h1 (h3 _ _ hr)

/-- What holds during the main loop.  The work list is `wl`, `todo` are the transitions still to be made
of the state being processed; state `ex` is not yet known to be reached. -/
structure Inv0 (h : HashOrder) (g : Grammar A Ty) (st : AutoState) (wl : List Nat)
    (todo : List (Nat × Symbol)) (ex : Option Nat) : Prop where
  idx : ∀ (I : List Item) (q : Nat), st.index.get? I = some q ↔
    ∃ s : LR1State, st.states[q]? = some s ∧ s.items = I
  edge : ∀ (q : Nat) (s : LR1State) (X : Symbol) (r : Nat), st.states[q]? = some s →
    s.goto.get? X = some r → (∃ it ∈ s.items, it.nextSymbol g = some X) ∧
      ∃ s' : LR1State, st.states[r]? = some s' ∧ s'.items = lr0Goto h g s.items X
  reach : ∀ (q : Nat) (s : LR1State), st.states[q]? = some s → some q ≠ ex →
    ∃ γ, Path0 st.states γ q ∧ ∀ x, x ∈ s.items ↔ At0 g γ x
  at_ : ∀ (q : Nat) (s : LR1State), st.states[q]? = some s → ∃ γ, ∀ x, x ∈ s.items ↔ At0 g γ x
  sorted : ∀ (q : Nat) (s : LR1State), st.states[q]? = some s → BTSorted s.items
  nodup : ∀ (q : Nat) (s : LR1State), st.states[q]? = some s → (s.goto.map (·.1)).Nodup
  compl : ∀ (q : Nat) (s : LR1State) (it : Item) (X : Symbol), st.states[q]? = some s → it ∈ s.items →
    it.nextSymbol g = some X → (s.goto.get? X).isSome = true ∨ q ∈ wl ∨ (q, X) ∈ todo
  wl : ∀ q ∈ wl, q < st.states.length
  zero : ∃ s : LR1State, st.states[0]? = some s ∧ ∀ x, x ∈ s.items ↔ At0 g [] x

theorem Inv0.length_le {h : HashOrder} (hwf : g.WF) (h0 : g.isPublic 0 = true) {st : AutoState}
    {wl : List Nat} {todo : List (Nat × Symbol)} {ex : Option Nat} (hi : Inv0 h g st wl todo ex) :
    st.states.length ≤ 2 ^ g.nItems := by
  have hnd : (st.states.map (·.items)).Nodup := by
    rw [List.nodup_iff_getElem?_ne_getElem?]
    intro i j hij hj heq
    have hj' : j < st.states.length := by simpa using hj
    have hi' : i < st.states.length := by omega
    rw [List.getElem?_map, List.getElem?_map, List.getElem?_eq_getElem hi',
      List.getElem?_eq_getElem hj'] at heq
    simp only [Option.map_some, Option.some.injEq] at heq
    have h1 := (hi.idx _ i).2 ⟨_, List.getElem?_eq_getElem hi', rfl⟩
    have h2 := (hi.idx _ j).2 ⟨_, List.getElem?_eq_getElem hj', rfl⟩
    rw [heq, h2] at h1
    cases h1; omega
  have := BTSorted.length_le_pow (g := g) hnd ?_
  · simpa using this
  · intro I hI
    obtain ⟨s, hs, rfl⟩ := List.mem_map.1 hI
    obtain ⟨q, hq⟩ := List.getElem?_of_mem hs
    obtain ⟨γ, hγ⟩ := hi.at_ q s hq
    exact ⟨hi.sorted q s hq, fun x hx => (((hγ x).1 hx).itemOk hwf h0).1⟩

theorem getElem?_snoc {α : Type} {l : List α} {a x : α} {q : Nat} (h : (l ++ [a])[q]? = some x) :
    l[q]? = some x ∨ (q = l.length ∧ x = a) := by
  rcases Nat.lt_trichotomy q l.length with hl | hl | hl
  · rw [List.getElem?_append_left hl] at h; exact Or.inl h
  · subst hl
    rw [List.getElem?_append_right (Nat.le_refl _)] at h
    simp at h
    exact Or.inr ⟨rfl, h.symm⟩
  · rw [List.getElem?_eq_none (by simp; omega)] at h; cases h

/-- Adding a state (or finding it). -/
theorem Inv0.addState {h : HashOrder} {st : AutoState} {wl : List Nat} {todo : List (Nat × Symbol)}
    (hi : Inv0 h g st wl todo none) {I : List Item} (hs : BTSorted I) {γ : List Symbol}
    (hI : ∀ x, x ∈ I ↔ At0 g γ x) :
    let r := st.addState I
    Inv0 h g r.1 (if r.2.2 then r.2.1 :: wl else wl) todo (some r.2.1) ∧
      (∃ s : LR1State, r.1.states[r.2.1]? = some s ∧ s.items = I) ∧ Ext0 st.states r.1.states ∧
      r.1.states.length + wl.length = st.states.length + (if r.2.2 then r.2.1 :: wl else wl).length := by
  unfold AutoState.addState
  cases hg : st.index.get? I with
  | some q =>
    refine ⟨{ hi with reach := fun q s hq _ => hi.reach q s hq (by simp) }, (hi.idx I q).1 hg, ?_, rfl⟩
    exact fun q s hq => ⟨s, hq, rfl, fun _ _ h => h⟩
  | none =>
    dsimp only
    have hext : Ext0 st.states (st.states ++ [(⟨I, []⟩ : LR1State)]) :=
      fun q s hq => ⟨s, getElem?_append_some hq, rfl, fun _ _ h => h⟩
    have hnew : (st.states ++ [(⟨I, []⟩ : LR1State)])[st.states.length]? = some ⟨I, []⟩ := by simp
    refine ⟨?_, ⟨_, hnew, rfl⟩, hext, by simp; omega⟩
    have hneI : ∀ (q : Nat) (s : LR1State), st.states[q]? = some s → s.items ≠ I := by
      intro q s hq e
      rw [(hi.idx I q).2 ⟨s, hq, e⟩] at hg; cases hg
    constructor
    · intro J q
      rw [AMap.get?_insert]
      split
      · next e =>
        subst e
        constructor
        · intro hq; cases hq; exact ⟨_, hnew, rfl⟩
        · rintro ⟨s, hq, hs⟩
          rcases getElem?_snoc hq with hq | ⟨rfl, _⟩
          · exact absurd hs (hneI q s hq)
          · rfl
      · next e =>
        rw [hi.idx]
        constructor
        · rintro ⟨s, hq, hs⟩; exact ⟨s, getElem?_append_some hq, hs⟩
        · rintro ⟨s, hq, hs⟩
          rcases getElem?_snoc hq with hq | ⟨rfl, rfl⟩
          · exact ⟨s, hq, hs⟩
          · exact absurd hs e
    · intro q s X r hq hX
      rcases getElem?_snoc hq with hq | ⟨rfl, rfl⟩
      · obtain ⟨h1, s', h2, h3⟩ := hi.edge q s X r hq hX
        exact ⟨h1, s', getElem?_append_some h2, h3⟩
      · cases hX
    · intro q s hq hne
      rcases getElem?_snoc hq with hq | ⟨rfl, rfl⟩
      · obtain ⟨γ, h1, h2⟩ := hi.reach q s hq (by simp)
        exact ⟨γ, h1.ext hext, h2⟩
      · exact absurd rfl hne
    · intro q s hq
      rcases getElem?_snoc hq with hq | ⟨rfl, rfl⟩
      · exact hi.at_ q s hq
      · exact ⟨γ, hI⟩
    · intro q s hq
      rcases getElem?_snoc hq with hq | ⟨rfl, rfl⟩
      · exact hi.sorted q s hq
      · exact hs
    · intro q s hq
      rcases getElem?_snoc hq with hq | ⟨rfl, rfl⟩
      · exact hi.nodup q s hq
      · exact List.nodup_nil
    · intro q s it X hq hit hX
      rcases getElem?_snoc hq with hq | ⟨rfl, rfl⟩
      · rcases hi.compl q s it X hq hit hX with h1 | h1 | h1
        · exact Or.inl h1
        · exact Or.inr (Or.inl (by simp [h1]))
        · exact Or.inr (Or.inr h1)
      · exact Or.inr (Or.inl (by simp))
    · intro q hq
      simp only [if_true, List.mem_cons] at hq
      rcases hq with rfl | hq
      · simp
      · have := hi.wl q hq
        simp only [List.length_append, List.length_cons, List.length_nil]; omega
    · obtain ⟨s, h1, h2⟩ := hi.zero
      exact ⟨s, getElem?_append_some h1, h2⟩

theorem getElem?_modify_some {α : Type} {l : List α} {i q : Nat} {f : α → α} {x : α}
    (h : (l.modify i f)[q]? = some x) : ∃ y, l[q]? = some y ∧ x = if q = i then f y else y := by
  rw [List.getElem?_modify] at h
  cases hq : l[q]? with
  | none => rw [hq] at h; cases h
  | some y =>
    rw [hq] at h
    simp only [Option.map_eq_map, Option.map_some, Option.some.injEq] at h
    refine ⟨y, rfl, ?_⟩
    rw [← h]
    by_cases e : i = q
    · subst e; simp
    · rw [if_neg e, if_neg (fun e' => e e'.symm)]

/-- Adding the transition. -/
theorem Inv0.addEdge {h : HashOrder} {st : AutoState} {wl : List Nat} {todo : List (Nat × Symbol)}
    {q r : Nat} {X : Symbol} {I : List Item} {γ : List Symbol}
    (hi : Inv0 h g st wl ((q, X) :: todo) (some r)) {s0 : LR1State} (hq : st.states[q]? = some s0)
    (hI : s0.items = I) (hX : ∃ it ∈ I, it.nextSymbol g = some X)
    (hr : ∃ s : LR1State, st.states[r]? = some s ∧ s.items = lr0Goto h g I X)
    (hpath : Path0 st.states γ q) (hγ : ∀ x, x ∈ I ↔ At0 g γ x) :
    Inv0 h g (st.addEdge q r X) wl todo none ∧ Ext0 st.states (st.addEdge q r X).states := by
  have hget : ∀ (p : Nat) (s' : LR1State), (st.addEdge q r X).states[p]? = some s' →
      ∃ s, st.states[p]? = some s ∧ s'.items = s.items ∧
        s' = if p = q then { s with goto := s.goto.insert X r } else s := by
    intro p s' hp
    obtain ⟨s, h1, h2⟩ := getElem?_modify_some hp
    refine ⟨s, h1, ?_, h2⟩
    rw [h2]; split <;> rfl
  have hput : ∀ (p : Nat) (s : LR1State), st.states[p]? = some s →
      (st.addEdge q r X).states[p]? = some (if p = q then { s with goto := s.goto.insert X r } else s) := by
    intro p s hp
    unfold AutoState.addEdge
    rw [List.getElem?_modify, hp]
    by_cases e : q = p
    · simp [e]
    · have e' : ¬ p = q := fun e' => e e'.symm
      simp [e, e']
  have hitems : ∀ (p : Nat) (s : LR1State), (if p = q then ({ s with goto := s.goto.insert X r } : LR1State)
      else s).items = s.items := by
    intro p s; split <;> rfl
  have hext : Ext0 st.states (st.addEdge q r X).states := by
    intro p s hp
    refine ⟨_, hput p s hp, hitems p s, ?_⟩
    intro Y r' hY
    split
    · next e =>
      subst e
      rw [hq] at hp; cases hp
      simp only [AMap.get?_insert]
      split
      · next e =>
        subst e
        obtain ⟨_, s', h1, h2⟩ := hi.edge _ _ _ _ hq hY
        obtain ⟨s'', h3, h4⟩ := hr
        rw [hI, ← h4] at h2
        have e1 := (hi.idx _ _).2 ⟨_, h1, h2⟩
        rw [(hi.idx _ _).2 ⟨_, h3, rfl⟩] at e1
        exact e1
      · exact hY
    · exact hY
  refine ⟨?_, hext⟩
  have key : ∀ (p : Nat) (s' : LR1State) (Y : Symbol) (r' : Nat),
      (st.addEdge q r X).states[p]? = some s' → s'.goto.get? Y = some r' →
      ∃ s, st.states[p]? = some s ∧ s'.items = s.items ∧
        (s.goto.get? Y = some r' ∨ (p = q ∧ Y = X ∧ r' = r)) := by
    intro p s' Y r' hp hY
    obtain ⟨s, h1, h2, h3⟩ := hget p s' hp
    refine ⟨s, h1, h2, ?_⟩
    rw [h3] at hY
    split at hY
    · next e =>
      simp only [AMap.get?_insert] at hY
      split at hY
      · next e' => cases hY; exact Or.inr ⟨e, e'.symm, rfl⟩
      · exact Or.inl hY
    · exact Or.inl hY
  constructor
  · intro J p
    show st.index.get? J = some p ↔ _
    rw [hi.idx]
    constructor
    · rintro ⟨s, h1, h2⟩; exact ⟨_, hput p s h1, (hitems p s).trans h2⟩
    · rintro ⟨s', h1, h2⟩
      obtain ⟨s, h3, h4, _⟩ := hget p s' h1
      exact ⟨s, h3, h4 ▸ h2⟩
  · intro p s' Y r' hp hY
    obtain ⟨s, h1, h2, h3⟩ := key p s' Y r' hp hY
    rw [h2]
    rcases h3 with h3 | ⟨rfl, rfl, rfl⟩
    · obtain ⟨h4, s2, h5, h6⟩ := hi.edge p s Y r' h1 h3
      exact ⟨h4, _, hput _ _ h5, (hitems _ _).trans h6⟩
    · rw [hq] at h1; cases h1
      rw [hI]
      obtain ⟨s2, h5, h6⟩ := hr
      exact ⟨hX, _, hput _ _ h5, (hitems _ _).trans h6⟩
  · intro p s' hp _
    obtain ⟨s, h1, h2, h3⟩ := hget p s' hp
    by_cases e : p = r
    · subst e
      refine ⟨γ ++ [X], .snoc (hpath.ext hext) (hput q s0 hq) (by simp [AMap.get?_insert]), ?_⟩
      obtain ⟨s2, h5, h6⟩ := hr
      rw [h1] at h5; cases h5
      rw [h2, h6]
      exact (lr0Goto_spec h hγ X).2
    · obtain ⟨γ', h4, h5⟩ := hi.reach p s h1 (by simpa using e)
      exact ⟨γ', h4.ext hext, by rw [h2]; exact h5⟩
  · intro p s' hp
    obtain ⟨s, h1, h2, _⟩ := hget p s' hp
    rw [h2]; exact hi.at_ p s h1
  · intro p s' hp
    obtain ⟨s, h1, h2, _⟩ := hget p s' hp
    rw [h2]; exact hi.sorted p s h1
  · intro p s' hp
    obtain ⟨s, h1, h2, h3⟩ := hget p s' hp
    rw [h3]
    split
    · exact AMap.nodup_insert (hi.nodup p s h1) _ _
    · exact hi.nodup p s h1
  · intro p s' it Y hp hit hY
    obtain ⟨s, h1, h2, h3⟩ := hget p s' hp
    rw [h2] at hit
    obtain ⟨s'', h4, _, h5⟩ := hext p s h1
    rw [hp] at h4; cases h4
    rcases hi.compl p s it Y h1 hit hY with h6 | h6 | h6
    · obtain ⟨r', hr'⟩ := Option.isSome_iff_exists.1 h6
      exact Or.inl (by rw [h5 Y r' hr']; rfl)
    · exact Or.inr (Or.inl h6)
    · rcases List.mem_cons.1 h6 with e | h6
      · cases e
        left
        rw [h3]
        simp [AMap.get?_insert]
      · exact Or.inr (Or.inr h6)
  · intro p hp
    have := hi.wl p hp
    simpa [AutoState.addEdge] using this
  · obtain ⟨s, h1, h2⟩ := hi.zero
    exact ⟨_, hput 0 s h1, by rw [hitems]; exact h2⟩

/-- All transitions of a state. -/
theorem Inv0.symbols {h : HashOrder} {q : Nat} {I : List Item} {γ : List Symbol} :
    ∀ (l : List Symbol) (st : AutoState) (wl : List Nat),
      Inv0 h g st wl (l.map fun X => (q, X)) none → (∀ X ∈ l, ∃ it ∈ I, it.nextSymbol g = some X) →
      (∃ s0 : LR1State, st.states[q]? = some s0 ∧ s0.items = I) → Path0 st.states γ q →
      (∀ x, x ∈ I ↔ At0 g γ x) →
      let r := l.foldl (lr0Symbol h g q I) (st, wl)
      Inv0 h g r.1 r.2 [] none ∧ r.1.states.length + wl.length = st.states.length + r.2.length := by
  intro l
  induction l with
  | nil => intro st wl hi _ _ _ _; exact ⟨hi, rfl⟩
  | cons X l ih =>
    intro st wl hi hl ⟨s0, hq, hI⟩ hpath hγ
    rw [List.foldl_cons]
    obtain ⟨hs, hg⟩ := lr0Goto_spec h hγ X
    obtain ⟨h1, h2, h3, h4⟩ := hi.addState hs hg
    obtain ⟨s1, hq1, hI1, _⟩ := h3 q s0 hq
    obtain ⟨h5, h6⟩ := Inv0.addEdge h1 hq1 (hI1.trans hI) (hl X (by simp)) h2 (hpath.ext h3) hγ
    obtain ⟨s2, hq2, hI2, _⟩ := h6 q s1 hq1
    have hlen : (AutoState.addEdge (st.addState (lr0Goto h g I X)).1 q
        (st.addState (lr0Goto h g I X)).2.1 X).states.length =
        (st.addState (lr0Goto h g I X)).1.states.length := by simp [AutoState.addEdge]
    obtain ⟨h7, h8⟩ := ih _ _ h5 (fun Y hY => hl Y (by simp [hY])) ⟨s2, hq2, hI2.trans (hI1.trans hI)⟩
      ((hpath.ext h3).ext h6) hγ
    refine ⟨h7, ?_⟩
    have e : lr0Symbol h g q I (st, wl) X = (AutoState.addEdge (st.addState (lr0Goto h g I X)).1 q
        (st.addState (lr0Goto h g I X)).2.1 X, if (st.addState (lr0Goto h g I X)).2.2 then
          (st.addState (lr0Goto h g I X)).2.1 :: wl else wl) := rfl
    rw [e]
    omega

theorem Inv0.process {h : HashOrder} {st : AutoState} {q : Nat} {wl : List Nat}
    (hi : Inv0 h g st (q :: wl) [] none) :
    let r := lr0Process h g q (st, wl)
    Inv0 h g r.1 r.2 [] none ∧ r.1.states.length + wl.length = st.states.length + r.2.length := by
  have hlt := hi.wl q (by simp)
  have hq : st.states[q]? = some st.states[q] := List.getElem?_eq_getElem hlt
  unfold lr0Process
  dsimp only
  rw [hq]
  dsimp only
  obtain ⟨γ, hp, hγ⟩ := hi.reach q _ hq (by simp)
  refine Inv0.symbols (γ := γ) _ st wl ?_ ?_ ⟨_, hq, rfl⟩ hp hγ
  · refine { hi with compl := ?_, wl := fun p hp => hi.wl p (by simp [hp]) }
    intro p s it X hps hit hX
    rcases hi.compl p s it X hps hit hX with h1 | h1 | h1
    · exact Or.inl h1
    · rcases List.mem_cons.1 h1 with rfl | h1
      · rw [hq] at hps; cases hps
        refine Or.inr (Or.inr (List.mem_map.2 ⟨X, ?_, rfl⟩))
        rw [HashOrder.mem_iter, mem_lr0NextSymbols]
        exact ⟨it, hit, hX⟩
      · exact Or.inr (Or.inl h1)
    · cases h1
  · intro X hX
    rwa [HashOrder.mem_iter, mem_lr0NextSymbols] at hX

theorem lr0Loop_spec {h : HashOrder} (hwf : g.WF) (h0 : g.isPublic 0 = true) :
    ∀ (fuel : Nat) (st : AutoState) (wl : List Nat), Inv0 h g st wl [] none →
      wl.length + 2 ^ g.nItems + 1 ≤ fuel + st.states.length →
      (lr0Loop h g fuel (st, wl)).2 = [] ∧ Inv0 h g (lr0Loop h g fuel (st, wl)).1 [] [] none := by
  intro fuel
  induction fuel with
  | zero =>
    intro st wl hi hf
    have := hi.length_le hwf h0
    omega
  | succ fuel ih =>
    intro st wl hi hf
    cases wl with
    | nil => exact ⟨rfl, hi⟩
    | cons q wl =>
      obtain ⟨h1, h2⟩ := hi.process
      have h3 : (lr0Process h g q (st, wl)).1.states.length + wl.length =
        st.states.length + (lr0Process h g q (st, wl)).2.length := h2
      simp only [List.length_cons] at hf
      exact ih (lr0Process h g q (st, wl)).1 (lr0Process h g q (st, wl)).2 h1 (by omega)

theorem btSorted_single (x : Item) : BTSorted [x] := List.pairwise_singleton _ _

theorem lr0Run_spec (hwf : g.WF) (h0 : g.isPublic 0 = true) (h : HashOrder) :
    (lr0Run h g).2 = [] ∧ Inv0 h g (lr0Run h g).1 [] [] none := by
  obtain ⟨_, hs, hm⟩ := lr0Closure_spec (g := g) h (btSorted_single (lr0Item 0 0))
  have hm' : ∀ x, x ∈ lr0Closure h g [lr0Item 0 0] ↔ At0 g [] x := fun x =>
    (hm x).trans at0_nil_iff.symm
  unfold lr0Run
  generalize hI : lr0Closure h g [lr0Item 0 0] = I at hs hm'
  have e : (⟨[], []⟩ : AutoState).addState I = (⟨[⟨I, []⟩], [(I, 0)]⟩, 0, true) := rfl
  rw [e]
  have hone : ∀ (q : Nat) (s : LR1State), [(⟨I, []⟩ : LR1State)][q]? = some s → q = 0 ∧ s = ⟨I, []⟩ := by
    intro q s hq
    cases q with
    | zero => simp at hq; exact ⟨rfl, hq.symm⟩
    | succ q => simp at hq
  refine lr0Loop_spec hwf h0 _ _ _ ?_ (by simp; omega)
  constructor
  · intro J q
    simp only [AMap.get?]
    constructor
    · intro hq
      split at hq
      · next e => cases hq; exact ⟨_, rfl, e⟩
      · cases hq
    · rintro ⟨s, hq, hs⟩
      obtain ⟨rfl, rfl⟩ := hone q s hq
      rw [if_pos hs]
  · intro q s X r hq hX
    obtain ⟨rfl, rfl⟩ := hone q s hq
    cases hX
  · intro q s hq _
    obtain ⟨rfl, rfl⟩ := hone q s hq
    exact ⟨[], .nil, hm'⟩
  · intro q s hq
    obtain ⟨rfl, rfl⟩ := hone q s hq
    exact ⟨[], hm'⟩
  · intro q s hq
    obtain ⟨rfl, rfl⟩ := hone q s hq
    exact hs
  · intro q s hq
    obtain ⟨rfl, rfl⟩ := hone q s hq
    exact List.nodup_nil
  · intro q s it X hq _ _
    obtain ⟨rfl, rfl⟩ := hone q s hq
    exact Or.inr (Or.inl (by simp))
  · intro q hq
    simp at hq
    simp [hq]
  · exact ⟨_, rfl, hm'⟩

end Parsegen
