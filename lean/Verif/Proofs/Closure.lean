import Verif.Spec.LR
import Verif.Proofs.First

/-! # Item sets: canonical form, closure, goto -/

namespace Parsegen

variable {A Ty : Type} {g : Grammar A Ty}

/-! ## The item order and `BTreeSet` -/

theorem laKey_inj {a b : Option Nat} (h : laKey a = laKey b) : a = b := by
  cases a <;> cases b <;> simp_all [laKey]

theorem Item.lt_iff {a b : Item} : Item.lt a b = true ↔
    a.nt < b.nt ∨ (a.nt = b.nt ∧ (a.prod < b.prod ∨ (a.prod = b.prod ∧
      (a.cursor < b.cursor ∨ (a.cursor = b.cursor ∧ laKey a.la < laKey b.la))))) := by
  simp [Item.lt]

theorem Item.lt_irrefl (a : Item) : ¬ Item.lt a a = true := by
  rw [Item.lt_iff]; omega

theorem Item.lt_trans {a b c : Item} (h1 : Item.lt a b = true) (h2 : Item.lt b c = true) :
    Item.lt a c = true := by
  rw [Item.lt_iff] at *; omega

theorem Item.lt_total (a b : Item) : a = b ∨ Item.lt a b = true ∨ Item.lt b a = true := by
  by_cases h : a = b
  · exact Or.inl h
  · right
    rw [Item.lt_iff, Item.lt_iff]
    have : ¬ (a.nt = b.nt ∧ a.prod = b.prod ∧ a.cursor = b.cursor ∧ laKey a.la = laKey b.la) := by
      rintro ⟨h1, h2, h3, h4⟩
      apply h
      have h5 := laKey_inj h4
      cases a; cases b
      simp only at h1 h2 h3 h5
      subst h1; subst h2; subst h3; subst h5; rfl
    omega

@[simp] theorem mem_btInsert {x y : Item} {l : List Item} : y ∈ btInsert x l ↔ y = x ∨ y ∈ l := by
  induction l with
  | nil => simp [btInsert]
  | cons z l ih =>
    simp only [btInsert]
    split
    · next h => subst h; simp
    · split
      · simp
      · simp only [List.mem_cons, ih]
        constructor
        · rintro (h | h | h) <;> simp_all
        · rintro (h | h | h) <;> simp_all

@[simp] theorem mem_btCollect {y : Item} {l : List Item} : y ∈ btCollect l ↔ y ∈ l := by
  unfold btCollect
  induction l with
  | nil => simp
  | cons z l ih => simp [ih]

/-- Strictly increasing. -/
def BTSorted (l : List Item) : Prop := l.Pairwise fun a b => Item.lt a b = true

theorem BTSorted.insert {l : List Item} (h : BTSorted l) (x : Item) : BTSorted (btInsert x l) := by
  induction l with
  | nil => simp [btInsert, BTSorted]
  | cons y l ih =>
    unfold BTSorted at *
    rw [List.pairwise_cons] at h
    simp only [btInsert]
    split
    · rw [List.pairwise_cons]; exact h
    · split
      · next hlt =>
        rw [List.pairwise_cons, List.pairwise_cons]
        refine ⟨?_, h⟩
        intro z hz
        rcases List.mem_cons.1 hz with rfl | hz
        · exact hlt
        · exact Item.lt_trans hlt (h.1 z hz)
      · next hne hlt =>
        rw [List.pairwise_cons]
        refine ⟨?_, ih h.2⟩
        intro z hz
        rcases mem_btInsert.1 hz with rfl | hz
        · rcases Item.lt_total z y with h1 | h1 | h1
          · exact absurd h1 hne
          · exact absurd h1 hlt
          · exact h1
        · exact h.1 z hz

theorem btSorted_btCollect (l : List Item) : BTSorted (btCollect l) := by
  unfold btCollect
  induction l with
  | nil => simp [BTSorted]
  | cons x l ih => exact ih.insert x

/-- Sorted lists with the same elements are equal. -/
theorem BTSorted.ext {l l' : List Item} (h : BTSorted l) (h' : BTSorted l')
    (hm : ∀ x, x ∈ l ↔ x ∈ l') : l = l' := by
  induction l generalizing l' with
  | nil =>
    cases l' with
    | nil => rfl
    | cons y l' => have := (hm y).2 (by simp); simp at this
  | cons x l ih =>
    cases l' with
    | nil => have := (hm x).1 (by simp); simp at this
    | cons y l' =>
      unfold BTSorted at h h'
      rw [List.pairwise_cons] at h h'
      have hxy : x = y := by
        have hx := (hm x).1 (by simp)
        have hy := (hm y).2 (by simp)
        rcases List.mem_cons.1 hx with hx | hx
        · exact hx
        · rcases List.mem_cons.1 hy with hy | hy
          · exact hy.symm
          · exact absurd (Item.lt_trans (h.1 y hy) (h'.1 x hx)) (Item.lt_irrefl _)
      subst hxy
      congr 1
      refine ih h.2 h'.2 ?_
      intro z
      constructor
      · intro hz
        rcases List.mem_cons.1 ((hm z).1 (by simp [hz])) with rfl | hz'
        · exact absurd (h.1 z hz) (Item.lt_irrefl _)
        · exact hz'
      · intro hz
        rcases List.mem_cons.1 ((hm z).2 (by simp [hz])) with rfl | hz'
        · exact absurd (h'.1 z hz) (Item.lt_irrefl _)
        · exact hz'

theorem BTSorted.nodup {l : List Item} (h : BTSorted l) : l.Nodup := by
  unfold BTSorted at h
  refine List.Pairwise.imp ?_ h
  intro a b hab heq
  subst heq
  exact Item.lt_irrefl _ hab

/-! ## Next symbol -/

theorem Item.nextSymbol_iff {it : Item} {s : Symbol} : it.nextSymbol g = some s ↔
    ∃ α β, g.HasProd it.nt it.prod (α ++ s :: β) ∧ α.length = it.cursor := by
  unfold Item.nextSymbol
  constructor
  · intro h
    obtain ⟨hl, hs⟩ := List.getElem?_eq_some_iff.1 h
    have hp : g.HasProd it.nt it.prod (g.rhs it.nt it.prod) := by
      unfold Grammar.rhs at hl ⊢
      cases hpr : g.getProduction? it.nt it.prod with
      | none => rw [hpr] at hl; simp at hl
      | some pr =>
        unfold Grammar.getProduction? at hpr
        obtain ⟨n, hn, hpn⟩ := Option.bind_eq_some_iff.1 hpr
        exact ⟨n, pr, hn, hpn, rfl⟩
    refine ⟨(g.rhs it.nt it.prod).take it.cursor, (g.rhs it.nt it.prod).drop (it.cursor + 1), ?_, ?_⟩
    · rw [← hs, List.getElem_cons_drop, List.take_append_drop]; exact hp
    · rw [List.length_take]; omega
  · rintro ⟨α, β, hp, hc⟩
    rw [hp.rhs_eq, ← hc]
    simp

theorem Item.nextNonTerminal_iff {it : Item} {b : Nat} :
    it.nextNonTerminal g = some b ↔ it.nextSymbol g = some (.nonTerminal b) := by
  unfold Item.nextNonTerminal
  split <;> simp_all

theorem Item.nextTerminal_iff {it : Item} {b : Nat} :
    it.nextTerminal g = some b ↔ it.nextSymbol g = some (.terminal b) := by
  unfold Item.nextTerminal
  split <;> simp_all

/-! ## FIRST of the rest of an item -/

/-- Membership of a lookahead in a `FirstSet`, where `empty` stands for end of input. -/
def FirstSet.Has (s : FirstSet) : Option Nat → Prop
  | some t => t ∈ s.terminals
  | none => s.empty = true

theorem mem_foldl_add {ts : List Nat} {s : FirstSet} {t : Nat} :
    t ∈ (ts.foldl FirstSet.add s).terminals ↔ t ∈ s.terminals ∨ t ∈ ts := by
  induction ts generalizing s with
  | nil => simp
  | cons x ts ih =>
    simp only [List.foldl_cons, ih, FirstSet.add, mem_setInsert, List.mem_cons]
    rw [or_assoc]

theorem empty_foldl_add {ts : List Nat} {s : FirstSet} :
    (ts.foldl FirstSet.add s).empty = s.empty := by
  induction ts generalizing s with
  | nil => rfl
  | cons x ts ih => simp only [List.foldl_cons, ih, FirstSet.add]

theorem closureFirstLoop_spec (h : HashOrder) (F : FirstTable) (la : Option Nat) :
    ∀ (β : List Symbol) (s : FirstSet), s.empty = false →
      ∀ c, ((closureFirstLoop h F β s).1.Has c ∨
          ((closureFirstLoop h F β s).2 = true ∧ c = la)) ↔ (s.Has c ∨ InFirst F la β c) := by
  intro β
  induction β with
  | nil =>
    intro s hs c
    simp only [closureFirstLoop, true_and]
    constructor
    · rintro (h | rfl)
      · exact Or.inl h
      · exact Or.inr .nil
    · rintro (h | h)
      · exact Or.inl h
      · cases h; exact Or.inr rfl
  | cons x β ih =>
    intro s hs c
    cases x with
    | terminal t =>
      simp only [closureFirstLoop, Bool.false_eq_true, false_and, or_false]
      cases c with
      | none =>
        simp only [FirstSet.Has, FirstSet.add, hs, Bool.false_eq_true, false_or, false_iff]
        intro h; cases h
      | some c =>
        simp only [FirstSet.Has, FirstSet.add, mem_setInsert]
        constructor
        · rintro (h | rfl)
          · exact Or.inl h
          · exact Or.inr (.term _ _)
        · rintro (h | h)
          · exact Or.inl h
          · cases h; exact Or.inr rfl
    | nonTerminal b =>
      simp only [closureFirstLoop]
      have he : ((h.iter (F.get b).terminals).foldl FirstSet.add s).empty = false := by
        rw [empty_foldl_add]; exact hs
      have hm : ∀ c, ((h.iter (F.get b).terminals).foldl FirstSet.add s).Has c ↔
          (s.Has c ∨ ∃ t, c = some t ∧ t ∈ (F.get b).terminals) := by
        intro c
        cases c with
        | none => simp [FirstSet.Has, he, hs]
        | some c => simp [FirstSet.Has, mem_foldl_add]
      split
      · next hb =>
        rw [ih _ he, hm]
        constructor
        · rintro ((h | ⟨t, rfl, ht⟩) | h)
          · exact Or.inl h
          · exact Or.inr (.nt ht)
          · exact Or.inr (.skip hb h)
        · rintro (h | h)
          · exact Or.inl (Or.inl h)
          · cases h with
            | nt ht => exact Or.inl (Or.inr ⟨_, rfl, ht⟩)
            | skip _ h => exact Or.inr h
      · next hb =>
        simp only [Bool.false_eq_true, false_and, or_false]
        rw [hm]
        constructor
        · rintro (h | ⟨t, rfl, ht⟩)
          · exact Or.inl h
          · exact Or.inr (.nt ht)
        · rintro (h | h)
          · exact Or.inl h
          · cases h with
            | nt ht => exact Or.inr ⟨_, rfl, ht⟩
            | skip hb' _ => exact absurd hb' hb

theorem closureFirst_spec (h : HashOrder) (F : FirstTable) (β : List Symbol) (la c : Option Nat) :
    (closureFirst h F β la).Has c ↔ InFirst F la β c := by
  have hs := closureFirstLoop_spec h F la β {} rfl c
  have hn : ¬ FirstSet.Has {} c := by cases c <;> simp [FirstSet.Has]
  simp only [hn, false_or] at hs
  rw [← hs]
  unfold closureFirst
  dsimp only
  cases hr : (closureFirstLoop h F β {}).2
  · simp
  · simp only [if_true, true_and]
    have hemp : (closureFirstLoop h F β {}).1.empty = false := by
      have : ∀ (β : List Symbol) (s : FirstSet), s.empty = false →
          (closureFirstLoop h F β s).1.empty = false := by
        intro β
        induction β with
        | nil => intro s hs; exact hs
        | cons x β ih =>
          intro s hs
          cases x with
          | terminal t => exact hs
          | nonTerminal b =>
            simp only [closureFirstLoop]
            split
            · exact ih _ (by rw [empty_foldl_add]; exact hs)
            · rw [empty_foldl_add]; exact hs
      exact this β {} rfl
    cases la with
    | some t =>
      cases c with
      | none => simp [FirstSet.Has, FirstSet.add]
      | some c => simp [FirstSet.Has, FirstSet.add]
    | none =>
      cases c with
      | none => simp [FirstSet.Has, FirstSet.setEmpty]
      | some c => simp [FirstSet.Has, FirstSet.setEmpty]

/-! ## The closure work list -/

theorem mem_predicted {h : HashOrder} {b : Nat} {first : FirstSet} {x : Item} :
    x ∈ predicted h g b first ↔
      x.nt = b ∧ x.prod < g.nProductions b ∧ x.cursor = 0 ∧ first.Has x.la := by
  unfold predicted
  simp only [List.mem_flatMap, List.mem_range, List.mem_append, List.mem_map, HashOrder.mem_iter]
  constructor
  · rintro ⟨p, hp, ⟨t, ht, rfl⟩ | hx⟩
    · exact ⟨rfl, hp, rfl, ht⟩
    · split at hx
      · next he => simp at hx; subst hx; exact ⟨rfl, hp, rfl, he⟩
      · simp at hx
  · rintro ⟨h1, h2, h3, h4⟩
    obtain ⟨nt, p, c, la⟩ := x
    simp only at h1 h2 h3 h4
    subst h1; subst h3
    refine ⟨p, h2, ?_⟩
    cases la with
    | some t => exact Or.inl ⟨t, h4, rfl⟩
    | none => right; rw [if_pos (show first.empty = true from h4)]; simp

/-- What one iteration adds: items predicted from `it`. -/
def Pred (g : Grammar A Ty) (F : FirstTable) (it x : Item) : Prop :=
  ∃ α b β q γ c, it.cursor = α.length ∧ g.HasProd it.nt it.prod (α ++ .nonTerminal b :: β) ∧
    g.HasProd b q γ ∧ InFirst F it.la β c ∧ x = ⟨b, q, 0, c⟩

theorem closureAdd_fold (l : List Item) : ∀ (cl wl : List Item),
    ∃ new, l.foldl closureAdd (cl, wl) = (cl ++ new, new.reverse ++ wl) ∧ new.Nodup ∧
      (∀ x ∈ new, x ∉ cl ∧ x ∈ l) ∧ ∀ x ∈ l, x ∈ cl ++ new := by
  induction l with
  | nil => intro cl wl; exact ⟨[], by simp, by simp, by simp, by simp⟩
  | cons y l ih =>
    intro cl wl
    simp only [List.foldl_cons, closureAdd]
    split
    · next hy =>
      obtain ⟨new, h1, h2, h3, h4⟩ := ih cl wl
      refine ⟨new, h1, h2, fun x hx => ⟨(h3 x hx).1, by simp [(h3 x hx).2]⟩, ?_⟩
      intro x hx
      rcases List.mem_cons.1 hx with rfl | hx
      · exact List.mem_append_left _ hy
      · exact h4 x hx
    · next hy =>
      obtain ⟨new, h1, h2, h3, h4⟩ := ih (cl ++ [y]) (y :: wl)
      refine ⟨y :: new, by rw [h1]; simp, ?_, ?_, ?_⟩
      · rw [List.nodup_cons]
        refine ⟨fun hm => (h3 y hm).1 (by simp), h2⟩
      · intro x hx
        rcases List.mem_cons.1 hx with rfl | hx
        · exact ⟨hy, by simp⟩
        · have := h3 x hx
          exact ⟨fun hm => this.1 (by simp [hm]), by simp [this.2]⟩
      · intro x hx
        rcases List.mem_cons.1 hx with rfl | hx
        · simp
        · have := h4 x hx; simpa using this

theorem closureProcess_spec (h : HashOrder) (F : FirstTable) (it : Item) (cl wl : List Item) :
    ∃ new, closureProcess h g F it (cl, wl) = (cl ++ new, new.reverse ++ wl) ∧ new.Nodup ∧
      (∀ x ∈ new, x ∉ cl ∧ Pred g F it x) ∧ ∀ x, Pred g F it x → x ∈ cl ++ new := by
  unfold closureProcess
  split
  · next hn =>
    refine ⟨[], by simp, by simp, by simp, ?_⟩
    rintro x ⟨α, b, β, q, γ, c, hc, hp, hq, hf, rfl⟩
    have : it.nextNonTerminal g = some b :=
      Item.nextNonTerminal_iff.2 (Item.nextSymbol_iff.2 ⟨α, β, hp, hc.symm⟩)
    rw [hn] at this; simp at this
  · next b hn =>
    obtain ⟨α, β, hp, hc⟩ := Item.nextSymbol_iff.1 (Item.nextNonTerminal_iff.1 hn)
    have hrest : (g.rhs it.nt it.prod).drop (it.cursor + 1) = β := by
      rw [hp.rhs_eq, ← hc]
      rw [show α ++ Symbol.nonTerminal b :: β = (α ++ [Symbol.nonTerminal b]) ++ β by simp]
      rw [List.drop_append_of_le_length (by simp)]
      simp
    simp only [hrest]
    obtain ⟨new, h1, h2, h3, h4⟩ := closureAdd_fold
      (predicted h g b (closureFirst h F β it.la)) cl wl
    refine ⟨new, h1, h2, fun x hx => ⟨(h3 x hx).1, ?_⟩, ?_⟩
    · obtain ⟨h5, h6, h7, h8⟩ := mem_predicted.1 (h3 x hx).2
      rw [closureFirst_spec] at h8
      refine ⟨α, b, β, x.prod, _, x.la, hc.symm, hp, Grammar.hasProd_of_lt h6, h8, ?_⟩
      cases x; simp_all
    · rintro x ⟨α', b', β', q, γ, c, hc', hp', hq, hf, rfl⟩
      apply h4
      rw [mem_predicted]
      have hb : b' = b := by
        have h1 := Item.nextSymbol_iff.2 ⟨α', β', hp', hc'.symm⟩
        rw [Item.nextNonTerminal_iff, h1] at hn
        simpa using hn
      subst hb
      have hβ : β' = β := by
        have h1 := hp'.rhs_eq
        rw [hp.rhs_eq] at h1
        have := List.append_inj h1 (by omega)
        simpa using this.2.symm
      subst hβ
      exact ⟨rfl, hq.lt, rfl, (closureFirst_spec h F β' it.la c).2 hf⟩

/-- Lookaheads are declared terminals. -/
def LaOk (nT : Nat) (la : Option Nat) : Prop := ∀ t, la = some t → t < nT

theorem InFirst.laOk (hwf : g.WF) {F : FirstTable} (hF : F.Ok g.nTerminals) {la c : Option Nat}
    {nt p : Nat} {α β : List Symbol} (hp : g.HasProd nt p (α ++ β)) (hla : LaOk g.nTerminals la)
    (h : InFirst F la β c) : LaOk g.nTerminals c := by
  induction h generalizing α with
  | nil => exact hla
  | term t ss => intro t' ht'; cases ht'; exact hwf.term_lt hp (by simp)
  | nt hm => intro t' ht'; cases ht'; exact (hF _).2 _ hm
  | @skip b ss c _ _ ih => exact ih (α := α ++ [.nonTerminal b]) (by simpa using hp)

/-- All items with the cursor at the start. -/
def startItems (g : Grammar A Ty) : List Item :=
  (List.range g.nNonTerminals).flatMap fun b =>
    (List.range (g.nProductions b)).flatMap fun p =>
      (none :: (List.range g.nTerminals).map some).map fun la => ⟨b, p, 0, la⟩

theorem mem_startItems {x : Item} : x ∈ startItems g ↔
    x.prod < g.nProductions x.nt ∧ x.cursor = 0 ∧ LaOk g.nTerminals x.la := by
  unfold startItems
  simp only [List.mem_flatMap, List.mem_range, List.mem_map]
  constructor
  · rintro ⟨b, _, p, hp, la, hla, rfl⟩
    refine ⟨hp, rfl, ?_⟩
    intro t ht
    simp only at ht; subst ht
    simpa using hla
  · rintro ⟨h1, h2, h3⟩
    refine ⟨x.nt, Grammar.lt_of_nProductions h1, x.prod, h1, x.la, ?_, ?_⟩
    · cases hx : x.la with
      | none => simp
      | some t => simp [h3 t hx]
    · cases x; simp_all

theorem sum_map_range_getElem {α : Type} (l : List α) (f : Option α → Nat) :
    ((List.range l.length).map fun i => f l[i]?).sum = (l.map fun x => f (some x)).sum := by
  congr 1
  apply List.ext_getElem
  · simp
  · intro i h1 h2
    simp only [List.length_map, List.length_range] at h1
    simp [List.getElem?_eq_getElem h1]

theorem length_startItems : (startItems g).length = g.totalProductions * (g.nTerminals + 1) := by
  unfold startItems Grammar.totalProductions
  rw [List.length_flatMap]
  have : ∀ b, ((List.range (g.nProductions b)).flatMap fun p =>
      ((none : Option Nat) :: (List.range g.nTerminals).map some).map fun la =>
        (⟨b, p, 0, la⟩ : Item)).length = g.nProductions b * (g.nTerminals + 1) := by
    intro b
    rw [List.length_flatMap]
    simp only [List.length_map, List.length_cons, List.length_range, List.map_const',
      List.sum_replicate_nat]
  simp only [this]
  have h2 := sum_map_range_getElem g.nonTerminals
    (fun o => (o.elim 0 fun n => n.productions.length) * (g.nTerminals + 1))
  have h3 : ∀ b, g.nProductions b = (g.nonTerminals[b]?.elim 0 fun n => n.productions.length) := by
    intro b; unfold Grammar.nProductions; cases g.nonTerminals[b]? <;> rfl
  simp only [h3]
  unfold Grammar.nNonTerminals
  rw [h2]
  clear this h2 h3
  induction g.nonTerminals with
  | nil => simp
  | cons n l ih => rw [List.map_cons, List.sum_cons, ih, List.map_cons, List.sum_cons, Nat.add_mul]; rfl

/-- Invariant of the closure loop. -/
structure CloInv (g : Grammar A Ty) (F : FirstTable) (items cl wl : List Item) : Prop where
  form : ∃ added, cl = items ++ added ∧ added.Nodup ∧ (∀ x ∈ added, x ∈ startItems g)
  wl_sub : ∀ x ∈ wl, x ∈ cl
  la : ∀ x ∈ cl, LaOk g.nTerminals x.la
  sound : ∀ x ∈ cl, Clo g F (· ∈ items) x
  closed : ∀ x ∈ cl, x ∉ wl → ∀ y, Pred g F x y → y ∈ cl

theorem Pred.clo {F : FirstTable} {K : Item → Prop} {x y : Item} (h : Pred g F x y)
    (hx : Clo g F K x) : Clo g F K y := by
  obtain ⟨α, b, β, q, γ, c, hc, hp, hq, hf, rfl⟩ := h
  refine .pred (nt := x.nt) (p := x.prod) (α := α) (la := x.la) ?_ hp hq hf
  rw [← hc]; exact hx

theorem CloInv.step (hwf : g.WF) {F : FirstTable} (hF : F.Ok g.nTerminals) (h : HashOrder)
    {items cl wl : List Item} {it : Item} (hi : CloInv g F items cl (it :: wl)) :
    ∃ new, closureProcess h g F it (cl, wl) = (cl ++ new, new.reverse ++ wl) ∧
      CloInv g F items (cl ++ new) (new.reverse ++ wl) := by
  obtain ⟨new, h1, h2, h3, h4⟩ := closureProcess_spec (g := g) h F it cl wl
  refine ⟨new, h1, ?_, ?_, ?_, ?_, ?_⟩
  · obtain ⟨added, ha, hn, hs⟩ := hi.form
    refine ⟨added ++ new, by rw [ha]; simp, ?_, ?_⟩
    · rw [List.nodup_append]
      refine ⟨hn, h2, ?_⟩
      intro a ha' b hb hab
      subst hab
      exact (h3 a hb).1 (by rw [ha]; simp [ha'])
    · intro x hx
      rcases List.mem_append.1 hx with hx | hx
      · exact hs x hx
      · obtain ⟨α, b, β, q, γ, c, hc, hp, hq, hf, rfl⟩ := (h3 x hx).2
        rw [mem_startItems]
        refine ⟨hq.lt, rfl, InFirst.laOk hwf hF (α := α ++ [.nonTerminal b]) (by simpa using hp)
          (hi.la it (hi.wl_sub it (by simp))) hf⟩
  · intro x hx
    rcases List.mem_append.1 hx with hx | hx
    · simp at hx; simp [hx]
    · exact List.mem_append_left _ (hi.wl_sub x (by simp [hx]))
  · intro x hx
    rcases List.mem_append.1 hx with hx | hx
    · exact hi.la x hx
    · obtain ⟨α, b, β, q, γ, c, hc, hp, hq, hf, rfl⟩ := (h3 x hx).2
      exact InFirst.laOk hwf hF (α := α ++ [.nonTerminal b]) (by simpa using hp)
          (hi.la it (hi.wl_sub it (by simp))) hf
  · intro x hx
    rcases List.mem_append.1 hx with hx | hx
    · exact hi.sound x hx
    · exact (h3 x hx).2.clo (hi.sound it (hi.wl_sub it (by simp)))
  · intro x hx hxw y hy
    simp only [List.mem_append, List.mem_reverse, not_or] at hxw
    by_cases hxi : x = it
    · subst hxi; exact h4 y hy
    · rcases List.mem_append.1 hx with hx | hx
      · exact List.mem_append_left _ (hi.closed x hx (by simp [hxi, hxw.2]) y hy)
      · exact absurd hx hxw.1

theorem closureLoop_spec (hwf : g.WF) {F : FirstTable} (hF : F.Ok g.nTerminals) (h : HashOrder)
    {items : List Item} : ∀ (fuel : Nat) (cl wl : List Item), CloInv g F items cl wl →
      wl.length + (startItems g).length + items.length + 1 ≤ fuel + cl.length →
      (closureLoop h g F fuel (cl, wl)).2 = [] ∧
      CloInv g F items (closureLoop h g F fuel (cl, wl)).1 [] := by
  intro fuel
  induction fuel with
  | zero =>
    intro cl wl hi hle
    exfalso
    obtain ⟨added, ha, hn, hs⟩ := hi.form
    have := (List.subperm_of_subset hn hs).length_le
    rw [ha, List.length_append] at hle
    omega
  | succ fuel ih =>
    intro cl wl hi hle
    cases wl with
    | nil => exact ⟨rfl, hi⟩
    | cons it wl =>
      obtain ⟨new, h1, h2⟩ := hi.step hwf hF h
      simp only [closureLoop]
      rw [h1]
      refine ih _ _ h2 ?_
      simp only [List.length_append, List.length_reverse, List.length_cons] at hle ⊢
      omega

theorem closureRun_spec (hwf : g.WF) {F : FirstTable} (hF : F.Ok g.nTerminals) (h : HashOrder)
    {items : List Item} (hla : ∀ x ∈ items, LaOk g.nTerminals x.la) :
    (closureRun h g F items).2 = [] ∧ CloInv g F items (closureRun h g F items).1 [] := by
  unfold closureRun
  refine closureLoop_spec hwf hF h _ _ _ ?_ ?_
  · refine ⟨⟨[], by simp, by simp, by simp⟩, ?_, hla, fun x hx => .base hx, ?_⟩
    · intro x hx; simpa using hx
    · intro x hx hxw; simp at hxw; exact absurd hx hxw
  · unfold closureFuel
    rw [length_startItems, List.length_reverse, (h.perm items).length_eq]
    omega

/-- `compute_lr1_closure` computes the least closed set. -/
theorem mem_computeClosure (hwf : g.WF) {F : FirstTable} (hF : F.Ok g.nTerminals) (h : HashOrder)
    {items : List Item} (hla : ∀ x ∈ items, LaOk g.nTerminals x.la) (x : Item) :
    x ∈ computeClosure h g F items ↔ Clo g F (· ∈ items) x := by
  obtain ⟨_, hi⟩ := closureRun_spec (g := g) hwf hF h hla
  unfold computeClosure
  rw [mem_btCollect, HashOrder.mem_iter]
  constructor
  · exact hi.sound x
  · intro hx
    induction hx with
    | base hb =>
      obtain ⟨added, ha, _, _⟩ := hi.form
      rw [ha]; simp [hb]
    | pred _ hp hq hf ih =>
      exact hi.closed _ ih (by simp) _ ⟨_, _, _, _, _, _, rfl, hp, hq, hf, rfl⟩

theorem computeClosure_sorted (h : HashOrder) (F : FirstTable) (items : List Item) :
    BTSorted (computeClosure h g F items) := btSorted_btCollect _

theorem Clo.mono {F : FirstTable} {K K' : Item → Prop} (hk : ∀ x, K x → Clo g F K' x) {x : Item}
    (h : Clo g F K x) : Clo g F K' x := by
  induction h with
  | base hb => exact hk _ hb
  | pred _ hp hq hf ih => exact .pred ih hp hq hf

theorem Clo.laOk (hwf : g.WF) {F : FirstTable} (hF : F.Ok g.nTerminals) {K : Item → Prop}
    (hK : ∀ x, K x → LaOk g.nTerminals x.la) {x : Item} (h : Clo g F K x) :
    LaOk g.nTerminals x.la := by
  induction h with
  | base hb => exact hK _ hb
  | @pred nt p α b β la q γ c _ hp _ hf ih =>
    exact InFirst.laOk hwf hF (α := α ++ [.nonTerminal b]) (by simpa using hp) ih hf

/-! ## Goto -/

theorem mem_gotoKernel {items : List Item} {s : Symbol} {x : Item} :
    x ∈ gotoKernel g items s ↔ Advance g (· ∈ items) s x := by
  have key : ∀ (l acc : List Item), x ∈ l.foldl
      (fun acc it => if it.nextSymbol g = some s then setInsert acc it.advance else acc) acc ↔
      x ∈ acc ∨ ∃ it ∈ l, it.nextSymbol g = some s ∧ x = it.advance := by
    intro l
    induction l with
    | nil => simp
    | cons y l ih =>
      intro acc
      rw [List.foldl_cons, ih]
      split
      · next hy =>
        simp only [mem_setInsert, List.mem_cons]
        constructor
        · rintro ((h | rfl) | ⟨it, h1, h2⟩)
          · exact Or.inl h
          · exact Or.inr ⟨y, Or.inl rfl, hy, rfl⟩
          · exact Or.inr ⟨it, Or.inr h1, h2⟩
        · rintro (h | ⟨it, rfl | h1, h2, h3⟩)
          · exact Or.inl (Or.inl h)
          · exact Or.inl (Or.inr h3)
          · exact Or.inr ⟨it, h1, h2, h3⟩
      · next hy =>
        simp only [List.mem_cons]
        constructor
        · rintro (h | ⟨it, h1, h2⟩)
          · exact Or.inl h
          · exact Or.inr ⟨it, Or.inr h1, h2⟩
        · rintro (h | ⟨it, rfl | h1, h2, h3⟩)
          · exact Or.inl h
          · exact absurd h2 hy
          · exact Or.inr ⟨it, h1, h2, h3⟩
  unfold gotoKernel
  rw [key]
  simp only [List.not_mem_nil, false_or]
  constructor
  · rintro ⟨it, hit, hn, rfl⟩
    obtain ⟨α, β, hp, hc⟩ := Item.nextSymbol_iff.1 hn
    obtain ⟨nt, p, c, la⟩ := it
    simp only at hc hp
    subst hc
    exact .mk hit hp
  · rintro ⟨hit, hp⟩
    exact ⟨_, hit, Item.nextSymbol_iff.2 ⟨_, _, hp, rfl⟩, rfl⟩

theorem mem_computeGoto (hwf : g.WF) {F : FirstTable} (hF : F.Ok g.nTerminals) (h : HashOrder)
    {items : List Item} (hla : ∀ x ∈ items, LaOk g.nTerminals x.la) (s : Symbol) (x : Item) :
    x ∈ computeGoto h g F items s ↔ Clo g F (Advance g (· ∈ items) s) x := by
  unfold computeGoto
  have hk : ∀ x ∈ gotoKernel g items s, LaOk g.nTerminals x.la := by
    intro x hx
    cases mem_gotoKernel.1 hx with
    | mk hit hp => have := hla _ hit; exact this
  rw [mem_computeClosure hwf hF h hk]
  constructor
  · exact Clo.mono fun x hx => .base (mem_gotoKernel.1 hx)
  · exact Clo.mono fun x hx => .base (mem_gotoKernel.2 hx)

end Parsegen
