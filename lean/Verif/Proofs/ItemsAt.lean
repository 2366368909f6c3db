import Verif.Proofs.Closure

/-! # Items for a symbol string, and well-formed items -/

namespace Parsegen

variable {A Ty : Type} {g : Grammar A Ty} {F : FirstTable}

/-- The item refers to an existing production, its cursor is within bounds, its lookahead declared. -/
def ItemOk (g : Grammar A Ty) (it : Item) : Prop :=
  it.prod < g.nProductions it.nt ∧ it.cursor ≤ (g.rhs it.nt it.prod).length ∧
    LaOk g.nTerminals it.la

theorem Clo.itemOk (hwf : g.WF) (hF : F.Ok g.nTerminals) {K : Item → Prop}
    (hK : ∀ x, K x → ItemOk g x) {x : Item} (h : Clo g F K x) : ItemOk g x := by
  induction h with
  | base hb => exact hK _ hb
  | @pred nt p α b β la q γ c _ hp hq hf ih =>
    exact ⟨hq.lt, Nat.zero_le _,
      InFirst.laOk hwf hF (α := α ++ [.nonTerminal b]) (by simpa using hp) ih.2.2 hf⟩

theorem ItemsAt.itemOk (hwf : g.WF) (hF : F.Ok g.nTerminals) {E : Nat} (hE : g.isPublic E = true)
    {γ : List Symbol} {x : Item} (h : ItemsAt g F E γ x) : ItemOk g x := by
  induction h with
  | entry =>
    refine ⟨?_, Nat.zero_le _, by intro t ht; cases ht⟩
    have := (hwf.pub hE).1
    simp only; omega
  | @advance γ nt p α s β la _ hp ih =>
    refine ⟨ih.1, ?_, ih.2.2⟩
    simp only [hp.rhs_eq, List.length_append, List.length_cons]; omega
  | @pred γ nt p α b β la q δ c _ hp hq hf ih =>
    exact ⟨hq.lt, Nat.zero_le _,
      InFirst.laOk hwf hF (α := α ++ [.nonTerminal b]) (by simpa using hp) ih.2.2 hf⟩

/-- Items predicted by closure are never of an entry point. -/
theorem ItemsAt.pub (hwf : g.WF) {E : Nat} {γ : List Symbol} {x : Item}
    (h : ItemsAt g F E γ x) (hx : g.isPublic x.nt = true) : x.nt = E ∧ x.prod = 0 ∧ x.la = none := by
  induction h with
  | entry => exact ⟨rfl, rfl, rfl⟩
  | advance _ _ ih => exact ih hx
  | @pred γ nt p α b β la q δ c _ hp _ _ _ =>
    have := hwf.nt_priv hp (b := b) (by simp)
    rw [this] at hx; simp at hx

/-- In the entry state the cursor is at the start. -/
theorem ItemsAt.nil_cursor {E : Nat} {γ : List Symbol} {x : Item} (h : ItemsAt g F E γ x) :
    γ = [] → x.cursor = 0 := by
  induction h with
  | entry => intro _; rfl
  | advance => intro h; simp at h
  | pred => intro _; rfl

theorem itemsAt_nil_iff {E : Nat} {x : Item} :
    ItemsAt g F E [] x ↔ Clo g F (fun x => x = ⟨E, 0, 0, none⟩) x := by
  constructor
  · intro h
    have : ∀ {γ x}, ItemsAt g F E γ x → γ = [] → Clo g F (fun x => x = ⟨E, 0, 0, none⟩) x := by
      intro γ x h
      induction h with
      | entry => intro _; exact .base rfl
      | advance => intro h; simp at h
      | pred _ hp hq hf ih => intro hγ; exact .pred (ih hγ) hp hq hf
    exact this h rfl
  · intro h
    induction h with
    | base hb => subst hb; exact .entry
    | pred _ hp hq hf ih => exact .pred ih hp hq hf

theorem itemsAt_snoc_iff {E : Nat} {γ : List Symbol} {s : Symbol} {x : Item} :
    ItemsAt g F E (γ ++ [s]) x ↔ Clo g F (Advance g (ItemsAt g F E γ) s) x := by
  constructor
  · intro h
    have : ∀ {δ x}, ItemsAt g F E δ x → δ = γ ++ [s] →
        Clo g F (Advance g (ItemsAt g F E γ) s) x := by
      intro δ x h
      induction h with
      | entry => intro h; simp at h
      | @advance γ' nt p α s' β la hi hp _ =>
        intro hγ
        obtain ⟨rfl, hs⟩ := List.append_inj' hγ rfl
        simp at hs; subst hs
        exact .base (.mk hi hp)
      | pred _ hp hq hf ih => intro hγ; exact .pred (ih hγ) hp hq hf
    exact this h rfl
  · intro h
    induction h with
    | base hb => cases hb with | mk h hp => exact .advance h hp
    | pred _ hp hq hf ih => exact .pred ih hp hq hf

/-- Pointwise equal kernels give equal closures. -/
theorem Clo.congr {K K' : Item → Prop} (h : ∀ x, K x ↔ K' x) (x : Item) :
    Clo g F K x ↔ Clo g F K' x :=
  ⟨Clo.mono fun x hx => .base ((h x).1 hx), Clo.mono fun x hx => .base ((h x).2 hx)⟩

theorem Advance.congr {I I' : Item → Prop} (h : ∀ x, I x ↔ I' x) (s : Symbol) (x : Item) :
    Advance g I s x ↔ Advance g I' s x := by
  constructor
  · rintro ⟨hi, hp⟩; exact .mk ((h _).1 hi) hp
  · rintro ⟨hi, hp⟩; exact .mk ((h _).2 hi) hp

/-- A closed set reached by a symbol contains an item with the cursor moved. -/
theorem Clo.exists_base {K : Item → Prop} {x : Item} (h : Clo g F K x) : ∃ y, K y := by
  induction h with
  | base hb => exact ⟨_, hb⟩
  | pred _ _ _ _ ih => exact ih

/-- All well-formed items. -/
def allItems (g : Grammar A Ty) : List Item :=
  (List.range g.nNonTerminals).flatMap fun b =>
    (List.range (g.nProductions b)).flatMap fun p =>
      (List.range ((g.rhs b p).length + 1)).flatMap fun c =>
        (none :: (List.range g.nTerminals).map some).map fun la => ⟨b, p, c, la⟩

theorem mem_allItems {x : Item} : x ∈ allItems g ↔ ItemOk g x := by
  unfold allItems ItemOk
  simp only [List.mem_flatMap, List.mem_range, List.mem_map]
  constructor
  · rintro ⟨b, _, p, hp, c, hc, la, hla, rfl⟩
    refine ⟨hp, by simp only; omega, ?_⟩
    intro t ht
    simp only at ht; subst ht
    simpa using hla
  · rintro ⟨h1, h2, h3⟩
    refine ⟨x.nt, Grammar.lt_of_nProductions h1, x.prod, h1, x.cursor, by omega, x.la, ?_, rfl⟩
    cases hx : x.la with
    | none => simp
    | some t => simp [h3 t hx]

theorem sum_map_mul_right {α : Type} (l : List α) (f : α → Nat) (k : Nat) :
    (l.map fun x => f x * k).sum = (l.map f).sum * k := by
  induction l with
  | nil => simp
  | cons x l ih => simp only [List.map_cons, List.sum_cons, ih, Nat.add_mul]

theorem length_allItems : (allItems g).length = g.nItems := by
  unfold allItems Grammar.nItems
  rw [List.length_flatMap]
  have h1 : ∀ b p, ((List.range ((g.rhs b p).length + 1)).flatMap fun c =>
      ((none : Option Nat) :: (List.range g.nTerminals).map some).map fun la =>
        (⟨b, p, c, la⟩ : Item)).length = ((g.rhs b p).length + 1) * (g.nTerminals + 1) := by
    intro b p
    rw [List.length_flatMap]
    simp only [List.length_map, List.length_cons, List.length_range, List.map_const',
      List.sum_replicate_nat]
  simp only [List.length_flatMap, h1]
  have h2 : ∀ b, ((List.range (g.nProductions b)).map fun p =>
      ((g.rhs b p).length + 1) * (g.nTerminals + 1)).sum =
      (match g.nonTerminals[b]? with
        | some n => (n.productions.map fun p => p.symbols.length + 1).sum
        | none => 0) * (g.nTerminals + 1) := by
    intro b
    rw [sum_map_mul_right (f := fun p => (g.rhs b p).length + 1)]
    unfold Grammar.nProductions Grammar.rhs Grammar.getProduction?
    cases hb : g.nonTerminals[b]? with
    | none => simp
    | some n =>
      simp only [Option.bind_some]
      congr 1
      have := sum_map_range_getElem n.productions
        (fun o => o.elim 0 fun p => p.symbols.length + 1)
      simp only [Option.elim_some] at this
      rw [← this]
      congr 1
      apply List.map_congr_left
      intro i hi
      have hi' := List.mem_range.1 hi
      rw [List.getElem?_eq_getElem hi']
      simp [Production.syms]
  simp only [h2]
  rw [sum_map_mul_right]
  congr 1
  exact sum_map_range_getElem g.nonTerminals (fun o => match o with
    | some n => (n.productions.map fun p => p.symbols.length + 1).sum
    | none => 0)

end Parsegen
