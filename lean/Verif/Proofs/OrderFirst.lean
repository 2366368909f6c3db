import Verif.Proofs.First

/-! # The FIRST table does not depend on the iteration order, up to the order within its sets -/

namespace Parsegen

variable {A Ty : Type} {g : Grammar A Ty}

/-- The same sets. -/
structure FirstTable.Same (F F' : FirstTable) : Prop where
  len : F.length = F'.length
  empty : ∀ nt, (F.get nt).empty = (F'.get nt).empty
  mem : ∀ nt t, t ∈ (F.get nt).terminals ↔ t ∈ (F'.get nt).terminals

/-- The same sets and the same flag. -/
def SameS (n : Nat) (s s' : FirstTable × Bool) : Prop :=
  s.1.Same s'.1 ∧ s.2 = s'.2 ∧ s.1.length = n

theorem FirstTable.addFirst_flag (tbl : FirstTable) (nt t : Nat) :
    (tbl.addFirst nt t).2 = !decide (t ∈ (tbl.get nt).terminals) := by
  unfold FirstTable.addFirst
  dsimp only
  split <;> simp [*]

theorem SameS.addFirst {n nt t : Nat} {s s' : FirstTable × Bool} (h : SameS n s s') (hn : nt < n) :
    SameS n ((s.1.addFirst nt t).1, s.2 || (s.1.addFirst nt t).2)
      ((s'.1.addFirst nt t).1, s'.2 || (s'.1.addFirst nt t).2) := by
  obtain ⟨h1, h2, h3⟩ := h
  have hl : nt < s.1.length := by omega
  have hl' : nt < s'.1.length := by rw [← h1.len]; exact hl
  refine ⟨⟨?_, fun nt' => ?_, fun nt' t' => ?_⟩, ?_, ?_⟩
  · simp only [FirstTable.addFirst_length]; exact h1.len
  · simp only [FirstTable.empty_addFirst hl, FirstTable.empty_addFirst hl', h1.empty]
  · simp only [FirstTable.mem_addFirst hl, FirstTable.mem_addFirst hl', h1.mem]
  · simp only [FirstTable.addFirst_flag, h2, h1.mem]
  · simp only [FirstTable.addFirst_length]; exact h3

theorem FirstTable.Same.setEmpty {nt : Nat} {F F' : FirstTable} (h1 : F.Same F')
    (hl : nt < F.length) : (F.setEmpty nt).1.Same (F'.setEmpty nt).1 := by
  have hl' : nt < F'.length := by rw [← h1.len]; exact hl
  refine ⟨?_, fun nt' => ?_, fun nt' t' => ?_⟩
  · simp only [FirstTable.setEmpty_length]; exact h1.len
  · simp only [FirstTable.empty_setEmpty hl, FirstTable.empty_setEmpty hl', h1.empty]
  · simp only [FirstTable.terminals_setEmpty hl, FirstTable.terminals_setEmpty hl', h1.mem]

theorem firstAddAll_flag {nt : Nat} {ts : List Nat} {tbl : FirstTable} {u : Bool}
    (hl : nt < tbl.length) : (firstAddAll nt ts tbl u).2 = true ↔
      u = true ∨ ∃ t ∈ ts, t ∉ (tbl.get nt).terminals := by
  unfold firstAddAll
  induction ts generalizing tbl u with
  | nil => simp
  | cons t ts ih =>
    simp only [List.foldl_cons]
    rw [ih (by rw [FirstTable.addFirst_length]; exact hl), FirstTable.addFirst_flag]
    simp only [Bool.or_eq_true, Bool.not_eq_true', decide_eq_false_iff_not, List.mem_cons,
      FirstTable.mem_addFirst hl]
    constructor
    · rintro ((h | h) | ⟨t', h1, h2⟩)
      · exact Or.inl h
      · exact Or.inr ⟨t, Or.inl rfl, h⟩
      · exact Or.inr ⟨t', Or.inr h1, fun h => h2 (Or.inl h)⟩
    · rintro (h | ⟨t', rfl | h1, h2⟩)
      · exact Or.inl (Or.inl h)
      · exact Or.inl (Or.inr h2)
      · by_cases ht : t' = t
        · subst ht; exact Or.inl (Or.inr h2)
        · exact Or.inr ⟨t', h1, fun h => h.elim h2 (fun h => ht h.2)⟩

theorem SameS.addAll {n nt : Nat} {ts ts' : List Nat} {s s' : FirstTable × Bool} (h : SameS n s s')
    (hn : nt < n) (hts : ∀ t, t ∈ ts ↔ t ∈ ts') :
    SameS n (firstAddAll nt ts s.1 s.2) (firstAddAll nt ts' s'.1 s'.2) := by
  obtain ⟨h1, h2, h3⟩ := h
  have hl : nt < s.1.length := by omega
  have hl' : nt < s'.1.length := by rw [← h1.len]; exact hl
  refine ⟨⟨?_, fun nt' => ?_, fun nt' t' => ?_⟩, ?_, ?_⟩
  · simp only [firstAddAll_length]; exact h1.len
  · simp only [empty_firstAddAll hl, empty_firstAddAll hl', h1.empty]
  · simp only [mem_firstAddAll hl, mem_firstAddAll hl', h1.mem, hts]
  · rw [Bool.eq_iff_iff, firstAddAll_flag hl, firstAddAll_flag hl']
    simp only [h2, hts, h1.mem]
  · simp only [firstAddAll_length]; exact h3

theorem firstSymbols_same (h h' : HashOrder) {n nt : Nat} (hn : nt < n) (α : List Symbol) :
    ∀ {s s' : FirstTable × Bool}, SameS n s s' →
      SameS n (firstSymbols h nt α s.1 s.2) (firstSymbols h' nt α s'.1 s'.2) := by
  induction α with
  | nil =>
    intro s s' hs
    exact ⟨hs.1.setEmpty (by rw [hs.2.2]; exact hn), hs.2.1,
      (FirstTable.setEmpty_length _ _).trans hs.2.2⟩
  | cons x α ih =>
    intro s s' hs
    cases x with
    | nonTerminal b =>
      simp only [firstSymbols, hs.1.empty]
      split
      · exact ih hs
      · refine hs.addAll hn ?_
        intro t
        simp only [HashOrder.mem_iter]
        exact hs.1.mem b t
    | terminal t => exact hs.addFirst hn

theorem firstProduction_same (h h' : HashOrder) {n nt : Nat} (hn : nt < n) (α : List Symbol)
    {s s' : FirstTable × Bool} (hs : SameS n s s') :
    SameS n (firstProduction h nt α s) (firstProduction h' nt α s') := by
  unfold firstProduction
  dsimp only
  refine firstSymbols_same h h' hn α ?_
  split
  · refine ⟨hs.1.setEmpty (by rw [hs.2.2]; exact hn), ?_,
      (FirstTable.setEmpty_length _ _).trans hs.2.2⟩
    simp only [FirstTable.setEmpty, hs.2.1, hs.1.empty]
  · exact hs

theorem foldl_rel {α β β' : Type} {R : β → β' → Prop} {f : β → α → β} {f' : β' → α → β'}
    (l : List α) (hf : ∀ a ∈ l, ∀ b b', R b b' → R (f b a) (f' b' a)) :
    ∀ {b b'}, R b b' → R (l.foldl f b) (l.foldl f' b') := by
  induction l with
  | nil => intro b b' h; exact h
  | cons a l ih =>
    intro b b' h
    exact ih (fun a' ha' => hf a' (List.mem_cons_of_mem _ ha')) (hf a (List.mem_cons_self ..) _ _ h)

theorem firstPass_same (h h' : HashOrder) {tbl tbl' : FirstTable} (hs : tbl.Same tbl')
    (hl : tbl.length = g.nNonTerminals) :
    SameS g.nNonTerminals (firstPass h g tbl) (firstPass h' g tbl') := by
  unfold firstPass
  refine foldl_rel (R := SameS g.nNonTerminals) _ ?_ ⟨hs, rfl, hl⟩
  rintro ⟨n, nt⟩ hmem s s' hss
  have hlt : nt < g.nNonTerminals := by
    have := List.mem_zipIdx' hmem
    exact this.1
  dsimp only
  exact foldl_rel (R := SameS g.nNonTerminals) _
    (fun p _ s s' hss => firstProduction_same h h' hlt p.syms hss) hss

theorem whileUpdated_rel {σ σ' : Type} {R : σ → σ' → Prop} {body : σ → σ × Bool}
    {body' : σ' → σ' × Bool}
    (hb : ∀ s s', R s s' → R (body s).1 (body' s').1 ∧ (body s).2 = (body' s').2) :
    ∀ (fuel : Nat) {s s'}, R s s' → R (whileUpdated body fuel s).1 (whileUpdated body' fuel s').1 ∧
      (whileUpdated body fuel s).2 = (whileUpdated body' fuel s').2 := by
  intro fuel
  induction fuel with
  | zero => intro s s' h; exact ⟨h, rfl⟩
  | succ fuel ih =>
    intro s s' h
    obtain ⟨h1, h2⟩ := hb s s' h
    unfold whileUpdated
    rcases hb1 : body s with ⟨t, u⟩
    rcases hb2 : body' s' with ⟨t', u'⟩
    rw [hb1, hb2] at h1 h2
    dsimp only at h1 h2
    subst h2
    cases u
    · exact ⟨h1, rfl⟩
    · exact ih h1

/-- The FIRST table is the same for every iteration order. -/
theorem generateFirstTable_same (h h' : HashOrder) (g : Grammar A Ty) :
    (generateFirstTable h g).Same (generateFirstTable h' g) := by
  have := whileUpdated_rel (R := fun s s' => s.Same s' ∧ s.length = g.nNonTerminals)
    (body := firstPass h g) (body' := firstPass h' g) (by
      intro s s' hs
      have h1 := firstPass_same h h' hs.1 hs.2
      exact ⟨⟨h1.1, h1.2.2⟩, h1.2.1⟩) (firstFuel g)
    (s := FirstTable.new g.nNonTerminals) (s' := FirstTable.new g.nNonTerminals)
    ⟨⟨rfl, fun _ => rfl, fun _ _ => Iff.rfl⟩, by simp [FirstTable.new]⟩
  exact this.1.1

end Parsegen
