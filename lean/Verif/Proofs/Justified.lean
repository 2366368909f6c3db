import Verif.Proofs.First

/-! # Every fact in the FIRST table has a finite justification within the table -/

namespace Parsegen

variable {A Ty : Type} {g : Grammar A Ty}

/-- Why `nt` is flagged empty: a production all of whose symbols are flagged, for such reasons. -/
inductive JNull (g : Grammar A Ty) (F : FirstTable) : Nat → Prop
  | mk {nt p α} (hp : g.HasProd nt p α) (hf : AllFlagged F α)
      (h : ∀ b, .nonTerminal b ∈ α → JNull g F b) : JNull g F nt

/-- Why `t` is in the set of `nt`. -/
inductive JFirst (g : Grammar A Ty) (F : FirstTable) : Nat → Nat → Prop
  | term {nt p α1 t α2} (hp : g.HasProd nt p (α1 ++ .terminal t :: α2)) (hf : AllFlagged F α1) :
      JFirst g F nt t
  | nt {nt p α1 b α2 t} (hp : g.HasProd nt p (α1 ++ .nonTerminal b :: α2)) (hf : AllFlagged F α1)
      (hb : t ∈ (F.get b).terminals) (h : JFirst g F b t) : JFirst g F nt t

/-- Everything in the table is justified. -/
structure Justified (g : Grammar A Ty) (F : FirstTable) : Prop where
  null : ∀ nt, (F.get nt).empty = true → JNull g F nt
  first : ∀ nt t, t ∈ (F.get nt).terminals → JFirst g F nt t

/-- Inclusion of tables. -/
structure FirstTable.Le (F F' : FirstTable) : Prop where
  null : ∀ nt, (F.get nt).empty = true → (F'.get nt).empty = true
  first : ∀ nt t, t ∈ (F.get nt).terminals → t ∈ (F'.get nt).terminals

theorem AllFlagged.mono {F F' : FirstTable} (h : F.Le F') {α : List Symbol} (ha : AllFlagged F α) :
    AllFlagged F' α := by
  intro s hs
  obtain ⟨b, rfl, hb⟩ := ha s hs
  exact ⟨b, rfl, h.null b hb⟩

theorem JNull.mono {F F' : FirstTable} (h : F.Le F') {nt : Nat} (hj : JNull g F nt) :
    JNull g F' nt := by
  induction hj with
  | mk hp hf _ ih => exact .mk hp (hf.mono h) ih

theorem JFirst.mono {F F' : FirstTable} (h : F.Le F') {nt t : Nat} (hj : JFirst g F nt t) :
    JFirst g F' nt t := by
  induction hj with
  | term hp hf => exact .term hp (hf.mono h)
  | nt hp hf hb _ ih => exact .nt hp (hf.mono h) (h.first _ _ hb) ih

theorem FirstTable.le_setEmpty {tbl : FirstTable} {nt : Nat} (hl : nt < tbl.length) :
    tbl.Le (tbl.setEmpty nt).1 where
  null := by intro nt' h; rw [FirstTable.empty_setEmpty hl]; simp [h]
  first := by intro nt' t h; rwa [FirstTable.terminals_setEmpty hl]

theorem Justified.setEmpty {F : FirstTable} (hF : Justified g F) {nt p : Nat} {α : List Symbol}
    (hl : nt < F.length) (hp : g.HasProd nt p α) (hf : AllFlagged F α) :
    Justified g (F.setEmpty nt).1 where
  null := by
    intro nt' h
    simp only [FirstTable.empty_setEmpty hl, Bool.or_eq_true, decide_eq_true_eq] at h
    rcases h with h | rfl
    · exact (hF.null nt' h).mono (FirstTable.le_setEmpty hl)
    · refine .mk hp (hf.mono (FirstTable.le_setEmpty hl)) ?_
      intro b hb
      obtain ⟨b', h1, h2⟩ := hf _ hb
      cases h1
      exact (hF.null b h2).mono (FirstTable.le_setEmpty hl)
  first := by
    intro nt' t h
    rw [FirstTable.terminals_setEmpty hl] at h
    exact (hF.first nt' t h).mono (FirstTable.le_setEmpty hl)

theorem justified_prim (h : HashOrder) : PassPrim h g (fun s => Justified g s.1) where
  setEmptyUpd := by
    intro s nt p hs hl hp
    exact hs.setEmpty hl hp allFlagged_nil
  setEmpty := by
    intro s nt p α hs hl hp hf _
    exact hs.setEmpty hl hp hf
  addTerm := by
    intro s nt p α1 t α2 hs hl hp hf
    have hle : s.1.Le (s.1.addFirst nt t).1 :=
      ⟨fun nt' h => by rwa [FirstTable.empty_addFirst hl],
        fun nt' t' h => (FirstTable.mem_addFirst hl).2 (Or.inl h)⟩
    refine ⟨fun nt' h => ?_, fun nt' t' h => ?_⟩
    · rw [FirstTable.empty_addFirst hl] at h
      exact (hs.null nt' h).mono hle
    · rcases (FirstTable.mem_addFirst hl).1 h with h | ⟨rfl, rfl⟩
      · exact (hs.first nt' t' h).mono hle
      · exact .term hp (hf.mono hle)
  addAll := by
    intro s nt p α1 b α2 hs hl hp hf _
    have hle : s.1.Le (firstAddAll nt (h.iter (s.1.get b).terminals) s.1 s.2).1 :=
      ⟨fun nt' h => by rwa [empty_firstAddAll hl],
        fun nt' t' h => (mem_firstAddAll hl).2 (Or.inl h)⟩
    refine ⟨fun nt' h => ?_, fun nt' t' h => ?_⟩
    · rw [empty_firstAddAll hl] at h
      exact (hs.null nt' h).mono hle
    · rcases (mem_firstAddAll hl).1 h with h | ⟨rfl, hm⟩
      · exact (hs.first nt' t' h).mono hle
      · have hb : t' ∈ (s.1.get b).terminals := by simpa using hm
        exact .nt hp (hf.mono hle) (hle.first _ _ hb) ((hs.first b t' hb).mono hle)

theorem generateFirstTable_justified (h : HashOrder) (g : Grammar A Ty) :
    Justified g (generateFirstTable h g) :=
  (firstLoop_inv (P := Justified g)
    (fun _ hl hs => (firstPass_ind (justified_prim h) hl hs).1) (firstPass_length h)
    ⟨by intro nt h; rw [FirstTable.get_new] at h; simp at h,
      by intro nt t h; rw [FirstTable.get_new] at h; simp at h⟩).1

end Parsegen
