import Verif.Spec.First
import Verif.Proofs.Derivation
import Verif.Proofs.Util
import Batteries.Data.List.Perm

/-! # FIRST table: termination, soundness, completeness -/

namespace Parsegen

variable {A Ty : Type} {g : Grammar A Ty}

theorem nodup_length_le {l : List Nat} {n : Nat} (hn : l.Nodup) (hl : ∀ x ∈ l, x < n) :
    l.length ≤ n := by
  have : l ⊆ List.range n := fun x hx => List.mem_range.2 (hl x hx)
  simpa using (List.subperm_of_subset hn this).length_le

/-! ## Elementary facts about the table operations -/

theorem FirstTable.get_set {tbl : FirstTable} {nt nt' : Nat} {s : FirstSet}
    (h : nt < tbl.length) :
    FirstTable.get (tbl.set nt s) nt' = if nt = nt' then s else tbl.get nt' := by
  unfold FirstTable.get
  simp only [List.getD_eq_getElem?_getD, List.getElem?_set]
  split
  · next hh => subst hh; rfl
  · rfl

theorem FirstTable.addFirst_length (tbl : FirstTable) (nt t : Nat) :
    (tbl.addFirst nt t).1.length = tbl.length := by
  unfold FirstTable.addFirst
  dsimp only
  split <;> simp

theorem FirstTable.setEmpty_length (tbl : FirstTable) (nt : Nat) :
    (tbl.setEmpty nt).1.length = tbl.length := by
  unfold FirstTable.setEmpty
  simp

theorem FirstTable.mem_addFirst {tbl : FirstTable} {nt t nt' t' : Nat} (h : nt < tbl.length) :
    t' ∈ ((tbl.addFirst nt t).1.get nt').terminals ↔
      t' ∈ (tbl.get nt').terminals ∨ (nt' = nt ∧ t' = t) := by
  unfold FirstTable.addFirst
  dsimp only
  split
  · next hm =>
    simp only [iff_self_or]
    rintro ⟨rfl, rfl⟩; exact hm
  · simp only [FirstTable.get_set h]
    split
    · next hh => subst hh; simp
    · next hh => simp [Ne.symm hh]

theorem FirstTable.empty_addFirst {tbl : FirstTable} {nt t nt' : Nat} (h : nt < tbl.length) :
    ((tbl.addFirst nt t).1.get nt').empty = (tbl.get nt').empty := by
  unfold FirstTable.addFirst
  dsimp only
  split
  · rfl
  · simp only [FirstTable.get_set h]
    split
    · next hh => subst hh; rfl
    · rfl

theorem FirstTable.terminals_setEmpty {tbl : FirstTable} {nt nt' : Nat} (h : nt < tbl.length) :
    ((tbl.setEmpty nt).1.get nt').terminals = (tbl.get nt').terminals := by
  unfold FirstTable.setEmpty
  simp only [FirstTable.get_set h]
  split
  · next hh => subst hh; rfl
  · rfl

theorem FirstTable.empty_setEmpty {tbl : FirstTable} {nt nt' : Nat} (h : nt < tbl.length) :
    ((tbl.setEmpty nt).1.get nt').empty = ((tbl.get nt').empty || decide (nt' = nt)) := by
  unfold FirstTable.setEmpty
  simp only [FirstTable.get_set h]
  split
  · next hh => subst hh; simp
  · next hh => simp [Ne.symm hh]

/-! ## A generic induction principle for the FIRST computation

`P` is preserved by a pass if it is preserved by the two primitive updates, in the situations in
which the code performs them. -/

/-- Symbols flagged in the table, with the weaker lookup used by the code. -/
theorem allFlagged_nil {F : FirstTable} : AllFlagged F [] := by intro s h; simp at h

theorem AllFlagged.append {F : FirstTable} {α β} (h1 : AllFlagged F α) (h2 : AllFlagged F β) :
    AllFlagged F (α ++ β) := by
  intro s hs
  rcases List.mem_append.1 hs with h | h
  · exact h1 s h
  · exact h2 s h

theorem AllFlagged.single {F : FirstTable} {b} (h : (F.get b).empty = true) :
    AllFlagged F [.nonTerminal b] := by
  intro s hs
  simp at hs; subst hs; exact ⟨b, rfl, h⟩

structure PassPrim (h : HashOrder) (g : Grammar A Ty) (P : FirstTable × Bool → Prop) : Prop where
  /-- line 73 followed by line 97 happen on an empty production -/
  setEmptyUpd : ∀ {s nt p}, P s → nt < s.1.length → g.HasProd nt p [] →
    P ((s.1.setEmpty nt).1, s.2 || (s.1.setEmpty nt).2)
  /-- line 97 -/
  setEmpty : ∀ {s nt p α}, P s → nt < s.1.length → g.HasProd nt p α → AllFlagged s.1 α →
    (α ≠ [] ∨ (s.1.get nt).empty = true) → P ((s.1.setEmpty nt).1, s.2)
  /-- line 91 -/
  addTerm : ∀ {s nt p α1 t α2}, P s → nt < s.1.length → g.HasProd nt p (α1 ++ .terminal t :: α2) →
    AllFlagged s.1 α1 → P ((s.1.addFirst nt t).1, s.2 || (s.1.addFirst nt t).2)
  /-- lines 84-87 -/
  addAll : ∀ {s nt p α1 b α2}, P s → nt < s.1.length →
    g.HasProd nt p (α1 ++ .nonTerminal b :: α2) → AllFlagged s.1 α1 → (s.1.get b).empty = false →
    P (firstAddAll nt (h.iter (s.1.get b).terminals) s.1 s.2)

theorem firstAddAll_length (nt : Nat) (ts : List Nat) (tbl : FirstTable) (u : Bool) :
    (firstAddAll nt ts tbl u).1.length = tbl.length := by
  unfold firstAddAll
  induction ts generalizing tbl u with
  | nil => rfl
  | cons t ts ih => simp only [List.foldl_cons]; rw [ih]; exact FirstTable.addFirst_length _ _ _

theorem firstSymbols_length (h : HashOrder) (nt : Nat) (α : List Symbol) (tbl : FirstTable)
    (u : Bool) : (firstSymbols h nt α tbl u).1.length = tbl.length := by
  induction α with
  | nil => exact FirstTable.setEmpty_length _ _
  | cons s α ih =>
    cases s with
    | nonTerminal b =>
      simp only [firstSymbols]
      split
      · exact ih
      · exact firstAddAll_length _ _ _ _
    | terminal t => exact FirstTable.addFirst_length _ _ _

theorem firstProduction_length (h : HashOrder) (nt : Nat) (α : List Symbol) (s : FirstTable × Bool) :
    (firstProduction h nt α s).1.length = s.1.length := by
  unfold firstProduction
  dsimp only
  rw [firstSymbols_length]
  split
  · exact FirstTable.setEmpty_length _ _
  · rfl

theorem firstSymbols_ind {h : HashOrder} {P : FirstTable × Bool → Prop} (hP : PassPrim h g P)
    {nt p : Nat} : ∀ (α2 α1 : List Symbol) (tbl : FirstTable) (u : Bool), nt < tbl.length →
      g.HasProd nt p (α1 ++ α2) → AllFlagged tbl α1 →
      (α1 ++ α2 ≠ [] ∨ (tbl.get nt).empty = true) → P (tbl, u) →
      P (firstSymbols h nt α2 tbl u) := by
  intro α2
  induction α2 with
  | nil =>
    intro α1 tbl u hl hp hf hne hs
    rw [List.append_nil] at hp hne
    exact hP.setEmpty hs hl hp hf hne
  | cons s α2 ih =>
    intro α1 tbl u hl hp hf hne hs
    cases s with
    | terminal t => exact hP.addTerm hs hl hp hf
    | nonTerminal b =>
      simp only [firstSymbols]
      split
      · next he =>
        exact ih (α1 ++ [.nonTerminal b]) tbl u hl (by simpa using hp)
          (hf.append (AllFlagged.single he)) (Or.inl (by simp)) hs
      · next he => exact hP.addAll hs hl hp hf (by simpa using he)

theorem firstProduction_ind {h : HashOrder} {P : FirstTable × Bool → Prop} (hP : PassPrim h g P)
    {nt p : Nat} {α : List Symbol} {s : FirstTable × Bool} (hl : nt < s.1.length)
    (hp : g.HasProd nt p α) (hs : P s) : P (firstProduction h nt α s) := by
  unfold firstProduction
  dsimp only
  by_cases hα : α = []
  · subst hα
    simp only [List.isEmpty_nil, if_true]
    exact firstSymbols_ind hP [] [] _ _ (by rw [FirstTable.setEmpty_length]; exact hl) hp
      allFlagged_nil (Or.inr (by rw [FirstTable.empty_setEmpty hl]; simp))
      (hP.setEmptyUpd hs hl hp)
  · have : α.isEmpty = false := by simpa using hα
    simp only [this]
    exact firstSymbols_ind hP α [] _ _ hl hp allFlagged_nil (Or.inl hα) hs

/-- Fold over the productions of a non-terminal. -/
theorem firstProductions_ind {h : HashOrder} {P : FirstTable × Bool → Prop} (hP : PassPrim h g P)
    {nt : Nat} {n : NonTerminal A Ty} (hn : g.nonTerminals[nt]? = some n) :
    ∀ (ps : List (Production A)) (s : FirstTable × Bool), (∀ p ∈ ps, p ∈ n.productions) →
      nt < s.1.length → P s →
      P (ps.foldl (fun s p => firstProduction h nt p.syms s) s) ∧
      (ps.foldl (fun s p => firstProduction h nt p.syms s) s).1.length = s.1.length := by
  intro ps
  induction ps with
  | nil => intro s _ _ hs; exact ⟨hs, rfl⟩
  | cons p ps ih =>
    intro s hps hl hs
    have hp : p ∈ n.productions := hps p (by simp)
    obtain ⟨i, hi, hpi⟩ := List.getElem_of_mem hp
    have hprod : g.HasProd nt i p.syms :=
      ⟨n, p, hn, by rw [List.getElem?_eq_getElem hi, hpi], rfl⟩
    have hlen := firstProduction_length h nt p.syms s
    have h1 := firstProduction_ind hP hl hprod hs
    have h2 := ih (firstProduction h nt p.syms s) (fun q hq => hps q (by simp [hq])) (by omega) h1
    exact ⟨h2.1, by rw [List.foldl_cons, h2.2, hlen]⟩

theorem firstPass_ind {h : HashOrder} {P : FirstTable × Bool → Prop} (hP : PassPrim h g P)
    {tbl : FirstTable} (hl : tbl.length = g.nNonTerminals) (hs : P (tbl, false)) :
    P (firstPass h g tbl) ∧ (firstPass h g tbl).1.length = g.nNonTerminals := by
  unfold firstPass
  have : ∀ (l : List (NonTerminal A Ty × Nat)) (s : FirstTable × Bool),
      (∀ e ∈ l, g.nonTerminals[e.2]? = some e.1) → s.1.length = g.nNonTerminals → P s →
      P (l.foldl (fun s (e : NonTerminal A Ty × Nat) =>
          e.1.productions.foldl (fun s p => firstProduction h e.2 p.syms s) s) s) ∧
      (l.foldl (fun s (e : NonTerminal A Ty × Nat) =>
          e.1.productions.foldl (fun s p => firstProduction h e.2 p.syms s) s) s).1.length =
        g.nNonTerminals := by
    intro l
    induction l with
    | nil => intro s _ hl hs; exact ⟨hs, hl⟩
    | cons e l ih =>
      intro s he hl hs
      have hn := he e (by simp)
      have hlt : e.2 < s.1.length := by
        rw [hl]; exact (List.getElem?_eq_some_iff.1 hn).1
      have := firstProductions_ind hP hn e.1.productions s (fun _ h => h) hlt hs
      exact ih _ (fun e' h' => he e' (by simp [h'])) (by rw [this.2, hl]) this.1
  refine this _ _ ?_ hl hs
  intro e he
  have := List.mem_zipIdx' he
  exact List.getElem?_eq_some_iff.2 ⟨this.1, this.2.symm⟩

/-! ## What `firstAddAll` does -/

theorem mem_firstAddAll {nt : Nat} {ts : List Nat} {tbl : FirstTable} {u : Bool} {nt' t' : Nat}
    (h : nt < tbl.length) :
    t' ∈ ((firstAddAll nt ts tbl u).1.get nt').terminals ↔
      t' ∈ (tbl.get nt').terminals ∨ (nt' = nt ∧ t' ∈ ts) := by
  unfold firstAddAll
  induction ts generalizing tbl u with
  | nil => simp
  | cons t ts ih =>
    simp only [List.foldl_cons]
    rw [ih (by rw [FirstTable.addFirst_length]; exact h), FirstTable.mem_addFirst h]
    simp only [List.mem_cons]
    constructor
    · rintro ((h | ⟨rfl, rfl⟩) | ⟨rfl, hm⟩)
      · exact Or.inl h
      · exact Or.inr ⟨rfl, Or.inl rfl⟩
      · exact Or.inr ⟨rfl, Or.inr hm⟩
    · rintro (h | ⟨rfl, rfl | h⟩)
      · exact Or.inl (Or.inl h)
      · exact Or.inl (Or.inr ⟨rfl, rfl⟩)
      · exact Or.inr ⟨rfl, h⟩

theorem empty_firstAddAll {nt : Nat} {ts : List Nat} {tbl : FirstTable} {u : Bool} {nt' : Nat}
    (h : nt < tbl.length) :
    ((firstAddAll nt ts tbl u).1.get nt').empty = (tbl.get nt').empty := by
  unfold firstAddAll
  induction ts generalizing tbl u with
  | nil => rfl
  | cons t ts ih =>
    simp only [List.foldl_cons]
    rw [ih (by rw [FirstTable.addFirst_length]; exact h), FirstTable.empty_addFirst h]

/-- A property preserved by adding single terminals is preserved by `firstAddAll`. -/
theorem firstAddAll_ind {P : FirstTable × Bool → Prop} {nt : Nat} {ts : List Nat}
    (hP : ∀ s t, t ∈ ts → nt < s.1.length → P s →
      P ((s.1.addFirst nt t).1, s.2 || (s.1.addFirst nt t).2))
    {tbl : FirstTable} {u : Bool} (hl : nt < tbl.length) (h : P (tbl, u)) :
    P (firstAddAll nt ts tbl u) := by
  unfold firstAddAll
  induction ts generalizing tbl u with
  | nil => exact h
  | cons t ts ih =>
    simp only [List.foldl_cons]
    refine ih (fun s t' ht' => hP s t' (by simp [ht'])) ?_ (hP (tbl, u) t (by simp) hl h)
    rw [FirstTable.addFirst_length]; exact hl

/-! ## Soundness -/

theorem Grammar.Derives.nil_of_flagged {F : FirstTable} (hF : FirstSound g F) {α : List Symbol}
    (h : AllFlagged F α) : g.Derives α [] := by
  induction α with
  | nil => exact .refl _
  | cons s α ih =>
    obtain ⟨b, rfl, hb⟩ := h s (by simp)
    have h1 := hF.empty b hb
    have h2 := ih (fun s' hs' => h s' (by simp [hs']))
    simpa using Grammar.Derives.append (u := [.nonTerminal b]) h1 h2

theorem firstSound_prim (h : HashOrder) : PassPrim h g (fun s => FirstSound g s.1) where
  setEmptyUpd := by
    intro s nt p hs hl hp
    refine ⟨fun nt' t ht => hs.terminals nt' t (by rwa [FirstTable.terminals_setEmpty hl] at ht), ?_⟩
    intro nt' he
    simp only [FirstTable.empty_setEmpty hl, Bool.or_eq_true, decide_eq_true_eq] at he
    rcases he with he | rfl
    · exact hs.empty nt' he
    · exact Grammar.Derives.of_hasProd hp
  setEmpty := by
    intro s nt p α hs hl hp hf _
    refine ⟨fun nt' t ht => hs.terminals nt' t (by rwa [FirstTable.terminals_setEmpty hl] at ht), ?_⟩
    intro nt' he
    simp only [FirstTable.empty_setEmpty hl, Bool.or_eq_true, decide_eq_true_eq] at he
    rcases he with he | rfl
    · exact hs.empty nt' he
    · exact (Grammar.Derives.of_hasProd hp).trans (.nil_of_flagged hs hf)
  addTerm := by
    intro s nt p α1 t α2 hs hl hp hf
    refine ⟨?_, fun nt' he => hs.empty nt' (by rwa [FirstTable.empty_addFirst hl] at he)⟩
    intro nt' t' ht
    rcases (FirstTable.mem_addFirst hl).1 ht with ht | ⟨rfl, rfl⟩
    · exact hs.terminals nt' t' ht
    · exact ⟨α2, (Grammar.Derives.of_hasProd hp).trans
        (by simpa using (Grammar.Derives.nil_of_flagged hs hf).append_right (.terminal t' :: α2))⟩
  addAll := by
    intro s nt p α1 b α2 hs hl hp hf _
    refine ⟨?_, fun nt' he => hs.empty nt' (by rwa [empty_firstAddAll hl] at he)⟩
    intro nt' t' ht
    rcases (mem_firstAddAll hl).1 ht with ht | ⟨rfl, htt⟩
    · exact hs.terminals nt' t' ht
    · obtain ⟨x, hx⟩ := hs.terminals b t' (by simpa using htt)
      refine ⟨x ++ α2, (Grammar.Derives.of_hasProd hp).trans ?_⟩
      have h1 := Grammar.Derives.nil_of_flagged hs hf
      simpa using h1.append (hx.append_right α2)

theorem FirstTable.get_new (n nt : Nat) : (FirstTable.new n).get nt = {} := by
  unfold FirstTable.get FirstTable.new
  rw [List.getD_eq_getElem?_getD, List.getElem?_replicate]
  split <;> rfl

theorem firstSound_new (n : Nat) : FirstSound g (FirstTable.new n) where
  terminals := by intro nt t h; rw [FirstTable.get_new] at h; simp at h
  empty := by intro nt h; rw [FirstTable.get_new] at h; simp at h

/-- A property of tables preserved by passes holds of the final table. -/
theorem firstLoop_inv {h : HashOrder} {P : FirstTable → Prop}
    (hstep : ∀ tbl, tbl.length = g.nNonTerminals → P tbl → P (firstPass h g tbl).1)
    (hlen : ∀ tbl : FirstTable, tbl.length = g.nNonTerminals →
      (firstPass h g tbl).1.length = g.nNonTerminals)
    (h0 : P (FirstTable.new g.nNonTerminals)) :
    P (generateFirstTable h g) ∧ (generateFirstTable h g).length = g.nNonTerminals := by
  have := whileUpdated_inv (body := firstPass h g)
    (P := fun tbl => P tbl ∧ tbl.length = g.nNonTerminals)
    (fun s hs => ⟨hstep s hs.2 hs.1, hlen s hs.2⟩) (firstFuel g) (FirstTable.new g.nNonTerminals)
    ⟨h0, by simp [FirstTable.new]⟩
  exact this

theorem true_prim (h : HashOrder) : PassPrim h g (fun _ => True) := by
  constructor <;> intros <;> trivial

theorem firstPass_length (h : HashOrder) (tbl : FirstTable) (hl : tbl.length = g.nNonTerminals) :
    (firstPass h g tbl).1.length = g.nNonTerminals := (firstPass_ind (true_prim h) hl trivial).2

theorem generateFirstTable_length (h : HashOrder) (g : Grammar A Ty) :
    (generateFirstTable h g).length = g.nNonTerminals :=
  (firstLoop_inv (P := fun _ => True) (fun _ _ _ => trivial) (firstPass_length h) trivial).2

theorem generateFirstTable_sound (h : HashOrder) (g : Grammar A Ty) :
    FirstSound g (generateFirstTable h g) :=
  (firstLoop_inv (P := FirstSound g)
    (fun _ hl hs => (firstPass_ind (firstSound_prim h) hl hs).1) (firstPass_length h)
    (firstSound_new _)).1

/-! ## Termination -/

def FirstSet.size (s : FirstSet) : Nat := s.terminals.length + s.empty.toNat

/-- Number of facts in the table. -/
def FirstTable.size (tbl : FirstTable) : Nat := (tbl.map FirstSet.size).sum

theorem sum_set {l : List Nat} {i x : Nat} (h : i < l.length) :
    (l.set i x).sum + l[i] = l.sum + x := by
  induction l generalizing i with
  | nil => simp at h
  | cons y l ih =>
    cases i with
    | zero => simp; omega
    | succ i =>
      simp only [List.set_cons_succ, List.sum_cons, List.getElem_cons_succ]
      have := ih (i := i) (by simpa using h)
      omega

theorem FirstTable.size_set {tbl : FirstTable} {nt : Nat} {s : FirstSet} (h : nt < tbl.length) :
    FirstTable.size (tbl.set nt s) + (tbl.get nt).size = FirstTable.size tbl + s.size := by
  unfold FirstTable.size FirstTable.get
  rw [List.map_set]
  have := sum_set (l := tbl.map FirstSet.size) (i := nt) (x := s.size) (by simpa using h)
  rw [List.getElem_map] at this
  rw [List.getD_eq_getElem?_getD, List.getElem?_eq_getElem h]
  exact this

theorem FirstTable.size_addFirst {tbl : FirstTable} {nt t : Nat} (h : nt < tbl.length) :
    (tbl.addFirst nt t).1.size = tbl.size + (tbl.addFirst nt t).2.toNat := by
  unfold FirstTable.addFirst
  dsimp only
  split
  · rfl
  · have := FirstTable.size_set (s := { tbl.get nt with terminals := (tbl.get nt).terminals ++ [t] }) h
    simp only [FirstSet.size, List.length_append, List.length_singleton] at this
    simp only [Bool.toNat_true]
    omega

theorem FirstTable.size_setEmpty {tbl : FirstTable} {nt : Nat} (h : nt < tbl.length) :
    (tbl.setEmpty nt).1.size = tbl.size + (tbl.setEmpty nt).2.toNat := by
  unfold FirstTable.setEmpty
  have := FirstTable.size_set (s := { tbl.get nt with empty := true }) h
  simp only [FirstSet.size] at this
  dsimp only
  cases he : (tbl.get nt).empty <;> simp [he] at this ⊢ <;> omega

theorem size_prim (h : HashOrder) (m : Nat) :
    PassPrim h g (fun s => m ≤ s.1.size ∧ (s.2 = true → m < s.1.size)) where
  setEmptyUpd := by
    intro s nt p hs hl _
    have := FirstTable.size_setEmpty hl
    dsimp only
    cases hb : (s.1.setEmpty nt).2 <;> simp [hb] at this ⊢
    · rw [this]; exact hs
    · omega
  setEmpty := by
    intro s nt p α hs hl _ _ _
    have := FirstTable.size_setEmpty hl
    refine ⟨by dsimp only; omega, fun hu => ?_⟩
    have := hs.2 hu
    dsimp only; omega
  addTerm := by
    intro s nt p α1 t α2 hs hl _ _
    have := FirstTable.size_addFirst (t := t) hl
    dsimp only
    cases hb : (s.1.addFirst nt t).2 <;> simp [hb] at this ⊢
    · rw [this]; exact hs
    · omega
  addAll := by
    intro s nt p α1 b α2 hs hl _ _ _
    refine firstAddAll_ind (P := fun s => m ≤ s.1.size ∧ (s.2 = true → m < s.1.size)) ?_ hl hs
    intro s t _ hl hs
    have := FirstTable.size_addFirst (t := t) hl
    dsimp only
    cases hb : (s.1.addFirst nt t).2 <;> simp [hb] at this ⊢
    · rw [this]; exact hs
    · omega

/-- Sets are duplicate free and contain only declared terminals. -/
def FirstTable.Ok (nT : Nat) (tbl : FirstTable) : Prop :=
  ∀ nt, (tbl.get nt).terminals.Nodup ∧ ∀ t ∈ (tbl.get nt).terminals, t < nT

theorem FirstTable.Ok.addFirst {nT : Nat} {tbl : FirstTable} {nt t : Nat} (h : tbl.Ok nT)
    (hl : nt < tbl.length) (ht : t < nT) : FirstTable.Ok nT (tbl.addFirst nt t).1 := by
  intro nt'
  constructor
  · unfold FirstTable.addFirst
    dsimp only
    split
    · exact (h nt').1
    · next hm =>
      simp only [FirstTable.get_set hl]
      split
      · next hh =>
        have h1 := (h nt).1
        rw [List.nodup_append]
        refine ⟨h1, by simp, ?_⟩
        intro a ha b hb hab
        simp at hb; subst hb; subst hab; exact hm ha
      · exact (h nt').1
  · intro t' ht'
    rcases (FirstTable.mem_addFirst hl).1 ht' with h' | ⟨_, rfl⟩
    · exact (h nt').2 t' h'
    · exact ht

theorem ok_prim (hwf : g.WF) (h : HashOrder) :
    PassPrim h g (fun s => s.1.Ok g.nTerminals) where
  setEmptyUpd := by
    intro s nt p hs hl _ nt'
    rw [FirstTable.terminals_setEmpty hl]; exact hs nt'
  setEmpty := by
    intro s nt p α hs hl _ _ _ nt'
    rw [FirstTable.terminals_setEmpty hl]; exact hs nt'
  addTerm := by
    intro s nt p α1 t α2 hs hl hp _
    exact hs.addFirst hl (hwf.term_lt hp (by simp))
  addAll := by
    intro s nt p α1 b α2 hs hl hp _ _
    refine firstAddAll_ind (P := fun s => s.1.Ok g.nTerminals) ?_ hl hs
    intro s' t ht hl' hs'
    exact hs'.addFirst hl' ((hs b).2 t (by simpa using ht))

theorem FirstTable.Ok.size_le {nT : Nat} {tbl : FirstTable} (h : tbl.Ok nT) :
    tbl.size ≤ tbl.length * (nT + 1) := by
  have : ∀ s ∈ tbl, s.size ≤ nT + 1 := by
    intro s hs
    obtain ⟨i, hi, rfl⟩ := List.getElem_of_mem hs
    have := h i
    have he : tbl.get i = tbl[i] := by
      unfold FirstTable.get
      rw [List.getD_eq_getElem?_getD, List.getElem?_eq_getElem hi]; rfl
    rw [he] at this
    have := nodup_length_le this.1 this.2
    unfold FirstSet.size
    have := Bool.toNat_le tbl[i].empty
    omega
  unfold FirstTable.size
  clear h
  induction tbl with
  | nil => simp
  | cons s tbl ih =>
    have h1 := ih (fun s' hs' => this s' (by simp [hs']))
    have h2 := this s (by simp)
    simp only [List.map_cons, List.sum_cons, List.length_cons]
    rw [Nat.add_mul]
    omega

theorem FirstTable.ok_new (n nT : Nat) : (FirstTable.new n).Ok nT := by
  intro nt; rw [FirstTable.get_new]; simp

theorem generateFirstTable_ok (hwf : g.WF) (h : HashOrder) :
    (generateFirstTable h g).Ok g.nTerminals :=
  (firstLoop_inv (P := FirstTable.Ok g.nTerminals)
    (fun _ hl hs => (firstPass_ind (ok_prim hwf h) hl hs).1) (firstPass_length h)
    (FirstTable.ok_new _ _)).1

/-- The FIRST loop ends within `firstFuel g` passes. -/
theorem firstLoop_terminates (hwf : g.WF) (h : HashOrder) : (firstLoop h g).2 = false := by
  unfold firstLoop
  refine whileUpdated_terminates
    (P := fun tbl => tbl.Ok g.nTerminals ∧ tbl.length = g.nNonTerminals) FirstTable.size
    (g.nNonTerminals * (g.nTerminals + 1)) ?_ ?_ ?_ _ _ ?_ ?_
  · exact fun s hs => ⟨(firstPass_ind (ok_prim hwf h) hs.2 hs.1).1, firstPass_length h s hs.2⟩
  · intro s hs; have := hs.1.size_le; rwa [hs.2] at this
  · intro s hs hu
    exact (firstPass_ind (size_prim h s.size) hs.2 ⟨Nat.le_refl _, by simp⟩).1.2 hu
  · exact ⟨FirstTable.ok_new _ _, by simp [FirstTable.new]⟩
  · unfold firstFuel; omega

end Parsegen
