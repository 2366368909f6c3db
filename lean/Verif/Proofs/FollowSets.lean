import Verif.Spec.FollowSets
import Verif.Proofs.FirstComplete

/-! # FOLLOW sets -/

namespace Parsegen

variable {A Ty : Type} {g : Grammar A Ty} {F : FirstTable}

/-! ## Adding to a table -/

/-- `add_follow` or `set_end`. -/
def FollowTable.add (tbl : FollowTable) (a : Nat) : Option Nat → FollowTable × Bool
  | some t => tbl.addFollow a t
  | none => tbl.setEnd a

theorem FollowTable.get_set {tbl : FollowTable} {a b : Nat} {s : FollowSet} (h : a < tbl.length) :
    FollowTable.get (tbl.set a s) b = if a = b then s else tbl.get b := by
  unfold FollowTable.get
  rw [List.getD_eq_getElem?_getD, List.getD_eq_getElem?_getD, List.getElem?_set]
  split
  · simp
  · rfl

theorem FollowTable.add_length (tbl : FollowTable) (a : Nat) (c : Option Nat) :
    (tbl.add a c).1.length = tbl.length := by
  cases c with
  | none => simp [FollowTable.add, FollowTable.setEnd]
  | some t => simp only [FollowTable.add, FollowTable.addFollow]; split <;> simp

theorem FollowTable.has_add {tbl : FollowTable} {a b : Nat} {c d : Option Nat} (h : a < tbl.length) :
    (tbl.add a c).1.Has b d ↔ tbl.Has b d ∨ (b = a ∧ d = c) := by
  cases c with
  | none =>
    simp only [FollowTable.add, FollowTable.setEnd]
    cases d with
    | none =>
      simp only [FollowTable.Has, FollowTable.get_set h]
      by_cases e : a = b
      · subst e; simp
      · simp [e, Ne.symm e]
    | some u =>
      simp only [FollowTable.Has, FollowTable.get_set h]
      by_cases e : a = b
      · subst e; simp
      · simp [e]
  | some t =>
    simp only [FollowTable.add, FollowTable.addFollow]
    split
    · next hm =>
      constructor
      · exact Or.inl
      · rintro (h' | ⟨rfl, rfl⟩)
        · exact h'
        · exact hm
    · cases d with
      | none =>
        simp only [FollowTable.Has, FollowTable.get_set h]
        by_cases e : a = b
        · subst e; simp
        · simp [e]
      | some u =>
        simp only [FollowTable.Has, FollowTable.get_set h]
        by_cases e : a = b
        · subst e; simp
        · simp [e, Ne.symm e]

theorem FollowTable.add_false {tbl : FollowTable} {a : Nat} {c : Option Nat} (hl : a < tbl.length)
    (h : (tbl.add a c).2 = false) : (tbl.add a c).1 = tbl ∧ tbl.Has a c := by
  cases c with
  | none =>
    simp only [FollowTable.add, FollowTable.setEnd, Bool.not_eq_false'] at h ⊢
    refine ⟨?_, h⟩
    unfold FollowTable.get at h ⊢
    rw [List.getD_eq_getElem?_getD, List.getElem?_eq_getElem hl, Option.getD_some] at h ⊢
    rw [← h]
    exact List.set_getElem_self hl
  | some t =>
    simp only [FollowTable.add, FollowTable.addFollow] at h ⊢
    split at h
    · next hm => rw [if_pos hm]; exact ⟨rfl, hm⟩
    · cases h

/-! ## Invariants of a pass -/

/-- Why `c` is added to the set of `a`. -/
def FollowReason (g : Grammar A Ty) (F : FirstTable) (tbl : FollowTable) (a : Nat) (c : Option Nat) : Prop :=
  ∃ lhs p α β, g.HasProd lhs p (α ++ .nonTerminal a :: β) ∧
    ((∃ t, c = some t ∧ BeginsTbl F β t) ∨ (AllFlagged F β ∧ tbl.Has lhs c))

/-- `P` is preserved by what a pass does. -/
def FollowPrim (g : Grammar A Ty) (F : FirstTable) (P : FollowTable × Bool → Prop) : Prop :=
  ∀ s a c, P s → a < s.1.length → FollowReason g F s.1 a c →
    P ((s.1.add a c).1, s.2 || (s.1.add a c).2)

/-- `P` holds, the table has the right length. -/
def Keeps (n : Nat) (P : FollowTable × Bool → Prop) (s : FollowTable × Bool) : Prop :=
  P s ∧ s.1.length = n

variable {P : FollowTable × Bool → Prop}

theorem FollowPrim.keeps {n : Nat} (hP : FollowPrim g F P) {s : FollowTable × Bool} {a : Nat}
    {c : Option Nat} (h : Keeps n P s) (ha : a < n) (hr : FollowReason g F s.1 a c) :
    Keeps n P ((s.1.add a c).1, s.2 || (s.1.add a c).2) :=
  ⟨hP s a c h.1 (by rw [h.2]; exact ha) hr, by rw [FollowTable.add_length]; exact h.2⟩

theorem followAddAll_keeps {n a : Nat} (hP : FollowPrim g F P) (ha : a < n) :
    ∀ (ts : List Nat) (s : FollowTable × Bool), Keeps n P s →
      (∀ t ∈ ts, FollowReason g F s.1 a (some t)) → Keeps n P (followAddAll a ts s) := by
  intro ts
  induction ts with
  | nil => intro s h _; exact h
  | cons t ts ih =>
    intro s h hr
    refine ih _ (hP.keeps (c := some t) h ha (hr t (by simp))) ?_
    intro u hu
    obtain ⟨lhs, p, α, β, h1, h2⟩ := hr u (by simp [hu])
    refine ⟨lhs, p, α, β, h1, ?_⟩
    rcases h2 with h2 | ⟨h2, h3⟩
    · exact Or.inl h2
    · exact Or.inr ⟨h2, (FollowTable.has_add (c := some t) (by rw [h.2]; exact ha)).2 (Or.inl h3)⟩

theorem followAtEnd_keeps {n a lhs p : Nat} {h : HashOrder} (hP : FollowPrim g F P) (ha : a < n)
    {α β : List Symbol} (hp : g.HasProd lhs p (α ++ .nonTerminal a :: β)) (hβ : AllFlagged F β)
    {s : FollowTable × Bool} (hs : Keeps n P s) : Keeps n P (followAtEnd h a lhs s) := by
  unfold followAtEnd
  have hr : ∀ t ∈ h.iter (s.1.get lhs).terminals, s.1.Has lhs (some t) := by
    intro t ht
    exact (h.perm _).mem_iff.1 ht
  by_cases he : (s.1.get lhs).end_ = true
  · simp only [he, if_true]
    refine followAddAll_keeps hP ha _ _
      (hP.keeps (c := none) hs ha ⟨lhs, p, α, β, hp, Or.inr ⟨hβ, he⟩⟩) ?_
    intro t ht
    exact ⟨lhs, p, α, β, hp, Or.inr ⟨hβ,
      (FollowTable.has_add (c := none) (by rw [hs.2]; exact ha)).2 (Or.inl (hr t ht))⟩⟩
  · simp only [he]
    exact followAddAll_keeps hP ha _ _ hs fun t ht => ⟨lhs, p, α, β, hp, Or.inr ⟨hβ, hr t ht⟩⟩

theorem follow_keeps {n a lhs p : Nat} {h : HashOrder} (hP : FollowPrim g F P) (ha : a < n) :
    ∀ (l : List Symbol),
      (∀ (α : List Symbol) (s : FollowTable × Bool), g.HasProd lhs p (α ++ l) → Keeps n P s →
        Keeps n P (followSearch h F a lhs l s)) ∧
      (∀ (α m : List Symbol) (s : FollowTable × Bool), g.HasProd lhs p (α ++ .nonTerminal a :: (m ++ l)) →
        AllFlagged F m → Keeps n P s → Keeps n P (followAfter h F a lhs l s)) := by
  intro l
  induction l with
  | nil =>
    refine ⟨fun α s _ hs => by simpa [followSearch] using hs, fun α m s hp hm hs => ?_⟩
    simp only [followAfter]
    exact followAtEnd_keeps hP ha hp (by simpa using hm) hs
  | cons x l ih =>
    refine ⟨fun α s hp hs => ?_, fun α m s hp hm hs => ?_⟩
    · simp only [followSearch]
      split
      · next e => subst e; exact ih.2 α [] s (by simpa using hp) allFlagged_nil hs
      · exact ih.1 (α ++ [x]) s (by simpa using hp) hs
    · cases x with
      | terminal t =>
        simp only [followAfter]
        refine ih.1 (α ++ .nonTerminal a :: (m ++ [.terminal t])) _ (by simpa using hp) ?_
        exact hP.keeps (c := some t) hs ha
          ⟨lhs, p, α, _, hp, Or.inl ⟨t, rfl, m, .terminal t, l, rfl, hm, Or.inl rfl⟩⟩
      | nonTerminal b =>
        simp only [followAfter]
        have hs' : Keeps n P (followAddAll a (h.iter (F.get b).terminals) s) := by
          refine followAddAll_keeps hP ha _ _ hs fun t ht => ?_
          exact ⟨lhs, p, α, _, hp, Or.inl ⟨t, rfl, m, .nonTerminal b, l, rfl, hm,
            Or.inr ⟨b, rfl, (h.perm _).mem_iff.1 ht⟩⟩⟩
        split
        · next he =>
          exact ih.2 α (m ++ [.nonTerminal b]) _ (by simpa using hp) (hm.append (.single he)) hs'
        · split
          · next e =>
            subst e
            exact ih.2 (α ++ .nonTerminal b :: m) [] _ (by simpa using hp) allFlagged_nil hs'
          · exact ih.1 (α ++ .nonTerminal a :: (m ++ [.nonTerminal b])) _ (by simpa using hp) hs'

theorem followPass_keeps {h : HashOrder} (hP : FollowPrim g F P) {tbl : FollowTable}
    (h0 : Keeps g.nNonTerminals P (tbl, false)) :
    Keeps g.nNonTerminals P (followPass h g F tbl) := by
  unfold followPass
  refine List.foldlRecOn (motive := Keeps g.nNonTerminals P) _ _ h0 ?_
  intro s hs a ha
  refine List.foldlRecOn (motive := Keeps g.nNonTerminals P) _ _ hs ?_
  intro s hs e he
  obtain ⟨p, hp⟩ := mem_prodList.1 (show e ∈ g.prodList from he)
  exact (follow_keeps (p := p) hP (List.mem_range.1 ha) e.2).1 [] s hp hs

/-! ## A pass that changes nothing -/

/-- What an occurrence of `a` followed by `β` in a production of `lhs` demands of the table. -/
def FollowCond (F : FirstTable) (tbl : FollowTable) (a lhs : Nat) (β : List Symbol) : Prop :=
  (∀ t, BeginsTbl F β t → tbl.Has a (some t)) ∧ (AllFlagged F β → ∀ c, tbl.Has lhs c → tbl.Has a c)

theorem followAddAll_false {a : Nat} : ∀ (ts : List Nat) (s : FollowTable × Bool), a < s.1.length →
    (followAddAll a ts s).2 = false →
      s.2 = false ∧ (followAddAll a ts s).1 = s.1 ∧ ∀ t ∈ ts, s.1.Has a (some t) := by
  intro ts
  induction ts with
  | nil => intro s _ h; exact ⟨h, rfl, by simp⟩
  | cons t ts ih =>
    intro s hl h
    obtain ⟨h1, h2, h3⟩ := ih ((s.1.add a (some t)).1, s.2 || (s.1.add a (some t)).2)
      (by rw [FollowTable.add_length]; exact hl) h
    simp only [Bool.or_eq_false_iff] at h1
    obtain ⟨h4, h5⟩ := FollowTable.add_false hl h1.2
    rw [h4] at h3
    refine ⟨h1.1, h2.trans h4, ?_⟩
    intro u hu
    rcases List.mem_cons.1 hu with rfl | hu
    · exact h5
    · exact h3 u hu

theorem followAtEnd_false {h : HashOrder} {a lhs : Nat} {s : FollowTable × Bool} (hl : a < s.1.length)
    (hf : (followAtEnd h a lhs s).2 = false) :
    s.2 = false ∧ (followAtEnd h a lhs s).1 = s.1 ∧ ∀ c, s.1.Has lhs c → s.1.Has a c := by
  unfold followAtEnd at hf ⊢
  by_cases he : (s.1.get lhs).end_ = true
  · simp only [he, if_true] at hf ⊢
    obtain ⟨h1, h2, h3⟩ := followAddAll_false _ ((s.1.add a none).1, s.2 || (s.1.add a none).2)
      (by rw [FollowTable.add_length]; exact hl) hf
    simp only [Bool.or_eq_false_iff] at h1
    obtain ⟨h4, h5⟩ := FollowTable.add_false hl h1.2
    rw [h4] at h3
    refine ⟨h1.1, h2.trans h4, ?_⟩
    rintro (_ | t) hc
    · exact h5
    · exact h3 t ((h.perm _).mem_iff.2 hc)
  · simp only [he, Bool.false_eq_true, if_false] at hf ⊢
    obtain ⟨h1, h2, h3⟩ := followAddAll_false _ s hl hf
    refine ⟨h1, h2, ?_⟩
    rintro (_ | t) hc
    · exact absurd hc he
    · exact h3 t ((h.perm _).mem_iff.2 hc)

theorem beginsTbl_cons_term {t u : Nat} {l : List Symbol} :
    BeginsTbl F (.terminal t :: l) u ↔ u = t := by
  constructor
  · rintro ⟨u1, s, u2, e, hf, hs⟩
    cases u1 with
    | nil =>
      simp only [List.nil_append, List.cons.injEq] at e
      rcases hs with hs | ⟨b, hs, _⟩
      · rw [← e.1] at hs; simpa using hs.symm
      · rw [← e.1] at hs; cases hs
    | cons y u1 =>
      simp only [List.cons_append, List.cons.injEq] at e
      obtain ⟨b, hb, _⟩ := hf y (by simp)
      rw [← e.1] at hb
      cases hb
  · rintro rfl
    exact ⟨[], .terminal u, l, rfl, allFlagged_nil, Or.inl rfl⟩

theorem beginsTbl_cons_nt {b u : Nat} {l : List Symbol} :
    BeginsTbl F (.nonTerminal b :: l) u ↔
      u ∈ (F.get b).terminals ∨ ((F.get b).empty = true ∧ BeginsTbl F l u) := by
  constructor
  · rintro ⟨u1, s, u2, e, hf, hs⟩
    cases u1 with
    | nil =>
      simp only [List.nil_append, List.cons.injEq] at e
      rcases hs with hs | ⟨b', hs, hm⟩
      · rw [← e.1] at hs; cases hs
      · rw [← e.1] at hs; cases hs; exact Or.inl hm
    | cons y u1 =>
      simp only [List.cons_append, List.cons.injEq] at e
      obtain ⟨b', hb, he⟩ := hf y (by simp)
      rw [← e.1] at hb
      cases hb
      exact Or.inr ⟨he, u1, s, u2, e.2, fun x hx => hf x (by simp [hx]), hs⟩
  · rintro (h | ⟨he, u1, s, u2, rfl, hf, hs⟩)
    · exact ⟨[], .nonTerminal b, l, rfl, allFlagged_nil, Or.inr ⟨b, rfl, h⟩⟩
    · exact ⟨.nonTerminal b :: u1, s, u2, rfl, AllFlagged.append (.single he) hf, hs⟩

theorem follow_false {h : HashOrder} {a lhs : Nat} : ∀ (l : List Symbol),
    (∀ s : FollowTable × Bool, a < s.1.length → (followSearch h F a lhs l s).2 = false →
      s.2 = false ∧ (followSearch h F a lhs l s).1 = s.1 ∧
      ∀ α β, l = α ++ .nonTerminal a :: β → FollowCond F s.1 a lhs β) ∧
    (∀ s : FollowTable × Bool, a < s.1.length → (followAfter h F a lhs l s).2 = false →
      s.2 = false ∧ (followAfter h F a lhs l s).1 = s.1 ∧ FollowCond F s.1 a lhs l ∧
      ∀ α β, l = α ++ .nonTerminal a :: β → FollowCond F s.1 a lhs β) := by
  intro l
  induction l with
  | nil =>
    refine ⟨fun s _ hf => ⟨by simpa [followSearch] using hf, by simp [followSearch], by simp⟩, ?_⟩
    intro s hl hf
    simp only [followAfter] at hf ⊢
    obtain ⟨h1, h2, h3⟩ := followAtEnd_false hl hf
    refine ⟨h1, h2, ⟨?_, fun _ => h3⟩, by simp⟩
    rintro t ⟨u1, s', u2, e, _⟩
    simp at e
  | cons x l ih =>
    refine ⟨fun s hl hf => ?_, fun s hl hf => ?_⟩
    · simp only [followSearch] at hf ⊢
      split at hf
      · next e =>
        subst e
        simp only [if_true]
        obtain ⟨h1, h2, h3, h4⟩ := ih.2 s hl hf
        refine ⟨h1, h2, ?_⟩
        intro α β e
        cases α with
        | nil => simp at e; rw [← e]; exact h3
        | cons y α => simp only [List.cons_append, List.cons.injEq] at e; exact h4 α β e.2
      · next hne =>
        rw [if_neg hne]
        obtain ⟨h1, h2, h3⟩ := ih.1 s hl hf
        refine ⟨h1, h2, ?_⟩
        intro α β e
        cases α with
        | nil => simp at e; exact absurd e.1 hne
        | cons y α => simp only [List.cons_append, List.cons.injEq] at e; exact h3 α β e.2
    · cases x with
      | terminal t =>
        simp only [followAfter] at hf ⊢
        have hl' : a < (s.1.add a (some t)).1.length := by rw [FollowTable.add_length]; exact hl
        obtain ⟨h1, h2, h3⟩ := ih.1 ((s.1.add a (some t)).1, s.2 || (s.1.add a (some t)).2) hl' hf
        simp only [Bool.or_eq_false_iff] at h1
        obtain ⟨h4, h5⟩ := FollowTable.add_false hl h1.2
        rw [h4] at h3
        refine ⟨h1.1, h2.trans h4, ⟨fun u hu => ?_, fun hfl => ?_⟩, ?_⟩
        · rw [beginsTbl_cons_term] at hu; rw [hu]; exact h5
        · obtain ⟨b, hb, _⟩ := hfl _ (List.mem_cons_self); cases hb
        · intro α β e
          cases α with
          | nil => simp at e
          | cons y α => simp only [List.cons_append, List.cons.injEq] at e; exact h3 α β e.2
      | nonTerminal b =>
        simp only [followAfter] at hf ⊢
        have hlen : ∀ ts (s : FollowTable × Bool), (followAddAll a ts s).1.length = s.1.length := by
          intro ts
          induction ts with
          | nil => intro s; rfl
          | cons t ts ih' =>
            intro s
            refine (ih' ((s.1.add a (some t)).1, s.2 || (s.1.add a (some t)).2)).trans ?_
            exact FollowTable.add_length _ _ _
        have hl' : a < (followAddAll a (h.iter (F.get b).terminals) s).1.length := by rw [hlen]; exact hl
        have first : (followAddAll a (h.iter (F.get b).terminals) s).2 = false →
            s.2 = false ∧ (followAddAll a (h.iter (F.get b).terminals) s).1 = s.1 ∧
              ∀ t, t ∈ (F.get b).terminals → s.1.Has a (some t) := by
          intro hf'
          obtain ⟨h1, h2, h3⟩ := followAddAll_false _ s hl hf'
          exact ⟨h1, h2, fun t ht => h3 t ((h.perm _).mem_iff.2 ht)⟩
        have skip : (followAfter h F a lhs l (followAddAll a (h.iter (F.get b).terminals) s)).2 = false →
            s.2 = false ∧
            (followAfter h F a lhs l (followAddAll a (h.iter (F.get b).terminals) s)).1 = s.1 ∧
            FollowCond F s.1 a lhs (.nonTerminal b :: l) ∧
            ∀ α β, .nonTerminal b :: l = α ++ .nonTerminal a :: β → FollowCond F s.1 a lhs β := by
          intro hf
          obtain ⟨h1, h2, h3, h4⟩ := ih.2 _ hl' hf
          obtain ⟨h5, h6, h7⟩ := first h1
          rw [h6] at h2 h3 h4
          refine ⟨h5, h2, ⟨fun u hu => ?_, fun hfl => ?_⟩, ?_⟩
          · rcases beginsTbl_cons_nt.1 hu with hu | ⟨_, hu⟩
            · exact h7 u hu
            · exact h3.1 u hu
          · exact h3.2 fun x hx => hfl x (by simp [hx])
          · intro α β e
            cases α with
            | nil => simp at e; rw [← e.2]; exact h3
            | cons y α => simp only [List.cons_append, List.cons.injEq] at e; exact h4 α β e.2
        split at hf
        · next he => rw [if_pos he]; exact skip hf
        · next he =>
          rw [if_neg he]
          split at hf
          · next e => rw [if_pos e]; exact skip hf
          · next hne =>
            rw [if_neg hne]
            obtain ⟨h1, h2, h3⟩ := ih.1 _ hl' hf
            obtain ⟨h5, h6, h7⟩ := first h1
            rw [h6] at h2 h3
            refine ⟨h5, h2, ⟨fun u hu => ?_, fun hfl => ?_⟩, ?_⟩
            · rcases beginsTbl_cons_nt.1 hu with hu | ⟨hu, _⟩
              · exact h7 u hu
              · exact absurd hu he
            · obtain ⟨b', hb, hfl⟩ := hfl _ (List.mem_cons_self)
              cases hb
              exact absurd hfl he
            · intro α β e
              cases α with
              | nil => simp at e; exact absurd e.1 hne
              | cons y α => simp only [List.cons_append, List.cons.injEq] at e; exact h3 α β e.2

/-- A fold that reports no change changes nothing, and every step's condition holds. -/
theorem foldl_false {α : Type} {n : Nat} {f : FollowTable × Bool → α → FollowTable × Bool}
    {C : FollowTable → α → Prop} :
    ∀ (l : List α) (s : FollowTable × Bool), s.1.length = n →
      (∀ x ∈ l, ∀ s : FollowTable × Bool, s.1.length = n → (f s x).1.length = n) →
      (∀ x ∈ l, ∀ s : FollowTable × Bool, s.1.length = n → (f s x).2 = false →
        s.2 = false ∧ (f s x).1 = s.1 ∧ C s.1 x) →
      (l.foldl f s).2 = false →
      s.2 = false ∧ (l.foldl f s).1 = s.1 ∧ ∀ x ∈ l, C s.1 x := by
  intro l
  induction l with
  | nil => intro s _ _ _ h; exact ⟨h, rfl, by simp⟩
  | cons x l ih =>
    intro s hn hlen hstep h
    obtain ⟨h1, h2, h3⟩ := ih (f s x) (hlen x (by simp) s hn) (fun y hy => hlen y (by simp [hy]))
      (fun y hy => hstep y (by simp [hy])) h
    obtain ⟨h4, h5, h6⟩ := hstep x (by simp) s hn h1
    rw [h5] at h2 h3
    refine ⟨h4, h2, ?_⟩
    intro y hy
    rcases List.mem_cons.1 hy with rfl | hy
    · exact h6
    · exact h3 y hy

theorem followTrue_prim : FollowPrim g F (fun _ => True) := fun _ _ _ _ _ _ => trivial

theorem followPass_false {h : HashOrder} {tbl : FollowTable} (hl : tbl.length = g.nNonTerminals)
    (hf : (followPass h g F tbl).2 = false) :
    (followPass h g F tbl).1 = tbl ∧
    ∀ lhs p α a β, a < g.nNonTerminals → g.HasProd lhs p (α ++ .nonTerminal a :: β) →
      FollowCond F tbl a lhs β := by
  unfold followPass at hf ⊢
  have inner : ∀ a < g.nNonTerminals, ∀ s : FollowTable × Bool, s.1.length = g.nNonTerminals →
      (g.productions.foldl (fun s e => followSearch h F a e.1 e.2 s) s).1.length = g.nNonTerminals := by
    intro a ha s hs
    refine (List.foldlRecOn (motive := Keeps g.nNonTerminals (fun _ => True)) _ _ ⟨trivial, hs⟩ ?_).2
    intro s hs e he
    obtain ⟨p, hp⟩ := mem_prodList.1 (show e ∈ g.prodList from he)
    exact (follow_keeps (p := p) followTrue_prim ha e.2).1 [] s hp hs
  obtain ⟨_, h2, h3⟩ := foldl_false (n := g.nNonTerminals)
    (C := fun tbl a => ∀ e ∈ g.productions, ∀ α β, e.2 = α ++ .nonTerminal a :: β →
      FollowCond F tbl a e.1 β) _ (tbl, false) hl
    (fun a ha s hs => inner a (List.mem_range.1 ha) s hs)
    (fun a ha s hs hf => foldl_false (n := g.nNonTerminals)
      (C := fun tbl e => ∀ α β, e.2 = α ++ .nonTerminal a :: β → FollowCond F tbl a e.1 β) _ s hs
      (fun e he s hs => by
        obtain ⟨p, hp⟩ := mem_prodList.1 (show e ∈ g.prodList from he)
        exact ((follow_keeps (p := p) followTrue_prim (List.mem_range.1 ha) e.2).1 [] s hp
          ⟨trivial, hs⟩).2)
      (fun e _ s hs hf => (follow_false e.2).1 s (by rw [hs]; exact List.mem_range.1 ha) hf) hf) hf
  refine ⟨h2, ?_⟩
  intro lhs p α a β ha hp
  exact h3 a (List.mem_range.2 ha) (lhs, α ++ .nonTerminal a :: β)
    (show _ ∈ g.prodList from mem_prodList.2 ⟨p, hp⟩) α β rfl

/-! ## Termination -/

/-- The same table as a FIRST table, to reuse the counting. -/
def FollowTable.asFirst (tbl : FollowTable) : FirstTable := tbl.map fun s => ⟨s.end_, s.terminals⟩

theorem FollowTable.get_asFirst (tbl : FollowTable) (a : Nat) :
    tbl.asFirst.get a = ⟨(tbl.get a).end_, (tbl.get a).terminals⟩ := by
  unfold FirstTable.get FollowTable.get FollowTable.asFirst
  rw [List.getD_eq_getElem?_getD, List.getD_eq_getElem?_getD, List.getElem?_map]
  cases tbl[a]? <;> rfl

theorem FollowTable.asFirst_length (tbl : FollowTable) : tbl.asFirst.length = tbl.length := by
  simp [FollowTable.asFirst]

theorem FollowTable.add_some_asFirst (tbl : FollowTable) (a t : Nat) :
    (tbl.add a (some t)).1.asFirst = (tbl.asFirst.addFirst a t).1 ∧
      (tbl.add a (some t)).2 = (tbl.asFirst.addFirst a t).2 := by
  simp only [FollowTable.add, FollowTable.addFollow, FirstTable.addFirst, FollowTable.get_asFirst]
  split
  · exact ⟨rfl, rfl⟩
  · exact ⟨by simp [FollowTable.asFirst, List.map_set], rfl⟩

theorem FollowTable.add_none_asFirst (tbl : FollowTable) (a : Nat) :
    (tbl.add a none).1.asFirst = (tbl.asFirst.setEmpty a).1 ∧
      (tbl.add a none).2 = (tbl.asFirst.setEmpty a).2 := by
  simp only [FollowTable.add, FollowTable.setEnd, FirstTable.setEmpty, FollowTable.get_asFirst]
  exact ⟨by simp [FollowTable.asFirst, List.map_set], trivial⟩

theorem FollowTable.size_add {tbl : FollowTable} {a : Nat} {c : Option Nat} (h : a < tbl.length) :
    (tbl.add a c).1.asFirst.size = tbl.asFirst.size + (tbl.add a c).2.toNat := by
  cases c with
  | none =>
    rw [(tbl.add_none_asFirst a).1, (tbl.add_none_asFirst a).2]
    exact FirstTable.size_setEmpty (by rw [FollowTable.asFirst_length]; exact h)
  | some t =>
    rw [(tbl.add_some_asFirst a t).1, (tbl.add_some_asFirst a t).2]
    exact FirstTable.size_addFirst (by rw [FollowTable.asFirst_length]; exact h)

theorem followSize_prim (m : Nat) :
    FollowPrim g F (fun s => m ≤ s.1.asFirst.size ∧ (s.2 = true → m < s.1.asFirst.size)) := by
  intro s a c hs ha _
  have := FollowTable.size_add (c := c) ha
  dsimp only
  cases hb : (s.1.add a c).2 <;> simp [hb] at this ⊢
  · rw [this]; exact hs
  · omega

/-- Sets are duplicate free and contain only declared terminals. -/
def FollowTable.Ok (nT : Nat) (tbl : FollowTable) : Prop := tbl.asFirst.Ok nT

theorem FollowTable.Ok.add {nT : Nat} {tbl : FollowTable} (h : tbl.Ok nT) {a : Nat} {c : Option Nat}
    (ha : a < tbl.length) (hc : ∀ t, c = some t → t < nT) : FollowTable.Ok nT (tbl.add a c).1 := by
  unfold FollowTable.Ok
  cases c with
  | some t =>
    rw [(tbl.add_some_asFirst a t).1]
    exact FirstTable.Ok.addFirst h (by rw [FollowTable.asFirst_length]; exact ha) (hc t rfl)
  | none =>
    rw [(tbl.add_none_asFirst a).1]
    intro b
    rw [FirstTable.terminals_setEmpty (by rw [FollowTable.asFirst_length]; exact ha)]
    exact h b

theorem FollowTable.Ok.lt {nT : Nat} {tbl : FollowTable} (h : tbl.Ok nT) {a t : Nat}
    (ht : tbl.Has a (some t)) : t < nT := by
  have := (h a).2 t
  rw [FollowTable.get_asFirst] at this
  exact this ht

theorem BeginsTbl.lt (hwf : g.WF) (hF : F.Ok g.nTerminals) {lhs p : Nat} {α β : List Symbol}
    (hp : g.HasProd lhs p (α ++ β)) {t : Nat} (h : BeginsTbl F β t) : t < g.nTerminals := by
  obtain ⟨u1, s, u2, rfl, _, rfl | ⟨b, rfl, hb⟩⟩ := h
  · exact hwf.term_lt hp (by simp)
  · exact (hF b).2 t hb

theorem followOk_prim (hwf : g.WF) (hF : F.Ok g.nTerminals) :
    FollowPrim g F (fun s => s.1.Ok g.nTerminals) := by
  intro s a c hs ha ⟨lhs, p, α, β, hp, hr⟩
  refine FollowTable.Ok.add hs ha fun t ht => ?_
  rcases hr with ⟨u, hu, hb⟩ | ⟨_, hh⟩
  · rw [ht] at hu
    cases hu
    exact hb.lt hwf hF (α := α ++ [.nonTerminal a]) (by simpa using hp)
  · rw [ht] at hh
    exact hs.lt hh

theorem followNew_length (n : Nat) : (FollowTable.new n).length = n := by simp [FollowTable.new]

theorem followNew_has {n a : Nat} {c : Option Nat} : ¬ (FollowTable.new n).Has a c := by
  have : (FollowTable.new n).get a = {} := by
    unfold FollowTable.get FollowTable.new
    rw [List.getD_eq_getElem?_getD, List.getElem?_replicate]
    split <;> rfl
  cases c <;> simp [FollowTable.Has, this]

theorem followNew_ok (n nT : Nat) : (FollowTable.new n).Ok nT := by
  intro a
  have : (FollowTable.new n).get a = {} := by
    unfold FollowTable.get FollowTable.new
    rw [List.getD_eq_getElem?_getD, List.getElem?_replicate]
    split <;> rfl
  rw [FollowTable.get_asFirst, this]
  simp

theorem followPass_length {h : HashOrder} {tbl : FollowTable} (hl : tbl.length = g.nNonTerminals) :
    (followPass h g F tbl).1.length = g.nNonTerminals :=
  (followPass_keeps followTrue_prim ⟨trivial, hl⟩).2

theorem followLoop_terminates (hwf : g.WF) (hF : F.Ok g.nTerminals) (h : HashOrder) :
    (followLoop h g F).2 = false := by
  unfold followLoop
  dsimp only
  split
  · rfl
  · next hn =>
    refine whileUpdated_terminates
      (P := fun tbl : FollowTable => tbl.Ok g.nTerminals ∧ tbl.length = g.nNonTerminals)
      (fun tbl => tbl.asFirst.size) (g.nNonTerminals * (g.nTerminals + 1)) ?_ ?_ ?_ _ _ ?_ ?_
    · exact fun s hs => followPass_keeps (followOk_prim hwf hF) hs
    · intro s hs
      have := FirstTable.Ok.size_le hs.1
      rwa [FollowTable.asFirst_length, hs.2] at this
    · intro s hs hu
      exact (followPass_keeps (h := h) (followSize_prim s.asFirst.size)
        (tbl := s) ⟨⟨Nat.le_refl _, by simp⟩, hs.2⟩).1.2 hu
    · refine ⟨FollowTable.Ok.add (c := none) (followNew_ok _ _) ?_ (by simp), ?_⟩
      · rw [followNew_length]; omega
      · exact (FollowTable.add_length _ _ none).trans (followNew_length _)
    · unfold followFuel; omega

/-- The final table: everything in it has a reason, and nothing is missing. -/
theorem followTable_spec (hwf : g.WF) (hF : F.Ok g.nTerminals) (h : HashOrder)
    (h0 : 0 < g.nNonTerminals) (Q : Nat → Option Nat → Prop) (hQ0 : Q 0 none)
    (hQ : ∀ tbl a c, (∀ a c, tbl.Has a c → Q a c) → FollowReason g F tbl a c → Q a c) :
    (∀ a c, (generateFollowTable h g F).Has a c → Q a c) ∧
    (generateFollowTable h g F).Has 0 none ∧
    ∀ lhs p α a β, g.HasProd lhs p (α ++ .nonTerminal a :: β) →
      FollowCond F (generateFollowTable h g F) a lhs β := by
  have hterm := followLoop_terminates hwf hF h
  unfold generateFollowTable
  unfold followLoop at hterm ⊢
  dsimp only at hterm ⊢
  have hn : ¬ g.nNonTerminals = 0 := by omega
  rw [if_neg hn] at hterm ⊢
  have hprim : FollowPrim g F fun s => (∀ a c, s.1.Has a c → Q a c) ∧ s.1.Has 0 none := by
    intro s a c hs ha hr
    refine ⟨fun b d hb => ?_, (FollowTable.has_add ha).2 (Or.inl hs.2)⟩
    rcases (FollowTable.has_add ha).1 hb with hb | ⟨rfl, rfl⟩
    · exact hs.1 b d hb
    · exact hQ s.1 b d hs.1 hr
  have hinit : Keeps g.nNonTerminals (fun s => (∀ a c, s.1.Has a c → Q a c) ∧ s.1.Has 0 none)
      (((FollowTable.new g.nNonTerminals).setEnd 0).1, false) := by
    have hl : 0 < (FollowTable.new g.nNonTerminals).length := by rw [followNew_length]; exact h0
    refine ⟨⟨fun a c hc => ?_, (FollowTable.has_add (c := none) hl).2 (Or.inr ⟨rfl, rfl⟩)⟩,
      (FollowTable.add_length _ _ none).trans (followNew_length _)⟩
    rcases (FollowTable.has_add (c := none) hl).1 hc with hc | ⟨rfl, rfl⟩
    · exact absurd hc followNew_has
    · exact hQ0
  obtain ⟨tbl, ⟨h1, h2⟩, h3⟩ := whileUpdated_exit
    (P := fun tbl => Keeps g.nNonTerminals (fun s => (∀ a c, s.1.Has a c → Q a c) ∧ s.1.Has 0 none)
      (tbl, false))
    (fun tbl ht => followPass_keeps (h := h) hprim ht) _ _ hinit hterm
  obtain ⟨h4, h5⟩ := followPass_false (h := h) (F := F) h2 (by rw [h3])
  rw [h3] at h4
  dsimp only at h4
  rw [h4]
  exact ⟨h1.1, h1.2, fun lhs p α a β hp => h5 lhs p α a β (hwf.nt_lt hp (by simp)) hp⟩

end Parsegen
