import Verif.Model.Basic

/-! # General lemmas about the modelling vocabulary -/

namespace Parsegen

section AMap
variable {K V : Type} [DecidableEq K]

@[simp] theorem AMap.get?_nil (k : K) : AMap.get? ([] : AMap K V) k = none := rfl

theorem AMap.get?_insert (m : AMap K V) (k k' : K) (v : V) :
    (AMap.insert m k v).get? k' = if k = k' then some v else AMap.get? m k' := by
  induction m with
  | nil => simp [AMap.insert, AMap.get?]
  | cons e m ih =>
    obtain ⟨a, b⟩ := e
    simp only [AMap.insert]
    by_cases h : a = k
    · subst h; simp only [if_true, AMap.get?]; split <;> rfl
    · simp only [h, if_false, AMap.get?, ih]
      by_cases h2 : a = k'
      · subst h2; simp [Ne.symm h]
      · simp [h2]

theorem AMap.get?_insert_self (m : AMap K V) (k : K) (v : V) :
    (AMap.insert m k v).get? k = some v := by simp [AMap.get?_insert]

theorem AMap.mem_of_get? {m : AMap K V} {k : K} {v : V} (h : m.get? k = some v) : (k, v) ∈ m := by
  induction m with
  | nil => simp at h
  | cons e m ih =>
    obtain ⟨a, b⟩ := e
    simp only [AMap.get?] at h
    split at h
    · next hk => subst hk; cases h; simp
    · exact List.mem_cons_of_mem _ (ih h)

theorem AMap.get?_isSome_iff {m : AMap K V} {k : K} :
    (m.get? k).isSome ↔ k ∈ m.map (·.1) := by
  induction m with
  | nil => simp
  | cons e m ih =>
    obtain ⟨a, b⟩ := e
    simp only [AMap.get?, List.map_cons, List.mem_cons]
    split
    · next hk => subst hk; simp
    · next hk => rw [ih]; simp [Ne.symm hk]

theorem AMap.get?_eq_none_iff {m : AMap K V} {k : K} :
    m.get? k = none ↔ k ∉ m.map (·.1) := by
  rw [← AMap.get?_isSome_iff]; cases m.get? k <;> simp

theorem AMap.mem_iff_get? {m : AMap K V} (hn : (m.map (·.1)).Nodup) {k : K} {v : V} :
    (k, v) ∈ m ↔ m.get? k = some v := by
  refine ⟨fun h => ?_, AMap.mem_of_get?⟩
  induction m with
  | nil => simp at h
  | cons e m ih =>
    obtain ⟨a, b⟩ := e
    simp only [List.map_cons, List.nodup_cons] at hn
    simp only [AMap.get?]
    rcases List.mem_cons.1 h with h | h
    · cases h; simp
    · have : k ∈ m.map (·.1) := List.mem_map.2 ⟨_, h, rfl⟩
      rw [if_neg (fun hh => hn.1 (by rw [hh]; exact this)), ih hn.2 h]

theorem AMap.keys_insert (m : AMap K V) (k : K) (v : V) :
    (AMap.insert m k v).map (·.1) = if k ∈ m.map (·.1) then m.map (·.1) else m.map (·.1) ++ [k] := by
  induction m with
  | nil => simp [AMap.insert]
  | cons e m ih =>
    obtain ⟨a, b⟩ := e
    simp only [AMap.insert]
    by_cases h : a = k
    · subst h; simp
    · simp only [h, if_false, List.map_cons, ih, List.mem_cons, Ne.symm h, false_or]
      split <;> simp

theorem AMap.nodup_insert {m : AMap K V} (hn : (m.map (·.1)).Nodup) (k : K) (v : V) :
    ((AMap.insert m k v).map (·.1)).Nodup := by
  rw [AMap.keys_insert]
  split
  · exact hn
  · next h => 
    rw [List.nodup_append]
    refine ⟨hn, by simp, ?_⟩
    intro a ha b hb
    simp at hb; subst hb
    intro hh; subst hh; exact h ha

end AMap

section setInsert
variable {α : Type} [DecidableEq α]

@[simp] theorem mem_setInsert {l : List α} {x y : α} : y ∈ setInsert l x ↔ y ∈ l ∨ y = x := by
  unfold setInsert
  split
  · constructor
    · exact Or.inl
    · rintro (h | h)
      · exact h
      · subst h; assumption
  · simp

theorem nodup_setInsert {l : List α} (h : l.Nodup) (x : α) : (setInsert l x).Nodup := by
  unfold setInsert
  split
  · exact h
  · next hx =>
    rw [List.nodup_append]
    refine ⟨h, by simp, ?_⟩
    intro a ha b hb
    simp at hb; subst hb
    intro hh; subst hh; exact hx ha

end setInsert

section whileUpdated
variable {σ : Type} {body : σ → σ × Bool}

/-- An invariant of the body holds at the end of the loop. -/
theorem whileUpdated_inv {P : σ → Prop} (hb : ∀ s, P s → P (body s).1) :
    ∀ (fuel : Nat) (s : σ), P s → P (whileUpdated body fuel s).1 := by
  intro fuel
  induction fuel with
  | zero => intro s h; exact h
  | succ n ih =>
    intro s h
    simp only [whileUpdated]
    have := hb s h
    split
    · next s' heq => rw [heq] at this; exact ih s' this
    · next s' heq => rw [heq] at this; exact this

/-- When the loop ends, its last pass changed nothing it reports. -/
theorem whileUpdated_exit {P : σ → Prop} (hb : ∀ s, P s → P (body s).1) :
    ∀ (fuel : Nat) (s : σ), P s → (whileUpdated body fuel s).2 = false →
      ∃ s', P s' ∧ body s' = ((whileUpdated body fuel s).1, false) := by
  intro fuel
  induction fuel with
  | zero => intro s _ h; simp [whileUpdated] at h
  | succ n ih =>
    intro s h h2
    simp only [whileUpdated] at h2 ⊢
    have := hb s h
    split at h2
    · next s' heq =>
      rw [heq] at this
      simpa [heq] using ih s' this h2
    · next s' heq => exact ⟨s, h, by simp [heq]⟩

/-- The loop ends if a bounded measure grows with every pass that reports an update. -/
theorem whileUpdated_terminates {P : σ → Prop} (m : σ → Nat) (B : Nat)
    (hb : ∀ s, P s → P (body s).1) (hB : ∀ s, P s → m s ≤ B)
    (hm : ∀ s, P s → (body s).2 = true → m s < m (body s).1) :
    ∀ (fuel : Nat) (s : σ), P s → B < m s + fuel → (whileUpdated body fuel s).2 = false := by
  intro fuel
  induction fuel with
  | zero => intro s h hf; have := hB s h; omega
  | succ n ih =>
    intro s h hf
    simp only [whileUpdated]
    split
    · next s' heq =>
      have h1 := hb s h
      have h2 := hm s h (by rw [heq])
      rw [heq] at h1 h2
      exact ih s' h1 (by simp at h2; omega)
    · rfl

end whileUpdated

/-- Invariant of a monadic fold that succeeds. -/
theorem foldlM_ok_inv {α β ε : Type} {f : β → α → Except ε β} {P : β → Prop}
    (hf : ∀ b a b', P b → f b a = .ok b' → P b') :
    ∀ (l : List α) (b b' : β), P b → l.foldlM f b = .ok b' → P b' := by
  intro l
  induction l with
  | nil => intro b b' h e; cases e; exact h
  | cons a l ih =>
    intro b b' h e
    rw [List.foldlM_cons] at e
    cases hfa : f b a with
    | error x => rw [hfa] at e; cases e
    | ok b1 => rw [hfa] at e; exact ih b1 b' (hf _ _ _ h hfa) e

@[simp] theorem Except.bind_ok {ε α β : Type} (a : α) (f : α → Except ε β) :
    (Except.ok a >>= f) = f a := rfl

@[simp] theorem Except.bind_error {ε α β : Type} (e : ε) (f : α → Except ε β) :
    ((Except.error e : Except ε α) >>= f) = .error e := rfl

theorem Except.bind_eq_ok {ε α β : Type} {x : Except ε α} {f : α → Except ε β} {b : β} :
    (x >>= f) = .ok b ↔ ∃ a, x = .ok a ∧ f a = .ok b := by
  cases x with
  | error e => simp
  | ok a => simp

end Parsegen
