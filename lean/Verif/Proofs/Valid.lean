import Verif.Spec.Valid
import Verif.Proofs.ItemsAt
import Verif.Proofs.FirstComplete

/-! # Items of a state and valid items -/

namespace Parsegen

variable {A Ty : Type} {g : Grammar A Ty} {F : FirstTable}

theorem Grammar.Follows.cons_nullable {z : List Symbol} {b : Nat} {c : Option Nat}
    (hb : g.Nullable b) (h : g.Follows z c) : g.Follows (.nonTerminal b :: z) c := by
  cases c with
  | none => exact Grammar.Derives.trans (hb.append_right z) h
  | some t =>
    obtain ⟨x, hx⟩ := h
    exact ⟨x, Grammar.Derives.trans (hb.append_right z) hx⟩

theorem InFirst.follows (hF : FirstSound g F) {la c : Option Nat} {β z : List Symbol}
    (h : InFirst F la β c) (hz : g.Follows z la) : g.Follows (β ++ z) c := by
  induction h with
  | nil => exact hz
  | term t ss => exact ⟨ss ++ z, .refl _⟩
  | nt h =>
    next b t ss =>
    obtain ⟨x, hx⟩ := hF.terminals _ _ h
    exact ⟨x ++ (ss ++ z), by simpa using hx.append_right (ss ++ z)⟩
  | skip he _ ih => exact Grammar.Follows.cons_nullable (hF.empty _ he) ih

theorem Grammar.Derives.nil_inv {x : List Symbol} (h : g.Derives [] x) : x = [] := by
  induction h with
  | refl => rfl
  | tail h s ih =>
    cases s
    simp at ih

theorem Grammar.Derives.term_inv {t : Nat} {z y : List Symbol}
    (h : g.Derives (.terminal t :: z) y) : ∃ x, y = .terminal t :: x ∧ g.Derives z x := by
  induction h with
  | refl => exact ⟨z, rfl, .refl _⟩
  | tail h s ih =>
    obtain ⟨x, h1, h2⟩ := ih
    cases s with
    | mk u v α nt p hp =>
      cases u with
      | nil => simp at h1
      | cons a u =>
        simp only [List.cons_append, List.cons.injEq] at h1
        obtain ⟨rfl, h1⟩ := h1
        refine ⟨u ++ α ++ v, by simp, .tail h2 ?_⟩
        rw [← h1]
        exact .mk u v α nt p hp

theorem Grammar.Follows.cases_term {t : Nat} {z : List Symbol} {c : Option Nat}
    (h : g.Follows (.terminal t :: z) c) : c = some t := by
  cases c with
  | none => obtain ⟨x, h1, _⟩ := Grammar.Derives.term_inv h; simp at h1
  | some t' =>
    obtain ⟨x, h1⟩ := h
    obtain ⟨y, h2, _⟩ := Grammar.Derives.term_inv h1
    simp at h2; rw [h2.1]

theorem Grammar.Follows.append_inv {u z : List Symbol} {c : Option Nat}
    (h : g.Follows (u ++ z) c) : (∃ t, c = some t ∧ g.Follows u c) ∨
      (g.Derives u [] ∧ g.Follows z c) := by
  cases c with
  | none =>
    obtain ⟨w1, w2, h1, h2, h3⟩ := Grammar.Derives.split h rfl
    simp at h1
    obtain ⟨rfl, rfl⟩ := h1
    exact .inr ⟨h2, h3⟩
  | some t =>
    obtain ⟨x, hx⟩ := h
    obtain ⟨w1, w2, h1, h2, h3⟩ := Grammar.Derives.split hx rfl
    cases w1 with
    | nil =>
      simp at h1
      subst h1
      exact .inr ⟨h2, _, h3⟩
    | cons a w1 =>
      simp at h1
      obtain ⟨rfl, _⟩ := h1
      exact .inl ⟨t, rfl, w1, h2⟩

/-- What follows `β z` comes from `β`, or from `z` through a nullable `β`. -/
theorem InFirst.of_follows (hF : FirstEnough g F) {z : List Symbol} (hz : ∃ c, g.Follows z c)
    {β : List Symbol} (hβ : g.BehindSyms β) {c : Option Nat} (h : g.Follows (β ++ z) c) :
    ∃ la, g.Follows z la ∧ InFirst F la β c := by
  induction β with
  | nil => exact ⟨c, h, .nil⟩
  | cons s β ih =>
    obtain ⟨c0, hc0⟩ := hz
    cases s with
    | terminal t =>
      rw [List.cons_append] at h
      obtain rfl := h.cases_term
      exact ⟨c0, hc0, .term t β⟩
    | nonTerminal b =>
      have hb := hβ.head
      have h' : g.Follows ([.nonTerminal b] ++ (β ++ z)) c := by simpa using h
      rcases h'.append_inv with ⟨t, rfl, x, hx⟩ | ⟨h1, h2⟩
      · exact ⟨c0, hc0, .nt (hF.terminals _ _ hb ⟨x, hx⟩)⟩
      · obtain ⟨la, h3, h4⟩ := ih (hβ.tail h1) h2
        exact ⟨la, h3, .skip (hF.empty _ hb h1) h4⟩

/-- Every item of a state is valid. -/
theorem ItemsAt.valid (hF : FirstSound g F) (hwf : g.WF) {E : Nat} (hE : g.isPublic E = true)
    {γ : List Symbol} {it : Item} (h : ItemsAt g F E γ it) : g.Valid E γ it := by
  induction h with
  | entry =>
    obtain ⟨b, hb⟩ := (hwf.pub hE).2
    exact ⟨[], [], [], [.nonTerminal b], .root, hb, rfl, rfl, .refl _⟩
  | advance h hp ih =>
    obtain ⟨δ, z, α', β', h1, h2, h3, h4, h5⟩ := ih
    next γ nt p α s β la =>
    have e1 := h2.rhs_eq.symm.trans hp.rhs_eq
    obtain ⟨rfl, rfl⟩ := List.append_inj e1 (by simpa using h3.symm)
    exact ⟨δ, z, α' ++ [s], β, h1, by simpa using hp, by simp, by simp [h4], h5⟩
  | pred h hp hq hf ih =>
    obtain ⟨δ, z, α', β', h1, h2, h3, h4, h5⟩ := ih
    next γ nt p α b β la q δ' c =>
    have e1 := h2.rhs_eq.symm.trans hp.rhs_eq
    obtain ⟨rfl, rfl⟩ := List.append_inj e1 (by simpa using h3.symm)
    exact ⟨δ ++ α', β ++ z, [], δ', .child h1 ⟨_, h5⟩ hp, hq, rfl, by simp [h4],
      hf.follows hF h5⟩

theorem ItemsAt.advance_all {E : Nat} {δ : List Symbol} {nt p : Nat} {la : Option Nat} :
    ∀ (α2 α1 β : List Symbol) , ItemsAt g F E (δ ++ α1) ⟨nt, p, α1.length, la⟩ →
      g.HasProd nt p (α1 ++ α2 ++ β) →
      ItemsAt g F E (δ ++ α1 ++ α2) ⟨nt, p, (α1 ++ α2).length, la⟩ := by
  intro α2
  induction α2 with
  | nil => intro α1 β h _; simpa using h
  | cons s α2 ih =>
    intro α1 β h hp
    have h1 := ItemsAt.advance (s := s) (β := α2 ++ β) h (by simpa using hp)
    have h2 := ih (α1 ++ [s]) β (by simpa using h1) (by simpa using hp)
    simpa using h2

theorem Grammar.Context.priv (hwf : g.WF) {E : Nat} {δ : List Symbol} {B : Nat} {z : List Symbol}
    (h : g.Context E δ B z) : (B = E ∧ δ = [] ∧ z = []) ∨ g.isPublic B = false := by
  cases h with
  | root => exact .inl ⟨rfl, rfl, rfl⟩
  | child h hz hp => exact .inr (hwf.nt_priv hp (by simp))

theorem Grammar.Context.itemsAt (hF : FirstEnough g F) (hwf : g.WF) {E : Nat}
    (hE : g.isPublic E = true) {δ : List Symbol} {B : Nat} {z : List Symbol}
    (h : g.Context E δ B z) : ∀ {c q ρ}, g.Follows z c → g.HasProd B q ρ →
      ItemsAt g F E δ ⟨B, q, 0, c⟩ := by
  induction h with
  | root =>
    intro c q ρ hc hq
    have h1 := (hwf.pub hE).1
    have h2 := hq.lt
    have hq0 : q = 0 := by omega
    subst hq0
    cases c with
    | none => exact .entry
    | some t =>
      obtain ⟨x, hx⟩ := hc
      cases Grammar.Derives.nil_inv hx
  | child h hz hp ih =>
    next δ B z p α C β =>
    intro c q ρ hc hq
    obtain ⟨la, h1, h2⟩ := InFirst.of_follows hF hz hp.behindSyms hc
    have h3 := ih h1 hp
    have h4 := ItemsAt.advance_all α [] (.nonTerminal C :: β) (δ := δ) (by simpa using h3)
      (by simpa using hp)
    simp at h4
    exact .pred h4 hp hq h2

/-- If the FIRST table is complete where it is looked at, every valid item is an item of the state. -/
theorem Grammar.Valid.itemsAt (hF : FirstEnough g F) (hwf : g.WF) {E : Nat}
    (hE : g.isPublic E = true) {γ : List Symbol} {it : Item} (h : g.Valid E γ it) :
    ItemsAt g F E γ it := by
  obtain ⟨δ, z, α, β, h1, h2, h3, rfl, h5⟩ := h
  obtain ⟨nt, p, cur, la⟩ := it
  simp only at h1 h2 h3 h5
  subst h3
  have h6 := h1.itemsAt hF hwf hE h5 h2
  have h7 := ItemsAt.advance_all α [] β (δ := δ) (by simpa using h6) (by simpa using h2)
  simpa using h7

theorem Grammar.Context.derives {E : Nat} {δ : List Symbol} {B : Nat} {z : List Symbol}
    (h : g.Context E δ B z) : g.Derives [.nonTerminal E] (δ ++ .nonTerminal B :: z) := by
  induction h with
  | root => exact .refl _
  | child h hz hp ih =>
    next δ B z p α C β =>
    refine Grammar.Derives.trans ih ?_
    have := ((Grammar.Derives.of_hasProd hp).append_right z).append_left δ
    simpa using this

/-- A string with a valid item is a viable prefix: it begins a sentential form. -/
theorem Grammar.Valid.derives {E : Nat} {γ : List Symbol} {nt p : Nat} {α β : List Symbol}
    {la : Option Nat} (h : g.Valid E γ ⟨nt, p, α.length, la⟩) (hp : g.HasProd nt p (α ++ β)) :
    ∃ z, g.Derives [.nonTerminal E] (γ ++ β ++ z) ∧ g.Follows z la := by
  obtain ⟨δ, z, α', β', h1, h2, h3, rfl, h5⟩ := h
  have e1 := h2.rhs_eq.symm.trans hp.rhs_eq
  obtain ⟨rfl, rfl⟩ := List.append_inj e1 (by simpa using h3.symm)
  refine ⟨z, ?_, h5⟩
  refine Grammar.Derives.trans h1.derives ?_
  have := ((Grammar.Derives.of_hasProd h2).append_right z).append_left δ
  simpa using this

theorem Grammar.Wants.mono {I J : Item → Prop} (h : ∀ x, I x → J x) {c : Option Nat} {m : Move}
    (hw : g.Wants I c m) : g.Wants J c m := by
  cases m with
  | shift =>
    obtain ⟨nt, p, α, t, β, la, h1, h2, h3⟩ := hw
    exact ⟨nt, p, α, t, β, la, h _ h1, h2, h3⟩
  | reduce nt p =>
    obtain ⟨α, h1, h2, h3⟩ := hw
    exact ⟨α, h _ h1, h2, h3⟩
  | accept =>
    obtain ⟨nt, p, α, h1, h2, h3⟩ := hw
    exact ⟨nt, p, α, h _ h1, h2, h3⟩

end Parsegen
