import Verif.Proofs.LR0

/-! # The items of the LR(0) automaton in terms of derivations -/

namespace Parsegen

variable {A Ty : Type} {g : Grammar A Ty}

theorem At0.expects {γ : List Symbol} {it : Item} (h : At0 g γ it) (h0 : 0 < g.nProductions 0) :
    ∃ δ α β, g.Expects δ it.nt ∧ g.HasProd it.nt it.prod (α ++ β) ∧ it.cursor = α.length ∧
      γ = δ ++ α := by
  induction h with
  | entry =>
    have hρ := Grammar.hasProd_of_lt h0
    exact ⟨[], [], _, .root, hρ, rfl, rfl⟩
  | @advance γ it X _ hs ih =>
    obtain ⟨δ, α, β, h1, h2, h3, h4⟩ := ih
    obtain ⟨α', β', h5, h6⟩ := Item.nextSymbol_iff.1 hs
    have he := h2.rhs_eq.symm.trans h5.rhs_eq
    obtain ⟨rfl, rfl⟩ := List.append_inj he (by omega)
    exact ⟨δ, α ++ [X], β', h1, by simpa [Item.advance] using h2, by simp [Item.advance, h3], by simp [h4]⟩
  | @pred γ it b q _ hs hq ih =>
    obtain ⟨δ, α, β, h1, h2, h3, h4⟩ := ih
    obtain ⟨α', β', h5, h6⟩ := Item.nextSymbol_iff.1 hs
    have he := h2.rhs_eq.symm.trans h5.rhs_eq
    obtain ⟨rfl, rfl⟩ := List.append_inj he (by omega)
    have hρ := Grammar.hasProd_of_lt hq
    exact ⟨γ, [], _, h4 ▸ .child h1 h5, hρ, rfl, by simp⟩

theorem At0.run {δ : List Symbol} {B p : Nat} (h : At0 g δ (lr0Item B p)) :
    ∀ (α β : List Symbol), g.HasProd B p (α ++ β) → At0 g (δ ++ α) ⟨B, p, α.length, none⟩ := by
  intro α
  induction α using List.reverseRecOn with
  | nil => intro β _; simpa [lr0Item] using h
  | append_singleton α X ih =>
    intro β hp
    have hp' : g.HasProd B p (α ++ X :: β) := by simpa using hp
    have := At0.advance (ih _ hp') (Item.nextSymbol_iff.2 ⟨α, _, hp', rfl⟩)
    simpa [Item.advance] using this

theorem Grammar.Expects.at0 (h1 : g.nProductions 0 = 1) {δ : List Symbol} {B : Nat}
    (h : g.Expects δ B) : ∀ p, p < g.nProductions B → At0 g δ (lr0Item B p) := by
  induction h with
  | root => intro p hp; obtain rfl : p = 0 := by omega
            exact .entry
  | @child δ B p α C β _ hp ih =>
    intro q hq
    exact .pred ((ih p hp.lt).run α _ hp) (Item.nextSymbol_iff.2 ⟨α, _, hp, rfl⟩) hq

theorem at0_iff_valid0 (h1 : g.nProductions 0 = 1) {γ : List Symbol} {it : Item}
    (hla : it.la = none) : At0 g γ it ↔ g.Valid0 γ it.nt it.prod it.cursor := by
  constructor
  · exact fun h => h.expects (by omega)
  · rintro ⟨δ, α, β, a1, a2, a3, rfl⟩
    have := (a1.at0 h1 it.prod a2.lt).run α β a2
    obtain ⟨nt, p, c, la⟩ := it
    simp only at a3 hla
    subst a3 hla
    exact this

theorem Path0.det {L : List LR1State} {γ : List Symbol} {q r : Nat} (h : Path0 L γ q)
    (h' : Path0 L γ r) : q = r := by
  induction h generalizing r with
  | nil =>
    generalize hγ : ([] : List Symbol) = γ at h'
    cases h' with
    | nil => rfl
    | snoc => simp at hγ
  | @snoc γ q st X r' _ hq hr ih =>
    generalize hγ : γ ++ [X] = γ' at h'
    cases h' with
    | nil => simp at hγ
    | @snoc γ2 q2 st2 X2 r2 h2 hq2 hr2 =>
      obtain ⟨rfl, hX⟩ := List.append_inj' hγ rfl
      obtain rfl : X = X2 := by simpa using hX
      obtain rfl := ih h2
      rw [hq] at hq2; cases hq2
      rw [hr] at hr2; cases hr2
      rfl

theorem Path0.at0 {h : HashOrder} {st : AutoState} {wl : List Nat} {todo : List (Nat × Symbol)}
    {ex : Option Nat} (hi : Inv0 h g st wl todo ex) {γ : List Symbol} {q : Nat}
    (hp : Path0 st.states γ q) :
    ∃ s : LR1State, st.states[q]? = some s ∧ ∀ x, x ∈ s.items ↔ At0 g γ x := by
  induction hp with
  | nil => exact hi.zero
  | @snoc γ q s X r _ hq hr ih =>
    obtain ⟨s0, hs0, hI⟩ := ih
    rw [hq] at hs0; cases hs0
    obtain ⟨_, s', hs', he⟩ := hi.edge q s X r hq hr
    refine ⟨s', hs', ?_⟩
    rw [he]
    exact (lr0Goto_spec h hI X).2

theorem At0.snoc_inv {γ : List Symbol} {X : Symbol} {x : Item} (h : At0 g (γ ++ [X]) x) :
    ∃ it, At0 g γ it ∧ it.nextSymbol g = some X := by
  generalize hγ : γ ++ [X] = γ' at h
  induction h with
  | entry => simp at hγ
  | @advance γ2 it X2 h hs _ =>
    obtain ⟨rfl, hX⟩ := List.append_inj' hγ rfl
    obtain rfl : X = X2 := by simpa using hX
    exact ⟨it, h, hs⟩
  | pred _ _ _ ih => exact ih hγ

theorem Path0.exists_of_at0 {h : HashOrder} {st : AutoState} (hi : Inv0 h g st [] [] none) :
    ∀ {γ : List Symbol} {x : Item}, At0 g γ x → ∃ q, Path0 st.states γ q := by
  intro γ
  induction γ using List.reverseRecOn with
  | nil => intro x _; exact ⟨0, .nil⟩
  | append_singleton γ X ih =>
    intro x hx
    obtain ⟨it, h1, h2⟩ := hx.snoc_inv
    obtain ⟨q, hq⟩ := ih h1
    obtain ⟨s, hs, hI⟩ := hq.at0 hi
    rcases hi.compl q s it X hs ((hI it).2 h1) h2 with h3 | h3 | h3
    · obtain ⟨r, hr⟩ := Option.isSome_iff_exists.1 h3
      exact ⟨r, .snoc hq hs hr⟩
    · simp at h3
    · simp at h3

end Parsegen
