import Verif.Spec.Knuth
import Verif.Proofs.UserLR

/-! # Knuth's LR(1) and the items of `Spec/UserLR.lean` -/

namespace Parsegen

variable {X Ty : Type} {defs : List (AstNonTerminal X Ty)}

theorem UHasProd.of_mem {A : String} {p : AstProduction X} {rhs : List USym}
    (hp : p ∈ userProds defs A) (hs : p.symbols.map (·.plain) = rhs.map some) :
    ∃ i, UHasProd defs A i rhs := by
  obtain ⟨i, hi⟩ := List.getElem?_of_mem hp
  exact ⟨i, p, hi, hs⟩

theorem UHasProd.produces {A : String} {i : Nat} {rhs : List USym} (h : UHasProd defs A i rhs)
    (l r : List USym) : UProduces defs (l ++ .nt A :: r) (l ++ rhs ++ r) := by
  obtain ⟨p, h1, h2⟩ := h
  exact .mk l r rhs A p (List.mem_of_getElem? h1) h2

theorem UHasProd.inj {A : String} {i : Nat} {r r' : List USym} (h : UHasProd defs A i r)
    (h' : UHasProd defs A i r') : r = r' := by
  obtain ⟨p, h1, h2⟩ := h
  obtain ⟨p', h1', h2'⟩ := h'
  rw [h1] at h1'
  cases h1'
  exact (List.map_injective_iff.2 (fun _ _ h => by cases h; rfl)) (h2.symm.trans h2')

theorem URight.produces {l r : List USym} (h : URight defs l r) : UProduces defs l r := by
  cases h with
  | mk α w hp => exact hp.produces _ _

theorem URights.trans {a b c : List USym} (h : URights defs a b) (h' : URights defs b c) :
    URights defs a c := by
  induction h' with
  | refl => exact h
  | tail _ s ih => exact .tail ih s

theorem map_term_inj {a b : List String} (h : a.map USym.term = b.map USym.term) : a = b :=
  (List.map_injective_iff.2 (fun _ _ h => by cases h; rfl)) h

/-- The symbols derive the terminals, from left to right. -/
inductive Yields (defs : List (AstNonTerminal X Ty)) : List USym → List String → Prop
  | nil : Yields defs [] []
  | term {t ss w} (h : Yields defs ss w) : Yields defs (.term t :: ss) (t :: w)
  | nt {A i rhs ss w1 w2} (hp : UHasProd defs A i rhs) (h1 : Yields defs rhs w1)
      (h2 : Yields defs ss w2) : Yields defs (.nt A :: ss) (w1 ++ w2)

theorem yields_terms (w : List String) : Yields defs (w.map .term) w := by
  induction w with
  | nil => exact .nil
  | cons t w ih => exact .term ih

theorem Yields.append {a b : List USym} {v w : List String} (h : Yields defs a v)
    (h' : Yields defs b w) : Yields defs (a ++ b) (v ++ w) := by
  induction h with
  | nil => exact h'
  | term _ ih => exact .term ih
  | nt hp h1 _ _ ih2 =>
    rw [List.append_assoc]
    exact .nt hp h1 ih2

theorem Yields.split : ∀ {a b : List USym} {w : List String}, Yields defs (a ++ b) w →
    ∃ w1 w2, w = w1 ++ w2 ∧ Yields defs a w1 ∧ Yields defs b w2
  | [], b, w, h => ⟨[], w, rfl, .nil, h⟩
  | .term t :: a, b, w, h => by
    cases h with
    | term h =>
      obtain ⟨w1, w2, rfl, h1, h2⟩ := h.split
      exact ⟨t :: w1, w2, rfl, .term h1, h2⟩
  | .nt A :: a, b, w, h => by
    cases h with
    | nt hp h1 h2 =>
      obtain ⟨w1, w2, rfl, h3, h4⟩ := h2.split
      exact ⟨_, w2, by rw [List.append_assoc], .nt hp h1 h3, h4⟩

theorem yields_of_produces {l r : List USym} {w : List String} (h : UProduces defs l r)
    (hr : Yields defs r w) : Yields defs l w := by
  cases h with
  | mk l' r' rhs name p hp hs =>
    obtain ⟨w12, w3, rfl, h12, h3⟩ := hr.split
    obtain ⟨w1, w2, rfl, h1, h2⟩ := h12.split
    obtain ⟨i, hi⟩ := UHasProd.of_mem hp hs
    rw [List.append_assoc]
    exact h1.append (.nt hi h2 h3)

theorem yields_of_derives {l : List USym} {w : List String} (h : UDerives defs l (w.map .term)) :
    Yields defs l w := by
  have : ∀ {r : List USym}, UDerives defs l r → ∀ w, Yields defs r w → Yields defs l w := by
    intro r h
    induction h with
    | refl => exact fun _ h => h
    | tail _ s ih => exact fun w h => ih w (yields_of_produces s h)
  exact this h w (yields_terms w)

/-- A rightmost derivation. -/
theorem Yields.rights {b : List USym} {w : List String} (h : Yields defs b w) :
    ∀ (φ : List USym) (v : List String),
      URights defs (φ ++ b ++ v.map .term) (φ ++ w.map .term ++ v.map .term) := by
  induction h with
  | nil => exact fun φ v => .refl _
  | @term t ss w _ ih =>
    intro φ v
    have := ih (φ ++ [.term t]) v
    simpa [List.append_assoc] using this
  | @nt A i rhs ss w1 w2 hp _ _ ih1 ih2 =>
    intro φ v
    have h2 := ih2 (φ ++ [.nt A]) v
    have h1 := ih1 φ (w2 ++ v)
    have hs := URight.mk φ (w2 ++ v) hp
    simp only [List.append_assoc, List.map_append, List.cons_append, List.nil_append] at h1 h2 hs ⊢
    exact (URights.tail h2 hs).trans h1

theorem Yields.derives {b : List USym} {w : List String} (h : Yields defs b w) :
    UDerives defs b (w.map .term) := by
  have : ∀ {l r : List USym}, URights defs l r → UDerives defs l r := by
    intro l r h
    induction h with
    | refl => exact .refl _
    | tail _ s ih => exact .tail ih s.produces
  have := this (h.rights [] [])
  simpa using this

/-- The last step of a rightmost derivation. -/
theorem Yields.last {b : List USym} {w : List String} (h : Yields defs b w) :
    b = w.map .term ∨ ∀ (φ : List USym) (v : List String), ∃ pre A i u x,
      URights defs (φ ++ b ++ v.map .term) (φ ++ pre.map .term ++ .nt A :: x.map .term) ∧
      UHasProd defs A i (u.map .term) ∧ pre ++ (u ++ x) = w ++ v := by
  induction h with
  | nil => exact .inl rfl
  | @term t ss w _ ih =>
    rcases ih with rfl | ih
    · exact .inl rfl
    · refine .inr fun φ v => ?_
      obtain ⟨pre, A, i, u, x, h1, h2, h3⟩ := ih (φ ++ [.term t]) v
      refine ⟨t :: pre, A, i, u, x, ?_, h2, by simp [h3]⟩
      simpa [List.append_assoc] using h1
  | @nt A i rhs ss w1 w2 hp h1 h2 ih1 _ =>
    refine .inr fun φ v => ?_
    have h2 := h2.rights (φ ++ [.nt A]) v
    have hs := URight.mk φ (w2 ++ v) hp
    rcases ih1 with rfl | ih1
    · refine ⟨[], A, i, w1, w2 ++ v, ?_, hp, by simp⟩
      simpa [List.append_assoc] using h2
    · obtain ⟨pre, B, j, u, x, h3, h4, h5⟩ := ih1 φ (w2 ++ v)
      refine ⟨pre, B, j, u, x, ?_, h4, by simpa using h5⟩
      simp only [List.append_assoc, List.map_append, List.cons_append, List.nil_append] at h2 h3 hs ⊢
      exact (URights.tail h2 hs).trans h3

/-- From contexts to rightmost derivations. -/
theorem UContext.rights {S : String} {δ : List USym} {B : String} {z : List USym}
    (h : UContext defs S δ B z) : ∀ {w : List String}, Yields defs z w →
      URights defs [.nt S] (δ ++ .nt B :: w.map .term) := by
  induction h with
  | root => intro w hw; cases hw; exact .refl _
  | @child δ B z i α C β _ _ hp ih =>
    intro w hw
    obtain ⟨w1, w2, rfl, h1, h2⟩ := hw.split
    have a := ih h2
    have s := URight.mk δ w2 hp
    have b := h1.rights (δ ++ α ++ [.nt C]) w2
    simp only [List.append_assoc, List.map_append, List.cons_append, List.nil_append] at a s b ⊢
    exact (URights.tail a s).trans b

/-- From rightmost derivations to contexts. -/
theorem rights_context {S : String} {F : List USym} (h : URights defs [.nt S] F) :
    ∀ φ A ψ, F = φ ++ .nt A :: ψ → ∃ z, UContext defs S φ A z ∧ UDerives defs z ψ := by
  induction h with
  | refl =>
    intro φ A ψ e
    rcases φ with _ | ⟨a, φ⟩
    · cases e; exact ⟨[], .root, .refl _⟩
    · have := congrArg List.length e
      simp at this
  | @tail m r hr s ih =>
    intro φ A ψ e
    cases s with
    | @mk B i β α w hp =>
      rw [List.append_assoc] at e
      rcases List.append_eq_append_iff.1 e with ⟨a', h1, h2⟩ | ⟨c', h1, h2⟩
      · -- `A` is in `β` or `w`
        subst h1
        rcases List.append_eq_append_iff.1 h2 with ⟨b', h3, h4⟩ | ⟨b', h3, h4⟩
        · exfalso
          have : USym.nt A ∈ w.map USym.term := by rw [h4]; simp
          simp at this
        · rcases b' with _ | ⟨x, b'⟩
          · exfalso
            have : USym.nt A ∈ w.map USym.term := by
              rw [List.nil_append] at h4; rw [← h4]; simp
            simp at this
          · rw [List.cons_append] at h4
            injection h4 with e1 e2
            subst e1 e2 h3
            obtain ⟨z, hz1, hz2⟩ := ih α B (w.map .term) rfl
            refine ⟨b' ++ z, .child hz1 ?_ hp, hz2.append_left _⟩
            cases w with
            | nil => exact ⟨none, hz2⟩
            | cons t w => exact ⟨some t, _, hz2⟩
      · -- `A` is in `α`
        subst h1
        rcases c' with _ | ⟨x, c'⟩
        · rw [List.nil_append] at h2
          rcases β with _ | ⟨y, β⟩
          · exfalso
            have : USym.nt A ∈ w.map USym.term := by
              rw [List.nil_append] at h2; rw [← h2]; simp
            simp at this
          · rw [List.cons_append] at h2
            injection h2 with e1 e2
            subst e1 e2
            obtain ⟨z, hz1, hz2⟩ := ih φ B (w.map .term) (by simp)
            refine ⟨β ++ z, ?_, hz2.append_left _⟩
            have := UContext.child (α := []) hz1 ?_ hp
            · simpa using this
            cases w with
            | nil => exact ⟨none, hz2⟩
            | cons t w => exact ⟨some t, _, hz2⟩
        · rw [List.cons_append] at h2
          injection h2 with e1 e2
          subst e1 e2
          obtain ⟨z, hz1, hz2⟩ := ih φ A (c' ++ .nt B :: w.map .term) (by simp)
          refine ⟨z, hz1, .tail hz2 ?_⟩
          have := hp.produces c' (w.map .term)
          simpa [List.append_assoc] using this

/-- A terminal in a context has been shifted. -/
theorem UContext.shift {S : String} {δ : List USym} {B : String} {z : List USym}
    (h : UContext defs S δ B z) : ∀ κ t κ', δ = κ ++ .term t :: κ' →
      UWants defs S κ (some t) .shift := by
  induction h with
  | root => intro κ t κ' e; simp at e
  | @child δ B z i α C β hc hz hp ih =>
    intro κ t κ' e
    rcases List.append_eq_append_iff.1 e with ⟨a', h1, h2⟩ | ⟨c', h1, h2⟩
    · subst h1 h2
      refine ⟨δ, B, z, i, a', t, κ' ++ .nt C :: β, hc, hz, ?_, rfl, rfl⟩
      simpa using hp
    · rcases c' with _ | ⟨x, c'⟩
      · rw [List.nil_append] at h2
        subst h2
        refine ⟨δ, B, z, i, [], t, κ' ++ .nt C :: β, hc, hz, by simpa using hp, ?_, rfl⟩
        simpa using h1.symm
      · rw [List.cons_append] at h2
        injection h2 with e1 e2
        subst e1
        exact ih κ t c' h1

/-- The move of a handle. -/
def handleMove : Option (String × Nat) → UMove
  | none => .accept
  | some (A, i) => .reduce A i

theorem handleMove_inj {q q' : Option (String × Nat)} (h : handleMove q = handleMove q') : q = q' := by
  rcases q with _ | ⟨A, i⟩ <;> rcases q' with _ | ⟨B, j⟩ <;> cases h <;> rfl

theorem UFollows.of_terms {z : List USym} {w : List String} (h : UDerives defs z (w.map .term)) :
    UFollows defs z w.head? := by
  cases w with
  | nil => exact h
  | cons t w => exact ⟨_, h⟩

/-- A handle is a move that is right at its end. -/
theorem UHandle.wants {S : String} {α β : List USym} {q : Option (String × Nat)} {w : List String}
    (h : UHandle defs S α q β w) : UWants defs S (α ++ β) w.head? (handleMove q) := by
  cases h with
  | start => exact ⟨rfl, rfl⟩
  | step h hp =>
    obtain ⟨z, h1, h2⟩ := rights_context h _ _ _ rfl
    exact ⟨α, z, β, h1, .of_terms h2, hp, rfl⟩

/-- Before the end of the handle, a terminal is shifted. -/
theorem UHandle.wants_shift {S : String} {α β : List USym} {q : Option (String × Nat)}
    {w : List String} (h : UHandle defs S α q β w) {κ : List USym} {t : String} {u : List String}
    (e : α ++ β = κ ++ .term t :: u.map .term) : UWants defs S κ (some t) .shift := by
  cases h with
  | start =>
    exfalso
    rcases κ with _ | ⟨a, κ⟩
    · cases e
    · have := congrArg List.length e
      simp at this
  | @step _ A i _ _ h hp =>
    obtain ⟨z, h1, h2⟩ := rights_context h _ _ _ rfl
    rcases List.append_eq_append_iff.1 e with ⟨a', e1, e2⟩ | ⟨c', e1, e2⟩
    · subst e1 e2
      exact ⟨α, A, z, i, a', t, _, h1, ⟨_, .of_terms h2⟩, hp, rfl, rfl⟩
    · rcases c' with _ | ⟨x, c'⟩
      · rw [List.nil_append] at e2
        subst e2
        exact ⟨α, A, z, i, [], t, _, h1, ⟨_, .of_terms h2⟩, hp, by simpa using e1.symm, rfl⟩
      · rw [List.cons_append] at e2
        injection e2 with a b
        subst a
        exact h1.shift κ t c' e1

/-- Items determine the moves: Knuth's condition holds. -/
theorem knuth_of_moves {S : String}
    (H : ∀ γ c m m', UWants defs S γ c m → UWants defs S γ c m' → m = m') : KnuthLR1 defs S := by
  intro α q β w γ q' δ x y h h' e hw
  rcases List.append_eq_append_iff.1 e with ⟨u, e1, e2⟩ | ⟨u, e1, e2⟩
  · -- `α β = γ δ u`
    obtain ⟨u1, u2, rfl, e3, e4⟩ := List.map_eq_append_iff.1 e2
    have e4 := map_term_inj e4
    subst e4
    cases u1 with
    | nil =>
      cases e3
      rw [List.map_nil, List.append_nil] at e1
      rw [List.nil_append] at *
      have hm : handleMove q = handleMove q' := by
        have a := h.wants
        rw [e1] at a
        exact H _ _ _ _ a (by rw [hw]; exact h'.wants)
      have hq := handleMove_inj hm
      subst hq
      have hβ : β = δ := by
        cases h with
        | start => cases h'; rfl
        | step _ hp => cases h' with
          | step _ hp' => exact hp.inj hp'
      subst hβ
      exact ⟨List.append_cancel_right e1, rfl, rfl⟩
    | cons t u1 =>
      exfalso
      subst e3
      have a := h'.wants
      have b := h.wants_shift e1
      have := H _ _ _ _ a b
      rcases q' with _ | ⟨_, _⟩ <;> cases this
  · -- `γ δ = α β u`
    obtain ⟨u1, u2, rfl, e3, e4⟩ := List.map_eq_append_iff.1 e2
    have e4 := map_term_inj e4
    subst e4
    cases u1 with
    | nil =>
      cases e3
      rw [List.map_nil, List.append_nil] at e1
      rw [List.nil_append] at *
      have hm : handleMove q = handleMove q' := by
        have a := h'.wants
        rw [e1] at a
        exact H _ _ _ _ (by have := h.wants; rw [hw] at this; exact this) a
      have hq := handleMove_inj hm
      subst hq
      have hβ : β = δ := by
        cases h with
        | start => cases h'; rfl
        | step _ hp => cases h' with
          | step _ hp' => exact hp.inj hp'
      subst hβ
      exact ⟨(List.append_cancel_right e1).symm, rfl, rfl⟩
    | cons t u1 =>
      exfalso
      subst e3
      have a := h.wants
      rw [hw] at a
      have b := h'.wants_shift e1
      have := H _ _ _ _ a b
      rcases q with _ | ⟨_, _⟩ <;> cases this

/-- Every non-terminal of the form derives some string. -/
theorem yields_of_productive : ∀ {z : List USym}, (∀ B, .nt B ∈ z → ∃ w, USentence defs B w) →
    ∃ w, Yields defs z w
  | [], _ => ⟨[], .nil⟩
  | .term t :: z, h => by
    obtain ⟨w, hw⟩ := yields_of_productive (z := z) fun B hB => h B (List.mem_cons_of_mem _ hB)
    exact ⟨_, .term hw⟩
  | .nt A :: z, h => by
    obtain ⟨w, hw⟩ := yields_of_productive (z := z) fun B hB => h B (List.mem_cons_of_mem _ hB)
    obtain ⟨v, hv⟩ := h A (by simp)
    have := yields_of_derives hv
    exact ⟨_, this.append hw⟩

theorem UDerives.productive (hP : UProductive defs) {z z' : List USym} (h : UDerives defs z z')
    (hz : ∀ B, .nt B ∈ z → ∃ w, USentence defs B w) : ∀ B, .nt B ∈ z' → ∃ w, USentence defs B w := by
  induction h with
  | refl => exact hz
  | tail _ s ih =>
    cases s with
    | mk l r rhs name p hp hs =>
      intro B hB
      obtain ⟨i, hi⟩ := UHasProd.of_mem hp hs
      simp only [List.mem_append] at hB
      rcases hB with (hB | hB) | hB
      · exact ih B (by simp [hB])
      · exact hP _ _ _ _ hi hB
      · exact ih B (by simp [hB])

theorem UContext.productive (hP : UProductive defs) {S : String} {δ : List USym} {B : String}
    {z : List USym} (h : UContext defs S δ B z) : ∀ C, .nt C ∈ z → ∃ w, USentence defs C w := by
  induction h with
  | root => intro C hC; simp at hC
  | child _ _ hp ih =>
    intro C hC
    rcases List.mem_append.1 hC with hC | hC
    · exact hP _ _ _ _ hp (by simp [hC])
    · exact ih C hC

/-- What can follow begins a string of terminals. -/
theorem UFollows.yields (hP : UProductive defs) {z : List USym}
    (hz : ∀ B, .nt B ∈ z → ∃ w, USentence defs B w) {c : Option String} (h : UFollows defs z c) :
    ∃ w, Yields defs z w ∧ w.head? = c := by
  cases c with
  | none => exact ⟨[], yields_of_derives (w := []) h, rfl⟩
  | some t =>
    obtain ⟨x, hx⟩ := h
    obtain ⟨v, hv⟩ := yields_of_productive (defs := defs) (z := x) fun B hB =>
      hx.productive hP hz B (by simp [hB])
    refine ⟨t :: v, yields_of_derives ?_, rfl⟩
    exact hx.trans (by simpa using hv.derives.append_left [.term t])

theorem handle_of_wants (hP : UProductive defs) {S : String} {γ : List USym} {c : Option String}
    {m : UMove} (hm : m ≠ .shift) (h : UWants defs S γ c m) :
    ∃ α q β w, UHandle defs S α q β w ∧ γ = α ++ β ∧ w.head? = c ∧ m = handleMove q := by
  cases m with
  | shift => exact absurd rfl hm
  | accept =>
    obtain ⟨rfl, rfl⟩ := h
    exact ⟨[], none, _, [], .start, rfl, rfl, rfl⟩
  | reduce B i =>
    obtain ⟨δ, z, α, h1, h2, h3, rfl⟩ := h
    obtain ⟨w, hw, rfl⟩ := h2.yields hP (h1.productive hP)
    exact ⟨δ, some (B, i), α, w, .step (h1.rights hw) h3, rfl, rfl, rfl⟩

/-- Knuth's condition: the moves are determined. -/
theorem moves_of_knuth (hP : UProductive defs) {S : String} (hK : KnuthLR1 defs S) :
    ∀ γ c m m', UWants defs S γ c m → UWants defs S γ c m' → m = m' := by
  have shift : ∀ γ c m, m ≠ .shift → UWants defs S γ c m → ¬ UWants defs S γ c .shift := by
    rintro γ c m hm h ⟨δ, B, z, i, α, t, β, h1, ⟨c', h2⟩, h3, rfl, rfl⟩
    obtain ⟨α1, q, β1, w, hh, e, hc, _⟩ := handle_of_wants hP hm h
    obtain ⟨v, hv, _⟩ := h2.yields hP (h1.productive hP)
    have hr := h1.rights hv
    have hs := URight.mk δ v h3
    obtain ⟨wb, hwb⟩ := yields_of_productive (defs := defs) (z := β) fun B hB =>
      hP _ _ _ _ h3 (by simp [hB])
    rcases hwb.last with rfl | hl
    · obtain ⟨_, _, e3⟩ := hK α1 q β1 w δ (some (B, i)) _ v (t :: (wb ++ v)) hh (.step hr h3)
        (by rw [← e]; simp) (by rw [hc]; rfl)
      have := congrArg List.length e3
      simp at this
      omega
    · obtain ⟨pre, A, j, u, x, h4, h5, h6⟩ := hl (δ ++ α ++ [.term t]) v
      have h7 : URights defs [.nt S]
          ((δ ++ α ++ [.term t] ++ pre.map .term) ++ .nt A :: x.map .term) := by
        refine (URights.tail hr hs).trans ?_
        simpa [List.append_assoc] using h4
      obtain ⟨e1, _, _⟩ := hK α1 q β1 w _ (some (A, j)) _ x (t :: (wb ++ v)) hh (.step h7 h5)
        (by
          rw [← e, ← h6]
          simp) (by rw [hc]; rfl)
      have a := congrArg List.length e1
      have b := congrArg List.length e
      simp at a b
      omega
  intro γ c m m' h h'
  by_cases hm : m = .shift
  · subst hm
    by_cases hm' : m' = .shift
    · exact hm'.symm
    · exact absurd h (shift _ _ _ hm' h')
  · by_cases hm' : m' = .shift
    · subst hm'
      exact absurd h' (shift _ _ _ hm h)
    · obtain ⟨α, q, β, w, h1, e1, c1, rfl⟩ := handle_of_wants hP hm h
      obtain ⟨α', q', β', w', h2, e2, c2, rfl⟩ := handle_of_wants hP hm' h'
      obtain ⟨_, rfl, _⟩ := hK α q β w α' q' β' w' w' h1 h2 (by rw [← e1, ← e2]) (by rw [c1, c2])
      rfl

end Parsegen
