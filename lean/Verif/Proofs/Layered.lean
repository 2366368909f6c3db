import Verif.Spec.Layered

/-! # Layered grammars of expressions are LR(1) -/

namespace Parsegen

variable {X Ty V : Type}

/-- The grammar, with numbered levels: level `i < n` has the name `A i`, the operands `A n`. -/
structure Numbered (defs : List (AstNonTerminal X Ty)) (A : Nat → String) (n : Nat)
    (op : Nat → String → Prop) (right : Nat → Prop) (leaf pre : String → Prop) (lp rp : String) : Prop where
  rules : ∀ B j rhs, UHasProd defs B j rhs →
    (∃ i o, i < n ∧ B = A i ∧ ¬ right i ∧ op i o ∧ rhs = [.nt (A i), .term o, .nt (A (i + 1))]) ∨
    (∃ i o, i < n ∧ B = A i ∧ right i ∧ op i o ∧ rhs = [.nt (A (i + 1)), .term o, .nt (A i)]) ∨
    (∃ i, i < n ∧ B = A i ∧ rhs = [.nt (A (i + 1))]) ∨
    (∃ t, B = A n ∧ leaf t ∧ rhs = [.term t]) ∨
    (∃ t, B = A n ∧ pre t ∧ rhs = [.term t, .nt (A n)]) ∨
    (B = A n ∧ rhs = [.term lp, .nt (A 0), .term rp])
  once : ∀ B j j' rhs, UHasProd defs B j rhs → UHasProd defs B j' rhs → j = j'
  inj : ∀ i j, i ≤ n → j ≤ n → A i = A j → i = j
  level : ∀ i j o, op i o → op j o → i = j
  op_leaf : ∀ i o, op i o → ¬ leaf o
  op_lp : ∀ i, ¬ op i lp
  op_rp : ∀ i, ¬ op i rp
  leaf_lp : ¬ leaf lp
  leaf_rp : ¬ leaf rp
  pre_leaf : ∀ t, pre t → ¬ leaf t
  pre_lp : ¬ pre lp
  pre_rp : ¬ pre rp
  lp_rp : lp ≠ rp

/-- After `d` (backwards), in an expression of level `k`, level `i` may begin. -/
def May (op : Nat → String → Prop) (right : Nat → Prop) (pre : String → Prop) (lp : String) (n k : Nat)
    (d : List USym) (i : Nat) : Prop :=
  (d = [] ∧ k ≤ i) ∨ (∃ d', d = .term lp :: d') ∨
    (∃ d' t, d = .term t :: d' ∧ pre t ∧ n ≤ i ∧ ∀ X d'', d' ≠ .nt X :: d'') ∨
    ∃ X d' j o, d = .term o :: .nt X :: d' ∧ op j o ∧ (j < i ∨ right j ∧ j = i)

/-- What can come after an expression of level `i`. -/
def Fol (op : Nat → String → Prop) (right : Nat → Prop) (rp : String) (i : Nat) (c : Option String) : Prop :=
  c = none ∨ c = some rp ∨ ∃ j o, c = some o ∧ op j o ∧ (j < i ∨ ¬ right j ∧ j = i)

theorem UFollows.of_term {defs : List (AstNonTerminal X Ty)} {t : String} {z : List USym} {c : Option String}
    (h : UFollows defs (.term t :: z) c) : c = some t := by
  have key : ∀ {u v : List USym}, UDerives defs u v → ∀ z, u = .term t :: z → ∃ z', v = .term t :: z' := by
    intro u v hd
    induction hd with
    | refl => exact fun z hz => ⟨z, hz⟩
    | tail _ s ih =>
      intro z hz
      obtain ⟨z', hz'⟩ := ih z hz
      cases s with
      | @mk l r name p rhs hp hc =>
        cases l with
        | nil => cases hz'
        | cons a l =>
          cases hz'
          exact ⟨_, rfl⟩
  cases c with
  | none =>
    obtain ⟨z', hz'⟩ := key h _ rfl
    cases hz'
  | some x =>
    obtain ⟨y, hy⟩ := h
    obtain ⟨z', hz'⟩ := key hy _ rfl
    cases hz'
    rfl

section
variable {defs : List (AstNonTerminal X Ty)} {A : Nat → String} {n : Nat} {op : Nat → String → Prop}
  {right : Nat → Prop} {leaf pre : String → Prop} {lp rp : String} {k : Nat}

theorem May.mono {d : List USym} {i j : Nat} (h : May op right pre lp n k d i) (hij : i ≤ j) :
    May op right pre lp n k d j := by
  rcases h with ⟨h, hk⟩ | h | ⟨d', t, h, ht, hn, h1⟩ | ⟨X, d', m, o, h, ho, h1 | ⟨h1, h2⟩⟩
  · exact .inl ⟨h, Nat.le_trans hk hij⟩
  · exact .inr (.inl h)
  · exact .inr (.inr (.inl ⟨d', t, h, ht, Nat.le_trans hn hij, h1⟩))
  · exact .inr (.inr (.inr ⟨X, d', m, o, h, ho, .inl (by omega)⟩))
  · rcases Nat.lt_or_ge m j with h3 | h3
    · exact .inr (.inr (.inr ⟨X, d', m, o, h, ho, .inl h3⟩))
    · exact .inr (.inr (.inr ⟨X, d', m, o, h, ho, .inr ⟨h1, by omega⟩⟩))

theorem Fol.mono {c : Option String} {i j : Nat} (h : Fol op right rp i c) (hij : i ≤ j) :
    Fol op right rp j c := by
  rcases h with h | h | ⟨m, o, h, ho, h1 | ⟨h1, h2⟩⟩
  · exact .inl h
  · exact .inr (.inl h)
  · exact .inr (.inr ⟨m, o, h, ho, .inl (by omega)⟩)
  · rcases Nat.lt_or_ge m j with h3 | h3
    · exact .inr (.inr ⟨m, o, h, ho, .inl h3⟩)
    · exact .inr (.inr ⟨m, o, h, ho, .inr ⟨h1, by omega⟩⟩)

theorem split_one {α β : List USym} {s a : USym} (h : α ++ s :: β = [a]) : α = [] ∧ s = a ∧ β = [] := by
  rcases α with _ | ⟨x, _ | ⟨y, α⟩⟩ <;> simp_all

theorem split_two {α β : List USym} {s a b : USym} (h : α ++ s :: β = [a, b]) :
    (α = [] ∧ s = a ∧ β = [b]) ∨ (α = [a] ∧ s = b ∧ β = []) := by
  rcases α with _ | ⟨x, _ | ⟨y, _ | ⟨z, α⟩⟩⟩ <;> simp_all

theorem split_three {α β : List USym} {s a b c : USym} (h : α ++ s :: β = [a, b, c]) :
    (α = [] ∧ s = a ∧ β = [b, c]) ∨ (α = [a] ∧ s = b ∧ β = [c]) ∨ (α = [a, b] ∧ s = c ∧ β = []) := by
  rcases α with _ | ⟨x, _ | ⟨y, _ | ⟨z, _ | ⟨w, α⟩⟩⟩⟩ <;> simp_all

theorem May.not_nt {X : String} {d : List USym} {i : Nat} (h : May op right pre lp n k (.nt X :: d) i) : False := by
  rcases h with ⟨h, _⟩ | ⟨_, h⟩ | ⟨_, _, h, _⟩ | ⟨_, _, m, o', h, ho', h1⟩ <;> cases h

/-- In which contexts an expression of a level is expected. -/
theorem Numbered.context (N : Numbered defs A n op right leaf pre lp rp) (hk : k ≤ n) {δ : List USym} {B : String}
    {z : List USym} (h : UContext defs (A k) δ B z) :
    ∃ i ≤ n, B = A i ∧ May op right pre lp n k δ.reverse i ∧ ∀ c, UFollows defs z c → Fol op right rp i c := by
  induction h with
  | root =>
    refine ⟨k, hk, rfl, .inl ⟨rfl, Nat.le_refl _⟩, fun c hc => ?_⟩
    cases c with
    | none => exact .inl rfl
    | some t =>
      obtain ⟨x, hx⟩ := hc
      have key : ∀ {u v : List USym}, UDerives defs u v → u = [] → v = [] := by
        intro u v hd
        induction hd with
        | refl => exact id
        | tail _ s ih =>
          intro hu
          have := ih hu
          cases s with
          | @mk l r name p rhs hp hc => simp at this
      cases key hx rfl
  | @child δ B z j α C β _ hz hp ih =>
    obtain ⟨i, hi, rfl, hm, hf⟩ := ih
    rcases N.rules _ _ _ hp with ⟨m, o, hmn, e, hr, ho, e'⟩ | ⟨m, o, hmn, e, hr, ho, e'⟩ | ⟨m, hmn, e, e'⟩ |
      ⟨t, e, ht, e'⟩ | ⟨t, e, ht, e'⟩ | ⟨e, e'⟩
    · obtain rfl := N.inj i m hi (by omega) e
      rcases split_three e' with ⟨rfl, e1, rfl⟩ | ⟨_, e1, _⟩ | ⟨rfl, e1, rfl⟩
      · cases e1
        exact ⟨i, hi, rfl, by simpa using hm, fun c hc => .inr (.inr ⟨i, o, hc.of_term, ho, .inr ⟨hr, rfl⟩⟩)⟩
      · cases e1
      · cases e1
        exact ⟨i + 1, hmn, rfl, .inr (.inr (.inr ⟨_, _, i, o, by first | (simp; done) | (simp; exact ⟨rfl, rfl⟩), ho, .inl (by omega)⟩)),
          fun c hc => (hf c hc).mono (by omega)⟩
    · obtain rfl := N.inj i m hi (by omega) e
      rcases split_three e' with ⟨rfl, e1, rfl⟩ | ⟨_, e1, _⟩ | ⟨rfl, e1, rfl⟩
      · cases e1
        exact ⟨i + 1, hmn, rfl, by simpa using hm.mono (by omega),
          fun c hc => .inr (.inr ⟨i, o, hc.of_term, ho, .inl (by omega)⟩)⟩
      · cases e1
      · cases e1
        exact ⟨i, hi, rfl, .inr (.inr (.inr ⟨_, _, i, o, by first | (simp; done) | (simp; exact ⟨rfl, rfl⟩), ho, .inr ⟨hr, rfl⟩⟩)), hf⟩
    · obtain rfl := N.inj i m hi (by omega) e
      obtain ⟨rfl, e1, rfl⟩ := split_one e'
      cases e1
      exact ⟨i + 1, hmn, rfl, by simpa using hm.mono (by omega), fun c hc => (hf c hc).mono (by omega)⟩
    · obtain ⟨rfl, e1, rfl⟩ := split_one e'
      cases e1
    · obtain rfl := N.inj i n hi (Nat.le_refl _) e
      rcases split_two e' with ⟨_, e1, _⟩ | ⟨rfl, e1, rfl⟩
      · cases e1
      · cases e1
        refine ⟨i, hi, rfl, .inr (.inr (.inl ⟨_, t, by simp; rfl, ht, Nat.le_refl _, ?_⟩)), hf⟩
        intro X d'' e2
        rw [e2] at hm
        exact hm.not_nt
    · rcases split_three e' with ⟨_, e1, _⟩ | ⟨rfl, e1, rfl⟩ | ⟨_, e1, _⟩
      · cases e1
      · cases e1
        exact ⟨0, Nat.zero_le _, rfl, .inr (.inl ⟨_, by first | (simp; done) | (simp; rfl)⟩), fun c hc => .inr (.inl hc.of_term)⟩
      · cases e1

/-- When the parser shifts (`g`: what was recognised, backwards). -/
theorem Numbered.shifts (N : Numbered defs A n op right leaf pre lp rp) (hk : k ≤ n) {γ : List USym}
    {c : Option String} (h : UWants defs (A k) γ c .shift) :
    (∃ i o d, i < n ∧ ¬ right i ∧ op i o ∧ c = some o ∧ γ.reverse = .nt (A i) :: d ∧ May op right pre lp n k d i) ∨
    (∃ i o d, i < n ∧ right i ∧ op i o ∧ c = some o ∧ γ.reverse = .nt (A (i + 1)) :: d ∧ May op right pre lp n k d i) ∨
    ((∃ t, c = some t) ∧ May op right pre lp n k γ.reverse n) ∨
    (∃ d, c = some rp ∧ γ.reverse = .nt (A 0) :: .term lp :: d) := by
  obtain ⟨δ, B, z, j, α, t, β, hc, -, hp, rfl, rfl⟩ := h
  obtain ⟨i, hi, rfl, hm, -⟩ := N.context hk hc
  rcases N.rules _ _ _ hp with ⟨m, o, hmn, e, hr, ho, e'⟩ | ⟨m, o, hmn, e, hr, ho, e'⟩ | ⟨m, hmn, e, e'⟩ |
    ⟨t, e, ht, e'⟩ | ⟨t, e, ht, e'⟩ | ⟨e, e'⟩
  · obtain rfl := N.inj i m hi (by omega) e
    rcases split_three e' with ⟨_, e1, _⟩ | ⟨rfl, e1, rfl⟩ | ⟨_, e1, _⟩
    · cases e1
    · cases e1
      exact .inl ⟨i, _, _, hmn, hr, ho, rfl, by first | (simp; done) | (simp; rfl), hm⟩
    · cases e1
  · obtain rfl := N.inj i m hi (by omega) e
    rcases split_three e' with ⟨_, e1, _⟩ | ⟨rfl, e1, rfl⟩ | ⟨_, e1, _⟩
    · cases e1
    · cases e1
      exact .inr (.inl ⟨i, _, _, hmn, hr, ho, rfl, by first | (simp; done) | (simp; rfl), hm⟩)
    · cases e1
  · obtain ⟨rfl, e1, rfl⟩ := split_one e'
    cases e1
  · obtain rfl := N.inj i n hi (Nat.le_refl _) e
    obtain ⟨rfl, e1, rfl⟩ := split_one e'
    cases e1
    exact .inr (.inr (.inl ⟨⟨_, rfl⟩, by simpa using hm⟩))
  · obtain rfl := N.inj i n hi (Nat.le_refl _) e
    rcases split_two e' with ⟨rfl, e1, rfl⟩ | ⟨_, e1, _⟩
    · exact .inr (.inr (.inl ⟨⟨_, rfl⟩, by simpa using hm⟩))
    · cases e1
  · obtain rfl := N.inj i n hi (Nat.le_refl _) e
    rcases split_three e' with ⟨rfl, e1, rfl⟩ | ⟨_, e1, _⟩ | ⟨rfl, e1, rfl⟩
    · exact .inr (.inr (.inl ⟨⟨_, rfl⟩, by simpa using hm⟩))
    · cases e1
    · cases e1
      exact .inr (.inr (.inr ⟨_, rfl, by first | (simp; done) | (simp; rfl)⟩))

/-- When the parser reduces. -/
theorem Numbered.reduces (N : Numbered defs A n op right leaf pre lp rp) (hk : k ≤ n) {γ : List USym}
    {c : Option String} {B : String} {j : Nat} (h : UWants defs (A k) γ c (.reduce B j)) :
    ∃ i ≤ n, B = A i ∧ Fol op right rp i c ∧ ((i < n ∧
      ((∃ o d, ¬ right i ∧ op i o ∧ UHasProd defs B j [.nt (A i), .term o, .nt (A (i + 1))] ∧
          γ.reverse = .nt (A (i + 1)) :: .term o :: .nt (A i) :: d) ∨
        (∃ o d, right i ∧ op i o ∧ UHasProd defs B j [.nt (A (i + 1)), .term o, .nt (A i)] ∧
          γ.reverse = .nt (A i) :: .term o :: .nt (A (i + 1)) :: d) ∨
        (∃ d, UHasProd defs B j [.nt (A (i + 1))] ∧ γ.reverse = .nt (A (i + 1)) :: d ∧ May op right pre lp n k d i))) ∨
      (i = n ∧
        ((∃ t d, leaf t ∧ UHasProd defs B j [.term t] ∧ γ.reverse = .term t :: d) ∨
          (∃ t d, pre t ∧ UHasProd defs B j [.term t, .nt (A n)] ∧ γ.reverse = .nt (A n) :: .term t :: d ∧
            ∀ X d'', d ≠ .nt X :: d'') ∨
          (∃ d, UHasProd defs B j [.term lp, .nt (A 0), .term rp] ∧
            γ.reverse = .term rp :: .nt (A 0) :: .term lp :: d)))) := by
  obtain ⟨δ, z, α, hc, hz, hp, rfl⟩ := h
  obtain ⟨i, hi, rfl, hm, hf⟩ := N.context hk hc
  refine ⟨i, hi, rfl, hf c hz, ?_⟩
  rcases N.rules _ _ _ hp with ⟨m, o, hmn, e, hr, ho, rfl⟩ | ⟨m, o, hmn, e, hr, ho, rfl⟩ | ⟨m, hmn, e, rfl⟩ |
    ⟨t, e, ht, rfl⟩ | ⟨t, e, ht, rfl⟩ | ⟨e, rfl⟩
  · obtain rfl := N.inj i m hi (by omega) e
    exact .inl ⟨hmn, .inl ⟨o, _, hr, ho, hp, by first | (simp; done) | (simp; rfl)⟩⟩
  · obtain rfl := N.inj i m hi (by omega) e
    exact .inl ⟨hmn, .inr (.inl ⟨o, _, hr, ho, hp, by first | (simp; done) | (simp; rfl)⟩)⟩
  · obtain rfl := N.inj i m hi (by omega) e
    exact .inl ⟨hmn, .inr (.inr ⟨_, hp, by first | (simp; done) | (simp; rfl), hm⟩)⟩
  · obtain rfl := N.inj i n hi (Nat.le_refl _) e
    exact .inr ⟨rfl, .inl ⟨t, _, ht, hp, by first | (simp; done) | (simp; rfl)⟩⟩
  · obtain rfl := N.inj i n hi (Nat.le_refl _) e
    refine .inr ⟨rfl, .inr (.inl ⟨t, δ.reverse, ht, hp, by simp, fun X d'' e2 => ?_⟩)⟩
    rw [e2] at hm
    exact hm.not_nt
  · obtain rfl := N.inj i n hi (Nat.le_refl _) e
    exact .inr ⟨rfl, .inr (.inr ⟨_, hp, by first | (simp; done) | (simp; rfl)⟩)⟩

/-- What may begin after an operator. -/
theorem Numbered.may_op (N : Numbered defs A n op right leaf pre lp rp) {o x : String} {d : List USym}
    {i j : Nat} (h : May op right pre lp n k (.term o :: .nt x :: d) i) (ho : op j o) :
    j < i ∨ right j ∧ j = i := by
  rcases h with ⟨h, _⟩ | ⟨_, h⟩ | ⟨_, _, h, _, _, h1⟩ | ⟨_, _, m, o', h, ho', h1⟩
  · cases h
  · cases h
    exact absurd ho (N.op_lp j)
  · cases h
    exact absurd rfl (h1 _ _)
  · cases h
    cases N.level _ _ _ ho ho'
    exact h1

/-- What may begin after a prefix operator. -/
theorem Numbered.may_pre (N : Numbered defs A n op right leaf pre lp rp) {t : String} {d : List USym}
    {i : Nat} (h : May op right pre lp n k (.term t :: d) i) (ht : pre t) (hd : ∀ X d'', d ≠ .nt X :: d'') :
    n ≤ i := by
  rcases h with ⟨h, _⟩ | ⟨_, h⟩ | ⟨_, _, h, _, h1, _⟩ | ⟨_, _, m, o', h, ho', h1⟩
  · cases h
  · cases h
    exact absurd ht N.pre_lp
  · exact h1
  · cases h
    exact absurd rfl (hd _ _)

/-- What follows, if it is an operator. -/
theorem Numbered.fol_op (N : Numbered defs A n op right leaf pre lp rp) {o : String} {i j : Nat}
    (h : Fol op right rp i (some o)) (ho : op j o) : j < i ∨ ¬ right j ∧ j = i := by
  rcases h with h | h | ⟨m, o', h, ho', h1⟩
  · cases h
  · cases h
    exact absurd ho (N.op_rp j)
  · cases h
    cases N.level _ _ _ ho ho'
    exact h1

theorem Numbered.shift_reduce (N : Numbered defs A n op right leaf pre lp rp) (hk : k ≤ n) {γ : List USym}
    {c : Option String} {B : String} {j : Nat} (hs : UWants defs (A k) γ c .shift)
    (hr : UWants defs (A k) γ c (.reduce B j)) : False := by
  obtain ⟨i, hi, rfl, hf, hq⟩ := N.reduces hk hr
  rcases N.shifts hk hs with ⟨m, o, d, hmn, hnr, ho, rfl, e, hm⟩ | ⟨m, o, d, hmn, hnr, ho, rfl, e, hm⟩ |
    ⟨⟨t, rfl⟩, hm⟩ | ⟨d, rfl, e⟩
  · have hfo := N.fol_op hf ho
    rcases hq with ⟨hin, ⟨o', d', h1, h2, -, e'⟩ | ⟨o', d', h1, h2, -, e'⟩ | ⟨d', -, e', h3⟩⟩ |
      ⟨rfl, ⟨t, d', -, -, e'⟩ | ⟨t, d', ht, -, e', hd⟩ | ⟨d', -, e'⟩⟩ <;> rw [e] at e' <;> injection e' with e1 e2
    · injection e1 with e1
      have := N.inj _ _ (by omega) (by omega) e1
      omega
    · injection e1 with e1
      cases N.inj _ _ (by omega) (by omega) e1
      exact hnr h1
    · injection e1 with e1
      have := N.inj _ _ (by omega) (by omega) e1
      omega
    · cases e1
    · injection e1 with e1
      have := N.inj _ _ (by omega) (by omega) e1
      omega
    · cases e1
  · have hfo := N.fol_op hf ho
    rcases hq with ⟨hin, ⟨o', d', h1, h2, -, e'⟩ | ⟨o', d', h1, h2, -, e'⟩ | ⟨d', -, e', h3⟩⟩ |
      ⟨rfl, ⟨t, d', -, -, e'⟩ | ⟨t, d', ht, -, e', hd⟩ | ⟨d', -, e'⟩⟩ <;> rw [e] at e' <;> injection e' with e1 e2
    · injection e1 with e1
      have := N.inj _ _ (by omega) (by omega) e1
      obtain rfl : m = i := by omega
      exact h1 hnr
    · injection e1 with e1
      have := N.inj _ _ (by omega) (by omega) e1
      subst e2
      have := N.may_op hm h2
      omega
    · injection e1 with e1
      have := N.inj _ _ (by omega) (by omega) e1
      obtain rfl : m = i := by omega
      rcases hfo with h | ⟨h, -⟩
      · omega
      · exact h hnr
    · cases e1
    · injection e1 with e1
      have := N.inj _ _ (by omega) (by omega) e1
      subst e2
      have := N.may_pre hm ht hd
      omega
    · cases e1
  · rcases hq with ⟨hin, ⟨o', d', h1, h2, -, e'⟩ | ⟨o', d', h1, h2, -, e'⟩ | ⟨d', -, e', h3⟩⟩ |
      ⟨rfl, ⟨t, d', ht, -, e'⟩ | ⟨t, d', ht, -, e', hd⟩ | ⟨d', -, e'⟩⟩ <;> rw [e'] at hm
    · exact hm.not_nt
    · exact hm.not_nt
    · exact hm.not_nt
    · rcases hm with ⟨h, _⟩ | ⟨_, h⟩ | ⟨_, _, h, hp, _⟩ | ⟨_, _, m, o', h, ho', h1⟩
      · cases h
      · cases h
        exact N.leaf_lp ht
      · cases h
        exact N.pre_leaf _ hp ht
      · cases h
        exact N.op_leaf _ _ ho' ht
    · exact hm.not_nt
    · rcases hm with ⟨h, _⟩ | ⟨_, h⟩ | ⟨_, _, h, hp, _⟩ | ⟨_, _, m, o', h, ho', h1⟩
      · cases h
      · cases h
        exact N.lp_rp rfl
      · cases h
        exact N.pre_rp hp
      · cases h
        exact N.op_rp _ ho'
  · rcases hq with ⟨hin, ⟨o', d', h1, h2, -, e'⟩ | ⟨o', d', h1, h2, -, e'⟩ | ⟨d', -, e', h3⟩⟩ |
      ⟨rfl, ⟨t, d', -, -, e'⟩ | ⟨t, d', ht, -, e', hd⟩ | ⟨d', -, e'⟩⟩ <;> rw [e] at e' <;> injection e' with e1 e2
    · injection e2 with e2
      cases e2
      exact N.op_lp _ h2
    · injection e2 with e2
      cases e2
      exact N.op_lp _ h2
    · injection e1 with e1
      have := N.inj _ _ (by omega) (by omega) e1
      omega
    · cases e1
    · injection e2 with e2
      cases e2
      exact N.pre_lp ht
    · cases e1

theorem Numbered.reduce_reduce (N : Numbered defs A n op right leaf pre lp rp) (hk : k ≤ n) {γ : List USym}
    {c : Option String} {B B' : String} {j j' : Nat} (hr : UWants defs (A k) γ c (.reduce B j))
    (hr' : UWants defs (A k) γ c (.reduce B' j')) : B = B' ∧ j = j' := by
  obtain ⟨i, hi, rfl, hf, hq⟩ := N.reduces hk hr
  obtain ⟨i', hi', rfl, hf', hq'⟩ := N.reduces hk hr'
  rcases hq with ⟨hin, ⟨o, d, h1, h2, h3, e⟩ | ⟨o, d, h1, h2, h3, e⟩ | ⟨d, h3, e, hm⟩⟩ |
      ⟨rfl, ⟨t, d, ht, h3, e⟩ | ⟨t, d, ht, h3, e, hd⟩ | ⟨d, h3, e⟩⟩ <;>
    rcases hq' with ⟨hin', ⟨o', d', h1', h2', h3', e'⟩ | ⟨o', d', h1', h2', h3', e'⟩ | ⟨d', h3', e', hm'⟩⟩ |
      ⟨rfl, ⟨t', d', ht', h3', e'⟩ | ⟨t', d', ht', h3', e', hd'⟩ | ⟨d', h3', e'⟩⟩ <;>
    rw [e] at e' <;> injection e' with e1 e2 <;> first | (cases e1; done) | injection e1 with e1
  · have := N.inj _ _ (by omega) (by omega) e1
    obtain rfl : i = i' := by omega
    injection e2 with e2
    cases e2
    exact ⟨rfl, N.once _ _ _ _ h3 h3'⟩
  · injection e2 with e2
    cases e2
    cases N.level _ _ _ h2 h2'
    exact absurd h1' h1
  · have := N.inj _ _ (by omega) (by omega) e1
    subst e2
    have := N.may_op hm' h2
    rcases this with h | ⟨h, -⟩
    · omega
    · exact absurd h h1
  · injection e2 with e2 e3
    exact absurd e3.symm (hd' _ _)
  · injection e2 with e2
    cases e2
    cases N.level _ _ _ h2 h2'
    exact absurd h1 h1'
  · have := N.inj _ _ (by omega) (by omega) e1
    obtain rfl : i = i' := by omega
    injection e2 with e2
    cases e2
    exact ⟨rfl, N.once _ _ _ _ h3 h3'⟩
  · have := N.inj _ _ (by omega) (by omega) e1
    subst e2
    have := N.may_op hm' h2
    omega
  · injection e2 with e2 e3
    exact absurd e3.symm (hd' _ _)
  · have := N.inj _ _ (by omega) (by omega) e1
    subst e2
    have := N.may_op hm h2'
    rcases this with h | ⟨h, -⟩
    · omega
    · exact absurd h h1'
  · have := N.inj _ _ (by omega) (by omega) e1
    subst e2
    have := N.may_op hm h2'
    omega
  · have := N.inj _ _ (by omega) (by omega) e1
    obtain rfl : i = i' := by omega
    exact ⟨rfl, N.once _ _ _ _ h3 h3'⟩
  · subst e2
    have := N.may_pre hm ht' hd'
    omega
  · subst e1
    exact ⟨rfl, N.once _ _ _ _ h3 h3'⟩
  · subst e1
    exact absurd ht N.leaf_rp
  · injection e2 with e2 e3
    exact absurd e3 (hd _ _)
  · injection e2 with e2 e3
    exact absurd e3 (hd _ _)
  · subst e2
    have := N.may_pre hm' ht hd
    omega
  · cases e2
    exact ⟨rfl, N.once _ _ _ _ h3 h3'⟩
  · subst e1
    exact absurd ht' N.leaf_rp
  · exact ⟨rfl, N.once _ _ _ _ h3 h3'⟩

theorem Numbered.accept_reduce (N : Numbered defs A n op right leaf pre lp rp) (hk : k ≤ n) {γ : List USym}
    {c : Option String} {B : String} {j : Nat} (ha : UWants defs (A k) γ c .accept)
    (hr : UWants defs (A k) γ c (.reduce B j)) : False := by
  obtain ⟨i, hi, rfl, hf, hq⟩ := N.reduces hk hr
  obtain ⟨rfl, rfl⟩ := ha
  rcases hq with ⟨hin, ⟨o, d, h1, h2, h3, e⟩ | ⟨o, d, h1, h2, h3, e⟩ | ⟨d, h3, e, hm⟩⟩ |
      ⟨rfl, ⟨t, d, ht, h3, e⟩ | ⟨t, d, ht, h3, e, hd⟩ | ⟨d, h3, e⟩⟩ <;> injection e with e1 e2
  · cases e2
  · cases e2
  · injection e1 with e1
    have := N.inj _ _ (by omega) (by omega) e1
    subst e2
    rcases hm with ⟨_, h⟩ | ⟨_, h⟩ | ⟨_, _, h, _⟩ | ⟨_, _, _, _, h, _⟩
    · omega
    · cases h
    · cases h
    · cases h
  · cases e1
  · cases e2
  · cases e1

/-- No two moves conflict. -/
theorem Numbered.moves (N : Numbered defs A n op right leaf pre lp rp) (hk : k ≤ n) {γ : List USym}
    {c : Option String} {m m' : UMove} (h : UWants defs (A k) γ c m) (h' : UWants defs (A k) γ c m') : m = m' := by
  have sa : UWants defs (A k) γ c .shift → UWants defs (A k) γ c .accept → False := by
    rintro ⟨_, _, _, _, _, _, _, _, _, _, _, e⟩ ⟨_, e'⟩
    rw [e] at e'
    cases e'
  cases m <;> cases m'
  · rfl
  · exact (N.shift_reduce hk h h').elim
  · exact (sa h h').elim
  · exact (N.shift_reduce hk h' h).elim
  · obtain ⟨rfl, rfl⟩ := N.reduce_reduce hk h h'
    rfl
  · exact (N.accept_reduce hk h' h).elim
  · exact (sa h' h).elim
  · exact (N.accept_reduce hk h h').elim
  · rfl

end

end Parsegen
