import Verif.Proofs.LeftRec
import Verif.Proofs.FollowSets

/-! # Hidden left recursion and cycles, in terms of derivations -/

namespace Parsegen

open Relation

variable {X Ty : Type} {g : Grammar X Ty} {e : Nat}

/-- `y` occurs in a sentential form of `x`, with `μ` before it and `β` after it, and nothing else has been
replaced. -/
inductive Grammar.Ctx (g : Grammar X Ty) (x : Nat) : List Symbol → Nat → List Symbol → Prop
  | root : g.Ctx x [] x []
  | child {μ y β p ν z τ} (h : g.Ctx x μ y β) (hp : g.HasProd y p (ν ++ .nonTerminal z :: τ)) :
      g.Ctx x (μ ++ ν) z (τ ++ β)

theorem Grammar.Ctx.spine {x y : Nat} {μ β : List Symbol} (h : g.Ctx x μ y β) : g.Spine x μ y := by
  induction h with
  | root => exact .root
  | child _ hp ih => exact ih.child hp

/-- Where an occurrence in a sentential form comes from. -/
theorem Grammar.Derives.ctx {x : Nat} {w : List Symbol} (h : g.Derives [.nonTerminal x] w) :
    ∀ {μ β : List Symbol} {y : Nat}, w = μ ++ .nonTerminal y :: β →
      ∃ μ' β', g.Ctx x μ' y β' ∧ g.Derives μ' μ ∧ g.Derives β' β := by
  induction h with
  | refl =>
    intro μ β y hw
    cases μ with
    | nil => cases hw; exact ⟨[], [], .root, .refl _, .refl _⟩
    | cons s μ => simp at hw
  | tail h s ih =>
    intro μ β y hw
    obtain ⟨l, r, rhs, nt, p, hp⟩ := s
    rw [List.append_assoc] at hw
    -- an occurrence in `r`
    have right : ∀ b, r = b ++ .nonTerminal y :: β → μ = l ++ rhs ++ b →
        ∃ μ' β', g.Ctx x μ' y β' ∧ g.Derives μ' μ ∧ g.Derives β' β := by
      rintro b rfl rfl
      obtain ⟨μ', β', h1, h2, h3⟩ := ih (μ := l ++ .nonTerminal nt :: b) (β := β) (y := y) (by simp)
      refine ⟨μ', β', h1, h2.trans ?_, h3⟩
      exact .single (.mk l b rhs nt p hp)
    -- an occurrence in `rhs`
    have mid : ∀ a b, rhs = a ++ .nonTerminal y :: b → μ = l ++ a → β = b ++ r →
        ∃ μ' β', g.Ctx x μ' y β' ∧ g.Derives μ' μ ∧ g.Derives β' β := by
      rintro a b rfl rfl rfl
      obtain ⟨μ', β', h1, h2, h3⟩ := ih (μ := l) (β := r) (y := nt) rfl
      exact ⟨μ' ++ a, b ++ β', h1.child hp, h2.append_right a, h3.append_left b⟩
    rcases List.append_eq_append_iff.1 hw with ⟨a, rfl, ha⟩ | ⟨a, rfl, ha⟩
    · rcases List.append_eq_append_iff.1 ha with ⟨b, rfl, hb⟩ | ⟨b, hb1, hb2⟩
      · exact right b hb (by simp)
      · cases b with
        | nil => exact right [] (by simpa using hb2.symm) (by simp at hb1; simp [hb1])
        | cons s b =>
          simp only [List.cons_append, List.cons.injEq] at hb2
          obtain ⟨rfl, hb2⟩ := hb2
          exact mid a b hb1 rfl hb2
    · cases a with
      | nil =>
        simp only [List.nil_append] at ha
        cases rhs with
        | nil => exact right [] (by simpa using ha.symm) (by simp)
        | cons s rhs =>
          simp only [List.cons_append, List.cons.injEq] at ha
          obtain ⟨rfl, ha⟩ := ha
          exact mid [] rhs rfl (by simp) ha
      | cons s a =>
        simp only [List.cons_append, List.cons.injEq] at ha
        obtain ⟨rfl, rfl⟩ := ha
        obtain ⟨μ', β', h1, h2, h3⟩ := ih (μ := μ) (β := a ++ .nonTerminal nt :: r) (y := y) (by simp)
        refine ⟨μ', β', h1, h2, h3.trans ?_⟩
        have := Grammar.Derives.single (Grammar.Produces.mk (g := g) a r rhs nt p hp)
        simpa using this

theorem Grammar.Derives.nil_eq {w : List Symbol} (h : g.Derives [] w) : w = [] := by
  induction h with
  | refl => rfl
  | tail _ s ih =>
    obtain ⟨l, r, rhs, nt, p, hp⟩ := s
    simp at ih

theorem Grammar.Derives.terminal_eq {t : Nat} {w : List Symbol} (h : g.Derives [.terminal t] w) :
    w = [.terminal t] := by
  induction h with
  | refl => rfl
  | tail _ s ih =>
    obtain ⟨l, r, rhs, nt, p, hp⟩ := s
    cases l with
    | nil => simp at ih
    | cons a l => simp at ih

/-- Symbols on a spine are symbols of right-hand sides. -/
theorem Grammar.Spine.mem {x y : Nat} {μ : List Symbol} (h : g.Spine x μ y) :
    ∀ s ∈ μ, ∃ nt p α, g.HasProd nt p α ∧ s ∈ α := by
  induction h with
  | root => intro s hs; simp at hs
  | @child μ Y p ν Z β h hp ih =>
    intro s hs
    rcases List.mem_append.1 hs with hs | hs
    · exact ih s hs
    · exact ⟨Y, p, _, hp, by simp [hs]⟩

theorem derives_nil_mem {α : List Symbol} (h : g.Derives α []) :
    ∀ s ∈ α, ∃ b, s = .nonTerminal b ∧ g.Nullable b := by
  induction α with
  | nil => intro s hs; simp at hs
  | cons s α ih =>
    obtain ⟨w1, w2, hw, h1, h2⟩ := h.split (u := [s]) (v := α) rfl
    obtain ⟨rfl, rfl⟩ := List.append_eq_nil_iff.1 hw.symm
    intro s' hs'
    rcases List.mem_cons.1 hs' with rfl | hs'
    · cases s' with
      | terminal t =>
        exact absurd h1.terminal_eq (by simp)
      | nonTerminal b => exact ⟨b, rfl, h1⟩
    · exact ih h2 s' hs'

/-- Symbols of right-hand sides that derive the empty string are flagged. -/
theorem flagged_of_nil (hwf : g.WF) {μ : List Symbol} (h : g.Derives μ [])
    (hm : ∀ s ∈ μ, ∃ nt p α, g.HasProd nt p α ∧ s ∈ α) : AllFlagged g.justFirst μ := by
  intro s hs
  obtain ⟨b, rfl, hb⟩ := derives_nil_mem h s hs
  obtain ⟨nt, p, α, hp, hmem⟩ := hm _ hs
  exact ⟨b, rfl, ((Grammar.justFirst_closed hwf).complete hwf).empty b (hwf.nt_lt hp hmem)
    (hwf.nt_priv hp hmem) hb⟩

/-- Every non-terminal derives some terminal string. -/
def Grammar.AllProductive (g : Grammar X Ty) : Prop :=
  ∀ b, b < g.nNonTerminals → g.isPublic b = false → ∃ inp, g.Sentence b inp

theorem Grammar.AllProductive.nonempty (hwf : g.WF) (hP : g.AllProductive) :
    FirstNonemptyAll g g.justFirst := by
  have hF := (Grammar.justFirst_closed hwf).complete hwf
  intro b hb hpriv
  obtain ⟨inp, h⟩ := hP b hb hpriv
  cases inp with
  | nil => exact Or.inl (hF.empty b hb hpriv h)
  | cons t inp => exact Or.inr ⟨t, hF.terminals b t hb hpriv ⟨inp.map .terminal, h⟩⟩

theorem LR1At.acc (hwf : g.WF) (hlr : LR1At g e) (he : g.isPublic e = true) (hP : g.AllProductive)
    (c : Option Nat) (γ : List Symbol) : Acc (LRed g g.justFirst e c) γ :=
  stop_guided hwf (Grammar.justFirst_justified hwf) ((hP.nonempty hwf).some hwf) (hlr.guided hwf he) he γ

/-- A non-terminal on a spine from the entry point is expected in some state. -/
theorem Grammar.Spine.exp (hwf : g.WF) (hN : FirstNonemptyAll g g.justFirst) (he : g.isPublic e = true)
    {δ : List Symbol} {x : Nat} (h : g.Spine e δ x) (hx : x ≠ e) :
    ∃ la τ, Exp g g.justFirst e δ x la τ := by
  obtain ⟨_, b, hb⟩ := hwf.pub he
  have h0 : Exp g g.justFirst e [] b none [] := ⟨e, 0, [], .entry, hb⟩
  have key : ∀ {δ x}, g.Spine e δ x → x = e ∧ δ = [] ∨ g.Spine b δ x := by
    intro δ x h
    induction h with
    | root => exact .inl ⟨rfl, rfl⟩
    | @child μ Y p ν Z β h hp ih =>
      rcases ih with ⟨rfl, rfl⟩ | ih
      · have hp0 : p = 0 := by have := hp.lt; have := (hwf.pub he).1; omega
        subst hp0
        have := hp.rhs_eq.symm.trans hb.rhs_eq
        cases ν with
        | nil => cases this; exact .inr .root
        | cons a ν => simp at this
      · exact .inr (ih.child hp)
  rcases key h with ⟨h1, _⟩ | h1
  · exact absurd h1 hx
  · simpa using h0.spine hwf hN h1

theorem Grammar.Spine.entry_eq (hwf : g.WF) (he : g.isPublic e = true) {x : Nat} {μ : List Symbol}
    (h : g.Spine x μ e) : x = e ∧ μ = [] := by
  cases h with
  | root => exact ⟨rfl, rfl⟩
  | child h hp => exact absurd (hwf.nt_priv hp (b := e) (by simp)) (by simp [he])

/-- No hidden left recursion. -/
theorem LR1At.no_hidden (hwf : g.WF) (hlr : LR1At g e) (he : g.isPublic e = true) (hP : g.AllProductive)
    {δ : List Symbol} {x : Nat} (hr : g.Spine e δ x) {μ : List Symbol} (hs : g.Spine x μ x)
    (hμ : g.Derives μ []) : μ = [] := by
  have hN := hP.nonempty hwf
  by_cases hx : x = e
  · subst hx; exact (hs.entry_eq hwf he).2
  · obtain ⟨la, τ, h⟩ := hr.exp hwf hN he hx
    exact Parsegen.no_hidden hwf (Grammar.justFirst_justified hwf) (Grammar.justFirst_closed hwf) hN
      (hlr.acc hwf he hP) h hs (flagged_of_nil hwf hμ hs.mem)

/-- A production with one non-terminal, everything else in it deriving the empty string. -/
def Chain0 (g : Grammar X Ty) (x z : Nat) : Prop :=
  ∃ p w1 w2, g.HasProd x p (w1 ++ .nonTerminal z :: w2) ∧ g.Derives w1 [] ∧ g.Derives w2 []

theorem derives_single {y : Nat} : ∀ {w : List Symbol}, g.Derives w [.nonTerminal y] →
    ∃ w1 z w2, w = w1 ++ .nonTerminal z :: w2 ∧ g.Derives w1 [] ∧ g.Derives w2 [] ∧
      g.Derives [.nonTerminal z] [.nonTerminal y] := by
  intro w h
  induction w with
  | nil => exact absurd h.nil_eq (by simp)
  | cons s w ih =>
    obtain ⟨v1, v2, hv, h1, h2⟩ := h.split (u := [s]) (v := w) rfl
    cases v1 with
    | nil =>
      simp only [List.nil_append] at hv
      rw [← hv] at h2
      obtain ⟨w1, z, w2, rfl, h3, h4, h5⟩ := ih h2
      refine ⟨s :: w1, z, w2, rfl, ?_, h4, h5⟩
      simpa using h1.append h3
    | cons a v1 =>
      simp only [List.cons_append, List.cons.injEq] at hv
      obtain ⟨rfl, hv⟩ := hv
      obtain ⟨rfl, rfl⟩ := List.append_eq_nil_iff.1 hv.symm
      cases s with
      | terminal t =>
        exact absurd h1.terminal_eq (by simp)
      | nonTerminal z => exact ⟨[], z, w, rfl, .refl _, h2, h1⟩

theorem derives_nil_append {α β : List Symbol} (h : g.Derives (α ++ β) []) :
    g.Derives α [] ∧ g.Derives β [] := by
  obtain ⟨w1, w2, hw, h1, h2⟩ := h.split (u := α) (v := β) rfl
  obtain ⟨rfl, rfl⟩ := List.append_eq_nil_iff.1 hw.symm
  exact ⟨h1, h2⟩

theorem Grammar.Ctx.chain {x y : Nat} {μ β : List Symbol} (h : g.Ctx x μ y β) (hμ : g.Derives μ [])
    (hβ : g.Derives β []) : ReflTransGen (Chain0 g) x y := by
  induction h with
  | root => exact .refl
  | @child μ y β p ν z τ _ hp ih =>
    obtain ⟨h1, h2⟩ := derives_nil_append hμ
    obtain ⟨h3, h4⟩ := derives_nil_append hβ
    exact (ih h1 h4).tail ⟨p, ν, τ, hp, h2, h3⟩

/-- A derivation of a non-terminal from itself, step by step. -/
theorem chain_of_cycle {x y : Nat} {w : List Symbol} (h1 : g.Produces [.nonTerminal x] w)
    (h2 : g.Derives w [.nonTerminal y]) : TransGen (Chain0 g) x y := by
  obtain ⟨w1, z, w2, rfl, h3, h4, h5⟩ := derives_single h2
  obtain ⟨μ, β, h6, h7, h8⟩ := h5.ctx (μ := []) (β := []) rfl
  refine TransGen.head' ?_ (h6.chain h7 h8)
  generalize hx : [Symbol.nonTerminal x] = x' at h1
  generalize hw : w1 ++ Symbol.nonTerminal z :: w2 = w at h1
  obtain ⟨l, r, rhs, nt, p, hp⟩ := h1
  cases l with
  | nil =>
    simp only [List.nil_append, List.cons.injEq, Symbol.nonTerminal.injEq] at hx
    obtain ⟨rfl, rfl⟩ := hx
    simp only [List.nil_append, List.append_nil] at hw
    subst hw
    exact ⟨p, w1, w2, hp, h3, h4⟩
  | cons a l => simp at hx

/-- A chain, seen as a spine: no symbols before any of its non-terminals, or hidden left recursion. -/
theorem chain_spine (hwf : g.WF) {x y : Nat} (h : TransGen (Chain0 g) x y) :
    ∃ μ, g.Spine x μ y ∧ g.Derives μ [] ∧ (μ = [] → TransGen (Chain1 g g.justFirst) x y) := by
  have step : ∀ {x y}, Chain0 g x y → ∃ μ, g.Spine x μ y ∧ g.Derives μ [] ∧
      (μ = [] → Chain1 g g.justFirst x y) := by
    rintro x y ⟨p, w1, w2, hp, h1, h2⟩
    refine ⟨w1, by simpa using Grammar.Spine.root.child hp, h1, ?_⟩
    rintro rfl
    exact ⟨p, w2, hp, flagged_of_nil hwf h2 fun s hs => ⟨x, p, _, hp, by simp [hs]⟩⟩
  induction h with
  | single h =>
    obtain ⟨μ, h1, h2, h3⟩ := step h
    exact ⟨μ, h1, h2, fun h => .single (h3 h)⟩
  | tail _ h ih =>
    obtain ⟨μ, h1, h2, h3⟩ := ih
    obtain ⟨ν, h4, h5, h6⟩ := step h
    refine ⟨μ ++ ν, h1.trans h4, by simpa using h2.append h5, fun h => ?_⟩
    obtain ⟨rfl, rfl⟩ := List.append_eq_nil_iff.1 h
    exact (h3 rfl).tail (h6 rfl)

/-- No cycles. -/
theorem LR1At.no_chain (hwf : g.WF) (hlr : LR1At g e) (he : g.isPublic e = true) (hP : g.AllProductive)
    {δ : List Symbol} {x : Nat} (hr : g.Spine e δ x) : ¬ TransGen (Chain0 g) x x := by
  intro h
  obtain ⟨μ, h1, h2, h3⟩ := chain_spine hwf h
  have hμ := hlr.no_hidden hwf he hP hr h1 h2
  have hN := hP.nonempty hwf
  by_cases hx : x = e
  · subst hx
    obtain ⟨z, hz⟩ : ∃ z, Chain0 g z x := by
      cases h with
      | single h => exact ⟨_, h⟩
      | tail _ h => exact ⟨_, h⟩
    obtain ⟨p, w1, w2, hp, _⟩ := hz
    exact absurd (hwf.nt_priv hp (b := x) (by simp)) (by simp [he])
  · obtain ⟨la, τ, hex⟩ := hr.exp hwf hN he hx
    exact Parsegen.no_chain hwf (Grammar.justFirst_justified hwf) hN (hlr.acc hwf he hP) hex (h3 hμ)

/-- A production in which everything but one non-terminal derives the empty string lies on no cycle, and
nothing can be put before a non-terminal in its own derivations that derives the empty string. -/
theorem LR1At.derives (hwf : g.WF) (hlr : LR1At g e) (he : g.isPublic e = true) (hP : g.AllProductive)
    {α β : List Symbol} {x : Nat} (hr : g.Derives [.nonTerminal e] (α ++ .nonTerminal x :: β)) :
    (∀ {μ ν}, g.Derives [.nonTerminal x] (μ ++ .nonTerminal x :: ν) → g.Derives μ [] → μ = []) ∧
    ∀ {w}, g.Produces [.nonTerminal x] w → ¬ g.Derives w [.nonTerminal x] := by
  obtain ⟨δ, _, hc, _⟩ := hr.ctx rfl
  refine ⟨fun {μ ν} h hμ => ?_, fun {w} h1 h2 => hlr.no_chain hwf he hP hc.spine (chain_of_cycle h1 h2)⟩
  obtain ⟨μ', _, h1, h2, _⟩ := h.ctx rfl
  obtain rfl := hlr.no_hidden hwf he hP hc.spine h1.spine (h2.trans hμ)
  exact h2.nil_eq

end Parsegen
