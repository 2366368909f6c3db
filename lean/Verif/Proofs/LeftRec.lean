import Mathlib.Logic.Relation
import Verif.Proofs.Stops

/-! # LR(1) grammars have no hidden left recursion and no cycles -/

namespace Parsegen

open Relation

variable {X Ty : Type} {g : Grammar X Ty} {F : FirstTable} {e : Nat} {c : Option Nat}

/-- A reduction by a complete LR(1) item with lookahead `c`. -/
def LRed (g : Grammar X Ty) (F : FirstTable) (e : Nat) (c : Option Nat) (γ' γ : List Symbol) : Prop :=
  ∃ γ0 b p α, γ = γ0 ++ α ∧ γ' = γ0 ++ [.nonTerminal b] ∧ g.HasProd b p α ∧ g.isPublic b = false ∧
    ItemsAt g F e γ ⟨b, p, α.length, c⟩

/-- The moves asked for at entry point `e` never conflict. -/
def LR1At (g : Grammar X Ty) (e : Nat) : Prop :=
  ∀ γ c m m', g.Wants (g.Valid e γ) c m → g.Wants (g.Valid e γ) c m' → m = m'

theorem LR1At.guided (hwf : g.WF) (hlr : LR1At g e) (he : g.isPublic e = true) :
    Guided g g.justFirst e (LRed g g.justFirst e) := by
  have hs := Grammar.justFirst_sound hwf
  constructor
  · rintro c γ α γ' b p hit hp hpriv ⟨γ0, b', p', α', e1, rfl, hp', hpriv', hit'⟩
    have := hlr (γ ++ α) c (.reduce b p) (.reduce b' p')
      ⟨α, hit.valid hs hwf he, hp, hpriv⟩ ⟨α', hit'.valid hs hwf he, hp', hpriv'⟩
    cases this
    have e2 : α = α' := hp.rhs_eq.symm.trans hp'.rhs_eq
    subst e2
    rw [List.append_cancel_right e1]
  · rintro γ γ' α β nt p t la hit hp ⟨γ0, b', p', α', rfl, rfl, hp', hpriv', hit'⟩
    have := hlr _ (some t) .shift (.reduce b' p')
      ⟨nt, p, α, t, β, la, hit.valid hs hwf he, hp, rfl⟩ ⟨α', hit'.valid hs hwf he, hp', hpriv'⟩
    cases this
  · rintro γ γ' hit ⟨γ0, b', p', α', rfl, rfl, hp', hpriv', hit'⟩
    obtain ⟨_, b, hb⟩ := hwf.pub he
    have := hlr _ none .accept (.reduce b' p')
      ⟨e, 0, [.nonTerminal b], hit.valid hs hwf he, hb, he, rfl⟩ ⟨α', hit'.valid hs hwf he, hp', hpriv'⟩
    cases this
  · rintro c γ γ' ⟨γ0, b, p, α, rfl, rfl, hp, hpriv, hv⟩
    exact ⟨γ0, b, p, α, rfl, rfl, hp, hpriv, hv⟩

/-- Reading `x`, which derives the empty string, without moving in the input. -/
theorem null_run (hwf : g.WF) {x : Nat} (hj : JNull g F x) : ∀ {γ nt p δ β la},
    ItemsAt g F e γ ⟨nt, p, δ.length, la⟩ → g.HasProd nt p (δ ++ .nonTerminal x :: β) →
    InFirst F la β c → TransGen (LRed g F e c) (γ ++ [.nonTerminal x]) γ := by
  induction hj with
  | @mk x q α hq hf hj ih =>
    intro γ nt p δ β la hit hp hc
    have hpriv := hwf.nt_priv hp (b := x) (by simp)
    have h0 : ItemsAt g F e γ ⟨x, q, 0, c⟩ := .pred hit hp hq hc
    have key : ∀ α2 α1, α = α1 ++ α2 → ItemsAt g F e (γ ++ α1) ⟨x, q, α1.length, c⟩ →
        TransGen (LRed g F e c) (γ ++ [.nonTerminal x]) (γ ++ α1) := by
      intro α2
      induction α2 with
      | nil =>
        intro α1 hα hi
        rw [List.append_nil] at hα
        subst hα
        exact .single ⟨γ, x, q, α, rfl, rfl, hq, hpriv, hi⟩
      | cons s α2 ih2 =>
        intro α1 hα hi
        subst hα
        obtain ⟨b, rfl, hb⟩ := hf s (by simp)
        have h1 : TransGen (LRed g F e c) (γ ++ α1 ++ [.nonTerminal b]) (γ ++ α1) := by
          refine ih b (by simp) hi hq ?_
          have := InFirst.flagged (F := F) (ν := α2) (β := []) (la := c) (c := c)
            (fun s' hs' => hf s' (by simp [hs'])) .nil
          simpa using this
        have h2 := ih2 (α1 ++ [.nonTerminal b]) (by simp) (by simpa using ItemsAt.advance hi hq)
        refine TransGen.trans h2 ?_
        simpa using h1
    simpa using key α [] rfl (by simpa using h0)

theorem null_run_list (hwf : g.WF) (hJ : Justified g F) {γ nt p δ ν β la}
    (hit : ItemsAt g F e γ ⟨nt, p, δ.length, la⟩) (hp : g.HasProd nt p (δ ++ ν ++ β))
    (hν : AllFlagged F ν) (hc : InFirst F la β c) :
    ReflTransGen (LRed g F e c) (γ ++ ν) γ ∧ (ν ≠ [] → TransGen (LRed g F e c) (γ ++ ν) γ) := by
  induction ν generalizing γ δ with
  | nil => exact ⟨by simpa using ReflTransGen.refl, fun h => absurd rfl h⟩
  | cons s ν ih =>
    obtain ⟨b, rfl, hb⟩ := hν s (by simp)
    have hν' : AllFlagged F ν := fun s' hs' => hν s' (by simp [hs'])
    have h1 := null_run hwf (hJ.null b hb) hit (β := ν ++ β) (by simpa using hp) (hc.flagged hν')
    have h2 := (ih (γ := γ ++ [.nonTerminal b]) (δ := δ ++ [.nonTerminal b])
      (by simpa using ItemsAt.advance (β := ν ++ β) hit (by simpa using hp)) (by simpa using hp) hν').1
    have h3 := TransGen.trans_right h2 h1
    have h4 : TransGen (LRed g F e c) (γ ++ .nonTerminal b :: ν) γ := by simpa using h3
    exact ⟨h4.to_reflTransGen, fun _ => h4⟩

/-- `Y` can be expected right after `μ`, in what `X` derives. -/
inductive Grammar.Spine (g : Grammar X Ty) (b : Nat) : List Symbol → Nat → Prop
  | root : g.Spine b [] b
  | child {μ Y p ν Z β} (h : g.Spine b μ Y) (hp : g.HasProd Y p (ν ++ .nonTerminal Z :: β)) :
      g.Spine b (μ ++ ν) Z

theorem Grammar.Spine.trans {a b d : Nat} {μ ν : List Symbol} (h1 : g.Spine a μ b) (h2 : g.Spine b ν d) :
    g.Spine a (μ ++ ν) d := by
  induction h2 with
  | root => simpa using h1
  | child _ hp ih => simpa [← List.append_assoc] using ih.child hp

/-- `x` is expected in state `γ`. -/
def Exp (g : Grammar X Ty) (F : FirstTable) (e : Nat) (γ : List Symbol) (x : Nat) (la : Option Nat)
    (τ : List Symbol) : Prop :=
  ∃ nt p σ, ItemsAt g F e γ ⟨nt, p, σ.length, la⟩ ∧ g.HasProd nt p (σ ++ .nonTerminal x :: τ)

theorem Exp.priv (hwf : g.WF) {γ : List Symbol} {x : Nat} {la : Option Nat} {τ : List Symbol}
    (h : Exp g F e γ x la τ) : g.isPublic x = false ∧ x < g.nNonTerminals := by
  obtain ⟨nt, p, σ, _, hp⟩ := h
  exact ⟨hwf.nt_priv hp (by simp), hwf.nt_lt hp (by simp)⟩

theorem Exp.spine {γ : List Symbol} {x y : Nat} {la : Option Nat} {τ μ : List Symbol} (hwf : g.WF)
    (hN : FirstNonemptyAll g F) (h : Exp g F e γ x la τ) (hs : g.Spine x μ y) :
    ∃ la' τ', Exp g F e (γ ++ μ) y la' τ' := by
  induction hs with
  | root => exact ⟨la, τ, by simpa using h⟩
  | @child μ Y q ν Z β _ hq ih =>
    obtain ⟨la', τ', nt, p, σ, hit, hp⟩ := ih
    obtain ⟨d, hd⟩ := InFirst.exists (hN.some hwf) (α := σ) (c := Y) (β := τ') (by simpa using hp) la'
    have h0 : ItemsAt g F e (γ ++ μ) ⟨Y, q, ([] : List Symbol).length, d⟩ := .pred hit hp hq hd
    have h1 := h0.advance_list (ν := ν) (β := .nonTerminal Z :: β) (by simpa using hq)
    exact ⟨d, β, Y, q, [] ++ ν, by simpa using h1, by simpa using hq⟩

/-- The parser reads over `μ` when it sees what `y` begins with. -/
theorem spine_run_first (hwf : g.WF) (hJ : Justified g F) (hC : FirstClosed g F) (hN : FirstNonemptyAll g F)
    {γ : List Symbol} {x y : Nat} {la : Option Nat} {τ μ : List Symbol} (h : Exp g F e γ x la τ)
    (hs : g.Spine x μ y) (hμ : AllFlagged F μ) {t : Nat} (ht : t ∈ (F.get y).terminals) :
    ReflTransGen (LRed g F e (some t)) (γ ++ μ) γ ∧
      (μ ≠ [] → TransGen (LRed g F e (some t)) (γ ++ μ) γ) := by
  induction hs with
  | root => exact ⟨by simpa using ReflTransGen.refl, fun h => absurd rfl h⟩
  | @child μ Y q ν Z β hs hq ih =>
    obtain ⟨hμ1, hν⟩ := allFlagged_append.1 hμ
    obtain ⟨la', τ', hY⟩ := h.spine hwf hN hs
    have hpriv := (hY.priv hwf).1
    obtain ⟨nt, p, σ, hit, hp⟩ := hY
    have ih := ih hμ1 (hC.nonTerm hpriv hq hν ht)
    obtain ⟨d, hd⟩ := InFirst.exists (hN.some hwf) (α := σ) (c := Y) (β := τ') (by simpa using hp) la'
    have h0 : ItemsAt g F e (γ ++ μ) ⟨Y, q, ([] : List Symbol).length, d⟩ := .pred hit hp hq hd
    have h1 := null_run_list (c := some t) hwf hJ h0 (ν := ν) (β := .nonTerminal Z :: β)
      (by simpa using hq) hν (.nt ht)
    rw [List.append_assoc] at h1
    refine ⟨h1.1.trans ih.1, fun hne => ?_⟩
    by_cases hν0 : ν = []
    · subst hν0
      have : μ ≠ [] := by rintro rfl; exact hne rfl
      simpa using ih.2 this
    · exact TransGen.trans_left (h1.2 hν0) ih.1

/-- A non-terminal that begins with no terminal derives the empty string only. -/
theorem only_empty (hwf : g.WF) (hC : FirstClosed g F) (hN : FirstNonemptyAll g F) {y : Nat}
    (hpriv : g.isPublic y = false) (hy : ∀ t, t ∉ (F.get y).terminals) {q : Nat} {α : List Symbol}
    (hq : g.HasProd y q α) : AllFlagged F α ∧ ∀ z, .nonTerminal z ∈ α → ∀ t, t ∉ (F.get z).terminals := by
  have key : ∀ α2 α1, α = α1 ++ α2 → AllFlagged F α1 → AllFlagged F α2 ∧
      ∀ z, .nonTerminal z ∈ α2 → ∀ t, t ∉ (F.get z).terminals := by
    intro α2
    induction α2 with
    | nil => intro α1 _ _; exact ⟨allFlagged_nil, fun z hz => by simp at hz⟩
    | cons s α2 ih =>
      intro α1 hα h1
      subst hα
      cases s with
      | terminal t => exact absurd (hC.term hpriv hq h1) (hy t)
      | nonTerminal b =>
        have hb : ∀ t, t ∉ (F.get b).terminals := fun t ht => hy t (hC.nonTerm hpriv hq h1 ht)
        have he : (F.get b).empty = true := by
          rcases hN b (hwf.nt_lt hq (by simp)) (hwf.nt_priv hq (by simp)) with h | ⟨t, h⟩
          · exact h
          · exact absurd h (hb t)
        obtain ⟨h2, h3⟩ := ih (α1 ++ [.nonTerminal b]) (by simp) (h1.append (.single he))
        refine ⟨(AllFlagged.single he).append h2, fun z hz => ?_⟩
        rcases List.mem_cons.1 hz with hz | hz
        · cases hz; exact hb
        · exact h3 z hz
  exact key α [] rfl allFlagged_nil

/-- The parser reads over `μ` when it sees what follows, `x` deriving the empty string only. -/
theorem spine_run_empty (hwf : g.WF) (hJ : Justified g F) (hC : FirstClosed g F) (hN : FirstNonemptyAll g F)
    {γ : List Symbol} {x y : Nat} {la : Option Nat} {τ μ : List Symbol} (h : Exp g F e γ x la τ)
    (hc : InFirst F la τ c) (hx : ∀ t, t ∉ (F.get x).terminals)
    (hs : g.Spine x μ y) :
    (∃ la' τ', Exp g F e (γ ++ μ) y la' τ' ∧ InFirst F la' τ' c) ∧ (∀ t, t ∉ (F.get y).terminals) ∧
    ReflTransGen (LRed g F e c) (γ ++ μ) γ ∧ (μ ≠ [] → TransGen (LRed g F e c) (γ ++ μ) γ) := by
  induction hs with
  | root =>
    exact ⟨⟨la, τ, by simpa using h, hc⟩, hx, by simpa using ReflTransGen.refl, fun h => absurd rfl h⟩
  | @child μ Y q ν Z β hs hq ih =>
    obtain ⟨⟨la', τ', hY, hc'⟩, hYt, ih1, ih2⟩ := ih
    have hpriv := (hY.priv hwf).1
    obtain ⟨nt, p, σ, hit, hp⟩ := hY
    obtain ⟨h1, h2⟩ := only_empty hwf hC hN hpriv hYt hq
    obtain ⟨hν, h3⟩ := allFlagged_append.1 h1
    have h4 : InFirst F c (.nonTerminal Z :: β) c := by
      simpa using InFirst.flagged (F := F) (ν := .nonTerminal Z :: β) (β := []) (la := c) (c := c) h3 .nil
    have h5 : InFirst F c β c := by
      simpa using InFirst.flagged (F := F) (ν := β) (β := []) (la := c) (c := c)
        (fun s hs => h3 s (by simp [hs])) .nil
    have h0 : ItemsAt g F e (γ ++ μ) ⟨Y, q, ([] : List Symbol).length, c⟩ := .pred hit hp hq hc'
    have h6 := null_run_list (c := c) hwf hJ h0 (ν := ν) (β := .nonTerminal Z :: β)
      (by simpa using hq) hν h4
    have h7 := h0.advance_list (ν := ν) (β := .nonTerminal Z :: β) (by simpa using hq)
    rw [List.append_assoc] at h6
    refine ⟨⟨c, β, ⟨Y, q, [] ++ ν, by simpa using h7, by simpa using hq⟩, h5⟩, h2 Z (by simp),
      h6.1.trans ih1, fun hne => ?_⟩
    by_cases hν0 : ν = []
    · subst hν0
      have : μ ≠ [] := by rintro rfl; exact hne rfl
      simpa using ih2 this
    · exact TransGen.trans_left (h6.2 hν0) ih1

/-- No hidden left recursion. -/
theorem no_hidden (hwf : g.WF) (hJ : Justified g F) (hC : FirstClosed g F) (hN : FirstNonemptyAll g F)
    (hacc : ∀ c γ, Acc (LRed g F e c) γ) {γ : List Symbol} {x : Nat} {la : Option Nat} {τ μ : List Symbol}
    (h : Exp g F e γ x la τ) (hs : g.Spine x μ x) (hμ : AllFlagged F μ) : μ = [] := by
  by_contra hne
  by_cases ht : ∃ t, t ∈ (F.get x).terminals
  · obtain ⟨t, ht⟩ := ht
    have key : ∀ γ, Acc (TransGen (LRed g F e (some t))) γ → ∀ la τ, Exp g F e γ x la τ → False := by
      intro γ ha
      induction ha with
      | intro γ _ ih =>
        intro la τ h
        obtain ⟨la', τ', h'⟩ := h.spine hwf hN hs
        exact ih _ ((spine_run_first hwf hJ hC hN h hs hμ ht).2 hne) la' τ' h'
    exact key γ (hacc _ _).transGen la τ h
  · have ht' : ∀ t, t ∉ (F.get x).terminals := fun t h => ht ⟨t, h⟩
    obtain ⟨d, hd⟩ : ∃ d, InFirst F la τ d := by
      obtain ⟨nt, p, σ, hit, hp⟩ := h
      exact InFirst.exists (hN.some hwf) (α := σ) (c := x) (β := τ) (by simpa using hp) la
    have key : ∀ γ, Acc (TransGen (LRed g F e d)) γ → ∀ la τ, Exp g F e γ x la τ → InFirst F la τ d →
        False := by
      intro γ ha
      induction ha with
      | intro γ _ ih =>
        intro la τ h hd
        obtain ⟨⟨la', τ', h1, h2⟩, _, _, h3⟩ := spine_run_empty hwf hJ hC hN h hd ht' hs
        exact ih _ (h3 hne) la' τ' h1 h2
    exact key γ (hacc _ _).transGen la τ h hd

/-- A production that begins with a non-terminal and derives the empty string after it. -/
def Chain1 (g : Grammar X Ty) (F : FirstTable) (x z : Nat) : Prop :=
  ∃ p ν, g.HasProd x p (.nonTerminal z :: ν) ∧ AllFlagged F ν

theorem chain_run (hwf : g.WF) (hJ : Justified g F) {γ : List Symbol} {x z : Nat} {la : Option Nat}
    {τ : List Symbol} (h : Exp g F e γ x la τ) (hc : InFirst F la τ c) (hs : TransGen (Chain1 g F) x z) :
    (∃ la' τ', Exp g F e γ z la' τ' ∧ InFirst F la' τ' c) ∧
    TransGen (LRed g F e c) (γ ++ [.nonTerminal x]) (γ ++ [.nonTerminal z]) := by
  have step : ∀ {x z la τ}, Exp g F e γ x la τ → InFirst F la τ c → Chain1 g F x z →
      (∃ la' τ', Exp g F e γ z la' τ' ∧ InFirst F la' τ' c) ∧
      TransGen (LRed g F e c) (γ ++ [.nonTerminal x]) (γ ++ [.nonTerminal z]) := by
    rintro x z la τ h hc ⟨q, ν, hq, hν⟩
    have hpriv := (h.priv hwf).1
    obtain ⟨nt, p, σ, hit, hp⟩ := h
    have h5 : InFirst F c ν c := by
      simpa using InFirst.flagged (F := F) (ν := ν) (β := []) (la := c) (c := c) hν .nil
    have h0 : ItemsAt g F e γ ⟨x, q, ([] : List Symbol).length, c⟩ := .pred hit hp hq hc
    have h1 : ItemsAt g F e (γ ++ [.nonTerminal z]) ⟨x, q, ([.nonTerminal z] : List Symbol).length, c⟩ := by
      simpa using h0.advance_list (ν := [.nonTerminal z]) (β := ν) (by simpa using hq)
    have h2 := (null_run_list (c := c) hwf hJ h1 (ν := ν) (β := []) (by simpa using hq) hν .nil).1
    have h3 := h1.advance_list (ν := ν) (β := []) (by simpa using hq)
    refine ⟨⟨c, ν, ⟨x, q, [], h0, by simpa using hq⟩, h5⟩, TransGen.trans_left (.single ?_) h2⟩
    exact ⟨γ, x, q, .nonTerminal z :: ν, by simp, rfl, hq, hpriv, by simpa using h3⟩
  induction hs with
  | single h1 => exact step h hc h1
  | tail _ h1 ih =>
    obtain ⟨⟨la', τ', h2, h3⟩, h4⟩ := ih
    obtain ⟨h5, h6⟩ := step h2 h3 h1
    exact ⟨h5, h4.trans h6⟩

/-- No cycles. -/
theorem no_chain (hwf : g.WF) (hJ : Justified g F) (hN : FirstNonemptyAll g F)
    (hacc : ∀ c γ, Acc (LRed g F e c) γ) {γ : List Symbol} {x : Nat} {la : Option Nat} {τ : List Symbol}
    (h : Exp g F e γ x la τ) : ¬ TransGen (Chain1 g F) x x := by
  intro hs
  obtain ⟨d, hd⟩ : ∃ d, InFirst F la τ d := by
    obtain ⟨nt, p, σ, hit, hp⟩ := h
    exact InFirst.exists (hN.some hwf) (α := σ) (c := x) (β := τ) (by simpa using hp) la
  have h1 := (chain_run hwf hJ h hd hs).2
  have key : ∀ δ, Acc (TransGen (LRed g F e d)) δ → δ = γ ++ [.nonTerminal x] → False := by
    intro δ ha
    induction ha with
    | intro δ _ ih => rintro rfl; exact ih _ h1 rfl
  exact key _ (hacc _ _).transGen rfl

end Parsegen
