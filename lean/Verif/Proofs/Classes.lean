import Verif.Spec.Classes
import Verif.Proofs.Knuth
import Mathlib.Data.Nat.Find

/-! # LL(1) grammars are LR(1)

`Reach` is the LL parser's stack while a string `γ` is recognised, with markers at the ends of the
productions begun.  For a fixed `γ` and lookahead it is deterministic: symbols of `γ` are passed over as a
whole, or productions are begun which the lookahead determines.  It cannot be that a symbol is passed over
in one run and expanded in the other: then the symbol would be left recursive, which is excluded by
looking at its smallest derivation. -/

namespace Parsegen

variable {X Ty : Type} {defs : List (AstNonTerminal X Ty)}

theorem UFollows.of_derives {z z' : List USym} {c : Option String} (h : UDerives defs z z')
    (h' : UFollows defs z' c) : UFollows defs z c := by
  match c, h' with
  | some t, ⟨x, hx⟩ => exact ⟨x, h.trans hx⟩
  | none, hx => exact h.trans hx

theorem UHasProd.derives {A : String} {i : Nat} {rhs : List USym} (h : UHasProd defs A i rhs)
    (l r : List USym) : UDerives defs (l ++ .nt A :: r) (l ++ rhs ++ r) :=
  .tail (.refl _) (h.produces l r)

/-- What comes next after the terminals `u` followed by something that begins with `c`. -/
def ahead (u : List String) (c : Option String) : Option String := u.head?.or c

theorem UFollows.ahead {u : List String} {z : List USym} {c : Option String} (h : UFollows defs z c) :
    UFollows defs (u.map .term ++ z) (ahead u c) := by
  match u with
  | [] => simpa [Parsegen.ahead] using h
  | t :: u => exact ⟨u.map .term ++ z, .refl _⟩

/-- Derivations of terminals, with the number of steps. -/
inductive YieldsN (defs : List (AstNonTerminal X Ty)) : List USym → List String → Nat → Prop
  | nil : YieldsN defs [] [] 0
  | term {t ss w n} (h : YieldsN defs ss w n) : YieldsN defs (.term t :: ss) (t :: w) n
  | nt {A i rhs ss w1 w2 n1 n2} (hp : UHasProd defs A i rhs) (h1 : YieldsN defs rhs w1 n1)
      (h2 : YieldsN defs ss w2 n2) : YieldsN defs (.nt A :: ss) (w1 ++ w2) (n1 + n2 + 1)

theorem YieldsN.yields {ss : List USym} {w : List String} {n : Nat} (h : YieldsN defs ss w n) :
    Yields defs ss w := by
  induction h with
  | nil => exact .nil
  | term _ ih => exact .term ih
  | nt hp _ _ ih1 ih2 => exact .nt hp ih1 ih2

theorem Yields.sized {ss : List USym} {w : List String} (h : Yields defs ss w) :
    ∃ n, YieldsN defs ss w n := by
  induction h with
  | nil => exact ⟨0, .nil⟩
  | term _ ih => obtain ⟨n, h⟩ := ih; exact ⟨n, .term h⟩
  | nt hp _ _ ih1 ih2 =>
    obtain ⟨n1, h1⟩ := ih1
    obtain ⟨n2, h2⟩ := ih2
    exact ⟨_, .nt hp h1 h2⟩

/-- The first step of the derivation of a non-terminal. -/
theorem YieldsN.nt_inv {A : String} {u : List String} {n : Nat} (h : YieldsN defs [.nt A] u n) :
    ∃ i rhs m, UHasProd defs A i rhs ∧ YieldsN defs rhs u m ∧ n = m + 1 := by
  cases h with
  | nt hp h1 h2 =>
    cases h2
    exact ⟨_, _, _, hp, by simpa using h1, by omega⟩

/-- The first symbol of what is derived. -/
theorem YieldsN.cons_inv {A : String} {l : List USym} {u : List String} {n : Nat}
    (h : YieldsN defs (.nt A :: l) u n) :
    ∃ u1 u2 m, u = u1 ++ u2 ∧ YieldsN defs [.nt A] u1 m ∧ Yields defs l u2 ∧ m ≤ n := by
  cases h with
  | @nt _ _ _ _ w1 w2 n1 n2 hp h1 h2 =>
    refine ⟨w1, w2, n1 + 0 + 1, rfl, ?_, h2.yields, by omega⟩
    have := YieldsN.nt hp h1 (.nil (defs := defs))
    simpa using this

/-- A smallest derivation. -/
theorem exists_minimal {A : String} (h : ∃ w, USentence defs A w) :
    ∃ u n, YieldsN defs [.nt A] u n ∧ ∀ u' n', YieldsN defs [.nt A] u' n' → n ≤ n' := by
  classical
  have h1 : ∃ n u, YieldsN defs [.nt A] u n := by
    obtain ⟨w, hw⟩ := h
    obtain ⟨n, hn⟩ := (yields_of_derives hw).sized
    exact ⟨n, w, hn⟩
  obtain ⟨u, hu⟩ := Nat.find_spec h1
  exact ⟨u, _, hu, fun u' n' h' => Nat.find_min' h1 ⟨u', h'⟩⟩

/-- Symbols, and markers for the end of a production and the end of everything. -/
inductive Mk where
  | sym (s : USym)
  | fin (B : String) (i : Nat)
  | acc

/-- The symbols. -/
def strip : List Mk → List USym
  | [] => []
  | .sym s :: l => s :: strip l
  | _ :: l => strip l

theorem strip_append (a b : List Mk) : strip (a ++ b) = strip a ++ strip b := by
  induction a with
  | nil => rfl
  | cons m a ih => cases m <;> simp [strip, ih]

theorem strip_map (a : List USym) : strip (a.map .sym) = a := by
  induction a with
  | nil => rfl
  | cons m a ih => simp [strip, ih]

/-- With stack `σ`, recognise the symbols `γ`; then the stack is `τ`. -/
inductive Reach (defs : List (AstNonTerminal X Ty)) : List Mk → List USym → List Mk → Prop
  | done (σ) : Reach defs σ [] σ
  | skip {s σ γ τ} (h : Reach defs σ γ τ) : Reach defs (.sym s :: σ) (s :: γ) τ
  | descend {A i rhs σ γ τ} (hp : UHasProd defs A i rhs)
      (h : Reach defs (rhs.map .sym ++ .fin A i :: σ) γ τ) : Reach defs (.sym (.nt A) :: σ) γ τ

theorem strip_descend {A : String} {i : Nat} (rhs : List USym) (σ : List Mk) :
    strip (rhs.map .sym ++ .fin A i :: σ) = rhs ++ strip σ := by
  simp [strip_append, strip_map, strip]

theorem Reach.derives {σ τ : List Mk} {γ : List USym} (h : Reach defs σ γ τ) :
    UDerives defs (strip σ) (γ ++ strip τ) := by
  induction h with
  | done σ => exact .refl _
  | @skip s σ γ τ _ ih => exact ih.append_left [s]
  | @descend A i rhs σ γ τ hp _ ih =>
    rw [strip_descend] at ih
    exact (hp.derives [] (strip σ)).trans ih

theorem Reach.skips {α : List USym} {σ τ : List Mk} {γ : List USym} (h : Reach defs σ γ τ) :
    Reach defs (α.map .sym ++ σ) (α ++ γ) τ := by
  induction α with
  | nil => exact h
  | cons s α ih => exact .skip ih

/-- From the context of a non-terminal. -/
theorem UContext.reach {S : String} {δ : List USym} {B : String} {z : List USym}
    (h : UContext defs S δ B z) : ∃ Z, strip Z = z ∧ ∀ γ τ, Reach defs (.sym (.nt B) :: Z) γ τ →
      Reach defs [.sym (.nt S), .acc] (δ ++ γ) τ := by
  induction h with
  | root => exact ⟨[.acc], rfl, fun γ τ h => h⟩
  | @child δ B z i α C β _ _ hp ih =>
    obtain ⟨Z, rfl, hZ⟩ := ih
    refine ⟨β.map .sym ++ .fin B i :: Z, strip_descend _ _, fun γ τ h => ?_⟩
    rw [List.append_assoc]
    refine hZ _ _ (.descend hp ?_)
    have := h.skips (α := α)
    simpa using this

/-- LL(1), for one start symbol. -/
def LL1From (defs : List (AstNonTerminal X Ty)) (S : String) : Prop :=
  ∀ (w : List String) A ν i rhs j rhs' c, UDerives defs [.nt S] (w.map .term ++ .nt A :: ν) →
    UHasProd defs A i rhs → UHasProd defs A j rhs' →
    UFollows defs (rhs ++ ν) c → UFollows defs (rhs' ++ ν) c → i = j

/-- A non-terminal that is expanded until a symbol is passed over has no smaller derivation than that
symbol. -/
theorem Reach.smaller {S : String} (hLL : LL1From defs S) {A : String} {γ : List USym}
    {a : Option String} {σ τ : List Mk} {γ0 : List USym} (h : Reach defs σ γ0 τ) :
    γ0 = .nt A :: γ → UFollows defs (γ0 ++ strip τ) a →
    ∀ {C : String} {σ1 : List Mk} {u : List String} {n : Nat} {w : List String}, σ = .sym (.nt C) :: σ1 →
      UDerives defs [.nt S] (w.map .term ++ .nt C :: strip σ1) → YieldsN defs [.nt C] u n →
      UFollows defs (u.map .term ++ strip σ1) a → ∃ u' n', YieldsN defs [.nt A] u' n' ∧ n' ≤ n := by
  induction h with
  | done σ => intro h; cases h
  | skip h ih =>
    intro h1 _ C σ1 u n w h2 _ hy _
    cases h1
    cases h2
    exact ⟨u, n, hy, Nat.le_refl _⟩
  | @descend B i rhs σ γ1 τ hp h ih =>
    intro h1 ha C σ1 u n w h2 hS hy hu
    cases h2
    obtain ⟨j, rhs', m, hp', hy', rfl⟩ := hy.nt_inv
    have hd := h.derives
    rw [strip_descend] at hd
    have hij : i = j := hLL w B _ i rhs j rhs' a hS hp hp' (.of_derives hd ha)
      (.of_derives (hy'.yields.derives.append_right _) hu)
    subst hij
    obtain rfl := hp.inj hp'
    match rhs, h with
    | [], h => subst h1; cases h
    | .term t :: rhs, h => subst h1; cases h
    | .nt C :: β, h =>
      obtain ⟨u1, u2, k, rfl, hy1, hy2, hk⟩ := hy'.cons_inv
      have e : strip (β.map Mk.sym ++ .fin B i :: σ) = β ++ strip σ := strip_descend _ _
      obtain ⟨u', n', h3, h4⟩ := ih h1 ha (C := C) (σ1 := β.map .sym ++ .fin B i :: σ) (u := u1) (n := k)
        (w := w) rfl (by
          rw [e]
          exact hS.trans (by simpa using hp.derives (w.map .term) (strip σ))) hy1 (by
          rw [e]
          refine .of_derives ?_ hu
          have := (hy2.derives.append_left (u1.map .term)).append_right (strip σ)
          simpa using this)
      exact ⟨u', n', h3, by omega⟩

/-- A symbol is not passed over in one run and expanded in the other. -/
theorem Reach.no_descend {S : String} (hLL : LL1From defs S) {A : String} {σ τ τ' : List Mk}
    {γ : List USym} {i : Nat} {rhs : List USym} {w : List String} {c : Option String}
    (hS : UDerives defs [.nt S] (w.map .term ++ .nt A :: strip σ))
    (hA : ∃ w, USentence defs A w) {uγ : List String} (hγ : Yields defs γ uγ)
    (h : Reach defs σ γ τ) (hc : UFollows defs (strip τ) c) (hp : UHasProd defs A i rhs)
    (h' : Reach defs (rhs.map .sym ++ .fin A i :: σ) (.nt A :: γ) τ') (hc' : UFollows defs (strip τ') c) :
    False := by
  obtain ⟨u, n, hy, hmin⟩ := exists_minimal hA
  have hA2 : Yields defs (.nt A :: γ) (u ++ uγ) := by simpa using hy.yields.append hγ
  have ha' : UFollows defs (.nt A :: γ ++ strip τ') (ahead (u ++ uγ) c) :=
    .of_derives (hA2.derives.append_right _) hc'.ahead
  have ha : UFollows defs (u.map .term ++ strip σ) (ahead (u ++ uγ) c) := by
    refine .of_derives ((h.derives.trans (hγ.derives.append_right _)).append_left _) ?_
    have := hc.ahead (u := u ++ uγ)
    simpa using this
  obtain ⟨j, rhs', m, hp', hy', rfl⟩ := hy.nt_inv
  have hd := h'.derives
  rw [strip_descend] at hd
  have hij : i = j := hLL w A _ i rhs j rhs' _ hS hp hp' (.of_derives hd ha')
    (.of_derives (hy'.yields.derives.append_right _) ha)
  subst hij
  obtain rfl := hp.inj hp'
  match rhs, h' with
  | [], h' => cases h'
  | .term t :: rhs, h' => cases h'
  | .nt C :: β, h' =>
    obtain ⟨u1, u2, k, rfl, hy1, hy2, hk⟩ := hy'.cons_inv
    have e : strip (β.map Mk.sym ++ .fin A i :: σ) = β ++ strip σ := strip_descend _ _
    obtain ⟨u', n', h3, h4⟩ := h'.smaller hLL rfl ha' (C := C) (σ1 := β.map .sym ++ .fin A i :: σ) (u := u1)
      (n := k) (w := w) rfl (by
          rw [e]
          exact hS.trans (by simpa using hp.derives (w.map .term) (strip σ))) hy1 (by
          rw [e]
          refine .of_derives ?_ ha
          have := (hy2.derives.append_left (u1.map .term)).append_right (strip σ)
          simpa using this)
    have := hmin _ _ h3
    omega

/-- No non-terminal is on top. -/
def Stops (τ : List Mk) : Prop := ∀ B, τ.head? ≠ some (.sym (.nt B))

/-- What is recognised and the lookahead determine the stack. -/
theorem Reach.det {S : String} (hLL : LL1From defs S) (hP : UProductive defs) {σ τ : List Mk}
    {γ : List USym} (h : Reach defs σ γ τ) :
    ∀ {τ' : List Mk} {w : List String} {c : Option String}, Reach defs σ γ τ' →
      UDerives defs [.nt S] (w.map .term ++ strip σ) → UFollows defs (strip τ) c →
      UFollows defs (strip τ') c → Stops τ → Stops τ' →
      (∀ B, .nt B ∈ strip σ → ∃ w, USentence defs B w) → τ = τ' := by
  induction h with
  | done σ =>
    intro τ' w c h' _ _ _ hs _ _
    cases h' with
    | done => rfl
    | descend => exact absurd rfl (hs _)
  | @skip s σ γ τ h ih =>
    intro τ' w c h' hS hc hc' hs hs' hpr
    have hpr' : ∀ B, .nt B ∈ strip σ → ∃ w, USentence defs B w := fun B hB => hpr B (.tail _ hB)
    cases h' with
    | skip h' =>
      obtain ⟨u, hu⟩ : ∃ u, Yields defs [s] u := yields_of_productive fun B hB => hpr B (by
        simp only [List.mem_singleton] at hB
        subst hB
        exact .head _)
      refine ih (w := w ++ u) h' ?_ hc hc' hs hs' hpr'
      refine hS.trans ?_
      have := (hu.derives.append_left (w.map .term)).append_right (strip σ)
      simpa [strip] using this
    | descend hp h' =>
      obtain ⟨uγ, hγ⟩ := yields_of_productive fun B hB =>
        h.derives.productive hP hpr' B (List.mem_append_left _ hB)
      exact (Reach.no_descend hLL hS (hpr _ (.head _)) hγ h hc hp h' hc').elim
  | @descend A i rhs σ γ τ hp h ih =>
    intro τ' w c h' hS hc hc' hs hs' hpr
    have hpr' : ∀ B, .nt B ∈ strip σ → ∃ w, USentence defs B w := fun B hB => hpr B (.tail _ hB)
    cases h' with
    | done => exact absurd rfl (hs' _)
    | skip h' =>
      obtain ⟨uγ, hγ⟩ := yields_of_productive fun B hB =>
        h'.derives.productive hP hpr' B (List.mem_append_left _ hB)
      exact (Reach.no_descend hLL hS (hpr _ (.head _)) hγ h' hc' hp h hc).elim
    | @descend _ j rhs' _ _ _ hp' h' =>
      have hd := h.derives
      have hd' := h'.derives
      rw [strip_descend] at hd hd'
      obtain ⟨uγ, hγ⟩ := yields_of_productive fun B hB =>
        ((hp.derives [] (strip σ)).trans hd).productive hP hpr B (List.mem_append_left _ hB)
      have hij : i = j := hLL w A _ i rhs j rhs' (ahead uγ c) hS hp hp'
        (.of_derives (hd.trans (hγ.derives.append_right _)) hc.ahead)
        (.of_derives (hd'.trans (hγ.derives.append_right _)) hc'.ahead)
      subst hij
      obtain rfl := hp.inj hp'
      refine ih (w := w) h' ?_ hc hc' hs hs' ?_
      · rw [strip_descend]
        exact hS.trans (by simpa [strip] using hp.derives (w.map .term) (strip σ))
      · rw [strip_descend]
        intro B hB
        rcases List.mem_append.1 hB with hB | hB
        · exact hP A i rhs B hp hB
        · exact hpr' B hB

/-- The move the top of the stack asks for. -/
def topMove : List Mk → Option UMove
  | .sym (.term _) :: _ => some .shift
  | .fin B i :: _ => some (.reduce B i)
  | .acc :: _ => some .accept
  | _ => none

theorem topMove_stops {τ : List Mk} {m : UMove} (h : topMove τ = some m) : Stops τ := by
  match τ with
  | .sym (.nt B) :: _ => simp [topMove] at h
  | .sym (.term _) :: _ => intro B hB; cases hB
  | .fin _ _ :: _ => intro B hB; cases hB
  | .acc :: _ => intro B hB; cases hB

/-- Moves of the LR parser, on the stack of the LL parser. -/
theorem UWants.reach {S : String} {γ : List USym} {c : Option String} {m : UMove}
    (h : UWants defs S γ c m) : ∃ τ, Reach defs [.sym (.nt S), .acc] γ τ ∧ topMove τ = some m ∧
      UFollows defs (strip τ) c := by
  cases m with
  | shift =>
    obtain ⟨δ, B, z, i, α, t, β, hC, _, hp, rfl, rfl⟩ := h
    obtain ⟨Z, rfl, hZ⟩ := hC.reach
    refine ⟨.sym (.term t) :: (β.map .sym ++ .fin B i :: Z), hZ _ _ (.descend hp ?_), rfl, _, .refl _⟩
    have := (Reach.done (defs := defs) (.sym (.term t) :: (β.map .sym ++ .fin B i :: Z))).skips (α := α)
    simpa using this
  | reduce B i =>
    obtain ⟨δ, z, α, hC, hc, hp, rfl⟩ := h
    obtain ⟨Z, rfl, hZ⟩ := hC.reach
    refine ⟨.fin B i :: Z, hZ _ _ (.descend hp ?_), rfl, hc⟩
    have := (Reach.done (defs := defs) (.fin B i :: Z)).skips (α := α)
    simpa using this
  | accept =>
    obtain ⟨rfl, rfl⟩ := h
    exact ⟨[.acc], .skip (.done _), rfl, .refl _⟩

/-- LL(1) grammars are LR(1). -/
theorem LL1From.lr1 {S : String} (hLL : LL1From defs S) (hP : UProductive defs)
    (hS : ∃ w, USentence defs S w) {γ : List USym} {c : Option String} {m m' : UMove}
    (h : UWants defs S γ c m) (h' : UWants defs S γ c m') : m = m' := by
  obtain ⟨τ, h1, h2, h3⟩ := h.reach
  obtain ⟨τ', h1', h2', h3'⟩ := h'.reach
  have := h1.det hLL hP (w := []) h1' (.refl _) h3 h3' (topMove_stops h2) (topMove_stops h2') (by
    intro B hB
    simp only [strip, List.mem_singleton] at hB
    cases hB
    exact hS)
  subst this
  rw [h2] at h2'
  cases h2'
  rfl

end Parsegen
