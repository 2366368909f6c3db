import Verif.Spec.LR

/-! # Specification: LR(1) validity in terms of derivations only

No FIRST table occurs here. -/

namespace Parsegen

variable {A Ty : Type}

/-- What can follow when the symbols `z` are still to come: terminal `t` if `z` derives something
beginning with `t`, end of input (`none`) if `z` derives the empty string. -/
def Grammar.Follows (g : Grammar A Ty) (z : List Symbol) : Option Nat → Prop
  | some t => ∃ x, g.Derives z (.terminal t :: x)
  | none => g.Derives z []

/-- `g.Context E δ B z`: in the course of reading from entry point `E`, non-terminal `B` can be
expected after the symbols `δ`, with `z` to come after it.  (`∃ c, Follows z c` excludes contexts that
can never be completed; it always holds if every non-terminal derives some string.) -/
inductive Grammar.Context (g : Grammar A Ty) (E : Nat) : List Symbol → Nat → List Symbol → Prop
  | root : g.Context E [] E []
  | child {δ B z p α C β} (h : g.Context E δ B z) (hz : ∃ c, g.Follows z c)
      (hp : g.HasProd B p (α ++ .nonTerminal C :: β)) : g.Context E (δ ++ α) C (β ++ z)

/-- Item `[B → α . β, c]` is valid for the symbol string `γ`: `γ = δ α` where `B` can be expected
after `δ` and then be followed by `c`. -/
def Grammar.Valid (g : Grammar A Ty) (E : Nat) (γ : List Symbol) (it : Item) : Prop :=
  ∃ δ z α β, g.Context E δ it.nt z ∧ g.HasProd it.nt it.prod (α ++ β) ∧ it.cursor = α.length ∧
    γ = δ ++ α ∧ g.Follows z it.la

/-- A parser move. -/
inductive Move where
  | shift
  | reduce (nt p : Nat)
  | accept
deriving DecidableEq

/-- Move `m` is justified on lookahead `c` (`none` is end of input) by an item of the set `I`. -/
def Grammar.Wants (g : Grammar A Ty) (I : Item → Prop) (c : Option Nat) : Move → Prop
  | .shift => ∃ nt p α t β la, I ⟨nt, p, α.length, la⟩ ∧ g.HasProd nt p (α ++ .terminal t :: β) ∧
      c = some t
  | .reduce nt p => ∃ α, I ⟨nt, p, α.length, c⟩ ∧ g.HasProd nt p α ∧ g.isPublic nt = false
  | .accept => ∃ nt p α, I ⟨nt, p, α.length, none⟩ ∧ g.HasProd nt p α ∧ g.isPublic nt = true ∧
      c = none

/-- The grammar is LR(1): whatever has been read from whichever entry point, the next move is
determined by the next terminal. -/
def Grammar.IsLR1 (g : Grammar A Ty) : Prop :=
  ∀ E γ c m m', g.isPublic E = true → g.Wants (g.Valid E γ) c m → g.Wants (g.Valid E γ) c m' →
    m = m'

end Parsegen
