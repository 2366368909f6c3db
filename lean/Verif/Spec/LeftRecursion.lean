import Verif.Spec.UserLR

/-! # Specification: hidden left recursion and cycles, in terms of the grammar as the user wrote it -/

namespace Parsegen

variable {X Ty : Type}

/-- `x` occurs in a sentential form of `S`. -/
def UReaches (defs : List (AstNonTerminal X Ty)) (S x : String) : Prop :=
  ∃ α β, UDerives defs [.nt S] (α ++ .nt x :: β)

/-- `x ⇒* μ x ν` where `μ` is not empty but derives the empty string. -/
def UHiddenLeftRecursive (defs : List (AstNonTerminal X Ty)) (x : String) : Prop :=
  ∃ μ ν, UDerives defs [.nt x] (μ ++ .nt x :: ν) ∧ UDerives defs μ [] ∧ μ ≠ []

/-- `x ⇒+ x`. -/
def UCyclic (defs : List (AstNonTerminal X Ty)) (x : String) : Prop :=
  ∃ w, UProduces defs [.nt x] w ∧ UDerives defs w [.nt x]

/-- When parsing `S`, two different moves are right after the same symbols and before the same
lookahead. -/
def UConflict (defs : List (AstNonTerminal X Ty)) (S : String) (γ : List USym) (c : Option String)
    (m m' : UMove) : Prop :=
  m ≠ m' ∧ UWants defs S γ c m ∧ UWants defs S γ c m'

end Parsegen
