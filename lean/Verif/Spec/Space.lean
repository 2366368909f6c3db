import Verif.Spec.UserLR

/-! # Specification: recursion that is not at the left end, in terms of the grammar as the user wrote it -/

namespace Parsegen

variable {X Ty : Type}

/-- `x ⇒* μ x ν` with something to the left of the inner `x`: the recursion is not left recursion. -/
def URecursesInside (defs : List (AstNonTerminal X Ty)) (x : String) : Prop :=
  ∃ μ ν, UDerives defs [.nt x] (μ ++ .nt x :: ν) ∧ μ ≠ []

end Parsegen
