import Verif.Spec.UserLR

/-! # Specification: recursion at the right end, in terms of the grammar as the user wrote it -/

namespace Parsegen

variable {X Ty : Type}

/-- `x ⇒* μ x ν` with something to the left of the inner `x`, and to its right only what derives the empty
string: the inner `x` can end where the outer one ends. -/
def URecursesRight (defs : List (AstNonTerminal X Ty)) (x : String) : Prop :=
  ∃ μ ν, UDerives defs [.nt x] (μ ++ .nt x :: ν) ∧ μ ≠ [] ∧ UDerives defs ν []

end Parsegen
