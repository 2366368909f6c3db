import Verif.Spec.User

/-! # Specification: rewriting a grammar -/

namespace Parsegen

variable {X X' Ty Ty' : Type}

/-- `name → rhs` is a rule of the user's grammar. -/
def URule (defs : List (AstNonTerminal X Ty)) (name : String) (rhs : List USym) : Prop :=
  ∃ p ∈ userProds defs name, p.symbols.map (·.plain) = rhs.map some

/-- The rules of `defs'` are those of `defs`, except that `A → α H γ` is replaced by `A → α β γ` for every
rule `H → β`. -/
def Inlined (defs : List (AstNonTerminal X Ty)) (defs' : List (AstNonTerminal X' Ty')) (A H : String)
    (α γ : List USym) : Prop :=
  A ≠ H ∧ URule defs A (α ++ .nt H :: γ) ∧
  ∀ B rhs, URule defs' B rhs ↔
    (URule defs B rhs ∧ ¬ (B = A ∧ rhs = α ++ .nt H :: γ)) ∨
      (B = A ∧ ∃ β, URule defs H β ∧ rhs = α ++ β ++ γ)

/-- `A` is a list of `ξ` separated by `σ`, written with left recursion in `defs` and with right recursion in
`defs'`; the other rules are the same. -/
def Turned (defs : List (AstNonTerminal X Ty)) (defs' : List (AstNonTerminal X' Ty')) (A : String)
    (σ ξ : List USym) : Prop :=
  (∀ rhs, URule defs A rhs ↔ rhs = .nt A :: (σ ++ ξ) ∨ rhs = ξ) ∧
  (∀ rhs, URule defs' A rhs ↔ rhs = ξ ++ σ ++ [.nt A] ∨ rhs = ξ) ∧
  ∀ B rhs, B ≠ A → (URule defs B rhs ↔ URule defs' B rhs)

end Parsegen
