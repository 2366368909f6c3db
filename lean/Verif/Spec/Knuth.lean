import Verif.Spec.UserLR

/-! # Specification: Knuth's definition of LR(1) grammars

The textbook definition (Aho and Ullman, "The Theory of Parsing, Translation, and Compiling", vol. 1,
section 5.2.2), for the grammar as the user wrote it: only rightmost derivations occur. -/

namespace Parsegen

variable {X Ty : Type}

/-- One rightmost step: nothing but terminals is to the right of the rewritten non-terminal. -/
inductive URight (defs : List (AstNonTerminal X Ty)) : List USym → List USym → Prop
  | mk {A i β} (α : List USym) (w : List String) (hp : UHasProd defs A i β) :
      URight defs (α ++ .nt A :: w.map .term) (α ++ β ++ w.map .term)

/-- Rightmost derivations. -/
inductive URights (defs : List (AstNonTerminal X Ty)) : List USym → List USym → Prop
  | refl (l) : URights defs l l
  | tail {l m r} (h : URights defs l m) (s : URight defs m r) : URights defs l r

/-- `UHandle defs S α q β w`: `S' ⇒* α A w ⇒ α β w` is a rightmost derivation, where `S' → S` is a new
production and `S'` a new start symbol.  `q` is the production used in the last step: number `i` of `A`
for `some (A, i)`, and `S' → S` for `none`. -/
inductive UHandle (defs : List (AstNonTerminal X Ty)) (S : String) :
    List USym → Option (String × Nat) → List USym → List String → Prop
  | start : UHandle defs S [] none [.nt S] []
  | step {α A i β w} (h : URights defs [.nt S] (α ++ .nt A :: w.map .term))
      (hp : UHasProd defs A i β) : UHandle defs S α (some (A, i)) β w

/-- Knuth's definition, for start symbol `S`: if `S' ⇒* α A w ⇒ α β w` and `S' ⇒* γ B x ⇒ γ δ x = α β y`
by rightmost derivations, and `w` and `y` begin with the same terminal or are both empty, then `α = γ`,
the productions are the same, and `x = y`. -/
def KnuthLR1 (defs : List (AstNonTerminal X Ty)) (S : String) : Prop :=
  ∀ α q β w γ q' δ x y, UHandle defs S α q β w → UHandle defs S γ q' δ x →
    γ ++ δ ++ x.map USym.term = α ++ β ++ y.map USym.term → w.head? = y.head? →
    α = γ ∧ q = q' ∧ x = y

/-- Every non-terminal that is used derives some string of terminals. -/
def UProductive (defs : List (AstNonTerminal X Ty)) : Prop :=
  ∀ A i rhs B, UHasProd defs A i rhs → .nt B ∈ rhs → ∃ w, USentence defs B w

end Parsegen
