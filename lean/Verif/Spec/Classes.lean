import Verif.Spec.UserLR

/-! # Specification: LL(1), SLR(1) and LALR(1), in terms of the grammar as the user wrote it

The classes of grammars other tools ask for, by their textbook definitions (Aho, Lam, Sethi and Ullman,
"Compilers", sections 4.4.3, 4.6.4 and 4.7.4; Aho and Ullman, "The Theory of Parsing, Translation, and
Compiling", vol. 1, section 5.1.1).  Every `pub` non-terminal is a start symbol. -/

namespace Parsegen

variable {X Ty : Type}

/-- `c` is in FOLLOW(A), for start symbol `S`. -/
def UInFollow (defs : List (AstNonTerminal X Ty)) (S A : String) (c : Option String) : Prop :=
  ∃ α β, UDerives defs [.nt S] (α ++ .nt A :: β) ∧ UFollows defs β c

/-! ## LL(1) -/

/-- LL(1): once the terminals `w` are read and `A` is to be expanded, the next terminal (or the end of
input) determines the production. -/
def ULL1 (defs : List (AstNonTerminal X Ty)) : Prop :=
  ∀ d ∈ defs, d.isPub = true → ∀ (w : List String) A ν i rhs j rhs' c,
    UDerives defs [.nt d.name] (w.map .term ++ .nt A :: ν) →
    UHasProd defs A i rhs → UHasProd defs A j rhs' →
    UFollows defs (rhs ++ ν) c → UFollows defs (rhs' ++ ν) c → i = j

/-- The predictive parsing table, for start symbol `S`, has a production of `A` with right-hand side
`rhs` in the column `c`: `c` is in FIRST(rhs), or `rhs` derives the empty string and `c` is in
FOLLOW(A). -/
def UPredicts (defs : List (AstNonTerminal X Ty)) (S A : String) (rhs : List USym) (c : Option String) :
    Prop :=
  (∃ t, c = some t ∧ UFollows defs rhs (some t)) ∨ UDerives defs rhs [] ∧ UInFollow defs S A c

/-- No cell of a predictive parsing table has two productions. -/
def ULL1Table (defs : List (AstNonTerminal X Ty)) : Prop :=
  ∀ d ∈ defs, d.isPub = true → ∀ A i rhs j rhs' c, UHasProd defs A i rhs → UHasProd defs A j rhs' →
    UPredicts defs d.name A rhs c → UPredicts defs d.name A rhs' c → i = j

/-! ## SLR(1) and LALR(1) -/

/-- The LR(0) item `B → α . β` (of production `i` of `B`) is valid after `γ`. -/
def UItem0 (defs : List (AstNonTerminal X Ty)) (S : String) (γ : List USym) (B : String) (i : Nat)
    (α β : List USym) : Prop :=
  ∃ δ z, UContext defs S δ B z ∧ (∃ c, UFollows defs z c) ∧ UHasProd defs B i (α ++ β) ∧ γ = δ ++ α

/-- `γ` and `γ'` lead to the same state of the LR(0) automaton of the grammar with the new production
`S' → S`: the same items are valid after both. -/
def USame0 (defs : List (AstNonTerminal X Ty)) (S : String) (γ γ' : List USym) : Prop :=
  (γ = [] ↔ γ' = []) ∧ (γ = [.nt S] ↔ γ' = [.nt S]) ∧
    ∀ B i α β, UItem0 defs S γ B i α β ↔ UItem0 defs S γ' B i α β

/-- The moves of an SLR(1) parser: as for an LR(0) parser, but a reduction to `B` only before what is
in FOLLOW(B). -/
def USLRWants (defs : List (AstNonTerminal X Ty)) (S : String) (γ : List USym) (c : Option String) :
    UMove → Prop
  | .shift => ∃ B i α t β, UItem0 defs S γ B i α (.term t :: β) ∧ c = some t
  | .reduce B i => (∃ α, UItem0 defs S γ B i α []) ∧ UInFollow defs S B c
  | .accept => γ = [.nt S] ∧ c = none

/-- SLR(1): no two moves of the SLR(1) parser conflict. -/
def USLR1 (defs : List (AstNonTerminal X Ty)) : Prop :=
  ∀ d ∈ defs, d.isPub = true → ∀ γ c m m', USLRWants defs d.name γ c m →
    USLRWants defs d.name γ c m' → m = m'

/-- LALR(1): no two moves conflict when the states of the LR(1) automaton with the same LR(0) items are
merged. -/
def ULALR1 (defs : List (AstNonTerminal X Ty)) : Prop :=
  ∀ d ∈ defs, d.isPub = true → ∀ γ γ' c m m', USame0 defs d.name γ γ' → UWants defs d.name γ c m →
    UWants defs d.name γ' c m' → m = m'

end Parsegen
