import Verif.Spec.User

/-! # Specification: LR(1), in terms of the grammar as the user wrote it

No lowered grammar, item, automaton or table occurs here. -/

namespace Parsegen

variable {X Ty : Type}

/-- Production `i` of `name` has right-hand side `rhs`. -/
def UHasProd (defs : List (AstNonTerminal X Ty)) (name : String) (i : Nat) (rhs : List USym) : Prop :=
  ∃ p, (userProds defs name)[i]? = some p ∧ p.symbols.map (·.plain) = rhs.map some

/-- What can follow when the symbols `z` are still to come: terminal `t` if `z` derives something
beginning with `t`, end of input (`none`) if `z` derives the empty string. -/
def UFollows (defs : List (AstNonTerminal X Ty)) (z : List USym) : Option String → Prop
  | some t => ∃ x, UDerives defs z (.term t :: x)
  | none => UDerives defs z []

/-- `UContext defs S δ B z`: when parsing `S`, non-terminal `B` can be expected after the symbols `δ`,
with `z` to come after it.  (`∃ c, UFollows z c` excludes contexts that can never be completed; it
always holds if every non-terminal derives some string.) -/
inductive UContext (defs : List (AstNonTerminal X Ty)) (S : String) :
    List USym → String → List USym → Prop
  | root : UContext defs S [] S []
  | child {δ B z i α C β} (h : UContext defs S δ B z) (hz : ∃ c, UFollows defs z c)
      (hp : UHasProd defs B i (α ++ .nt C :: β)) : UContext defs S (δ ++ α) C (β ++ z)

/-- What a bottom-up parser can do next. -/
inductive UMove where
  | shift
  | reduce (name : String) (i : Nat)
  | accept
deriving DecidableEq

/-- Move `m` is right for some input: when parsing `S`, with the symbols `γ` already recognised and `c`
the next terminal (`none` is end of input). -/
def UWants (defs : List (AstNonTerminal X Ty)) (S : String) (γ : List USym) (c : Option String) :
    UMove → Prop
  | .shift => ∃ δ B z i α t β, UContext defs S δ B z ∧ (∃ c', UFollows defs z c') ∧
      UHasProd defs B i (α ++ .term t :: β) ∧ γ = δ ++ α ∧ c = some t
  | .reduce B i => ∃ δ z α, UContext defs S δ B z ∧ UFollows defs z c ∧ UHasProd defs B i α ∧
      γ = δ ++ α
  | .accept => γ = [.nt S] ∧ c = none

/-- The user's grammar is LR(1): for every `pub` non-terminal, whatever has been recognised, the next
move is determined by the next terminal. -/
def ULR1 (defs : List (AstNonTerminal X Ty)) : Prop :=
  ∀ d ∈ defs, d.isPub = true → ∀ γ c m m', UWants defs d.name γ c m → UWants defs d.name γ c m' →
    m = m'

/-- It matters what the non-terminal can begin with: it comes after a non-terminal in some production, with
nothing but symbols deriving the empty string in between, or in the same way at the beginning of a
production of such a non-terminal. -/
inductive URelevant (defs : List (AstNonTerminal X Ty)) : String → Prop
  | behind {A i α C l b r} (hp : UHasProd defs A i (α ++ .nt C :: (l ++ .nt b :: r)))
      (hl : UDerives defs l []) : URelevant defs b
  | leading {A i l b r} (h : URelevant defs A) (hp : UHasProd defs A i (l ++ .nt b :: r))
      (hl : UDerives defs l []) : URelevant defs b

/-- In the productions of `A`, if it matters what `A` can begin with, a non-terminal deriving the empty
string that can be reached through symbols deriving the empty string has an empty production, and it is `A`
itself or derives nothing that begins with a terminal. -/
def UHarmless (defs : List (AstNonTerminal X Ty)) : Prop :=
  ∀ A i l b r, URelevant defs A → UHasProd defs A i (l ++ .nt b :: r) → UDerives defs l [] → UDerives defs [.nt b] [] →
    (∃ j, UHasProd defs b j []) ∧ (b = A ∨ ∀ t x, ¬ UDerives defs [.nt b] (.term t :: x))

end Parsegen
