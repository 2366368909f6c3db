import Verif.Spec.First
import Verif.Model.FollowSets

/-! # Specification: FOLLOW sets -/

namespace Parsegen

variable {A Ty : Type}

/-- The set of non-terminal `a` contains `c`: a terminal, or (`none`) the end of the input. -/
def FollowTable.Has (tbl : FollowTable) (a : Nat) : Option Nat → Prop
  | some t => t ∈ (tbl.get a).terminals
  | none => (tbl.get a).end_ = true

/-- The textbook FOLLOW set of `a` with start symbol `S`: `some t` if some sentential form has terminal `t`
right after `a`, `none` (end of input) if some sentential form ends with `a`. -/
def Grammar.InFollow (g : Grammar A Ty) (S a : Nat) : Option Nat → Prop
  | some t => ∃ α β, g.Derives [.nonTerminal S] (α ++ .nonTerminal a :: .terminal t :: β)
  | none => ∃ α, g.Derives [.nonTerminal S] (α ++ [.nonTerminal a])

/-- Non-terminal `a` occurs in a sentential form of `S`. -/
def Grammar.Occurs (g : Grammar A Ty) (S a : Nat) : Prop :=
  ∃ α β, g.Derives [.nonTerminal S] (α ++ .nonTerminal a :: β)

end Parsegen
