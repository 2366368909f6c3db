import Verif.Spec.Compiled
import Verif.Spec.Valid

/-! # Specification: programs for which the parser is complete -/

namespace Parsegen

variable {X Ty V W Tok : Type} [DecidableEq Ty]

/-- No non-terminal is defined twice, the grammar is LR(1) (so the macro had no conflict to resolve,
see C21-C23), and the FIRST table computed by the macro lacks nothing (see C18).  The last two are
about the grammar as lowered by the macro (C24: the user's grammar plus entry points). -/
structure Compiled.Regular (P : Compiled X Ty V W Tok) : Prop where
  names : (P.defs.map (·.name)).Nodup
  lr1 : ∀ g, lower P.code.mkPath P.defs P.tokens.conversions = .ok g → g.IsLR1
  first : ∀ g, lower P.code.mkPath P.defs P.tokens.conversions = .ok g →
    FirstEnough g (generateFirstTable P.order g)

/-- The iterator yields the tokens and then `None`. -/
def Ends {E : Type} (input : Nat → Option (Except E Tok)) (toks : List Tok) : Prop :=
  Reads input toks ∧ input toks.length = none

end Parsegen
