import Verif.Model.Lower
import Verif.Model.Codegen

/-! # Model of `src/lib.rs`: the `parser!` macro -/

namespace Parsegen

variable {X Ty : Type}

/-- Locals of `parser` (lib.rs:25-27). -/
structure MacroState (X Ty : Type) where
  nonTerminals : List (AstNonTerminal X Ty) := []
  tokenEnum : Option (TokenEnum Ty) := none
  stateType : Option Ty := none

/-- lib.rs:30-50: one item. -/
def macroItem (s : MacroState X Ty) : GrammarItem X Ty → Except Fault (MacroState X Ty)
  | .typeDef ty =>
    if s.stateType.isSome then .error .duplicateState
    else .ok { s with stateType := some ty }
  | .tokenEnum t =>
    if s.tokenEnum.isSome then .error .duplicateTokenEnum
    else .ok { s with tokenEnum := some t }
  | .nonTerminal n => .ok { s with nonTerminals := s.nonTerminals ++ [n] }

/-- lib.rs:25-53: sort the items; the token enum is mandatory. -/
def macroItems (items : List (GrammarItem X Ty)) :
    Except Fault (List (AstNonTerminal X Ty) × TokenEnum Ty) := do
  let s ← items.foldlM macroItem {}
  match s.tokenEnum with
  | none => .error .missingTokenEnum
  | some t => .ok (s.nonTerminals, t)

/-- lib.rs:21-60 `parser`, after `syn` has parsed the input.  Returns the run-time relevant part of
the emitted code and the token enum from which the two token functions are emitted. -/
def parserMacro [DecidableEq Ty] (h : HashOrder) (mkPath : String → X)
    (items : List (GrammarItem X Ty)) : Except Fault (Generated X × TokenEnum Ty) := do
  let (nts, t) ← macroItems items
  let g ← lower mkPath nts t.conversions
  let gen ← generateParser h g
  .ok (gen, t)

end Parsegen
