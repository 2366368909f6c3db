import Verif.Model.EmitRuntime
import Verif.Spec.Compiled

/-! # Specification: calling a parser of the emitted module -/

namespace Parsegen

variable {X Ty V W Tok E : Type} [DecidableEq Ty]

/-- What the macro emits for the input of `P`, with all its names.  `lc` is `str::to_lowercase`. -/
def Compiled.Emits (P : Compiled X Ty V W Tok) (lc : String → String) (m : EModule X Ty) : Prop :=
  emitMacro P.order lc P.code.mkPath P.items = .ok m

/-- `m.Returns P s input w o w' n`: calling `s::parse`, where `s` is a struct of the emitted module
`m`, in world `w` on an iterator whose `i`-th `next()` is `input i` ends with outcome `o` in world
`w'`, after `n` calls of `next()`, every name in `m` having been looked up in `m`. -/
def EModule.Returns (m : EModule X Ty) (P : Compiled X Ty V W Tok) (s : EStruct Ty)
    (input : Nat → Option (Except E Tok)) (w : W) (o : Outcome V E) (w' : W) (n : Nat) : Prop :=
  ∃ fuel s', m.parse P.code P.toR P.inj input s w fuel = some (some o, s') ∧ s'.world = w' ∧
    s'.calls = n

/-- Some name used while running `s::parse` is not declared, or declared with another shape. -/
def EModule.Unresolved (m : EModule X Ty) (P : Compiled X Ty V W Tok) (s : EStruct Ty)
    (input : Nat → Option (Except E Tok)) (w : W) : Prop :=
  ∃ fuel s', m.parse P.code P.toR P.inj input s w fuel = some (none, s')

/-- No symbol of the user's productions is bound to the name `value_stack`. -/
def NoStackBinder (defs : List (AstNonTerminal X Ty)) : Prop :=
  ∀ d ∈ defs, ∀ p ∈ d.productions, ∀ s ∈ p.symbols, s.boundName ≠ some "value_stack"

end Parsegen
