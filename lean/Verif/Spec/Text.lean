import Verif.Model.Text
import Verif.Spec.Compiled

/-! # Specification: executing the text of the emitted functions -/

namespace Parsegen

variable {X Ty V W Tok E : Type} [DecidableEq Ty]

/-- What the emitted code of `P` is run with: the user's code and tokens, and an iterator whose `i`-th
`next()` is `input i`. -/
def Compiled.host (P : Compiled X Ty V W Tok) (input : Nat → Option (Except E Tok)) :
    Host X V W Tok E := ⟨P.code, P.toR, P.inj, input⟩

/-- How a call has ended, as its caller sees it: outcome, world, and number of calls of `next()`. -/
def Res.observed (r : Res V W Tok E (Val V Tok E)) : Option (Outcome V E × W × Nat) :=
  match r with
  | .val v s => v.outcome.map fun o => (o, s.world, s.calls)
  | .panic f s => some (.fault f, s.world, s.calls)
  | _ => none

/-- Executing `name::parse(input)`, statement by statement, in the text of the module `m` in world `w`
ends with outcome `o` (a returned `Result`, or a panic) in world `w'`, after `n` calls of `next()`. -/
def EModule.TextReturns (m : EModule X Ty) (P : Compiled X Ty V W Tok) (name : String)
    (input : Nat → Option (Except E Tok)) (w : W) (o : Outcome V E) (w' : W) (n : Nat) : Prop :=
  ∃ fuel, (m.runText (P.host input) name w fuel).observed = some (o, w', n)

/-- Some part of the text that is executed does not compile. -/
def EModule.TextIllFormed (m : EModule X Ty) (P : Compiled X Ty V W Tok) (name : String)
    (input : Nat → Option (Except E Tok)) (w : W) : Prop :=
  ∃ fuel, m.runText (P.host input) name w fuel = .noCompile

end Parsegen
