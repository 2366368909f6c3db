import Verif.Model.PanickingNext
import Verif.Spec.Interactive

/-! # Specification: iterators whose `next()` may panic -/

namespace Parsegen

variable {X Ty V W Tok E Val : Type}

/-- `P.NReturns ep next w o w' items`: calling the emitted `parse` in world `w` with an iterator whose
`next()` behaves like `next` (`none`: panics) ends with `o` in world `w'`; the calls of `next()` that
returned have returned `items`. -/
def Compiled.NReturns [DecidableEq Ty] (P : Compiled X Ty V W Tok) (ep : EntryPoint)
    (next : W → Option (Option (Except E Tok)) × W) (w : W) (o : NOutcome V E) (w' : W)
    (items : List (Option (Except E Tok))) : Prop :=
  ∃ fuel, nParse P.gen P.code P.tf next ep w fuel = some (o, w', items)

/-- An iterator that never panics and does what `next` does as long as `next` does not panic; instead
of a panic it returns the error `none`. -/
def calm (next : W → Option (Option (Except E Tok)) × W) (w : W) :
    Option (Except (Option E) Tok) × W :=
  match next w with
  | (none, w') => (some (.error none), w')
  | (some none, w') => (none, w')
  | (some (some (.error e)), w') => (some (.error (some e)), w')
  | (some (some (.ok t)), w') => (some (.ok t), w')

/-- A result of `next()`, with the errors of `calm`. -/
def calmItem : Option (Except E Tok) → Option (Except (Option E) Tok)
  | none => none
  | some (.error e) => some (.error (some e))
  | some (.ok t) => some (.ok t)

/-- An outcome, with the errors of `calm`. -/
def Outcome.calm : Outcome V E → Outcome V (Option E)
  | .ok v => .ok v
  | .lexerError e => .lexerError (some e)
  | .parserError f e => .parserError f e
  | .fault f => .fault f

/-- An iterator that never panics. -/
def noPanic (next : W → Option (Except E Tok) × W) (w : W) : Option (Option (Except E Tok)) × W :=
  (some (next w).1, (next w).2)

end Parsegen
