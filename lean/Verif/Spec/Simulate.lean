import Verif.Model.Simulate
import Verif.Proofs.Functor
import Verif.Spec.Compiled

/-! # Specification: runs of `simulate` -/

namespace Parsegen

variable {A B X Ty V W Tok E : Type}

/-- The stream of tokens as the emitted parser sees it: no lexer errors. -/
abbrev okStream (E : Type) (input : Nat → Option Tok) : Nat → Option (Except E Tok) :=
  fun i => (input i).map .ok

/-- The stream of tokens as `simulate` sees it: terminal indices. -/
abbrev idxStream (tf : TokenFns Tok V) (input : Nat → Option Tok) : Nat → Option Nat :=
  fun i => (input i).map tf.terminalIdx

/-- `simulate` ends like this, after `n` calls of `next()` (not counting the one when it prints). -/
def Simulates (t : LRTable A) (g : Grammar A Ty) (input : Nat → Option Nat) (x : SimEnd) (n : Nat) :
    Prop :=
  ∃ fuel s, simulate t g input fuel = some (x, s) ∧ s.calls = n

/-- The emitted parser and `simulate` agree: `Ok` and a normal end, a syntax error and the panic
`Stuck! state = ..`. -/
inductive EndRel : Outcome V E → SimEnd → Prop
  | ok (v) : EndRel (.ok v) .done
  | stuck (f e) : EndRel (.parserError f e) .stuck

end Parsegen
