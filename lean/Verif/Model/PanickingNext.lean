import Verif.Model.Interactive

/-! # Model of the emitted `parse_generic` with an iterator whose `next()` may panic

As `Model/Interactive.lean`, with `next : W → Option (Option (Except E Tok)) × W`: the first component
is `none` if the call panics, and the second is the world it leaves behind. -/

namespace Parsegen

variable {X V W Tok E : Type}

/-- Result of one iteration of the loop, or of the initialisation: `unwound w items` means that a call
of `next()` has panicked, in world `w` (after its own effects), after calls that returned `items`. -/
inductive NStepResult (Tok V W E : Type) where
  | next (s : IState Tok V W E)
  | done (o : Outcome V E) (s : IState Tok V W E)
  | unwound (w : W) (items : List (Option (Except E Tok)))

/-- lr_codegen.rs:201-205: execute a `Shift`.  `input.next()` is evaluated before `mem::replace` is
called (line 203); a panic leaves `parse_generic`. -/
def nShiftStep (tf : TokenFns Tok V) (next : W → Option (Option (Except E Tok)) × W) (nx : Nat)
    (s : IState Tok V W E) : NStepResult Tok V W E :=
  match next s.world with
  | (none, w) => .unwound w s.items
  | (some r, w) =>
    .next
      { states := nx :: s.states
        values := match s.token with
          | some (.ok t) => tf.value t :: s.values
          | _ => s.values
        token := r
        world := w
        items := s.items ++ [r] }

/-- lr_codegen.rs:186-221: one iteration of the loop (and, on `Accept`, lines 223-227). -/
def nParseStep (gen : Generated X) (u : UserCode X V W) (tf : TokenFns Tok V)
    (next : W → Option (Option (Except E Tok)) × W) (ep : EntryPoint) (s : IState Tok V W E) :
    NStepResult Tok V W E :=
  match s.states with
  | [] => .done (.fault .unwrapNone) s
  | state :: _ =>
    match lookaheadIdx gen tf s.token with
    | .error e => .done (.lexerError e) s
    | .ok ti =>
      match gen.action[state]? with
      | none => .done (.fault .indexOutOfBounds) s
      | some row =>
        match row[ti]? with
        | none => .done (.fault .indexOutOfBounds) s
        | some none =>
          match gen.terminalStrs[ti]?, gen.expected[state]? with
          | some f, some e => .done (.parserError f e) s
          | _, _ => .done (.fault .indexOutOfBounds) s
        | some (some (.shift nx)) => nShiftStep tf next nx s
        | some (some (.reduce nt n sem)) =>
          match reduceStep gen u nt n sem s.core with
          | .ok c => .next { s with states := c.states, values := c.values, world := c.world }
          | .error e => .done (.fault e) s
        | some (some .accept) =>
          let r := acceptStep gen u ep.extract ep.actionIdx s.core
          .done r.1 { s with values := r.2.values, world := r.2.world }

/-- How a call of `parse` ends: as described by `Outcome`, or by a panic of `next()`. -/
inductive NOutcome (V E : Type) where
  | ended (o : Outcome V E)
  | nextPanicked

/-- lr_codegen.rs:186-227: run the loop for at most `fuel` iterations; `none` if it is still going.
The result is how it ended, the final world and the results of `next()`. -/
def nParseLoop (gen : Generated X) (u : UserCode X V W) (tf : TokenFns Tok V)
    (next : W → Option (Option (Except E Tok)) × W) (ep : EntryPoint) :
    Nat → IState Tok V W E → Option (NOutcome V E × W × List (Option (Except E Tok)))
  | 0, _ => none
  | fuel + 1, s =>
    match nParseStep gen u tf next ep s with
    | .done o s' => some (.ended o, s'.world, s'.items)
    | .unwound w items => some (.nextPanicked, w, items)
    | .next s' => nParseLoop gen u tf next ep fuel s'

/-- lr_codegen.rs:105-116, 174-228: `Entry::parse(input)`, cut off after `fuel` iterations.  The first
call of `next()` (line 184) may panic as well. -/
def nParse (gen : Generated X) (u : UserCode X V W) (tf : TokenFns Tok V)
    (next : W → Option (Option (Except E Tok)) × W) (ep : EntryPoint) (w : W) (fuel : Nat) :
    Option (NOutcome V E × W × List (Option (Except E Tok))) :=
  match next w with
  | (none, w') => some (.nextPanicked, w', [])
  | (some r, w') =>
    nParseLoop gen u tf next ep fuel
      { states := [ep.initState], values := [], token := r, world := w', items := [r] }

end Parsegen
