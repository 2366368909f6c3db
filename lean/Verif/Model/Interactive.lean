import Verif.Model.Runtime

/-! # Model of the emitted `parse_generic` with an iterator that shares state with the actions

`Model/Runtime.lean` takes the iterator as a fixed sequence.  Here `next` is an arbitrary function of
the world: what the iterator yields may depend on what the actions have done (a lexer that consults a
symbol table the actions fill), and calling it may change what the actions see.  (A `next()` that
panics is in `Model/PanickingNext.lean`.) -/

namespace Parsegen

variable {X V W Tok E : Type}

/-- Local variables of `parse_generic` (lr_codegen.rs:181-184) and the world.  `items` records the
results of the calls of `input.next()` so far, in order; it is not part of the emitted code. -/
structure IState (Tok V W E : Type) where
  states : List Nat
  values : List (SAR V)
  token : Option (Except E Tok)
  world : W
  items : List (Option (Except E Tok))

/-- The variables in the form used by `Model/Runtime.lean`. -/
def IState.core (s : IState Tok V W E) : PState Tok V W E :=
  ⟨s.states, s.values, s.token, s.items.length, s.world⟩

/-- Result of one iteration of the loop. -/
inductive IStepResult (Tok V W E : Type) where
  | next (s : IState Tok V W E)
  | done (o : Outcome V E) (s : IState Tok V W E)

/-- lr_codegen.rs:201-205: execute a `Shift`; `input.next()` runs in the current world. -/
def iShiftStep (tf : TokenFns Tok V) (next : W → Option (Except E Tok) × W) (nx : Nat)
    (s : IState Tok V W E) : IState Tok V W E :=
  { states := nx :: s.states
    values := match s.token with
      | some (.ok t) => tf.value t :: s.values
      | _ => s.values
    token := (next s.world).1
    world := (next s.world).2
    items := s.items ++ [(next s.world).1] }

/-- lr_codegen.rs:186-221: one iteration of the loop (and, on `Accept`, lines 223-227).  Reductions
and the final action do not touch the iterator (lr_codegen.rs:206-218, 223-227). -/
def iParseStep (gen : Generated X) (u : UserCode X V W) (tf : TokenFns Tok V)
    (next : W → Option (Except E Tok) × W) (ep : EntryPoint) (s : IState Tok V W E) :
    IStepResult Tok V W E :=
  match s.states with
  | [] => .done (.fault .unwrapNone) s
  | state :: _ =>
    match lookaheadIdx gen tf s.token with
    | .error e => .done (.lexerError e) s
    | .ok ti =>
      match gen.action[state]? with
      | none => .done (.fault .indexOutOfBounds) s
      | some row =>
        match row[ti]? with
        | none => .done (.fault .indexOutOfBounds) s
        | some none =>
          match gen.terminalStrs[ti]?, gen.expected[state]? with
          | some f, some e => .done (.parserError f e) s
          | _, _ => .done (.fault .indexOutOfBounds) s
        | some (some (.shift nx)) => .next (iShiftStep tf next nx s)
        | some (some (.reduce nt n sem)) =>
          match reduceStep gen u nt n sem s.core with
          | .ok c => .next { s with states := c.states, values := c.values, world := c.world }
          | .error e => .done (.fault e) s
        | some (some .accept) =>
          let r := acceptStep gen u ep.extract ep.actionIdx s.core
          .done r.1 { s with values := r.2.values, world := r.2.world }

/-- lr_codegen.rs:181-184: initial values of the locals. -/
def iParseInit (next : W → Option (Except E Tok) × W) (ep : EntryPoint) (w : W) :
    IState Tok V W E :=
  { states := [ep.initState], values := [], token := (next w).1, world := (next w).2,
    items := [(next w).1] }

/-- lr_codegen.rs:186-227: run the loop for at most `fuel` iterations; `none` if it is still going. -/
def iParseLoop (gen : Generated X) (u : UserCode X V W) (tf : TokenFns Tok V)
    (next : W → Option (Except E Tok) × W) (ep : EntryPoint) :
    Nat → IState Tok V W E → Option (Outcome V E × IState Tok V W E)
  | 0, _ => none
  | fuel + 1, s =>
    match iParseStep gen u tf next ep s with
    | .done o s' => some (o, s')
    | .next s' => iParseLoop gen u tf next ep fuel s'

/-- lr_codegen.rs:105-116, 174-228: `Entry::parse(input)`, cut off after `fuel` iterations. -/
def iParse (gen : Generated X) (u : UserCode X V W) (tf : TokenFns Tok V)
    (next : W → Option (Except E Tok) × W) (ep : EntryPoint) (w : W) (fuel : Nat) :
    Option (Outcome V E × IState Tok V W E) :=
  iParseLoop gen u tf next ep fuel (iParseInit next ep w)

end Parsegen
