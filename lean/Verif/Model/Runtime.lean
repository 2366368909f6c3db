import Verif.Model.Codegen

/-! # Model of the emitted code: semantic action functions and `parse_generic`

`V` is the type of run-time values (all Rust types of captured fields and results), `W` a world
threaded through the user's action code (side effects), `Tok` the user's token type, `E` the lexer
error type.  Stacks are lists with the top at the head. -/

namespace Parsegen

variable {X V W Tok E : Type}

/-- codegen.rs:334-349: the emitted `enum SemanticActionResult`: `Token<i>(f0, ..)` or
`NonTerminal<k>(value)`. -/
inductive SAR (V : Type) where
  | token (i : Nat) (fields : List V)
  | nonTerminal (k : Nat) (v : V)
deriving DecidableEq, Repr

/-- What a name in an action is bound to: the tuple of captured fields of a token
(codegen.rs:293-300) or the value of a non-terminal (codegen.rs:323-331). -/
inductive BVal (V : Type) where
  | tok (fields : List V)
  | nt (v : V)
deriving DecidableEq, Repr

/-- The variables in scope of an action expression. -/
abbrev Env (V : Type) := String → Option (BVal V)

/-- The user's Rust expressions.  `run` is arbitrary (`none` = the expression panics); `mkPath n` is
the expression consisting of the identifier `n` that lower.rs:58-68 synthesises for entry points.
Actions that `return` or touch the variable `value_stack` of the emitted function are not of this
kind; they are modelled in `Model/FreeActions.lean`. -/
structure UserCode (X V W : Type) where
  run : X → Env V → W → Option (V × W)
  mkPath : String → X
  run_mkPath : ∀ n env w v, env n = some (.nt v) → run (mkPath n) env w = some (v, w)

/-- The functions emitted by codegen.rs:142-213 (`token_terminal_idx`, `token_value`); built from the
declared patterns in `Model/Pattern.lean`. -/
structure TokenFns (Tok V : Type) where
  terminalIdx : Tok → Nat
  value : Tok → SAR V

/-- codegen.rs:293-300 and 323-331: `token_i()`, `non_terminal_k()`; `none` is `unreachable!()`. -/
def extract : Extract → SAR V → Option (BVal V)
  | .token i, .token j fs => if i = j then some (.tok fs) else none
  | .nonTerminal k, .nonTerminal j v => if k = j then some (.nt v) else none
  | _, _ => none

/-- `let name = v;` (shadows earlier bindings of the same name). -/
def Env.bind (env : Env V) (name : String) (v : BVal V) : Env V :=
  fun n => if n = name then some v else env n

/-- codegen.rs:55-80, 97: the statements `#(#pop_code;)*`. -/
def runPops : List PopStmt → Env V → List (SAR V) → Except Fault (Env V × List (SAR V))
  | [], env, st => .ok (env, st)
  | .drop :: ps, env, st => runPops ps env st.tail
  | .bind n ex :: ps, env, st =>
    match st with
    | [] => .error .unwrapNone
    | v :: st' =>
      match extract ex v with
      | none => .error .unreachable
      | some b => runPops ps (env.bind n b) st'

/-- codegen.rs:93-100: run an emitted semantic action function on the value stack. -/
def SemFn.run (u : UserCode X V W) (f : SemFn X) (st : List (SAR V)) (w : W) :
    Except Fault (List (SAR V) × W) := do
  let (env, st') ← runPops f.pops (fun _ => none) st
  match u.run f.action env w with
  | none => .error .userPanic
  | some (v, w') => .ok (.nonTerminal f.variant v :: st', w')

/-- Local variables of `parse_generic` (lr_codegen.rs:181-184), plus the number of calls of
`input.next()` so far and the world. -/
structure PState (Tok V W E : Type) where
  states : List Nat
  values : List (SAR V)
  token : Option (Except E Tok)
  calls : Nat
  world : W

/-- What `parse` returns (lr_codegen.rs:145-152), or how it panics. -/
inductive Outcome (V E : Type) where
  | ok (v : V)
  | lexerError (e : E)
  | parserError (found expected : String)
  | fault (f : Fault)
deriving DecidableEq, Repr

/-- Result of one iteration of the loop. -/
inductive StepResult (Tok V W E : Type) where
  | next (s : PState Tok V W E)
  | done (o : Outcome V E) (s : PState Tok V W E)

/-- lr_codegen.rs:206-218: execute a `Reduce`. -/
def reduceStep (gen : Generated X) (u : UserCode X V W) (nt n sem : Nat)
    (s : PState Tok V W E) : Except Fault (PState Tok V W E) :=
  match gen.semActions[sem]? with
  | none => .error .indexOutOfBounds
  | some f => do
    let (vals, w) ← f.run u s.values s.world
    if s.states.length < n then .error .unwrapNone
    else
      match s.states.drop n with
      | [] => .error .unwrapNone
      | st :: rest =>
        match gen.goto[st]? with
        | none => .error .indexOutOfBounds
        | some row =>
          match row[nt]? with
          | none => .error .indexOutOfBounds
          | some none => .error .stuck
          | some (some nx) => .ok { s with states := nx :: st :: rest, values := vals, world := w }

/-- lr_codegen.rs:223-227: after `break`. -/
def acceptStep (gen : Generated X) (u : UserCode X V W) (extractK actionIdx : Nat)
    (s : PState Tok V W E) : Outcome V E × PState Tok V W E :=
  match gen.semActions[actionIdx]? with
  | none => (.fault .indexOutOfBounds, s)
  | some f =>
    match f.run u s.values s.world with
    | .error e => (.fault e, s)
    | .ok (vals, w) =>
      match vals with
      | [] => (.fault .unwrapNone, s)
      | v :: vals' =>
        let s' := { s with values := vals', world := w }
        match extract (.nonTerminal extractK) v with
        | some (.nt r) => (.ok r, s')
        | _ => (.fault .unreachable, s')

/-- lr_codegen.rs:188-192: `terminal_idx`; `none` when the loop returns `LexerError`. -/
def lookaheadIdx (gen : Generated X) (tf : TokenFns Tok V) :
    Option (Except E Tok) → Except E Nat
  | none => .ok gen.nTerminals
  | some (.error e) => .error e
  | some (.ok t) => .ok (tf.terminalIdx t)

/-- lr_codegen.rs:201-205: execute a `Shift`.  The token is replaced by `input.next()`. -/
def shiftStep (tf : TokenFns Tok V) (input : Nat → Option (Except E Tok)) (nx : Nat)
    (s : PState Tok V W E) : PState Tok V W E :=
  { s with
    states := nx :: s.states
    values := match s.token with
      | some (.ok t) => tf.value t :: s.values
      | _ => s.values
    token := input s.calls
    calls := s.calls + 1 }

/-- lr_codegen.rs:186-221: one iteration of the loop (and, on `Accept`, lines 223-227).
`input n` is the result of the `n`-th call of `next()`. -/
def parseStep (gen : Generated X) (u : UserCode X V W) (tf : TokenFns Tok V)
    (input : Nat → Option (Except E Tok)) (ep : EntryPoint) (s : PState Tok V W E) :
    StepResult Tok V W E :=
  match s.states with
  | [] => .done (.fault .unwrapNone) s
  | state :: _ =>
    match lookaheadIdx gen tf s.token with
    | .error e => .done (.lexerError e) s
    | .ok ti =>
      match gen.action[state]? with
      | none => .done (.fault .indexOutOfBounds) s
      | some row =>
        match row[ti]? with
        | none => .done (.fault .indexOutOfBounds) s
        | some none =>
          match gen.terminalStrs[ti]?, gen.expected[state]? with
          | some f, some e => .done (.parserError f e) s
          | _, _ => .done (.fault .indexOutOfBounds) s
        | some (some (.shift nx)) => .next (shiftStep tf input nx s)
        | some (some (.reduce nt n sem)) =>
          match reduceStep gen u nt n sem s with
          | .ok s' => .next s'
          | .error e => .done (.fault e) s
        | some (some .accept) =>
          let r := acceptStep gen u ep.extract ep.actionIdx s
          .done r.1 r.2

/-- lr_codegen.rs:181-184: initial values of the locals. -/
def parseInit (input : Nat → Option (Except E Tok)) (ep : EntryPoint) (w : W) : PState Tok V W E :=
  { states := [ep.initState], values := [], token := input 0, calls := 1, world := w }

/-- lr_codegen.rs:186-227: run the loop for at most `fuel` iterations; `none` if it is still going. -/
def parseLoop (gen : Generated X) (u : UserCode X V W) (tf : TokenFns Tok V)
    (input : Nat → Option (Except E Tok)) (ep : EntryPoint) :
    Nat → PState Tok V W E → Option (Outcome V E × PState Tok V W E)
  | 0, _ => none
  | fuel + 1, s =>
    match parseStep gen u tf input ep s with
    | .done o s' => some (o, s')
    | .next s' => parseLoop gen u tf input ep fuel s'

/-- lr_codegen.rs:105-116, 174-228: `Entry::parse(input)`, cut off after `fuel` iterations. -/
def parse (gen : Generated X) (u : UserCode X V W) (tf : TokenFns Tok V)
    (input : Nat → Option (Except E Tok)) (ep : EntryPoint) (w : W) (fuel : Nat) :
    Option (Outcome V E × PState Tok V W E) :=
  parseLoop gen u tf input ep fuel (parseInit input ep w)

end Parsegen
