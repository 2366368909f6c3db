import Verif.Model.Runtime

/-! # Model of the emitted code, with actions that leave the action function

An action is an arbitrary Rust expression, pasted into the body of the emitted function

    fn ntIpJ_action(value_stack: &mut Vec<SemanticActionResult>) {
        let x = value_stack.pop().unwrap().token_3(); ...
        value_stack.push(SemanticActionResult::NonTerminal2(<action>));
    }

(codegen.rs:93-100).  The function has result type `()`, so the action may `return;`, and the name
`value_stack` is visible to it: the action may look at the stack, and on a path that ends in `return`
it may change it as well (the two-phase borrow of the pending `push` is not live there).
`Model/Runtime.lean` leaves both out; here they are modelled. -/

namespace Parsegen

variable {X V W Tok E : Type}

/-- How an action ends, unless it panics. -/
inductive ActionEnd (V : Type) where
  /-- with a value -/
  | value (v : V)
  /-- with `return;`, having left this value stack -/
  | ret (st : List (SAR V))

/-- The user's Rust expressions; cf. `UserCode`.  `run x env st w`: `st` is the value stack without the
values of the production's symbols, `none` = the expression panics.  An identifier (lower.rs:58-68) is
not a `return`. -/
structure FreeCode (X V W : Type) where
  run : X → Env V → List (SAR V) → W → Option (ActionEnd V × W)
  mkPath : String → X
  run_mkPath : ∀ n env st w v, env n = some (.nt v) → run (mkPath n) env st w = some (.value v, w)
  path_ends : ∀ n env st w st' w', run (mkPath n) env st w ≠ some (.ret st', w')

/-- codegen.rs:93-100: run an emitted semantic action function on the value stack. -/
def SemFn.runFree (u : FreeCode X V W) (f : SemFn X) (st : List (SAR V)) (w : W) :
    Except Fault (List (SAR V) × W) := do
  let (env, st') ← runPops f.pops (fun _ => none) st
  match u.run f.action env st' w with
  | none => .error .userPanic
  | some (.value v, w') => .ok (.nonTerminal f.variant v :: st', w')
  | some (.ret st'', w') => .ok (st'', w')

/-- The semantics of the emitted action functions, as a parameter of what follows. -/
abbrev RunFn (X V W : Type) := SemFn X → List (SAR V) → W → Except Fault (List (SAR V) × W)

/-- lr_codegen.rs:206-218: execute a `Reduce`. -/
def reduceStepWith (gen : Generated X) (R : RunFn X V W) (nt n sem : Nat)
    (s : PState Tok V W E) : Except Fault (PState Tok V W E) :=
  match gen.semActions[sem]? with
  | none => .error .indexOutOfBounds
  | some f => do
    let (vals, w) ← R f s.values s.world
    if s.states.length < n then .error .unwrapNone
    else
      match s.states.drop n with
      | [] => .error .unwrapNone
      | st :: rest =>
        match gen.goto[st]? with
        | none => .error .indexOutOfBounds
        | some row =>
          match row[nt]? with
          | none => .error .indexOutOfBounds
          | some none => .error .stuck
          | some (some nx) => .ok { s with states := nx :: st :: rest, values := vals, world := w }

/-- lr_codegen.rs:223-227: after `break`. -/
def acceptStepWith (gen : Generated X) (R : RunFn X V W) (extractK actionIdx : Nat)
    (s : PState Tok V W E) : Outcome V E × PState Tok V W E :=
  match gen.semActions[actionIdx]? with
  | none => (.fault .indexOutOfBounds, s)
  | some f =>
    match R f s.values s.world with
    | .error e => (.fault e, s)
    | .ok (vals, w) =>
      match vals with
      | [] => (.fault .unwrapNone, s)
      | v :: vals' =>
        let s' := { s with values := vals', world := w }
        match extract (.nonTerminal extractK) v with
        | some (.nt r) => (.ok r, s')
        | _ => (.fault .unreachable, s')

/-- lr_codegen.rs:186-221: one iteration of the loop (and, on `Accept`, lines 223-227). -/
def parseStepWith (gen : Generated X) (R : RunFn X V W) (tf : TokenFns Tok V)
    (input : Nat → Option (Except E Tok)) (ep : EntryPoint) (s : PState Tok V W E) :
    StepResult Tok V W E :=
  match s.states with
  | [] => .done (.fault .unwrapNone) s
  | state :: _ =>
    match lookaheadIdx gen tf s.token with
    | .error e => .done (.lexerError e) s
    | .ok ti =>
      match gen.action[state]? with
      | none => .done (.fault .indexOutOfBounds) s
      | some row =>
        match row[ti]? with
        | none => .done (.fault .indexOutOfBounds) s
        | some none =>
          match gen.terminalStrs[ti]?, gen.expected[state]? with
          | some f, some e => .done (.parserError f e) s
          | _, _ => .done (.fault .indexOutOfBounds) s
        | some (some (.shift nx)) => .next (shiftStep tf input nx s)
        | some (some (.reduce nt n sem)) =>
          match reduceStepWith gen R nt n sem s with
          | .ok s' => .next s'
          | .error e => .done (.fault e) s
        | some (some .accept) =>
          let r := acceptStepWith gen R ep.extract ep.actionIdx s
          .done r.1 r.2

/-- lr_codegen.rs:186-227: run the loop for at most `fuel` iterations; `none` if it is still going. -/
def parseLoopWith (gen : Generated X) (R : RunFn X V W) (tf : TokenFns Tok V)
    (input : Nat → Option (Except E Tok)) (ep : EntryPoint) :
    Nat → PState Tok V W E → Option (Outcome V E × PState Tok V W E)
  | 0, _ => none
  | fuel + 1, s =>
    match parseStepWith gen R tf input ep s with
    | .done o s' => some (o, s')
    | .next s' => parseLoopWith gen R tf input ep fuel s'

/-- lr_codegen.rs:105-116, 174-228: `Entry::parse(input)` with such actions, cut off after `fuel`
iterations. -/
def freeParse (gen : Generated X) (u : FreeCode X V W) (tf : TokenFns Tok V)
    (input : Nat → Option (Except E Tok)) (ep : EntryPoint) (w : W) (fuel : Nat) :
    Option (Outcome V E × PState Tok V W E) :=
  parseLoopWith gen (fun f => f.runFree u) tf input ep fuel (parseInit input ep w)

end Parsegen
