import Verif.Model.Emit

/-! # Model of running the emitted module, every name looked up

The emitted module (`Model/Emit.lean`) is executed as Rust would: a call finds the function or method
of that name, an expression `SemanticActionResult::Name(..)` needs a variant of that name with that
many fields, a variable is the innermost one of that name.  Where nothing (suitable) of that name
exists rustc would have rejected the module: `EFault.noCompile`.

`V` is the type of run-time values, `W` the world threaded through the user's actions, `Tok` the
user's token type, `E` the lexer error type. -/

namespace Parsegen

variable {X Ty V W Tok E : Type}

/-- A value of the emitted `enum SemanticActionResult` (codegen.rs:341-349): variant and fields. -/
structure EVal (V : Type) where
  variant : String
  fields : List V
deriving DecidableEq, Repr

/-- A panic, or no program at all. -/
inductive EFault where
  | panic (f : Fault)
  | noCompile
deriving DecidableEq, Repr

/-- What a local variable of an emitted action function is: the parameter `value_stack`
(codegen.rs:95) or a `let`-bound value. -/
inductive LVal (V : Type) where
  | stack
  | val (b : BVal V)

/-- The local variables. -/
abbrev LEnv (V : Type) := String → Option (LVal V)

/-- `SemanticActionResult::name(args..)` (codegen.rs:98, 194). -/
def EModule.construct (m : EModule X Ty) (name : String) (args : List V) : Except EFault (EVal V) :=
  match m.variants.find? (·.name = name) with
  | none => .error .noCompile
  | some v => if v.fields.length = args.length then .ok ⟨name, args⟩ else .error .noCompile

/-- The result expression of a method, with the identifiers `ids` bound to `vals`. -/
def EBody.eval (b : EBody) (ids : List String) (vals : List V) : Except EFault (BVal V) :=
  match b with
  | .parens xs =>
    match xs.mapM fun x => (ids.zip vals).lookup x with
    | none => .error .noCompile
    | some vs => .ok (.tok vs)
  | .single x =>
    match (ids.zip vals).lookup x with
    | none => .error .noCompile
    | some v => .ok (.nt v)

/-- `v.name()` (codegen.rs:76, 293-300, 324-331; lr_codegen.rs:111, 227). -/
def EModule.callMethod (m : EModule X Ty) (name : String) (v : EVal V) :
    Except EFault (BVal V) :=
  match m.methods.find? (·.name = name) with
  | none => .error .noCompile
  | some f =>
    if v.variant = f.variant then
      if f.ids.length = v.fields.length then f.body.eval f.ids v.fields else .error .noCompile
    else .error (.panic .unreachable)

/-- `let name = b;` -/
def LEnv.bind (env : LEnv V) (name : String) (b : BVal V) : LEnv V :=
  fun n => if n = name then some (.val b) else env n

/-- The `let`-bound variables, as the user's action sees them (the user's code is assumed not to
touch `value_stack`, see `UserCode`). -/
def LEnv.user (env : LEnv V) : Env V := fun n =>
  match env n with
  | some (.val b) => some b
  | _ => none

/-- codegen.rs:57-79, 97: the statements `#(#pop_code;)*`. -/
def EModule.runStmts (m : EModule X Ty) :
    List EStmt → LEnv V → List (EVal V) → Except EFault (LEnv V × List (EVal V))
  | [], env, st => .ok (env, st)
  | .pop :: ss, env, st =>
    match env "value_stack" with
    | some .stack => m.runStmts ss env st.tail
    | _ => .error .noCompile
  | .letPop _ n meth :: ss, env, st =>
    match env "value_stack" with
    | some .stack =>
      match st with
      | [] => .error (.panic .unwrapNone)
      | v :: st' =>
        match m.callMethod meth v with
        | .error e => .error e
        | .ok b => m.runStmts ss (env.bind n b) st'
    | _ => .error .noCompile

/-- codegen.rs:93-100: call an emitted action function. -/
def EModule.runFn (m : EModule X Ty) (u : UserCode X V W) (f : EActionFn X) (st : List (EVal V))
    (w : W) : Except EFault (List (EVal V) × W) := do
  let (env, st') ← m.runStmts f.stmts (fun n => if n = "value_stack" then some .stack else none) st
  match env "value_stack" with
  | some .stack =>
    match u.run f.action env.user w with
    | none => .error (.panic .userPanic)
    | some (v, w') => do
      let r ← m.construct f.variant [v]
      .ok (r :: st', w')
  | _ => .error .noCompile

/-- `SEMANTIC_ACTIONS[k](&mut value_stack)` (lr_codegen.rs:209, 225): the array holds names. -/
def EModule.callAction (m : EModule X Ty) (u : UserCode X V W) (k : Nat) (st : List (EVal V))
    (w : W) : Except EFault (List (EVal V) × W) :=
  match m.semantic[k]? with
  | none => .error (.panic .indexOutOfBounds)
  | some name =>
    match m.actionFns.find? (·.name = name) with
    | none => .error .noCompile
    | some f => m.runFn u f st w

/-- codegen.rs:164-173: the first arm that matches; a `match` without one is rejected as
non-exhaustive. -/
def runIdxArms : List (RPat × Nat) → RVal → Except EFault Nat
  | [], _ => .error .noCompile
  | a :: as, v =>
    match matchR a.1 v with
    | some _ => .ok a.2
    | none => runIdxArms as v

/-- lr_codegen.rs:191 `#token_terminal_idx_fn_name(&token)`. -/
def EModule.callIdx (m : EModule X Ty) (v : RVal) : Except EFault Nat :=
  if m.idxCall = m.idxName then runIdxArms m.idxArms v else .error .noCompile

/-- codegen.rs:201-210: the first arm that matches. -/
def EModule.runValueArms (m : EModule X Ty) (inj : RVal → V) :
    List EValueArm → RVal → Except EFault (EVal V)
  | [], _ => .error .noCompile
  | a :: as, v =>
    match matchR a.pat v with
    | some b =>
      match a.args.mapM fun x => b.lookup x with
      | none => .error .noCompile
      | some vs => m.construct a.variant (vs.map inj)
    | none => m.runValueArms inj as v

/-- lr_codegen.rs:205 `#token_value_fn_name(token)`. -/
def EModule.callValue (m : EModule X Ty) (inj : RVal → V) (v : RVal) : Except EFault (EVal V) :=
  if m.valueCall = m.valueName then m.runValueArms inj m.valueArms v else .error .noCompile

/-- Local variables of `parse_generic` (lr_codegen.rs:181-184), plus the number of calls of
`input.next()` so far and the world. -/
structure EState (Tok V W E : Type) where
  states : List Nat
  values : List (EVal V)
  token : Option (Except E Tok)
  calls : Nat
  world : W

/-- Result of one iteration of the loop. -/
inductive EStep (Tok V W E : Type) where
  | next (s : EState Tok V W E)
  | done (o : Outcome V E) (s : EState Tok V W E)
  | noCompile

/-- A panic ends the call, a compile error everything. -/
def EFault.step (s : EState Tok V W E) : EFault → EStep Tok V W E
  | .panic f => .done (.fault f) s
  | .noCompile => .noCompile

/-- lr_codegen.rs:188-192: `terminal_idx`; the outer error is `return Err(LexerError(..))`. -/
def EModule.lookahead (m : EModule X Ty) (toR : Tok → RVal) :
    Option (Except E Tok) → Except E (Except EFault Nat)
  | none => .ok (.ok m.nTerminals)
  | some (.error e) => .error e
  | some (.ok t) => .ok (m.callIdx (toR t))

/-- lr_codegen.rs:201-207. -/
def EModule.shift (m : EModule X Ty) (toR : Tok → RVal) (inj : RVal → V)
    (input : Nat → Option (Except E Tok)) (nx : Nat) (s : EState Tok V W E) : EStep Tok V W E :=
  let s' := { s with states := nx :: s.states, token := input s.calls, calls := s.calls + 1 }
  match s.token with
  | some (.ok t) =>
    match m.callValue inj (toR t) with
    | .error e => e.step s
    | .ok v => .next { s' with values := v :: s.values }
  | _ => .next s'

/-- lr_codegen.rs:208-218. -/
def EModule.reduce (m : EModule X Ty) (u : UserCode X V W) (nt n sem : Nat)
    (s : EState Tok V W E) : EStep Tok V W E :=
  match m.callAction u sem s.values s.world with
  | .error e => e.step s
  | .ok (vals, w) =>
    if s.states.length < n then .done (.fault .unwrapNone) s
    else
      match s.states.drop n with
      | [] => .done (.fault .unwrapNone) s
      | st :: rest =>
        match m.goto[st]? with
        | none => .done (.fault .indexOutOfBounds) s
        | some row =>
          match row[nt]? with
          | none => .done (.fault .indexOutOfBounds) s
          | some none => .done (.fault .stuck) s
          | some (some nx) => .next { s with states := nx :: st :: rest, values := vals, world := w }

/-- lr_codegen.rs:219-227: `break`, and what follows the loop. -/
def EModule.accept (m : EModule X Ty) (u : UserCode X V W) (ep : EStruct Ty)
    (s : EState Tok V W E) : EStep Tok V W E :=
  match m.callAction u ep.action s.values s.world with
  | .error e => e.step s
  | .ok (vals, w) =>
    match vals with
    | [] => .done (.fault .unwrapNone) s
    | v :: vals' =>
      let s' := { s with values := vals', world := w }
      match m.callMethod ep.extract v with
      | .ok (.nt r) => .done (.ok r) s'
      | .ok (.tok _) => .noCompile
      | .error e => e.step s'

/-- lr_codegen.rs:186-221: one iteration of the loop (and, on `Accept`, lines 223-227). -/
def EModule.step (m : EModule X Ty) (u : UserCode X V W) (toR : Tok → RVal) (inj : RVal → V)
    (input : Nat → Option (Except E Tok)) (ep : EStruct Ty) (s : EState Tok V W E) :
    EStep Tok V W E :=
  match s.states with
  | [] => .done (.fault .unwrapNone) s
  | state :: _ =>
    match m.lookahead toR s.token with
    | .error e => .done (.lexerError e) s
    | .ok (.error e) => e.step s
    | .ok (.ok ti) =>
      match m.action[state]? with
      | none => .done (.fault .indexOutOfBounds) s
      | some row =>
        match row[ti]? with
        | none => .done (.fault .indexOutOfBounds) s
        | some none =>
          match m.terminalStrs[ti]?, m.expected[state]? with
          | some f, some e => .done (.parserError f e) s
          | _, _ => .done (.fault .indexOutOfBounds) s
        | some (some (.shift nx)) => m.shift toR inj input nx s
        | some (some (.reduce nt n sem)) => m.reduce u nt n sem s
        | some (some .accept) => m.accept u ep s

/-- lr_codegen.rs:186-227: the loop, for at most `fuel` iterations; the outcome `none` says that there
is no such program. -/
def EModule.loop (m : EModule X Ty) (u : UserCode X V W) (toR : Tok → RVal) (inj : RVal → V)
    (input : Nat → Option (Except E Tok)) (ep : EStruct Ty) :
    Nat → EState Tok V W E → Option (Option (Outcome V E) × EState Tok V W E)
  | 0, _ => none
  | fuel + 1, s =>
    match m.step u toR inj input ep s with
    | .done o s' => some (some o, s')
    | .next s' => m.loop u toR inj input ep fuel s'
    | .noCompile => some (none, s)

/-- lr_codegen.rs:105-116, 174-228: `Name::parse(input)` of an emitted struct, cut off after `fuel`
iterations. -/
def EModule.parse (m : EModule X Ty) (u : UserCode X V W) (toR : Tok → RVal) (inj : RVal → V)
    (input : Nat → Option (Except E Tok)) (ep : EStruct Ty) (w : W) (fuel : Nat) :
    Option (Option (Outcome V E) × EState Tok V W E) :=
  m.loop u toR inj input ep fuel
    { states := [ep.state], values := [], token := input 0, calls := 1, world := w }

end Parsegen
