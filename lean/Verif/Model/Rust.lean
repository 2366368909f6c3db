import Verif.Model.EmitRuntime

/-! # A small part of Rust, executed statement by statement

`Model/EmitRuntime.lean` gives the emitted functions their meaning directly.  Here the meaning of the
statements and expressions they are made of is modelled, knowing nothing about parsers; the emitted
text itself is in `Model/Text.lean`.

Variables live in cells of a stack (`RState.store`), blocks and functions drop the cells they have
allocated; `&mut x` is the number of a cell.  `&x` and reading a variable give the value: moves, borrows
and types are checked by rustc, which is not modelled.  What rustc would have rejected, as far as it
matters here, is `Res.noCompile`.  Integers are unbounded: no arithmetic is done in the emitted code. -/

namespace Parsegen

variable {X Ty V W Tok E α β : Type}

/-- A function: `f` or `T::f`. -/
inductive FnRef where
  | free (f : String)
  | assoc (ty f : String)
deriving DecidableEq, Repr

/-- Run-time values. -/
inductive Val (V Tok E : Type) where
  | num (n : Nat)
  | str (s : String)
  /-- `ty::c(fields..)`, a value of an enum (also `Option` and `Result`) -/
  | adt (ty c : String) (fields : List (Val V Tok E))
  /-- `ty::c { fields.. }` -/
  | record (ty c : String) (fields : List (String × Val V Tok E))
  /-- `(v, ..)`; also `(v)`, which in Rust is `v` -/
  | tuple (vs : List (Val V Tok E))
  /-- a vector or an array -/
  | vec (vs : List (Val V Tok E))
  /-- a function pointer -/
  | fn (f : FnRef)
  /-- `&mut` of a cell -/
  | ref (a : Nat)
  /-- the iterator -/
  | iter
  /-- a value of a type of the user -/
  | ext (v : V)
  /-- a token -/
  | tok (t : Tok)
  /-- a lexer error -/
  | err (e : E)

/-- Patterns. -/
inductive Pat where
  | wild
  | var (x : String)
  /-- `ty::c(ps..)` -/
  | ctor (ty c : String) (ps : List Pat)
  /-- `ty::c { fields.. }`, each field bound to a variable of its name -/
  | record (ty c : String) (fields : List String)
  /-- a pattern for tokens -/
  | token (p : RPat)

mutual

/-- Expressions.  `X` are the user's expressions. -/
inductive Ex (X : Type) where
  | num (n : Nat)
  | name (x : String)
  /-- `ty::f` -/
  | path (ty f : String)
  | user (x : X)
  /-- `(e, ..)` -/
  | tuple (es : List (Ex X))
  /-- `f(args..)` -/
  | call (f : Ex X) (args : List (Ex X))
  /-- `e.m(args..)` -/
  | method (e : Ex X) (m : String) (args : List (Ex X))
  /-- `&e` -/
  | ref (e : Ex X)
  /-- `&mut x` -/
  | refMut (x : String)
  /-- `*e` -/
  | deref (e : Ex X)
  /-- `e as usize` -/
  | cast (e : Ex X)
  /-- `e[i]` -/
  | index (e i : Ex X)
  /-- `vec![..]` -/
  | vec (es : List (Ex X))
  /-- `ty::c { fields.. }`, each field taken from a variable of its name -/
  | record (ty c : String) (fields : List String)
  /-- `{ ss e }`; without `e` it is `()` -/
  | block (ss : List (Stmt X)) (e : Ex X)
  | match_ (e : Ex X) (arms : List (Pat × Ex X))
  /-- `if let p = e b` -/
  | ifLet (p : Pat) (e b : Ex X)
  | loop (b : Ex X)
  /-- `for _ in 0 .. n b` -/
  | forRange (n b : Ex X)
  | return_ (e : Ex X)
  | break_
  /-- `panic!(..)`, `unreachable!(..)` -/
  | panic_ (f : Fault)

/-- Statements. -/
inductive Stmt (X : Type) where
  /-- `let [mut] x = e;` -/
  | let_ (isMut : Bool) (x : String) (e : Ex X)
  /-- `e;` -/
  | semi (e : Ex X)

end

/-- `fn name(params..) { body }` -/
structure FnDecl (X : Type) where
  name : FnRef
  params : List String
  body : Ex X

/-- The items of a module. -/
structure Program (X V Tok E : Type) where
  fns : List (FnDecl X)
  statics : List (String × Val V Tok E)
  /-- enum variants `ty::c` with so many fields -/
  variants : List ((String × String) × Nat)

/-- What the program is run with: the user's code, the meaning of tokens (see
`Model/EmitRuntime.lean`), and the results of the calls of `next()`. -/
structure Host (X V W Tok E : Type) where
  code : UserCode X V W
  toR : Tok → RVal
  inj : RVal → V
  input : Nat → Option (Except E Tok)

/-- The state: the cells, the world of the user's code, the number of calls of `next()`. -/
structure RState (V W Tok E : Type) where
  store : List (Val V Tok E)
  world : W
  calls : Nat

/-- What evaluation leads to. -/
inductive Res (V W Tok E α : Type) where
  | val (a : α) (s : RState V W Tok E)
  /-- `return` -/
  | ret (v : Val V Tok E) (s : RState V W Tok E)
  /-- `break` -/
  | brk (s : RState V W Tok E)
  | panic (f : Fault) (s : RState V W Tok E)
  /-- not a program -/
  | noCompile
  /-- cut off -/
  | fuel

/-- Go on with the value. -/
def Res.bind (r : Res V W Tok E α) (k : α → RState V W Tok E → Res V W Tok E β) : Res V W Tok E β :=
  match r with
  | .val a s => k a s
  | .ret v s => .ret v s
  | .brk s => .brk s
  | .panic f s => .panic f s
  | .noCompile => .noCompile
  | .fuel => .fuel

/-- Drop the cells from number `n` on. -/
def RState.pop (n : Nat) (s : RState V W Tok E) : RState V W Tok E :=
  { s with store := s.store.take n }

/-- Drop the cells from number `n` on: leaving a block. -/
def Res.pop (n : Nat) (r : Res V W Tok E α) : Res V W Tok E α :=
  match r with
  | .val a s => .val a (s.pop n)
  | .ret v s => .ret v (s.pop n)
  | .brk s => .brk (s.pop n)
  | .panic f s => .panic f (s.pop n)
  | r => r

/-- `Option` as an enum. -/
def Val.ofOption : Option (Val V Tok E) → Val V Tok E
  | none => .adt "Option" "None" []
  | some v => .adt "Option" "Some" [v]

/-- What `next()` returns, as a value. -/
def Val.ofItem : Option (Except E Tok) → Val V Tok E
  | none => .ofOption none
  | some (.error e) => .ofOption (some (.adt "Result" "Err" [.err e]))
  | some (.ok t) => .ofOption (some (.adt "Result" "Ok" [.tok t]))

/-- The value of a type of the user. -/
def Val.user? : Val V Tok E → Option V
  | .ext v => some v
  | _ => none

/-- A value as the user's code sees it. -/
def Val.seen : Val V Tok E → Option (BVal V)
  | .ext v => some (.nt v)
  | .tuple vs => (vs.mapM Val.user?).map .tok
  | _ => none

mutual

/-- Match a value; the outer `none` is a type error, the inner one says that it does not match. -/
def matchPat (H : Host X V W Tok E) : Pat → Val V Tok E → Option (Option (List (String × Val V Tok E)))
  | .wild, _ => some (some [])
  | .var x, v => some (some [(x, v)])
  | .ctor ty c ps, .adt ty' c' vs =>
    if ty' = ty then
      if c' = c then if ps.length = vs.length then matchPats H ps vs else none
      else some none
    else none
  | .record ty c fs, .record ty' c' vs =>
    if ty' = ty then
      if c' = c then
        match fs.mapM fun f => (vs.lookup f).map fun v => (f, v) with
        | some bs => some (some bs)
        | none => none
      else some none
    else none
  | .token p, .tok t => some ((matchR p (H.toR t)).map fun bs => bs.map fun b => (b.1, .ext (H.inj b.2)))
  | _, _ => none

/-- Match several values. -/
def matchPats (H : Host X V W Tok E) :
    List Pat → List (Val V Tok E) → Option (Option (List (String × Val V Tok E)))
  | p :: ps, v :: vs =>
    match matchPat H p v, matchPats H ps vs with
    | some (some b), some (some b') => some (some (b ++ b'))
    | some _, some _ => some none
    | _, _ => none
  | _, _ => some (some [])

end

/-- Where the local variables are, innermost first. -/
abbrev Locals := List (String × Nat)

/-- Allocate variables (rustc rejects two of the same name in one pattern or parameter list). -/
def Locals.bind (env : Locals) (xs : List String) (s : RState V W Tok E) : Locals :=
  xs.zip (List.range' s.store.length xs.length) ++ env

/-- Allocate cells. -/
def RState.push (s : RState V W Tok E) (vs : List (Val V Tok E)) : RState V W Tok E :=
  { s with store := s.store ++ vs }

/-- Overwrite a cell. -/
def RState.set (s : RState V W Tok E) (a : Nat) (v : Val V Tok E) : RState V W Tok E :=
  { s with store := s.store.set a v }

/-- The local variables, as the user's code sees them. -/
def visible (env : Locals) (s : RState V W Tok E) : Env V := fun n =>
  ((env.lookup n).bind fun a => s.store[a]?).bind Val.seen

/-- The value of a name: a local variable, a static, or a function. -/
def evalName (P : Program X V Tok E) (x : String) (env : Locals) (s : RState V W Tok E) :
    Res V W Tok E (Val V Tok E) :=
  match env.lookup x with
  | some a =>
    match s.store[a]? with
    | some v => .val v s
    | none => .noCompile
  | none =>
    match P.statics.lookup x with
    | some v => .val v s
    | none => .val (.fn (.free x)) s

/-- The cell an expression used as `self` refers to, through one reference. -/
def place (e : Ex X) (env : Locals) (s : RState V W Tok E) : Option Nat :=
  match e with
  | .name x =>
    match env.lookup x with
    | none => none
    | some a =>
      match s.store[a]? with
      | some (.ref b) => some b
      | _ => some a
  | _ => none

/-- The functions of the language: how function values are called. -/
abbrev CallSem (V W Tok E : Type) :=
  FnRef → List (Val V Tok E) → RState V W Tok E → Res V W Tok E (Val V Tok E)

/-- Call a function value. -/
def apply (P : Program X V Tok E) (call : CallSem V W Tok E) (f : Val V Tok E)
    (vs : List (Val V Tok E)) (s : RState V W Tok E) : Res V W Tok E (Val V Tok E) :=
  match f with
  | .fn (.assoc ty c) =>
    if ty = "::std::mem" ∧ c = "replace" then
      match vs with
      | [.ref a, v] =>
        match s.store[a]? with
        | some old => .val old (s.set a v)
        | none => .noCompile
      | _ => .noCompile
    else
      match P.variants.lookup (ty, c) with
      | some n => if vs.length = n then .val (.adt ty c vs) s else .noCompile
      | none => call (.assoc ty c) vs s
  | .fn (.free f) => call (.free f) vs s
  | _ => .noCompile

/-- Is there a method `m` for such a value? -/
def hasMethod (v : Val V Tok E) (m : String) : Bool :=
  match v with
  | .vec _ => ["push", "pop", "last"].contains m
  | .adt ty _ _ => if ty = "Option" then m == "unwrap" else ty == "SemanticActionResult"
  | .err _ => m == "clone"
  | .iter => m == "next"
  | _ => false

/-- Call a method on a value `v`, which is in cell `a` if it is in a cell.  `Clone` is assumed to give
an equal value. -/
def callMethod (H : Host X V W Tok E) (call : CallSem V W Tok E) (v : Val V Tok E) (a : Option Nat)
    (m : String) (vs : List (Val V Tok E)) (s : RState V W Tok E) : Res V W Tok E (Val V Tok E) :=
  match v with
  | .vec l =>
    if m = "push" then
      match a, vs with
      | some a, [x] => .val (.tuple []) (s.set a (.vec (l ++ [x])))
      | _, _ => .noCompile
    else if m = "pop" then
      match a, vs with
      | some a, [] => .val (.ofOption l.getLast?) (s.set a (.vec l.dropLast))
      | _, _ => .noCompile
    else if m = "last" then
      match vs with
      | [] => .val (.ofOption l.getLast?) s
      | _ => .noCompile
    else .noCompile
  | .adt ty c fs =>
    if ty = "Option" then
      if m = "unwrap" then
        match fs with
        | [x] => .val x s
        | _ => .panic .unwrapNone s
      else .noCompile
    else call (.assoc ty m) (.adt ty c fs :: vs) s
  | .err e => if m = "clone" then .val (.err e) s else .noCompile
  | .iter =>
    if m = "next" then .val (.ofItem (H.input s.calls)) { s with calls := s.calls + 1 } else .noCompile
  | _ => .noCompile

/-- `loop { .. }`, for at most so many iterations. -/
def loopSem : Nat → (RState V W Tok E → Res V W Tok E (Val V Tok E)) → RState V W Tok E →
    Res V W Tok E (Val V Tok E)
  | 0, _, _ => .fuel
  | n + 1, f, s =>
    match f s with
    | .val _ s' => loopSem n f s'
    | .brk s' => .val (.tuple []) s'
    | r => r

/-- `for _ in 0 .. n { .. }` -/
def forSem : Nat → (RState V W Tok E → Res V W Tok E (Val V Tok E)) → RState V W Tok E →
    Res V W Tok E (Val V Tok E)
  | 0, _, s => .val (.tuple []) s
  | n + 1, f, s =>
    match f s with
    | .val _ s' => forSem n f s'
    | .brk s' => .val (.tuple []) s'
    | r => r

/-- `e[i]` -/
def indexVal (v i : Val V Tok E) (s : RState V W Tok E) : Res V W Tok E (Val V Tok E) :=
  match v, i with
  | .vec l, .num n =>
    match l[n]? with
    | some x => .val x s
    | none => .panic .indexOutOfBounds s
  | _, _ => .noCompile

mutual

/-- Evaluate an expression. -/
def eval (P : Program X V Tok E) (H : Host X V W Tok E) (call : CallSem V W Tok E) (fuel : Nat) :
    Ex X → Locals → RState V W Tok E → Res V W Tok E (Val V Tok E)
  | .num n, _, s => .val (.num n) s
  | .name x, env, s => evalName P x env s
  | .path ty f, _, s => .val (.fn (.assoc ty f)) s
  | .user x, env, s =>
    match H.code.run x (visible env s) s.world with
    | none => .panic .userPanic s
    | some (v, w) => .val (.ext v) { s with world := w }
  | .tuple es, env, s => (evalAll P H call fuel es env s).bind fun vs s => .val (.tuple vs) s
  | .call f es, env, s =>
    (eval P H call fuel f env s).bind fun f s =>
      (evalAll P H call fuel es env s).bind fun vs s => apply P call f vs s
  | .method e m es, env, s =>
    match place e env s with
    | some a =>
      match s.store[a]? with
      | none => .noCompile
      | some v =>
        if hasMethod v m then
          (evalAll P H call fuel es env s).bind fun vs s =>
            match s.store[a]? with
            | none => .noCompile
            | some v => callMethod H call v (some a) m vs s
        else .noCompile
    | none =>
      (eval P H call fuel e env s).bind fun v s =>
        if hasMethod v m then
          (evalAll P H call fuel es env s).bind fun vs s => callMethod H call v none m vs s
        else .noCompile
  | .ref e, env, s => eval P H call fuel e env s
  | .refMut x, env, s =>
    match env.lookup x with
    | some a => .val (.ref a) s
    | none => .noCompile
  | .deref e, env, s =>
    (eval P H call fuel e env s).bind fun v s =>
      match v with
      | .ref a =>
        match s.store[a]? with
        | some v => .val v s
        | none => .noCompile
      | v => .val v s
  | .cast e, env, s =>
    (eval P H call fuel e env s).bind fun v s =>
      match v with
      | .num n => .val (.num n) s
      | _ => .noCompile
  | .index e i, env, s =>
    (eval P H call fuel e env s).bind fun v s =>
      (eval P H call fuel i env s).bind fun i s => indexVal v i s
  | .vec es, env, s => (evalAll P H call fuel es env s).bind fun vs s => .val (.vec vs) s
  | .record ty c fs, env, s =>
    match fs.mapM fun f => ((env.lookup f).bind fun a => s.store[a]?).map fun v => (f, v) with
    | some vs => .val (.record ty c vs) s
    | none => .noCompile
  | .block ss e, env, s =>
    ((evalStmts P H call fuel ss env s).bind fun env s => eval P H call fuel e env s).pop s.store.length
  | .match_ e arms, env, s =>
    (eval P H call fuel e env s).bind fun v s => evalArms P H call fuel arms v env s
  | .ifLet p e b, env, s =>
    (eval P H call fuel e env s).bind fun v s =>
      match matchPat H p v with
      | none => .noCompile
      | some none => .val (.tuple []) s
      | some (some bs) =>
        (eval P H call fuel b (env.bind (bs.map (·.1)) s) (s.push (bs.map (·.2)))).pop s.store.length
  | .loop b, env, s => loopSem fuel (eval P H call fuel b env) s
  | .forRange n b, env, s =>
    (eval P H call fuel n env s).bind fun v s =>
      match v with
      | .num n => forSem n (eval P H call fuel b env) s
      | _ => .noCompile
  | .return_ e, env, s => (eval P H call fuel e env s).bind fun v s => .ret v s
  | .break_, _, s => .brk s
  | .panic_ f, _, s => .panic f s

/-- Evaluate expressions from left to right. -/
def evalAll (P : Program X V Tok E) (H : Host X V W Tok E) (call : CallSem V W Tok E) (fuel : Nat) :
    List (Ex X) → Locals → RState V W Tok E → Res V W Tok E (List (Val V Tok E))
  | [], _, s => .val [] s
  | e :: es, env, s =>
    (eval P H call fuel e env s).bind fun v s =>
      (evalAll P H call fuel es env s).bind fun vs s => .val (v :: vs) s

/-- Run a statement: the local variables after it. -/
def evalStmt (P : Program X V Tok E) (H : Host X V W Tok E) (call : CallSem V W Tok E) (fuel : Nat) :
    Stmt X → Locals → RState V W Tok E → Res V W Tok E Locals
  | .let_ _ x e, env, s =>
    (eval P H call fuel e env s).bind fun v s => .val (env.bind [x] s) (s.push [v])
  | .semi e, env, s => (eval P H call fuel e env s).bind fun _ s => .val env s

/-- Run statements. -/
def evalStmts (P : Program X V Tok E) (H : Host X V W Tok E) (call : CallSem V W Tok E) (fuel : Nat) :
    List (Stmt X) → Locals → RState V W Tok E → Res V W Tok E Locals
  | [], env, s => .val env s
  | t :: ts, env, s =>
    (evalStmt P H call fuel t env s).bind fun env s => evalStmts P H call fuel ts env s

/-- The first arm that matches; rustc rejects a `match` that is not exhaustive. -/
def evalArms (P : Program X V Tok E) (H : Host X V W Tok E) (call : CallSem V W Tok E) (fuel : Nat) :
    List (Pat × Ex X) → Val V Tok E → Locals → RState V W Tok E → Res V W Tok E (Val V Tok E)
  | [], _, _, _ => .noCompile
  | (p, e) :: arms, v, env, s =>
    match matchPat H p v with
    | none => .noCompile
    | some none => evalArms P H call fuel arms v env s
    | some (some bs) =>
      (eval P H call fuel e (env.bind (bs.map (·.1)) s) (s.push (bs.map (·.2)))).pop s.store.length

end

/-- The end of a function: `return` is the value. -/
def Res.finish (n : Nat) (r : Res V W Tok E (Val V Tok E)) : Res V W Tok E (Val V Tok E) :=
  match r with
  | .val v s => .val v (s.pop n)
  | .ret v s => .val v (s.pop n)
  | .brk _ => .noCompile
  | .panic f s => .panic f (s.pop n)
  | r => r

/-- Call a function of the program; calls are nested at most so deeply. -/
def callFn (P : Program X V Tok E) (H : Host X V W Tok E) (fuel : Nat) : Nat → CallSem V W Tok E
  | 0 => fun _ _ _ => .fuel
  | d + 1 => fun f vs s =>
    match P.fns.find? (·.name = f) with
    | none => .noCompile
    | some fn =>
      if fn.params.length = vs.length then
        (eval P H (callFn P H fuel d) fuel fn.body (Locals.bind [] fn.params s) (s.push vs)).finish
          s.store.length
      else .noCompile

end Parsegen
