import Verif.Model.Interactive
import Verif.Spec.Compiled

/-! # Specification: parsing with an iterator that shares state with the actions -/

namespace Parsegen

variable {X Ty V W Tok E Val : Type}

/-- Evaluation of a derivation interleaved with reading: the state is the world and the token that has
been read last (the lookahead).  Passing a leaf calls `next()`, so the token after it is read in the
world left by the actions of everything completed before that leaf; nodes run their action after their
children, as in `UEval`.

`UIEval asts cls alg next syms toks (w, la) vals (w', la')`: the symbols derive the tokens `toks`;
evaluating that derivation from world `w` with lookahead `la` yields `vals`, world `w'` and lookahead
`la'`. -/
inductive UIEval (asts : List (AstNonTerminal X Ty)) (cls : Tok → String) (alg : UAlg X Tok Val W)
    (next : W → Option (Except E Tok) × W) :
    List AstSymbol → List Tok → W × Option (Except E Tok) → List Val → W × Option (Except E Tok) → Prop
  | nil (r) : UIEval asts cls alg next [] [] r [] r
  | term {s t ss ts w vs r'} (hs : s.plain = some (.term (cls t)))
      (h : UIEval asts cls alg next ss ts ((next w).2, (next w).1) vs r') :
      UIEval asts cls alg next (s :: ss) (t :: ts) (w, some (.ok t)) (alg.leaf t :: vs) r'
  | nt {s name i p t1 t2 r us w1 la1 v w2 ss vs r3} (hs : s.plain = some (.nt name))
      (hp : (userProds asts name)[i]? = some p)
      (hc : UIEval asts cls alg next p.symbols t1 r us (w1, la1))
      (ha : alg.node name i p us w1 = some (v, w2))
      (h : UIEval asts cls alg next ss t2 (w2, la1) vs r3) :
      UIEval asts cls alg next (s :: ss) (t1 ++ t2) r (v :: vs) r3

/-- Forget the value. -/
def Outcome.kind : Outcome V E → Outcome Unit E
  | .ok _ => .ok ()
  | .lexerError e => .lexerError e
  | .parserError f e => .parserError f e
  | .fault f => .fault f

/-- The items of a list, as an iterator. -/
def itemStream (items : List (Option (Except E Tok))) : Nat → Option (Except E Tok) :=
  fun i => (items[i]?).join

/-- Actions that do nothing. -/
def trivialCode (mkPath : String → X) : UserCode X Unit Unit :=
  ⟨fun _ _ _ => some ((), ()), mkPath, fun _ _ _ _ _ => rfl⟩

/-- Some number of iterations of the loop. -/
inductive ISteps (gen : Generated X) (u : UserCode X V W) (tf : TokenFns Tok V)
    (next : W → Option (Except E Tok) × W) (ep : EntryPoint) :
    IState Tok V W E → IState Tok V W E → Prop
  | refl (s) : ISteps gen u tf next ep s s
  | tail {s s' s''} (h : ISteps gen u tf next ep s s')
      (hn : iParseStep gen u tf next ep s' = .next s'') : ISteps gen u tf next ep s s''

/-- `k` iterations of the loop. -/
inductive IIterations (gen : Generated X) (u : UserCode X V W) (tf : TokenFns Tok V)
    (next : W → Option (Except E Tok) × W) (ep : EntryPoint) :
    Nat → IState Tok V W E → IState Tok V W E → Prop
  | zero (s) : IIterations gen u tf next ep 0 s s
  | succ {k s s' s''} (h : IIterations gen u tf next ep k s s')
      (hn : iParseStep gen u tf next ep s' = .next s'') : IIterations gen u tf next ep (k + 1) s s''

/-- The iterator that yields `input 0`, `input 1`, ..., whatever the actions do: it keeps the number of
calls in its part of the world. -/
def counterNext (input : Nat → Option (Except E Tok)) (w : W × Nat) :
    Option (Except E Tok) × (W × Nat) := (input w.2, (w.1, w.2 + 1))

namespace Compiled

variable [DecidableEq Ty]

/-- `P.IReturns ep next w o w' items`: calling the emitted `parse` in world `w` with an iterator whose
`next()` behaves like `next` ends with outcome `o` in world `w'`; the calls of `next()` have returned
`items`. -/
def IReturns (P : Compiled X Ty V W Tok) (ep : EntryPoint) (next : W → Option (Except E Tok) × W)
    (w : W) (o : Outcome V E) (w' : W) (items : List (Option (Except E Tok))) : Prop :=
  ∃ fuel s', iParse P.gen P.code P.tf next ep w fuel = some (o, s') ∧ s'.world = w' ∧
    s'.items = items

/-- `P.IDuring ep next w w' items`: at some moment during that call the world is `w'` and the calls of
`next()` have returned `items`. -/
def IDuring (P : Compiled X Ty V W Tok) (ep : EntryPoint) (next : W → Option (Except E Tok) × W)
    (w w' : W) (items : List (Option (Except E Tok))) : Prop :=
  ∃ s : IState Tok V W E, ISteps P.gen P.code P.tf next ep (iParseInit next ep w) s ∧
    s.world = w' ∧ s.items = items

/-- After `k` iterations of the loop, each of which shifts a token or runs one semantic action, there
are `m` entries on the two stacks together, the world is `w'` and the calls of `next()` have returned
`items`. -/
def IAfter (P : Compiled X Ty V W Tok) (ep : EntryPoint) (next : W → Option (Except E Tok) × W)
    (w : W) (k m : Nat) (w' : W) (items : List (Option (Except E Tok))) : Prop :=
  ∃ s : IState Tok V W E, IIterations P.gen P.code P.tf next ep k (iParseInit next ep w) s ∧
    s.states.length + s.values.length = m ∧ s.world = w' ∧ s.items = items

/-- The meaning of a derivation of the user's grammar, interleaved with reading. -/
def IMeans (P : Compiled X Ty V W Tok) (next : W → Option (Except E Tok) × W) (ss : List AstSymbol)
    (toks : List Tok) (r : W × Option (Except E Tok)) (vals : List (BVal V))
    (r' : W × Option (Except E Tok)) : Prop :=
  UIEval P.defs P.cls (userValues P.code P.fields) next ss toks r vals r'

/-- The same program with actions that do nothing. -/
def trivial (P : Compiled X Ty V W Tok) : Compiled X Ty Unit Unit Tok where
  order := P.order
  code := trivialCode P.code.mkPath
  items := P.items
  gen := P.gen
  tokens := P.tokens
  toR := P.toR
  inj := fun _ => ()
  tf := ⟨P.tf.terminalIdx, fun t => (P.tf.value t).map fun _ => ()⟩
  accepted := P.accepted
  idx := P.idx
  value := by
    intro t
    have := congrArg (Option.map (SAR.map fun _ => ())) (P.value t)
    simp only [Option.map_map, Option.map_some] at this
    rw [← this]
    congr 1
    funext v
    cases v <;> simp [SAR.map]
  simple := P.simple

/-- The same program with an extra component of the world that its actions do not touch. -/
def withCounter (P : Compiled X Ty V W Tok) : Compiled X Ty V (W × Nat) Tok where
  order := P.order
  code := ⟨fun x env w => (P.code.run x env w.1).map fun r => (r.1, (r.2, w.2)), P.code.mkPath,
    by intro n env w v h; simp [P.code.run_mkPath n env w.1 v h]⟩
  items := P.items
  gen := P.gen
  tokens := P.tokens
  toR := P.toR
  inj := P.inj
  tf := P.tf
  accepted := P.accepted
  idx := P.idx
  value := P.value
  simple := P.simple

end Compiled

end Parsegen
