import Verif.Model.Table

/-! # Model of `simulate` (src/lr_common.rs:204-261), the parser the project's own unit tests run

It is compiled for tests only.  `Debug` output is not modelled. -/

namespace Parsegen

variable {A Ty : Type}

/-- lr_common.rs:210-212: the locals of `simulate`, plus the number of calls of `input.next()`; the top
of the stack is the head of the list. -/
structure SimState where
  stack : List Nat
  a : Option Nat
  calls : Nat
deriving DecidableEq, Repr

/-- How `simulate` ends. -/
inductive SimEnd where
  /-- lr_common.rs:237-239: accepted -/
  | done
  /-- lr_common.rs:243-247: no action for the token -/
  | stuck
  /-- lr_common.rs:231 `panic!("Stuck! (1)")` -/
  | stuckGoto
  /-- another panic -/
  | fault (f : Fault)
deriving DecidableEq, Repr

/-- Result of one iteration. -/
inductive SimStep where
  | next (s : SimState)
  | done (e : SimEnd) (s : SimState)
deriving DecidableEq, Repr

/-- lr_common.rs:214-250: one iteration of the loop. -/
def simStep (t : LRTable A) (g : Grammar A Ty) (input : Nat → Option Nat) (s : SimState) : SimStep :=
  match s.stack with
  | [] => .done (.fault .unwrapNone) s
  | st :: _ =>
    match t.getAction st s.a with
    | some (.shift n) => .next { stack := n :: s.stack, a := input s.calls, calls := s.calls + 1 }
    | some (.reduce nt p _) =>
      match g.getProduction? nt p with
      | none => .done (.fault .indexOutOfBounds) s
      | some pr =>
        match s.stack.drop pr.symbols.length with
        | [] => .done (.fault .unwrapNone) s
        | st' :: rest =>
          match t.getGoto st' nt with
          | none => .done .stuckGoto s
          | some nx => .next { s with stack := nx :: st' :: rest }
    | some .accept => .done .done s
    | none => .done .stuck s

/-- lr_common.rs:214-250, for at most `fuel` iterations. -/
def simLoop (t : LRTable A) (g : Grammar A Ty) (input : Nat → Option Nat) :
    Nat → SimState → Option (SimEnd × SimState)
  | 0, _ => none
  | fuel + 1, s =>
    match simStep t g input s with
    | .done e s' => some (e, s')
    | .next s' => simLoop t g input fuel s'

/-- lr_common.rs:204-261 `simulate`, up to the end of the loop: always starts in state 0. -/
def simulate (t : LRTable A) (g : Grammar A Ty) (input : Nat → Option Nat) (fuel : Nat) :
    Option (SimEnd × SimState) :=
  simLoop t g input fuel ⟨[0], input 0, 1⟩

/-- What the unit tests do before calling `simulate` (lr1.rs:602-615). -/
def testTable (h : HashOrder) (g : Grammar A Ty) : Except Fault (LRTable A) := do
  let a ← generateAutomaton h g (generateFirstTable h g)
  buildTable h g a.states

end Parsegen
