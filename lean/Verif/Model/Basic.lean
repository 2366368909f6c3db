/-!
# Shared modelling vocabulary

Rust runtime concepts used by every model file: panics, hash-container iteration order,
insertion-ordered association lists, fixed-width index conversions.
-/

namespace Parsegen

/-- Every way the modelled Rust code can fail to return normally.  Each constructor names the
`panic!`/`todo!`/`assert!`/`unwrap` it stands for. -/
inductive Fault where
  /-- lower.rs:23 `panic!("Terminal {:?} defined multiple times")` -/
  | duplicateTerminal (name : String)
  /-- lower.rs:111 `panic!("Non-terminal not defined: {}")` -/
  | undefinedNonTerminal (name : String)
  /-- lower.rs:123 `panic!("Unknown non-terminal: {:?}")` (raised for an undeclared *terminal*) -/
  | unknownTerminal (name : String)
  /-- lower.rs:130 `todo!("Repeat symbol not supported yet")` -/
  | repeatUnsupported
  /-- lower.rs:90 `todo!("Fallible actions not supported yet")` -/
  | fallibleUnsupported
  /-- lib.rs:35 `panic!("`type State` is declared multiple times")` -/
  | duplicateState
  /-- lib.rs:42 `panic!("`enum Token` is declared multiple times")` -/
  | duplicateTokenEnum
  /-- lib.rs:53 `.expect("Token type (`enum Token`) is not defined")` -/
  | missingTokenEnum
  /-- `u32::try_from(..).unwrap()` -/
  | u32Overflow
  /-- `u16::try_from(..).unwrap()` -/
  | u16Overflow
  /-- slice/`Vec` index out of bounds -/
  | indexOutOfBounds
  /-- `assert!`/`assert_eq!` -/
  | assertFailed
  /-- lr_common.rs:65 `({state}, {tok}): Overriding Shift({old}) with Shift({next})` -/
  | shiftOverShift (state tok old next : Nat)
  /-- lr_common.rs:87 `({state}, {tok}): Overriding Accept action with Shift({next})` -/
  | shiftOverAccept (state tok next : Nat)
  /-- lr_common.rs:117 `({state}, {tok}): Overriding Shift({old}) with Reduce({nt}, {prod})` -/
  | reduceOverShift (state : Nat) (tok : Option Nat) (old nt prod : Nat)
  /-- lr_common.rs:127 `({state}, {tok}): Overriding Reduce({nt'}, {prod'}) action with
  Reduce({nt}, {prod})` -/
  | reduceOverReduce (state : Nat) (tok : Option Nat) (nt' prod' nt prod : Nat)
  /-- lr_common.rs:138 `({state}, {tok}): Overriding Accept action with Reduce({nt}, {prod})` -/
  | reduceOverAccept (state : Nat) (tok : Option Nat) (nt prod : Nat)
  /-- `.unwrap()` of a `None` -/
  | unwrapNone
  /-- `unreachable!()` in a value extraction method, codegen.rs:297,328 -/
  | unreachable
  /-- lr_codegen.rs:215 `panic!("Stuck! (2)")` -/
  | stuck
  /-- the user's own semantic action code panicked -/
  | userPanic
  /-- not a panic: a `while`/`loop` was cut off by the model's fuel -/
  | outOfFuel
deriving DecidableEq, Repr

/-- Iteration order of `FxHashSet`/`FxHashMap` (collections.rs:1-5).  A container is modelled by the
duplicate-free list of its elements in insertion order; iterating over it visits `iter` of that
list, an arbitrary permutation.  Theorems quantify over every `HashOrder`. -/
structure HashOrder where
  iter : {α : Type} → List α → List α
  perm : ∀ {α : Type} (l : List α), (iter l).Perm l

/-- The insertion order itself: a concrete iteration order, used for examples. -/
def HashOrder.insertion : HashOrder := ⟨fun l => l, fun l => List.Perm.refl l⟩

/-- Another concrete iteration order, used to exercise order-independence in examples. -/
def HashOrder.reversed : HashOrder := ⟨List.reverse, fun l => List.reverse_perm l⟩

@[simp] theorem HashOrder.mem_iter (h : HashOrder) {α : Type} {l : List α} {x : α} :
    x ∈ h.iter l ↔ x ∈ l := (h.perm l).mem_iff

/-- `FxHashSet::insert` on the insertion-ordered list representation. -/
def setInsert {α : Type} [DecidableEq α] (l : List α) (x : α) : List α :=
  if x ∈ l then l else l ++ [x]

/-- `HashMap`: association list with unique keys in insertion order. -/
abbrev AMap (K V : Type) := List (K × V)

/-- `HashMap::get`. -/
def AMap.get? {K V : Type} [DecidableEq K] (m : AMap K V) (k : K) : Option V :=
  match m with
  | [] => none
  | (k', v) :: rest => if k' = k then some v else AMap.get? rest k

/-- `HashMap::insert` (replaces the value of an existing key). -/
def AMap.insert {K V : Type} [DecidableEq K] (m : AMap K V) (k : K) (v : V) : AMap K V :=
  match m with
  | [] => [(k, v)]
  | (k', v') :: rest => if k' = k then (k', v) :: rest else (k', v') :: AMap.insert rest k v

/-- The Rust cast `i as u32` of a `usize`: silently truncates. -/
def asU32 (n : Nat) : Nat := n % 4294967296

/-- `u32::try_from(i).unwrap()`. -/
def tryU32 (n : Nat) : Except Fault Nat :=
  if n < 4294967296 then .ok n else .error .u32Overflow

/-- `u16::try_from(i).unwrap()`. -/
def tryU16 (n : Nat) : Except Fault Nat :=
  if n < 65536 then .ok n else .error .u16Overflow

/-- `let mut updated = true; while updated { updated = false; body }` where `body` returns the new
state and the final value of `updated`.  Stops after `fuel` passes; the Boolean result is the last
value of `updated`, so `false` means the real loop has ended with this state. -/
def whileUpdated {σ : Type} (body : σ → σ × Bool) : Nat → σ → σ × Bool
  | 0, s => (s, true)
  | fuel + 1, s =>
    match body s with
    | (s', true) => whileUpdated body fuel s'
    | (s', false) => (s', false)

end Parsegen
