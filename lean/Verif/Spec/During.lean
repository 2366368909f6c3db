import Verif.Spec.Compiled

/-! # Specification: what can be observed while `parse` is running

A caller can observe a running `parse` through the iterator (how often `next()` has been called) and
through the side effects of the semantic actions. -/

namespace Parsegen

variable {X Ty V W Tok E : Type}

/-- `Steps gen u tf input ep s s'`: some number of iterations of the loop lead from `s` to `s'`. -/
inductive Steps (gen : Generated X) (u : UserCode X V W) (tf : TokenFns Tok V)
    (input : Nat → Option (Except E Tok)) (ep : EntryPoint) :
    PState Tok V W E → PState Tok V W E → Prop
  | refl (s) : Steps gen u tf input ep s s
  | tail {s s' s''} (h : Steps gen u tf input ep s s')
      (hn : parseStep gen u tf input ep s' = .next s'') : Steps gen u tf input ep s s''

/-- `P.During ep input w w' n`: at some moment during the call of `parse` on `input` in world `w` the
world is `w'` and `next()` has been called `n` times. -/
def Compiled.During [DecidableEq Ty] (P : Compiled X Ty V W Tok) (ep : EntryPoint)
    (input : Nat → Option (Except E Tok)) (w w' : W) (n : Nat) : Prop :=
  ∃ s : PState Tok V W E, Steps P.gen P.code P.tf input ep (parseInit input ep w) s ∧
    s.world = w' ∧ s.calls = n

/-- `Iterations gen u tf input ep k s s'`: `k` iterations of the loop lead from `s` to `s'`. -/
inductive Iterations (gen : Generated X) (u : UserCode X V W) (tf : TokenFns Tok V)
    (input : Nat → Option (Except E Tok)) (ep : EntryPoint) :
    Nat → PState Tok V W E → PState Tok V W E → Prop
  | zero (s) : Iterations gen u tf input ep 0 s s
  | succ {k s s' s''} (h : Iterations gen u tf input ep k s s')
      (hn : parseStep gen u tf input ep s' = .next s'') : Iterations gen u tf input ep (k + 1) s s''

/-- `P.After ep input w k m w' n`: after `k` iterations of the loop of `parse`, each of which shifts a
token or runs one semantic action, there are `m` entries on the two stacks together, the world is `w'`
and `next()` has been called `n` times. -/
def Compiled.After [DecidableEq Ty] (P : Compiled X Ty V W Tok) (ep : EntryPoint)
    (input : Nat → Option (Except E Tok)) (w : W) (k m : Nat) (w' : W) (n : Nat) : Prop :=
  ∃ s : PState Tok V W E, Iterations P.gen P.code P.tf input ep k (parseInit input ep w) s ∧
    s.states.length + s.values.length = m ∧ s.world = w' ∧ s.calls = n

/-- The call of `parse` returns in iteration number `k` or earlier. -/
def Compiled.ReturnsWithin [DecidableEq Ty] (P : Compiled X Ty V W Tok) (ep : EntryPoint)
    (input : Nat → Option (Except E Tok)) (w : W) (k : Nat) (o : Outcome V E) (w' : W) (n : Nat) :
    Prop :=
  ∃ s', parse P.gen P.code P.tf input ep w k = some (o, s') ∧ s'.world = w' ∧ s'.calls = n

end Parsegen
