import Verif.Model.FreeActions
import Verif.Spec.Actions

/-! # Specification: actions that leave the action function -/

namespace Parsegen

variable {X Ty V W Tok E : Type}

/-- `P.FreeReturns u ep input w o w' n`: like `P.Returns`, with the actions of `P` interpreted by `u`. -/
def Compiled.FreeReturns [DecidableEq Ty] (P : Compiled X Ty V W Tok) (u : FreeCode X V W)
    (ep : EntryPoint) (input : Nat → Option (Except E Tok)) (w : W) (o : Outcome V E) (w' : W)
    (n : Nat) : Prop :=
  ∃ fuel s', freeParse P.gen u P.tf input ep w fuel = some (o, s') ∧ s'.world = w' ∧ s'.calls = n

/-- Actions that neither return nor touch the value stack. -/
def FreeCode.ofUser (c : UserCode X V W) : FreeCode X V W where
  run := fun x env _ w => (c.run x env w).map fun r => (.value r.1, r.2)
  mkPath := c.mkPath
  run_mkPath := by intro n env st w v h; rw [c.run_mkPath n env w v h]; rfl
  path_ends := by
    intro n env st w st' w' h
    obtain ⟨r, _, h⟩ := Option.map_eq_some_iff.1 h
    cases h

/-- Actions that may `return;` but do not touch the value stack: `some (none, w)` is a `return`. -/
structure ReturningCode (X V W : Type) where
  run : X → Env V → W → Option (Option V × W)
  mkPath : String → X
  run_mkPath : ∀ n env w v, env n = some (.nt v) → run (mkPath n) env w = some (some v, w)
  path_ends : ∀ n env w w', run (mkPath n) env w ≠ some (none, w')

/-- What the emitted functions make of it: nothing is pushed. -/
def ReturningCode.free (r : ReturningCode X V W) : FreeCode X V W where
  run := fun x env st w => match r.run x env w with
    | none => none
    | some (some v, w') => some (.value v, w')
    | some (none, w') => some (.ret st, w')
  mkPath := r.mkPath
  run_mkPath := by intro n env st w v h; rw [r.run_mkPath n env w v h]
  path_ends := by
    intro n env st w st' w' h
    have := r.path_ends n env w
    cases h1 : r.run (r.mkPath n) env w with
    | none => rw [h1] at h; cases h
    | some p =>
      obtain ⟨o, w1⟩ := p
      cases o with
      | none => exact this w1 h1
      | some v => rw [h1] at h; cases h

/-- The same actions with a panic instead of each `return`. -/
def ReturningCode.strict (r : ReturningCode X V W) : UserCode X V W where
  run := fun x env w => match r.run x env w with
    | some (some v, w') => some (v, w')
    | _ => none
  mkPath := r.mkPath
  run_mkPath := by intro n env w v h; rw [r.run_mkPath n env w v h]

/-- Every symbol of every production has a name. -/
def AllNamed (defs : List (AstNonTerminal X Ty)) : Prop :=
  ∀ d ∈ defs, ∀ p ∈ d.productions, ∀ s ∈ p.symbols, ∃ n s', s = .named n s'

/-- The panics that actions can bring about: their own, `Option::unwrap` on an empty value stack, and
`unreachable!()` on a value of another symbol. -/
def Fault.FromActions (f : Fault) : Prop := f = .userPanic ∨ f = .unwrapNone ∨ f = .unreachable

end Parsegen
