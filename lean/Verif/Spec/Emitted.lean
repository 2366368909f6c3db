import Verif.Model.Runtime
import Batteries.Data.List.Basic

/-! # Specification: what the emitted tables and functions should contain -/

namespace Parsegen

variable {A X Ty V : Type}

/-- All productions of a grammar in declaration order: (non-terminal, production number,
production). -/
def Grammar.listing (g : Grammar A Ty) : List (Nat × Nat × Production A) :=
  g.nonTerminals.zipIdx.flatMap fun e => e.1.productions.zipIdx.map fun q => (e.2, q.2, q.1)

/-- The emitted cell `r` says the same as the table entry `a`: same shift target; for a reduction the
non-terminal, the length of the production and the action number. -/
def SameCell (g : Grammar Nat Ty) : Option (LRAction Nat) → Option RtAction → Prop
  | none, none => True
  | some (.shift n), some (.shift m) => n = m
  | some (.reduce nt p a), some (.reduce nt' len a') =>
    nt = nt' ∧ a = a' ∧ (g.getProduction? nt p).map (·.symbols.length) = some len
  | some .accept, some .accept => True
  | _, _ => False

/-- A stack value of the kind kept for symbol `s`: for terminal `i` a `Token<i>`, for a non-terminal
the variant of its type. -/
def KindOf (variants : List Nat) : Symbol → SAR V → Prop
  | .terminal i, v => ∃ fs, v = .token i fs
  | .nonTerminal b, v => ∃ k x, variants[b]? = some k ∧ v = .nonTerminal k x

/-- What an action sees of a stack value. -/
def SAR.bound : SAR V → BVal V
  | .token _ fs => .tok fs
  | .nonTerminal _ v => .nt v

/-- The emitted function `f` implements production `pr` of non-terminal `nt`: on a stack whose top
values are those of the production's symbols (last symbol on top) it removes exactly these, runs the
production's action with every name bound to the value of the leftmost symbol of that name, and pushes
the result in the variant of `nt`'s type; it fails only if the action does. -/
def Implements {W : Type} (u : UserCode X V W) (variants : List Nat)
    (envOf : List (BVal V) → Env V) (nt : Nat) (syms : List Symbol) (action : X) (f : SemFn X) : Prop :=
  ∃ k, variants[nt]? = some k ∧
    ∀ (vs : List (SAR V)), List.Forall₂ (KindOf variants) syms vs → ∀ rest w,
      f.run u (vs.reverse ++ rest) w =
        match u.run action (envOf (vs.map SAR.bound)) w with
        | none => .error .userPanic
        | some (v, w') => .ok (.nonTerminal k v :: rest, w')

end Parsegen
