import Verif.Spec.Assoc

/-! # Specification: operators of several precedences

An expression in infix notation, without its grouping, is a first operand and a list of operators and
operands.  `Levels.value` says what it means, given the precedences: the operators of the loosest level are
applied last, those of one level from left to right or from right to left. -/

namespace Parsegen

variable {X Ty V W Tok E : Type} [DecidableEq Ty]

/-- Operators of the same precedence, with what they compute; the non-terminal for expressions in which
they, and all that bind tighter, may be used. -/
structure Level (V : Type) where
  name : String
  ops : List String
  /-- Do they associate to the right? -/
  right : Bool
  f : String → V → V → V

/-- `x o1 (y1 o2 (y2 ..))` -/
def foldRight (f : String → V → V → V) : V → List (String × V) → V
  | x, [] => x
  | x, (o, y) :: r => f o x (foldRight f y r)

/-- `((x o1 y1) o2 y2) ..` -/
def foldLeft (f : String → V → V → V) : V → List (String × V) → V
  | x, [] => x
  | x, (o, y) :: r => foldLeft f (f o x y) r

/-- Apply operators of one level. -/
def Level.fold (l : Level V) : V → List (String × V) → V :=
  if l.right then foldRight l.f else foldLeft l.f

/-- Cut an infix expression at the operators `ops`. -/
def cut {α : Type} (ops : List String) : α → List (String × α) →
    (α × List (String × α)) × List (String × (α × List (String × α)))
  | x, [] => ((x, []), [])
  | x, (o, y) :: r =>
    let c := cut ops y r
    if o ∈ ops then ((x, []), (o, c.1) :: c.2) else ((x, (o, c.1.1) :: c.1.2), c.2)

/-- The value of an infix expression; the levels from the loosest to the tightest. -/
def Levels.value : List (Level V) → V → List (String × V) → V
  | [], x, _ => x
  | l :: ls, x, r =>
    l.fold (Levels.value ls (cut l.ops x r).1.1 (cut l.ops x r).1.2)
      ((cut l.ops x r).2.map fun c => (c.1, Levels.value ls c.2.1 c.2.2))

/-- The tokens `toks` are operands, as said by `Q`, with one operator from `ops` between each two. -/
inductive Infix {α : Type} (cls : Tok → String) (Q : List Tok → W → α → W → Prop) (ops : List String) :
    List Tok → W → α → List (String × α) → W → Prop
  | one {toks w x w'} (h : Q toks w x w') : Infix cls Q ops toks w x [] w'
  | more {toks s rest w x w1 y r w'} (h : Q toks w x w1) (hs : cls s ∈ ops)
      (hr : Infix cls Q ops rest w1 y r w') : Infix cls Q ops (toks ++ s :: rest) w x ((cls s, y) :: r) w'

/-- A phrase of a non-terminal with its value. -/
def Compiled.Phrase (P : Compiled X Ty V W Tok) (T : String) (toks : List Tok) (w : W) (v : V) (w' : W) : Prop :=
  P.Means [.nonTerminal T] toks w [.nt v] w'

/-- `A = { A "o" T => f o, .. , T }`, or to the right `A = { T "o" A => f o, .., T }`, with one production
for each operator `o`. -/
structure Compiled.IsLevel (P : Compiled X Ty V W Tok) (l : Level V) (T : String) : Prop where
  join : ∀ o ∈ l.ops, ∃ p ∈ userProds P.defs l.name,
    P.IsJoin p (if l.right then T else l.name) (if l.right then l.name else T) [o] (l.f o)
  lift : ∃ p ∈ userProds P.defs l.name, P.IsLift p T fun x => x
  only : ∀ p ∈ userProds P.defs l.name, (∃ o ∈ l.ops,
    P.IsJoin p (if l.right then T else l.name) (if l.right then l.name else T) [o] (l.f o)) ∨
      P.IsLift p T fun x => x

/-- The non-terminal of the loosest level. -/
def Levels.name (atom : String) : List (Level V) → String
  | [] => atom
  | l :: _ => l.name

/-- A grammar of expressions: each level is defined in terms of the next tighter one, the tightest in terms
of the operands `atom`; an operator belongs to one level. -/
def Compiled.Tower (P : Compiled X Ty V W Tok) (atom : String) : List (Level V) → Prop
  | [] => True
  | l :: ls => P.IsLevel l (Levels.name atom ls) ∧ P.Tower atom ls ∧ ∀ o ∈ l.ops, ∀ l' ∈ ls, o ∉ l'.ops

/-- All operators. -/
def Levels.ops (ls : List (Level V)) : List String := ls.flatMap (·.ops)

end Parsegen
