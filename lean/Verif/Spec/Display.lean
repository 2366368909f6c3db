import Verif.Model.Display
import Verif.Spec.User

/-! # Specification: what the dumps tell -/

namespace Parsegen

variable {A Ty : Type}

/-- What is used of `<str as Debug>::fmt`: a quoted text from which the string, and where it ends, can be
read off. -/
structure IsDebugStr (dbg : String → Chars) : Prop where
  quote : ∀ s, ∃ r, dbg s = '"' :: r
  delim : ∀ {s t x y}, dbg s ++ x = dbg t ++ y → s = t ∧ x = y

/-- Characters of identifiers (and `#` of raw ones). -/
def identChar (c : Char) : Bool := c.isAlphanum || c == '_' || c == '#' || decide (128 ≤ c.toNat)

/-- The text of an identifier. -/
def IsIdentText (s : String) : Prop := s ≠ "" ∧ ∀ c ∈ s.toList, identChar c = true

/-- The names of non-terminals are identifiers. -/
def Grammar.IdentNames (g : Grammar A Ty) : Prop := ∀ n ∈ g.nonTerminals, IsIdentText n.name

/-- A symbol by name. -/
def Grammar.named (g : Grammar A Ty) : Symbol → Option USym
  | .nonTerminal i => (g.nonTerminals[i]?).map fun n => .nt n.name
  | .terminal i => (g.terminals[i]?).map .term

/-- The rules of a grammar by name: for each non-terminal its name, whether it is an entry point, and its
right-hand sides. -/
def Grammar.rules (g : Grammar A Ty) : List (String × Bool × List (List (Option USym))) :=
  g.nonTerminals.map fun n => (n.name, n.isPublic, n.productions.map fun p => p.syms.map g.named)

/-- An action without the code of the semantic action. -/
def LRAction.plain : LRAction A → LRAction Unit
  | .shift s => .shift s
  | .reduce nt p _ => .reduce nt p ()
  | .accept => .accept

/-- An item by name: non-terminal, right-hand side, cursor, lookahead. -/
def Grammar.namedItem (g : Grammar A Ty) (it : Item) :
    Option String × List (Option USym) × Nat × Option Nat :=
  ((g.nonTerminals[it.nt]?).map (·.name), (g.rhs it.nt it.prod).map g.named, it.cursor, it.la)

end Parsegen
