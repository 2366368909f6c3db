import Verif.Model.Text

/-! # The emitted text, printed

Nothing is proved about the printer; it serves to compare `Model/Text.lean` with the `quote!` in
lr_codegen.rs.  Types and generics are not part of the modelled text. -/

namespace Parsegen

variable {X : Type}

/-- `ty::c`, in the prelude without the type (as the emitted text writes it). -/
def pathString (ty c : String) : String :=
  if ty = "Option" ∨ ty = "Result" then c else ty ++ "::" ++ c

/-- `x, y, z` -/
def commas (l : List String) : String := ", ".intercalate l

/-- A field list in braces. -/
def braces (fs : List String) : String := if fs.isEmpty then "" else " { " ++ commas fs ++ " }"

/-- A field list in parentheses. -/
def parens (fs : List String) : String := if fs.isEmpty then "" else "(" ++ commas fs ++ ")"

mutual

/-- Print a pattern (token patterns, which come from the user, as `_`). -/
def Pat.print : Pat → String
  | .wild => "_"
  | .var x => x
  | .ctor ty c ps => pathString ty c ++ parens (Pat.prints ps)
  | .record ty c fs => pathString ty c ++ braces fs
  | .token _ => "_"

/-- Print patterns. -/
def Pat.prints : List Pat → List String
  | [] => []
  | p :: ps => p.print :: Pat.prints ps

end

mutual

/-- Print an expression; `u` prints the user's expressions. -/
def Ex.print (u : X → String) : Ex X → String
  | .num n => toString n
  | .name x => x
  | .path ty f => pathString ty f
  | .user x => u x
  | .tuple es => "(" ++ commas (Ex.prints u es) ++ ")"
  | .call f es => f.print u ++ "(" ++ commas (Ex.prints u es) ++ ")"
  | .method e m es => e.print u ++ "." ++ m ++ "(" ++ commas (Ex.prints u es) ++ ")"
  | .ref e => "&" ++ e.print u
  | .refMut x => "&mut " ++ x
  | .deref e => "*" ++ e.print u
  | .cast e => e.print u ++ " as usize"
  | .index e i => e.print u ++ "[" ++ i.print u ++ "]"
  | .vec es => "vec![" ++ commas (Ex.prints u es) ++ "]"
  | .record ty c fs => pathString ty c ++ braces fs
  | .block ss (.tuple []) => "{ " ++ Ex.stmts u ss ++ "}"
  | .block ss e => "{ " ++ Ex.stmts u ss ++ e.print u ++ " }"
  | .match_ e arms => "match " ++ e.print u ++ " { " ++ Ex.arms u arms ++ "}"
  | .ifLet p e b => "if let " ++ p.print ++ " = " ++ e.print u ++ " " ++ b.print u
  | .loop b => "loop " ++ b.print u
  | .forRange n b => "for _ in 0 .. " ++ n.print u ++ " " ++ b.print u
  | .return_ e => "return " ++ e.print u
  | .break_ => "break"
  | .panic_ .stuck => "panic!(\"Stuck! (2)\")"
  | .panic_ _ => "unreachable!()"

/-- Print expressions. -/
def Ex.prints (u : X → String) : List (Ex X) → List String
  | [] => []
  | e :: es => e.print u :: Ex.prints u es

/-- Print the arms of a `match`. -/
def Ex.arms (u : X → String) : List (Pat × Ex X) → String
  | [] => ""
  | (p, e) :: as => p.print ++ " => " ++ e.print u ++ ", " ++ Ex.arms u as

/-- Print a statement. -/
def Stmt.print (u : X → String) : Stmt X → String
  | .let_ m x e => "let " ++ (if m then "mut " else "") ++ x ++ " = " ++ e.print u ++ "; "
  | .semi e => e.print u ++ "; "

/-- Print statements. -/
def Ex.stmts (u : X → String) : List (Stmt X) → String
  | [] => ""
  | s :: ss => s.print u ++ Ex.stmts u ss

end

/-- Print a function, without types. -/
def FnDecl.print (u : X → String) (f : FnDecl X) : String :=
  "fn " ++ (match f.name with | .free n => n | .assoc _ n => n) ++ "(" ++ commas f.params ++ ") " ++
    f.body.print u

end Parsegen
