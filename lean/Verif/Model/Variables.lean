import Verif.Model.Pattern

/-! # Path patterns that are variables

In a Rust pattern a path of one segment that is not the name of a constant, a unit struct or a unit
variant in scope is a variable: it matches everything.  `Model/Pattern.lean` leaves that case out.
Here name resolution is a parameter: `isVar p` says that the path `p` (as written in the grammar) is
not in scope at the place of the macro call, so that rustc takes it for a variable. -/

namespace Parsegen

variable {Ty : Type}

mutual
/-- rustc's reading of an emitted pattern. -/
def RPat.resolve (isVar : String → Bool) : RPat → RPat
  | .path p => if isVar p then .ident p else .path p
  | .tupleStruct p ps => .tupleStruct p (RPat.resolveList isVar ps)
  | .struct p fs dots => .struct p (RPat.resolveFields isVar fs) dots
  | .tuple ps => .tuple (RPat.resolveList isVar ps)
  | .paren p => .paren (p.resolve isVar)
  | .wild => .wild
  | .rest => .rest
  | .lit s => .lit s
  | .ident n => .ident n
/-- In components. -/
def RPat.resolveList (isVar : String → Bool) : List RPat → List RPat
  | [] => []
  | p :: ps => p.resolve isVar :: RPat.resolveList isVar ps
/-- In fields. -/
def RPat.resolveFields (isVar : String → Bool) : List (String × RPat) → List (String × RPat)
  | [] => []
  | (f, p) :: fs => (f, p.resolve isVar) :: RPat.resolveFields isVar fs
end

mutual
/-- The variables of a pattern, in order. -/
def RPat.boundVars : RPat → List String
  | .ident n => [n]
  | .tupleStruct _ ps => RPat.boundVarsList ps
  | .struct _ fs _ => RPat.boundVarsFields fs
  | .tuple ps => RPat.boundVarsList ps
  | .paren p => p.boundVars
  | .path _ => []
  | .wild => []
  | .rest => []
  | .lit _ => []
/-- In components. -/
def RPat.boundVarsList : List RPat → List String
  | [] => []
  | p :: ps => p.boundVars ++ RPat.boundVarsList ps
/-- In fields. -/
def RPat.boundVarsFields : List (String × RPat) → List String
  | [] => []
  | (_, p) :: fs => p.boundVars ++ RPat.boundVarsFields fs
end

/-- codegen.rs:154-175: the emitted `match` of `token_terminal_idx`, as `tokenTerminalIdx`. -/
def tokenTerminalIdxV (isVar : String → Bool) : List (Conversion Ty) → Nat → RVal → Option Nat
  | [], _, _ => none
  | c :: cs, i, v =>
    match matchR ((patternIgnore c.to).resolve isVar) v with
    | some _ => some i
    | none => tokenTerminalIdxV isVar cs (i + 1) v

/-- codegen.rs:188-212: the emitted `match` of `token_value`, as `tokenValue`. -/
def tokenValueV (isVar : String → Bool) : List (Conversion Ty) → Nat → RVal → Option (SAR RVal)
  | [], _, _ => none
  | c :: cs, i, v =>
    let r := patternIdents c.to 0
    match matchR (r.1.resolve isVar) v with
    | some b => (((List.range r.2).map fieldIdent).mapM fun x => b.lookup x).map (SAR.token i)
    | none => tokenValueV isVar cs (i + 1) v

end Parsegen
