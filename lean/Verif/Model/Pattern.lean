import Verif.Model.Ast
import Verif.Model.Runtime

/-! # Model of token classification: `token_terminal_idx_fn`, `token_value_fn` of `src/codegen.rs`

The emitted `match` arms are modelled as a small Rust pattern language `RPat` matched against value
trees `RVal`. -/

namespace Parsegen

variable {Ty : Type}

/-- Run-time values that token patterns can inspect. -/
inductive RVal where
  /-- (unit or tuple) enum variant or struct value -/
  | ctor (path : String) (args : List RVal)
  /-- struct-like enum variant or struct value -/
  | record (path : String) (fields : List (String × RVal))
  | tuple (vals : List RVal)
  /-- a literal value, named by the literal's text -/
  | lit (text : String)
deriving Repr, BEq

/-- Emitted Rust patterns. -/
inductive RPat where
  | wild
  /-- `..` inside a tuple or tuple-struct pattern -/
  | rest
  | lit (text : String)
  | path (path : String)
  | tupleStruct (path : String) (pats : List RPat)
  | struct (path : String) (fields : List (String × RPat)) (dots : Bool)
  | tuple (pats : List RPat)
  /-- `(p)`: a parenthesised pattern, *not* a one-element tuple pattern -/
  | paren (pat : RPat)
  | ident (name : String)

/-- Bindings made by a successful match, in pattern order. -/
abbrev Binds := List (String × RVal)

mutual
/-- Rust pattern matching; a path pattern denotes a unit variant or constant (paths that rustc
takes for variables are in `Model/Variables.lean`). -/
def matchR : RPat → RVal → Option Binds
  | .wild, _ => some []
  | .rest, _ => none
  | .lit s, .lit s' => if s = s' then some [] else none
  | .lit _, _ => none
  | .path p, .ctor p' [] => if p = p' then some [] else none
  | .path _, _ => none
  | .tupleStruct p ps, .ctor p' vs => if p = p' then matchList ps vs else none
  | .tupleStruct _ _, _ => none
  | .struct p fs dots, .record p' vs =>
    if p = p' && (dots || vs.all fun v => fs.any fun f => f.1 == v.1) then matchFields fs vs
    else none
  | .struct _ _ _, _ => none
  | .tuple ps, .tuple vs => matchList ps vs
  | .tuple _, _ => none
  | .paren p, v => matchR p v
  | .ident n, v => some [(n, v)]
/-- Element patterns of a tuple (struct) pattern; `..` skips as many values as needed. -/
def matchList : List RPat → List RVal → Option Binds
  | [], [] => some []
  | [], _ :: _ => none
  | .rest :: ps, vs =>
    if ps.length ≤ vs.length then matchList ps (vs.drop (vs.length - ps.length)) else none
  | _ :: _, [] => none
  | p :: ps, v :: vs =>
    match matchR p v, matchList ps vs with
    | some b, some b' => some (b ++ b')
    | _, _ => none
/-- Field patterns of a struct pattern: each names a field of the value. -/
def matchFields : List (String × RPat) → List (String × RVal) → Option Binds
  | [], _ => some []
  | (f, p) :: fs, vs =>
    match vs.lookup f with
    | none => none
    | some v =>
      match matchR p v, matchFields fs vs with
      | some b, some b' => some (b ++ b')
      | _, _ => none
end

mutual
/-- codegen.rs:216-259 `pattern_ignore`: `(p,)` for a one-element tuple. -/
def patternIgnore : Pattern Ty → RPat
  | .enum p ps => .tupleStruct p (patternIgnoreList ps)
  | .struct p fs dots => .struct p (patternIgnoreFields fs) dots
  | .tuple ps => .tuple (patternIgnoreList ps)
  | .path p => .path p
  | .underscore => .wild
  | .dotDot => .rest
  | .lit s => .lit s
  | .choose _ => .wild
/-- codegen.rs:219, 244. -/
def patternIgnoreList : List (Pattern Ty) → List RPat
  | [] => []
  | p :: ps => patternIgnore p :: patternIgnoreList ps
/-- codegen.rs:224-235. -/
def patternIgnoreFields : List (String × Pattern Ty) → List (String × RPat)
  | [] => []
  | (f, p) :: fs => (f, patternIgnore p) :: patternIgnoreFields fs
end

/-- codegen.rs:429-436: `(#(#pats),*)` *without* trailing comma: with exactly one element that is a
parenthesised pattern (except `(..)`, which is a tuple pattern). -/
def tupleNoComma : List RPat → RPat
  | [.rest] => .tuple [.rest]
  | [p] => .paren p
  | ps => .tuple ps

/-- codegen.rs:397 `format!("f{}", idents.len())`. -/
def fieldIdent (n : Nat) : String := "f" ++ toString n

mutual
/-- codegen.rs:394-450 `generate_pattern_syn_with_idents_`; `n` is `idents.len()`; returns the
pattern and the new length. -/
def patternIdents : Pattern Ty → Nat → RPat × Nat
  | .choose _, n => (.ident (fieldIdent n), n + 1)
  | .enum p ps, n => let r := patternIdentsList ps n; (.tupleStruct p r.1, r.2)
  | .struct p fs dots, n => let r := patternIdentsFields fs n; (.struct p r.1 dots, r.2)
  | .tuple ps, n => let r := patternIdentsList ps n; (tupleNoComma r.1, r.2)
  | .path p, n => (.path p, n)
  | .underscore, n => (.wild, n)
  | .dotDot, n => (.rest, n)
  | .lit s, n => (.lit s, n)
/-- codegen.rs:404-407, 430-433. -/
def patternIdentsList : List (Pattern Ty) → Nat → List RPat × Nat
  | [], n => ([], n)
  | p :: ps, n =>
    let r := patternIdents p n
    let r' := patternIdentsList ps r.2
    (r.1 :: r'.1, r'.2)
/-- codegen.rs:413-424. -/
def patternIdentsFields : List (String × Pattern Ty) → Nat → List (String × RPat) × Nat
  | [], n => ([], n)
  | (f, p) :: fs, n =>
    let r := patternIdents p n
    let r' := patternIdentsFields fs r.2
    ((f, r.1) :: r'.1, r'.2)
end

mutual
/-- codegen.rs:359-385 `pattern_types`: the declared types of the captures, in order. -/
def patternTypes : Pattern Ty → List Ty
  | .choose ty => [ty]
  | .enum _ ps => patternTypesList ps
  | .tuple ps => patternTypesList ps
  | .struct _ fs _ => patternTypesFields fs
  | .path _ => []
  | .underscore => []
  | .dotDot => []
  | .lit _ => []
/-- codegen.rs:371-375. -/
def patternTypesList : List (Pattern Ty) → List Ty
  | [] => []
  | p :: ps => patternTypes p ++ patternTypesList ps
/-- codegen.rs:377-381. -/
def patternTypesFields : List (String × Pattern Ty) → List Ty
  | [] => []
  | (_, p) :: fs => patternTypes p ++ patternTypesFields fs
end

/-- codegen.rs:154-175: the emitted `match` of `token_terminal_idx`, arms numbered from `i`;
`none`: no arm matches (rustc rejects the emitted code as non-exhaustive). -/
def tokenTerminalIdx : List (Conversion Ty) → Nat → RVal → Option Nat
  | [], _, _ => none
  | c :: cs, i, v =>
    match matchR (patternIgnore c.to) v with
    | some _ => some i
    | none => tokenTerminalIdx cs (i + 1) v

/-- codegen.rs:188-212: the emitted `match` of `token_value`: arm `i` builds `Token<i>(f0, .., fn)`.
The inner `none` is an unbound identifier (rustc rejects). -/
def tokenValue : List (Conversion Ty) → Nat → RVal → Option (SAR RVal)
  | [], _, _ => none
  | c :: cs, i, v =>
    let r := patternIdents c.to 0
    match matchR r.1 v with
    | some b => (((List.range r.2).map fieldIdent).mapM fun x => b.lookup x).map (SAR.token i)
    | none => tokenValue cs (i + 1) v

end Parsegen
