import Verif.Model.Pattern

/-! # Specification: what a declared token pattern matches and captures -/

namespace Parsegen

variable {Ty : Type}

mutual
/-- `capture p v`: if the declared pattern `p` matches value `v`, the sub-values at the positions of
its `<T>` captures, left to right. -/
def capture : Pattern Ty → RVal → Option (List RVal)
  | .choose _, v => some [v]
  | .underscore, _ => some []
  | .dotDot, _ => none
  | .lit s, v => match v with
    | .lit s' => if s = s' then some [] else none
    | _ => none
  | .path p, v => match v with
    | .ctor p' [] => if p = p' then some [] else none
    | _ => none
  | .enum p ps, v => match v with
    | .ctor p' vs => if p = p' then captureList ps vs else none
    | _ => none
  | .struct p fs dots, v => match v with
    | .record p' vs =>
      if p = p' ∧ (dots = true ∨ ∀ x ∈ vs, x.1 ∈ fs.map (·.1)) then captureFields fs vs else none
    | _ => none
  | .tuple ps, v => match v with
    | .tuple vs => captureList ps vs
    | _ => none
/-- Components of a tuple or tuple variant; `..` stands for any number of components. -/
def captureList : List (Pattern Ty) → List RVal → Option (List RVal)
  | [], vs => match vs with
    | [] => some []
    | _ :: _ => none
  | .dotDot :: ps, vs =>
    if ps.length ≤ vs.length then captureList ps (vs.drop (vs.length - ps.length)) else none
  | p :: ps, vs => match vs with
    | [] => none
    | v :: vs =>
      match capture p v, captureList ps vs with
      | some c, some c' => some (c ++ c')
      | _, _ => none
/-- Named fields. -/
def captureFields : List (String × Pattern Ty) → List (String × RVal) → Option (List RVal)
  | [], _ => some []
  | (f, p) :: fs, vs =>
    match vs.lookup f with
    | none => none
    | some v =>
      match capture p v, captureFields fs vs with
      | some c, some c' => some (c ++ c')
      | _, _ => none
end

/-- The first declared terminal whose pattern matches, with the captured values. -/
def classify : List (Conversion Ty) → RVal → Option (String × List RVal)
  | [], _ => none
  | c :: cs, v =>
    match capture c.to v with
    | some caps => some (c.from_, caps)
    | none => classify cs v

mutual
/-- The pattern contains no one-element tuple pattern (other than `(..)`). -/
def NoOneTuple : Pattern Ty → Prop
  | .enum _ ps => NoOneTupleList ps
  | .struct _ fs _ => NoOneTupleFields fs
  | .tuple ps => (∀ p, ps = [p] → p = .dotDot) ∧ NoOneTupleList ps
  | _ => True
/-- For all components. -/
def NoOneTupleList : List (Pattern Ty) → Prop
  | [] => True
  | p :: ps => NoOneTuple p ∧ NoOneTupleList ps
/-- For all fields. -/
def NoOneTupleFields : List (String × Pattern Ty) → Prop
  | [] => True
  | (_, p) :: fs => NoOneTuple p ∧ NoOneTupleFields fs
end

mutual
/-- `Picks p v l`: the declared pattern `p` matches the value `v`, and `l` lists, for its `<T>` captures
from left to right, the type `T` and the sub-value found at that position. -/
inductive Picks : Pattern Ty → RVal → List (Ty × RVal) → Prop
  | choose (T : Ty) (v) : Picks (.choose T) v [(T, v)]
  | underscore (v) : Picks .underscore v []
  | lit (s) : Picks (.lit s) (.lit s) []
  | path (p) : Picks (.path p) (.ctor p []) []
  | enum (p) {ps vs l} (h : PicksList ps vs l) : Picks (.enum p ps) (.ctor p vs) l
  | struct (p) {fs vs l dots} (hd : dots = true ∨ ∀ x ∈ vs, x.1 ∈ fs.map (·.1))
      (h : PicksFields fs vs l) : Picks (.struct p fs dots) (.record p vs) l
  | tuple {ps vs l} (h : PicksList ps vs l) : Picks (.tuple ps) (.tuple vs) l
/-- Components; `..` skips some of them. -/
inductive PicksList : List (Pattern Ty) → List RVal → List (Ty × RVal) → Prop
  | nil : PicksList [] [] []
  | dots (skipped : List RVal) {ps vs l} (hl : vs.length = ps.length) (h : PicksList ps vs l) :
      PicksList (.dotDot :: ps) (skipped ++ vs) l
  | cons {p v l ps vs l'} (h : Picks p v l) (h' : PicksList ps vs l') :
      PicksList (p :: ps) (v :: vs) (l ++ l')
/-- Named fields, in the order of the pattern. -/
inductive PicksFields : List (String × Pattern Ty) → List (String × RVal) → List (Ty × RVal) → Prop
  | nil (vs) : PicksFields [] vs []
  | cons {f p v l fs vs l'} (hv : vs.lookup f = some v) (h : Picks p v l)
      (h' : PicksFields fs vs l') : PicksFields ((f, p) :: fs) vs (l ++ l')
end

mutual
/-- The types `T` of the `<T>` in a pattern, from left to right. -/
def Pattern.types : Pattern Ty → List Ty
  | .choose T => [T]
  | .underscore => []
  | .dotDot => []
  | .lit _ => []
  | .path _ => []
  | .enum _ ps => Pattern.typesList ps
  | .struct _ fs _ => Pattern.typesFields fs
  | .tuple ps => Pattern.typesList ps
/-- In components. -/
def Pattern.typesList : List (Pattern Ty) → List Ty
  | [] => []
  | p :: ps => p.types ++ Pattern.typesList ps
/-- In fields. -/
def Pattern.typesFields : List (String × Pattern Ty) → List Ty
  | [] => []
  | (_, p) :: fs => p.types ++ Pattern.typesFields fs
end

end Parsegen
