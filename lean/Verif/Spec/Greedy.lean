import Verif.Spec.Knuth

/-! # Specification: derivations that prefer shifting

The macro accepts some grammars that are not LR(1): it drops a reduction that competes with a shift (or
with accepting) when it comes first in item order.  What the emitted parser then does is described here
on the user's grammar alone. -/

namespace Parsegen

variable {X Ty Tok Val W : Type}

/-- A viable prefix: the beginning of a rightmost sentential form, not reaching beyond its handle. -/
def UViable (defs : List (AstNonTerminal X Ty)) (S : String) (κ : List USym) : Prop :=
  ∃ α q β w, UHandle defs S α q β w ∧ κ <+: α ++ β

/-- `UGreedy defs S ps F`: `F` is derived from `S` by rightmost steps `α A w ⇒ α β w` none of which a
parser that prefers shifting would undo: having recognised `α β`, it could not go on with the next
terminal of `w` (no viable prefix begins with `α β` and that terminal), and, if `w` is empty, it was not
done (`α β` is not `S`).  `ps` are the productions used, the last one first: the order in which the
parser reduces. -/
inductive UGreedy (defs : List (AstNonTerminal X Ty)) (S : String) :
    List (String × Nat) → List USym → Prop
  | start : UGreedy defs S [] [.nt S]
  | step {ps A i β} (α : List USym) (w : List String)
      (h : UGreedy defs S ps (α ++ .nt A :: w.map .term)) (hp : UHasProd defs A i β)
      (hs : ∀ t, w.head? = some t → ¬ UViable defs S (α ++ β ++ [.term t]))
      (ha : w = [] → α ++ β ≠ [.nt S]) :
      UGreedy defs S ((A, i) :: ps) (α ++ β ++ w.map .term)

mutual
/-- The value of a derivation tree: every node once, children left to right before their parent. -/
def UTree.value (defs : List (AstNonTerminal X Ty)) (alg : UAlg X Tok Val W) :
    UTree Tok → W → Option (Val × W)
  | .leaf t, w => some (alg.leaf t, w)
  | .node name i cs, w => do
    let (vs, w1) ← UTree.values defs alg cs w
    let p ← (userProds defs name)[i]?
    alg.node name i p vs w1
/-- For a list of trees, left to right. -/
def UTree.values (defs : List (AstNonTerminal X Ty)) (alg : UAlg X Tok Val W) :
    List (UTree Tok) → W → Option (List Val × W)
  | [], w => some ([], w)
  | t :: ts, w => do
    let (v, w1) ← UTree.value defs alg t w
    let (vs, w2) ← UTree.values defs alg ts w1
    some (v :: vs, w2)
end

end Parsegen
