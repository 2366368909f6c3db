import Verif.Spec.Greedy

/-! # Specification: a moment of the left-to-right bottom-up evaluation of a derivation tree -/

namespace Parsegen

variable {Tok : Type}

mutual
/-- The tokens of a derivation tree, from left to right. -/
def UTree.tokens : UTree Tok → List Tok
  | .leaf t => [t]
  | .node _ _ cs => UTree.tokensList cs
/-- For a list of trees. -/
def UTree.tokensList : List (UTree Tok) → List Tok
  | [] => []
  | t :: ts => t.tokens ++ UTree.tokensList ts
end

/-- `tr.Cut trs`: at some moment of the evaluation of `tr`, from left to right and children before their
parent, the subtrees `trs` are complete and not yet part of a complete larger one: nothing has been
evaluated yet, or all of `tr`, or `tr` is a node of which some children are complete, one is being
evaluated and the later ones have not been begun. -/
inductive UTree.Cut : UTree Tok → List (UTree Tok) → Prop
  | start (tr) : UTree.Cut tr []
  | done (tr) : UTree.Cut tr [tr]
  | inside {n i pre t post trs} (h : UTree.Cut t trs) :
      UTree.Cut (.node n i (pre ++ t :: post)) (pre ++ trs)

end Parsegen
