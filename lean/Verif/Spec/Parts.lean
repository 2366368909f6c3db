import Verif.Spec.Follow

/-! # Specification: parts of derivation trees -/

namespace Parsegen

variable {Tok : Type}

/-- `UTree.Replaced sub sub' tr tr' pre post`: somewhere in `tr` there is the subtree `sub`, with the
tokens `pre` of `tr` to the left of it and the tokens `post` to the right of it; with `sub'` in that
place, `tr` becomes `tr'`. -/
inductive UTree.Replaced (sub sub' : UTree Tok) : UTree Tok → UTree Tok → List Tok → List Tok → Prop
  | here : UTree.Replaced sub sub' sub sub' [] []
  | inside {n i l t t' r pre post} (h : UTree.Replaced sub sub' t t' pre post) :
      UTree.Replaced sub sub' (.node n i (l ++ t :: r)) (.node n i (l ++ t' :: r))
        (UTree.tokensList l ++ pre) (post ++ UTree.tokensList r)

/-- `sub` is a subtree of `tr`, with `pre` to the left and `post` to the right of it. -/
def UTree.Occurs (sub tr : UTree Tok) (pre post : List Tok) : Prop :=
  UTree.Replaced sub sub tr tr pre post

end Parsegen
