import Verif.Spec.Compiled

/-! # Specification: a later version of a grammar -/

namespace Parsegen

variable {X Ty Ty' V W Tok Tok' E : Type}

/-- `Q` is a later version of `P`: every production of `P`, with its action, is still there (in any place
of the definition of the same name), and every token of `P` is, perhaps under another name `f t` in a
larger token type, the same terminal with the same captured values. There may be new definitions, new
productions of old definitions and new tokens. -/
structure LaterVersion [DecidableEq Ty] [DecidableEq Ty'] (P : Compiled X Ty V W Tok)
    (Q : Compiled X Ty' V W Tok') (f : Tok → Tok') : Prop where
  prods : ∀ name, ∀ p ∈ userProds P.defs name, p ∈ userProds Q.defs name
  code : Q.code = P.code
  cls : ∀ t, Q.cls (f t) = P.cls t
  fields : ∀ t, Q.fields (f t) = P.fields t

/-- The input with the tokens of the later version. -/
def renameInput (f : Tok → Tok') (input : Nat → Option (Except E Tok)) (i : Nat) :
    Option (Except E Tok') :=
  (input i).map (·.map f)

end Parsegen
