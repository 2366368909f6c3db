import Verif.Model.Variables
import Verif.Spec.Compiled

/-! # Specification: the same grammar with `_` in place of the variables -/

namespace Parsegen

variable {X Ty : Type}

mutual
/-- The pattern with `_` for every path that is a variable. -/
def Pattern.wildVars (isVar : String → Bool) : Pattern Ty → Pattern Ty
  | .path p => if isVar p then .underscore else .path p
  | .enum p ps => .enum p (Pattern.wildVarsList isVar ps)
  | .struct p fs dots => .struct p (Pattern.wildVarsFields isVar fs) dots
  | .tuple ps => .tuple (Pattern.wildVarsList isVar ps)
  | .underscore => .underscore
  | .dotDot => .dotDot
  | .lit s => .lit s
  | .choose ty => .choose ty
/-- In components. -/
def Pattern.wildVarsList (isVar : String → Bool) : List (Pattern Ty) → List (Pattern Ty)
  | [] => []
  | p :: ps => p.wildVars isVar :: Pattern.wildVarsList isVar ps
/-- In fields. -/
def Pattern.wildVarsFields (isVar : String → Bool) :
    List (String × Pattern Ty) → List (String × Pattern Ty)
  | [] => []
  | (f, p) :: fs => (f, p.wildVars isVar) :: Pattern.wildVarsFields isVar fs
end

/-- In a terminal declaration. -/
def Conversion.wildVars (isVar : String → Bool) (c : Conversion Ty) : Conversion Ty :=
  { c with to := c.to.wildVars isVar }

/-- In the token enum. -/
def TokenEnum.wildVars (isVar : String → Bool) (t : TokenEnum Ty) : TokenEnum Ty :=
  { t with conversions := t.conversions.map (·.wildVars isVar) }

/-- In a macro input. -/
def GrammarItem.wildVars (isVar : String → Bool) : GrammarItem X Ty → GrammarItem X Ty
  | .tokenEnum t => .tokenEnum (t.wildVars isVar)
  | .typeDef ty => .typeDef ty
  | .nonTerminal n => .nonTerminal n

/-- rustc accepts the arms of the emitted `token_value`: no variable occurs twice in a pattern
(error E0416). -/
def NoVarTwice (isVar : String → Bool) (t : TokenEnum Ty) : Prop :=
  ∀ c ∈ t.conversions, (((patternIdents c.to 0).1.resolve isVar).boundVars).Nodup

end Parsegen
