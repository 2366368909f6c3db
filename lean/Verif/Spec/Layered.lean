import Verif.Spec.Precedence
import Verif.Spec.UserLR

/-! # Specification: layered grammars of expressions

```
Sum  = { Sum "+" Pow, Sum "-" Pow, Pow }      -- a level that associates to the left
Pow  = { Atom "^" Pow, Atom }                 -- one that associates to the right
Atom = { "n", "x", "-" Atom, "(" Sum ")" }
``` -/

namespace Parsegen

variable {X Ty V : Type}

/-- The rules of the levels `ls`, from the loosest to the tightest, over the operands `atom`: one of the
terminals `leaves`, one of the prefix operators `pres` before an operand, or an expression of the loosest
level `top` between `lp` and `rp`. -/
def layeredRules (top atom : String) (leaves pres : List String) (lp rp : String) :
    List (Level V) → List (String × List USym)
  | [] => leaves.map (fun t => (atom, [.term t])) ++ pres.map (fun t => (atom, [.term t, .nt atom])) ++
      [(atom, [.term lp, .nt top, .term rp])]
  | l :: ls =>
    l.ops.map (fun o => (l.name,
      if l.right then [.nt (Levels.name atom ls), .term o, .nt l.name]
      else [.nt l.name, .term o, .nt (Levels.name atom ls)])) ++
    (l.name, [.nt (Levels.name atom ls)]) :: layeredRules top atom leaves pres lp rp ls

/-- The definitions `defs` are such a grammar: they have these rules, in any order, each once, and define nothing
else; the names are distinct, and so are the terminals, except that a prefix operator may also be used between
operands; there is some operand. -/
structure Layered (defs : List (AstNonTerminal X Ty)) (ls : List (Level V)) (atom : String)
    (leaves pres : List String) (lp rp : String) : Prop where
  rules : ∀ B rhs, (∃ j, UHasProd defs B j rhs) ↔
    (B, rhs) ∈ layeredRules (Levels.name atom ls) atom leaves pres lp rp ls
  defined : ∀ d ∈ defs, d.name ∈ ls.map (·.name) ++ [atom]
  distinct : (defs.map (·.name)).Nodup
  once : ∀ B j j' rhs, UHasProd defs B j rhs → UHasProd defs B j' rhs → j = j'
  names : (ls.map (·.name) ++ [atom]).Nodup
  terminals : (Levels.ops ls ++ leaves ++ [lp, rp]).Nodup
  prefixes : (pres ++ leaves ++ [lp, rp]).Nodup
  some_leaf : leaves ≠ []

end Parsegen
