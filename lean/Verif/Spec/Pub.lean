import Verif.Spec.Rearrange

/-! # Specification: programs that differ in `pub` and in the order of their token declarations -/

namespace Parsegen

variable {X Ty : Type}

/-- The same definition, up to `pub`. -/
structure AstNonTerminal.SameButPub (d d' : AstNonTerminal X Ty) : Prop where
  name : d'.name = d.name
  typeDecl : d'.typeDecl = d.typeDecl
  productions : d'.productions = d.productions

/-- The same definitions in the same order, up to `pub`. -/
def SameButPub (defs defs' : List (AstNonTerminal X Ty)) : Prop :=
  List.Forall₂ AstNonTerminal.SameButPub defs defs'

/-- What is `pub` in `defs'` is `pub` in `defs`. -/
def FewerPub (defs defs' : List (AstNonTerminal X Ty)) : Prop :=
  List.Forall₂ (fun d d' => d'.isPub = true → d.isPub = true) defs defs'

/-- The same definitions in the same order, up to `pub`, and the same token declarations, in any
order.  The other items come in any order, too. -/
structure SameButPubItems (items items' : List (GrammarItem X Ty)) : Prop where
  defs : SameButPub (itemNonTerminals items) (itemNonTerminals items')
  states : (itemTypeDefs items').Perm (itemTypeDefs items)
  tokens : ∃ t t', itemTokenEnums items = [t] ∧ itemTokenEnums items' = [t'] ∧
    t'.conversions.Perm t.conversions

end Parsegen
