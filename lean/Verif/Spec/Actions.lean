import Verif.Spec.Interactive

/-! # Specification: programs that differ in their actions only -/

namespace Parsegen

variable {X Y Ty V V' W W' Tok : Type}

/-- A production without its action: the symbols, and whether it is written with `=>?`. -/
def AstProduction.shape (p : AstProduction X) : List AstSymbol × Bool :=
  (p.symbols, match p.action with
    | .infallible _ => false
    | .fallible _ => true)

/-- The same definition with possibly different actions. -/
structure SameDefinition (d : AstNonTerminal X Ty) (d' : AstNonTerminal Y Ty) : Prop where
  isPub : d.isPub = d'.isPub
  name : d.name = d'.name
  typeDecl : d.typeDecl = d'.typeDecl
  productions : d.productions.map (·.shape) = d'.productions.map (·.shape)

/-- The same item with possibly different actions. -/
inductive SameItem : GrammarItem X Ty → GrammarItem Y Ty → Prop
  | typeDef (ty) : SameItem (.typeDef ty) (.typeDef ty)
  | tokenEnum (t) : SameItem (.tokenEnum t) (.tokenEnum t)
  | nonTerminal {d d'} (h : SameDefinition d d') : SameItem (.nonTerminal d) (.nonTerminal d')

/-- Two compiled programs that differ in the actions only: both what the actions are and what their
values, their side effects and the results of `token_value` look like. -/
structure Compiled.SameGrammar [DecidableEq Ty] (P : Compiled X Ty V W Tok)
    (Q : Compiled Y Ty V' W' Tok) : Prop where
  order : P.order = Q.order
  items : List.Forall₂ SameItem P.items Q.items
  toR : P.toR = Q.toR

end Parsegen
