import Verif.Model.Grammar

/-! # Model of the data types of `src/ast.rs`

`X` stands for `syn::Expr` (semantic actions), `Ty` for `syn::Type`.  Spans carry no behaviour and
are dropped. -/

namespace Parsegen

/-- ast.rs:147-152 `RepeatOp`. -/
inductive RepeatOp where
  | plus
  | star
  | question
deriving DecidableEq, Repr

/-- ast.rs:120-133 `Symbol` (with `Repeat` of ast.rs:141-145 inlined). -/
inductive AstSymbol where
  | terminal (s : String)
  | nonTerminal (name : String)
  | repeat_ (op : RepeatOp) (sym : AstSymbol)
  | named (name : Name) (sym : AstSymbol)
deriving DecidableEq, Repr

/-- ast.rs:154-161 `Action`. -/
inductive AstAction (X : Type) where
  | infallible (e : X)
  | fallible (e : X)

/-- ast.rs:114-118 `Production`. -/
structure AstProduction (X : Type) where
  symbols : List AstSymbol
  action : AstAction X

/-- ast.rs:105-112 `NonTerminal` (`isPub` is `visibility.is_pub()`, ast.rs:99-103). -/
structure AstNonTerminal (X Ty : Type) where
  isPub : Bool
  name : String
  typeDecl : Ty
  productions : List (AstProduction X)

/-- ast.rs:58-84 `Pattern`.  Paths, literals and field names are their text. -/
inductive Pattern (Ty : Type) where
  | enum (path : String) (pats : List (Pattern Ty))
  | struct (path : String) (fields : List (String × Pattern Ty)) (dots : Bool)
  | tuple (pats : List (Pattern Ty))
  | path (path : String)
  | underscore
  | dotDot
  | lit (text : String)
  | choose (ty : Ty)

/-- ast.rs:39-44 `Conversion`. -/
structure Conversion (Ty : Type) where
  from_ : String
  to : Pattern Ty

/-- ast.rs:24-37 `TokenEnum`. -/
structure TokenEnum (Ty : Type) where
  typeName : String
  typeLifetimes : List String := []
  conversions : List (Conversion Ty)

/-- ast.rs:12-22 `GrammarItem` (`TypeDef` of ast.rs:46-56 has the single kind `State`). -/
inductive GrammarItem (X Ty : Type) where
  | typeDef (ty : Ty)
  | tokenEnum (t : TokenEnum Ty)
  | nonTerminal (n : AstNonTerminal X Ty)

end Parsegen
