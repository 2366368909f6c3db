import Verif.Spec.Syntax

/-! # Specification: a canonical way to write down a macro input

`printItems` writes the items of a macro input as tokens: a comma after every list element, no
unnecessary spacing or braces.  Used to state that reading undoes writing. -/

namespace Parsegen

variable {X Ty : Type}

/-- What may follow a type in a macro input. -/
inductive TypeEnd : List TokTree → Prop
  | eq {j rest} : TypeEnd (.punct '=' j :: rest)
  | semi {j rest} : TypeEnd (.punct ';' j :: rest)
  | gt {j rest} : TypeEnd (.punct '>' j :: rest)

/-- What may follow a path in a macro input. -/
inductive PathEnd : List TokTree → Prop
  | comma {j rest} : PathEnd (.punct ',' j :: rest)
  | paren {c rest} : PathEnd (.group .paren c :: rest)
  | brace {c rest} : PathEnd (.group .brace c :: rest)

/-- How types, expressions, paths and literals are written. -/
structure Printer (X Ty : Type) where
  type : Ty → List TokTree
  expr : X → List TokTree
  path : String → List TokTree
  lit : String → List TokTree

/-- The parts of a macro input that are not punctuation, keywords or string literals. -/
inductive Atom (X Ty : Type) where
  | name (x : String)
  | type (ty : Ty)
  | expr (e : X)
  | path (p : String)
  | lit (text : String)

/-- The printer writes this part correctly: `syn` reads it back when it is followed by what follows it
in macro inputs. -/
def Printer.Writes (P : Printer X Ty) (S : Syn X Ty) : Atom X Ty → Prop
  | .name x => S.keyword x = false
  | .type ty => ∀ rest, TypeEnd rest → S.type (P.type ty ++ rest) = some (ty, rest)
  | .expr e => ∀ j rest, S.expr (P.expr e ++ .punct ',' j :: rest) = some (e, .punct ',' j :: rest)
  | .path p => (∃ x ts, P.path p = .ident x :: ts ∧ S.keyword x = false) ∧
      ∀ rest, PathEnd rest → S.path (P.path p ++ rest) = some (p, rest)
  | .lit text => Literal (P.lit text) text

/-- A string literal. -/
def strTok (v : String) : TokTree := .lit ("\"" ++ v ++ "\"") (.str v)

/-- `=>` -/
def arrow : List TokTree := [.punct '=' true, .punct '>' false]

/-- A character of punctuation. -/
def chr (c : Char) : TokTree := .punct c false

variable (P : Printer X Ty)

mutual
/-- A pattern. -/
def printPattern : Pattern Ty → List TokTree
  | .enum p ps => P.path p ++ [.group .paren (printPatterns ps)]
  | .struct p fs dots => P.path p ++ [.group .brace (printFields fs dots)]
  | .tuple ps => [.group .paren (printPatterns ps)]
  | .path p => P.path p
  | .underscore => [.ident "_"]
  | .dotDot => [.punct '.' true, chr '.']
  | .lit text => P.lit text
  | .choose ty => chr '<' :: (P.type ty ++ [chr '>'])
/-- Patterns, each followed by a comma. -/
def printPatterns : List (Pattern Ty) → List TokTree
  | [] => []
  | p :: ps => printPattern p ++ chr ',' :: printPatterns ps
/-- Fields, each followed by a comma, and perhaps `..`. -/
def printFields : List (String × Pattern Ty) → Bool → List TokTree
  | [], false => []
  | [], true => [.punct '.' true, chr '.']
  | (x, p) :: fs, dots => .ident x :: chr ':' :: (printPattern p ++ chr ',' :: printFields fs dots)
end

/-- A symbol. -/
def printSymbol : AstSymbol → List TokTree
  | .terminal v => [strTok v]
  | .nonTerminal n => [.ident n]
  | .repeat_ op s => printSymbol s ++ [chr op.char]
  | .named ⟨true, x⟩ s => chr '<' :: .ident "mut" :: .ident x :: chr ':' :: (printSymbol s ++ [chr '>'])
  | .named ⟨false, x⟩ s => chr '<' :: .ident x :: chr ':' :: (printSymbol s ++ [chr '>'])

/-- An action. -/
def printAction : AstAction X → List TokTree
  | .infallible e => arrow ++ P.expr e
  | .fallible e => arrow ++ chr '?' :: P.expr e

/-- A production and a comma. -/
def printProduction (p : AstProduction X) : List TokTree :=
  p.symbols.flatMap printSymbol ++ printAction P p.action ++ [chr ',']

/-- Lifetime parameters. -/
def printParams : List String → List TokTree
  | [] => []
  | as => chr '<' :: (as.flatMap fun a => [.lifetime a, chr ',']) ++ [chr '>']

/-- An item. -/
def printItem : GrammarItem X Ty → List TokTree
  | .typeDef ty => .ident "type" :: .ident "State" :: chr '=' :: (P.type ty ++ [chr ';'])
  | .tokenEnum t => .ident "enum" :: .ident t.typeName :: (printParams t.typeLifetimes ++
      [.group .brace (t.conversions.flatMap fun c =>
        strTok c.from_ :: (arrow ++ printPattern P c.to ++ [chr ',']))])
  | .nonTerminal d => (if d.isPub then [.ident "pub"] else []) ++ .ident d.name :: chr ':' ::
      (P.type d.typeDecl ++ [chr '=', .group .brace (d.productions.flatMap (printProduction P)), chr ';'])

/-- A macro input. -/
def printItems (is : List (GrammarItem X Ty)) : List TokTree := is.flatMap (printItem P)

/-! ## The parts of an input -/

mutual
/-- The parts of a pattern. -/
def patternAtoms : Pattern Ty → List (Atom X Ty)
  | .enum p ps => .path p :: patternsAtoms ps
  | .struct p fs _ => .path p :: fieldsAtoms fs
  | .tuple ps => patternsAtoms ps
  | .path p => [.path p]
  | .underscore => []
  | .dotDot => []
  | .lit text => [.lit text]
  | .choose ty => [.type ty]
/-- The parts of patterns. -/
def patternsAtoms : List (Pattern Ty) → List (Atom X Ty)
  | [] => []
  | p :: ps => patternAtoms p ++ patternsAtoms ps
/-- The parts of fields. -/
def fieldsAtoms : List (String × Pattern Ty) → List (Atom X Ty)
  | [] => []
  | (x, p) :: fs => .name x :: (patternAtoms p ++ fieldsAtoms fs)
end

/-- The parts of a symbol. -/
def symbolAtoms : AstSymbol → List (Atom X Ty)
  | .terminal _ => []
  | .nonTerminal n => [.name n]
  | .repeat_ _ s => symbolAtoms s
  | .named x s => .name x.name :: symbolAtoms s

/-- The parts of an action. -/
def actionAtoms : AstAction X → List (Atom X Ty)
  | .infallible e => [.expr e]
  | .fallible e => [.expr e]

/-- The parts of a production. -/
def productionAtoms (p : AstProduction X) : List (Atom X Ty) :=
  p.symbols.flatMap symbolAtoms ++ actionAtoms p.action

/-- The parts of an item. -/
def itemAtoms : GrammarItem X Ty → List (Atom X Ty)
  | .typeDef ty => [.type ty]
  | .tokenEnum t => .name t.typeName :: t.conversions.flatMap fun c => patternAtoms c.to
  | .nonTerminal d => .name d.name :: .type d.typeDecl :: d.productions.flatMap productionAtoms

end Parsegen
