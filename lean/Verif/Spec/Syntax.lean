import Verif.Model.Syntax

/-! # Specification: the surface syntax of `parser!`, as a grammar

`XAt S .. ts x rest` says: the tokens `ts` are a writing of `x` followed by `rest`; `XIn S .. ts xs`:
the tokens `ts` are, all of them, a writing of the list `xs`.

```
items       ::= item*
item        ::= 'type' 'State' '=' Type ';'  |  enum  |  definition
enum        ::= 'enum' Ident ('<' (Lifetime ','?)* '>')? '{' (conversion (',' conversion)* ','?)? '}'
conversion  ::= StrLit '=>' pattern
pattern     ::= '..' | Literal | '_' | '(' patterns ')' | Path | Path '(' patterns ')'
              | Path '{' fields '}' | '<' Type '>'
definition  ::= 'pub'? Ident ':' Type '=' ('{' (production ','?)* '}' ';' | production ',')
production  ::= symbol* '=>' '?'? Expr
symbol      ::= StrLit | Ident | '<' 'mut'? Ident ':' symbol '>' | symbol ('+' | '*' | '?')
``` -/

namespace Parsegen

variable {X Ty : Type}

/-- The tokens are a literal (`peek(syn::Lit)`) with this text that is not a string. -/
inductive PlainLiteral : List TokTree → String → Prop
  | num {text} : PlainLiteral [.lit text .num] text
  | other {text} : PlainLiteral [.lit text .other] text
  | true : PlainLiteral [.ident "true"] "true"
  | false : PlainLiteral [.ident "false"] "false"
  | negative {text j} : PlainLiteral [.punct '-' j, .lit text .num] ("-" ++ text)

/-- The tokens are a literal with this text. -/
inductive Literal : List TokTree → String → Prop
  | plain {ts text} (h : PlainLiteral ts text) : Literal ts text
  | str {text v} : Literal [.lit text (.str v)] text

mutual
/-- Patterns. -/
inductive PatternAt (S : Syn X Ty) : List TokTree → Pattern Ty → List TokTree → Prop
  | dotDot {j rest} : PatternAt S (.punct '.' true :: .punct '.' j :: rest) .dotDot rest
  | lit {ts text rest} (h : Literal ts text) : PatternAt S (ts ++ rest) (.lit text) rest
  | underscore {rest} : PatternAt S (.ident "_" :: rest) .underscore rest
  | tuple {contents ps rest} (h : PatternsIn S contents ps) :
      PatternAt S (.group .paren contents :: rest) (.tuple ps) rest
  | path {x ts path rest} (hx : S.keyword x = false) (h : S.path (.ident x :: ts) = some (path, rest)) :
      PatternAt S (.ident x :: ts) (.path path) rest
  | enum {x ts path contents ps rest} (hx : S.keyword x = false)
      (h : S.path (.ident x :: ts) = some (path, .group .paren contents :: rest))
      (hp : PatternsIn S contents ps) : PatternAt S (.ident x :: ts) (.enum path ps) rest
  | struct {x ts path contents fs dots rest} (hx : S.keyword x = false)
      (h : S.path (.ident x :: ts) = some (path, .group .brace contents :: rest))
      (hp : FieldsIn S contents fs dots) : PatternAt S (.ident x :: ts) (.struct path fs dots) rest
  | choose {j ts ty j' rest} (h : S.type ts = some (ty, .punct '>' j' :: rest)) :
      PatternAt S (.punct '<' j :: ts) (.choose ty) rest
/-- Patterns separated by commas, with an optional comma at the end. -/
inductive PatternsIn (S : Syn X Ty) : List TokTree → List (Pattern Ty) → Prop
  | nil : PatternsIn S [] []
  | last {ts p} (h : PatternAt S ts p []) : PatternsIn S ts [p]
  | cons {ts p j rest ps} (h : PatternAt S ts p (.punct ',' j :: rest)) (hs : PatternsIn S rest ps) :
      PatternsIn S ts (p :: ps)
/-- The fields of a struct pattern; the comma before the final `..` is optional. -/
inductive FieldsIn (S : Syn X Ty) : List TokTree → List (String × Pattern Ty) → Bool → Prop
  | nil : FieldsIn S [] [] false
  | dots {j} : FieldsIn S [.punct '.' true, .punct '.' j] [] true
  | last {x j ts p} (hx : S.keyword x = false) (h : PatternAt S ts p []) :
      FieldsIn S (.ident x :: .punct ':' j :: ts) [(x, p)] false
  | lastDots {x j ts p j'} (hx : S.keyword x = false)
      (h : PatternAt S ts p [.punct '.' true, .punct '.' j']) :
      FieldsIn S (.ident x :: .punct ':' j :: ts) [(x, p)] true
  | cons {x j ts p j' rest fs dots} (hx : S.keyword x = false)
      (h : PatternAt S ts p (.punct ',' j' :: rest)) (hs : FieldsIn S rest fs dots) :
      FieldsIn S (.ident x :: .punct ':' j :: ts) ((x, p) :: fs) dots
end

/-- The character of a repetition. -/
def RepeatOp.char : RepeatOp → Char
  | .plus => '+'
  | .star => '*'
  | .question => '?'

/-- Symbols.  `Skip` tells which tokens may come before a non-terminal or a named symbol and are
ignored: see `Documented` and `Actual`. -/
inductive SymbolAt (S : Syn X Ty) (Skip : List TokTree → Prop) :
    List TokTree → AstSymbol → List TokTree → Prop
  | terminal {text v rest} : SymbolAt S Skip (.lit text (.str v) :: rest) (.terminal v) rest
  | nonTerminal {skip n rest} (hs : Skip skip) (hn : S.keyword n = false) :
      SymbolAt S Skip (skip ++ .ident n :: rest) (.nonTerminal n) rest
  | named {skip j x j' ts s j'' rest} (hs : Skip skip) (hx : S.keyword x = false)
      (h : SymbolAt S Skip ts s (.punct '>' j'' :: rest)) :
      SymbolAt S Skip (skip ++ .punct '<' j :: .ident x :: .punct ':' j' :: ts)
        (.named ⟨false, x⟩ s) rest
  | namedMut {skip j x j' ts s j'' rest} (hs : Skip skip) (hx : S.keyword x = false)
      (h : SymbolAt S Skip ts s (.punct '>' j'' :: rest)) :
      SymbolAt S Skip (skip ++ .punct '<' j :: .ident "mut" :: .ident x :: .punct ':' j' :: ts)
        (.named ⟨true, x⟩ s) rest
  | repeated {ts s j rest} {op : RepeatOp} (h : SymbolAt S Skip ts s (.punct op.char j :: rest)) :
      SymbolAt S Skip ts (.repeat_ op s) rest

/-- The syntax as intended: nothing is skipped. -/
def Documented (skip : List TokTree) : Prop := skip = []

/-- The syntax as it is: a literal that is not a string may come before a non-terminal or a named
symbol. -/
def Actual (skip : List TokTree) : Prop := skip = [] ∨ ∃ text, PlainLiteral skip text

/-- Sequences of symbols. -/
inductive SymbolsAt (S : Syn X Ty) (Skip : List TokTree → Prop) :
    List TokTree → List AstSymbol → List TokTree → Prop
  | nil {ts} : SymbolsAt S Skip ts [] ts
  | cons {ts s ts' ss rest} (h : SymbolAt S Skip ts s ts') (hs : SymbolsAt S Skip ts' ss rest) :
      SymbolsAt S Skip ts (s :: ss) rest

/-- Productions. -/
inductive ProductionAt (S : Syn X Ty) (Skip : List TokTree → Prop) :
    List TokTree → AstProduction X → List TokTree → Prop
  | infallible {ts ss j ts' e rest} (hs : SymbolsAt S Skip ts ss (.punct '=' true :: .punct '>' j :: ts'))
      (he : S.expr ts' = some (e, rest)) : ProductionAt S Skip ts ⟨ss, .infallible e⟩ rest
  | fallible {ts ss j j' ts' e rest}
      (hs : SymbolsAt S Skip ts ss (.punct '=' true :: .punct '>' j :: .punct '?' j' :: ts'))
      (he : S.expr ts' = some (e, rest)) : ProductionAt S Skip ts ⟨ss, .fallible e⟩ rest

/-- Productions between braces; all commas are optional. -/
inductive ProductionsIn (S : Syn X Ty) (Skip : List TokTree → Prop) :
    List TokTree → List (AstProduction X) → Prop
  | nil : ProductionsIn S Skip [] []
  | cons {ts p rest ps} (h : ProductionAt S Skip ts p rest) (hs : ProductionsIn S Skip rest ps) :
      ProductionsIn S Skip ts (p :: ps)
  | comma {ts p j rest ps} (h : ProductionAt S Skip ts p (.punct ',' j :: rest))
      (hs : ProductionsIn S Skip rest ps) : ProductionsIn S Skip ts (p :: ps)

/-- What follows the `=` of a definition. -/
inductive BodyAt (S : Syn X Ty) (Skip : List TokTree → Prop) :
    List TokTree → List (AstProduction X) → List TokTree → Prop
  | braces {contents ps j rest} (h : ProductionsIn S Skip contents ps) :
      BodyAt S Skip (.group .brace contents :: .punct ';' j :: rest) ps rest
  | single {ts p j rest} (h : ProductionAt S Skip ts p (.punct ',' j :: rest)) :
      BodyAt S Skip ts [p] rest

/-- Conversions: the entries of `enum Token`. -/
inductive ConversionAt (S : Syn X Ty) : List TokTree → Conversion Ty → List TokTree → Prop
  | mk {text v j ts p rest} (h : PatternAt S ts p rest) :
      ConversionAt S (.lit text (.str v) :: .punct '=' true :: .punct '>' j :: ts) ⟨v, p⟩ rest

/-- Conversions separated by commas, with an optional comma at the end. -/
inductive ConversionsIn (S : Syn X Ty) : List TokTree → List (Conversion Ty) → Prop
  | nil : ConversionsIn S [] []
  | last {ts c} (h : ConversionAt S ts c []) : ConversionsIn S ts [c]
  | cons {ts c j rest cs} (h : ConversionAt S ts c (.punct ',' j :: rest))
      (hs : ConversionsIn S rest cs) : ConversionsIn S ts (c :: cs)

/-- Lifetimes; all commas are optional. -/
inductive LifetimesAt : List TokTree → List String → List TokTree → Prop
  | nil {ts} : LifetimesAt ts [] ts
  | cons {a ts as rest} (h : LifetimesAt ts as rest) :
      LifetimesAt (.lifetime a :: ts) (a :: as) rest
  | comma {a j ts as rest} (h : LifetimesAt ts as rest) :
      LifetimesAt (.lifetime a :: .punct ',' j :: ts) (a :: as) rest

/-- Lifetime parameters. -/
inductive ParamsAt : List TokTree → List String → List TokTree → Prop
  | none {ts} : ParamsAt ts [] ts
  | some {j ts as j' rest} (h : LifetimesAt ts as (.punct '>' j' :: rest)) :
      ParamsAt (.punct '<' j :: ts) as rest

/-- Items. -/
inductive ItemAt (S : Syn X Ty) (Skip : List TokTree → Prop) :
    List TokTree → GrammarItem X Ty → List TokTree → Prop
  | typeDef {j ts ty j' rest} (h : S.type ts = some (ty, .punct ';' j' :: rest)) :
      ItemAt S Skip (.ident "type" :: .ident "State" :: .punct '=' j :: ts) (.typeDef ty) rest
  | tokenEnum {name ts as contents cs rest} (hn : S.keyword name = false)
      (hp : ParamsAt ts as (.group .brace contents :: rest)) (hc : ConversionsIn S contents cs) :
      ItemAt S Skip (.ident "enum" :: .ident name :: ts) (.tokenEnum ⟨name, as, cs⟩) rest
  | privateDef {name j ts ty j' body ps rest} (hn : S.keyword name = false)
      (ht : S.type ts = some (ty, .punct '=' j' :: body)) (hb : BodyAt S Skip body ps rest) :
      ItemAt S Skip (.ident name :: .punct ':' j :: ts) (.nonTerminal ⟨false, name, ty, ps⟩) rest
  | pubDef {name j ts ty j' body ps rest} (hn : S.keyword name = false)
      (ht : S.type ts = some (ty, .punct '=' j' :: body)) (hb : BodyAt S Skip body ps rest) :
      ItemAt S Skip (.ident "pub" :: .ident name :: .punct ':' j :: ts)
        (.nonTerminal ⟨true, name, ty, ps⟩) rest

/-- The input of the macro. -/
inductive ItemsIn (S : Syn X Ty) (Skip : List TokTree → Prop) :
    List TokTree → List (GrammarItem X Ty) → Prop
  | nil : ItemsIn S Skip [] []
  | cons {ts i rest is} (h : ItemAt S Skip ts i rest) (hs : ItemsIn S Skip rest is) :
      ItemsIn S Skip ts (i :: is)

/-! ## Panics while reading

Most malformed inputs are reported as errors.  Some make `parser!` panic. -/

/-- A pattern can begin this way. -/
inductive PatternStart (S : Syn X Ty) : List TokTree → Prop
  | dotDot {j rest} : PatternStart S (.punct '.' true :: .punct '.' j :: rest)
  | lit {ts text rest} (h : Literal ts text) : PatternStart S (ts ++ rest)
  | underscore {rest} : PatternStart S (.ident "_" :: rest)
  | paren {contents rest} : PatternStart S (.group .paren contents :: rest)
  | ident {x rest} (hx : S.keyword x = false) : PatternStart S (.ident x :: rest)
  | lt {j rest} : PatternStart S (.punct '<' j :: rest)

/-- What may follow a field of a struct pattern. -/
inductive FieldEnd : List TokTree → Prop
  | nil : FieldEnd []
  | comma {j rest} : FieldEnd (.punct ',' j :: rest)
  | dots {j rest} : FieldEnd (.punct '.' true :: .punct '.' j :: rest)

/-- A group that would belong to the pattern if it came after a path. -/
inductive GroupFirst : List TokTree → Prop
  | paren {contents rest} : GroupFirst (.group .paren contents :: rest)
  | brace {contents rest} : GroupFirst (.group .brace contents :: rest)

mutual
/-- Reading a pattern panics: the pattern, or one inside it, does not begin like a pattern, or a struct
pattern in it is malformed. -/
inductive PatternPanics (S : Syn X Ty) : List TokTree → Prop
  | start {ts} (h : ¬ PatternStart S ts) : PatternPanics S ts
  | tuple {contents rest} (h : PatternsPanic S contents) :
      PatternPanics S (.group .paren contents :: rest)
  | enum {x ts path contents rest} (hx : S.keyword x = false)
      (h : S.path (.ident x :: ts) = some (path, .group .paren contents :: rest))
      (hp : PatternsPanic S contents) : PatternPanics S (.ident x :: ts)
  | struct {x ts path contents rest} (hx : S.keyword x = false)
      (h : S.path (.ident x :: ts) = some (path, .group .brace contents :: rest))
      (hp : FieldsPanic S contents) : PatternPanics S (.ident x :: ts)
/-- One of the patterns panics, after well-formed ones. -/
inductive PatternsPanic (S : Syn X Ty) : List TokTree → Prop
  | here {ts} (hne : ts ≠ []) (h : PatternPanics S ts) : PatternsPanic S ts
  | later {ts p j rest} (h : PatternAt S ts p (.punct ',' j :: rest)) (hs : PatternsPanic S rest) :
      PatternsPanic S ts
/-- After well-formed fields: the pattern of a field panics, something follows `..`, or a field is
followed by something else than a comma or `..`. -/
inductive FieldsPanic (S : Syn X Ty) : List TokTree → Prop
  | afterDots {j t rest} : FieldsPanic S (.punct '.' true :: .punct '.' j :: t :: rest)
  | here {x j ts} (hx : S.keyword x = false) (h : PatternPanics S ts) :
      FieldsPanic S (.ident x :: .punct ':' j :: ts)
  | separator {x j ts p rest} (hx : S.keyword x = false) (h : PatternAt S ts p rest)
      (hm : ∀ path, p = .path path → ¬ GroupFirst rest) (hr : ¬ FieldEnd rest) :
      FieldsPanic S (.ident x :: .punct ':' j :: ts)
  | laterDots {x j ts p j' t rest} (hx : S.keyword x = false)
      (h : PatternAt S ts p (.punct '.' true :: .punct '.' j' :: t :: rest)) :
      FieldsPanic S (.ident x :: .punct ':' j :: ts)
  | later {x j ts p j' rest} (hx : S.keyword x = false)
      (h : PatternAt S ts p (.punct ',' j' :: rest)) (hs : FieldsPanic S rest) :
      FieldsPanic S (.ident x :: .punct ':' j :: ts)
end

/-- One of the conversions panics, after well-formed ones. -/
inductive ConversionsPanic (S : Syn X Ty) : List TokTree → Prop
  | here {text v j ts} (h : PatternPanics S ts) :
      ConversionsPanic S (.lit text (.str v) :: .punct '=' true :: .punct '>' j :: ts)
  | later {ts c j rest} (h : ConversionAt S ts c (.punct ',' j :: rest)) (hs : ConversionsPanic S rest) :
      ConversionsPanic S ts

/-- Reading the macro input panics: after well-formed items comes a type definition with a name other
than `State`, or a token enum with a malformed pattern. -/
inductive ItemsPanic (S : Syn X Ty) : List TokTree → Prop
  | typeDef {x rest} (hk : S.keyword x = false) (hx : x ≠ "State") :
      ItemsPanic S (.ident "type" :: .ident x :: rest)
  | tokenEnum {name ts as contents rest} (hn : S.keyword name = false)
      (hp : ParamsAt ts as (.group .brace contents :: rest)) (hc : ConversionsPanic S contents) :
      ItemsPanic S (.ident "enum" :: .ident name :: ts)
  | later {ts i rest} (h : ItemAt S Actual ts i rest) (hs : ItemsPanic S rest) : ItemsPanic S ts

end Parsegen
