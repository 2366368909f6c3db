import Verif.Model.Macro

/-! # Model of the `Parse` implementations of `src/ast.rs`

The input of the macro is a list of token trees.  `syn`'s own parsers for types, expressions and paths
are parameters (`Syn`); its parsers for identifiers, keywords, punctuation and literals are modelled.
Not modelled: groups with invisible delimiters (produced when the macro call itself comes from a
`macro_rules!` macro), spans, error messages. -/

namespace Parsegen

/-- Group delimiters. -/
inductive Delim where
  | paren
  | brace
  | bracket
deriving DecidableEq, Repr

/-- What kind of literal a literal token is. -/
inductive LitKind where
  /-- a string literal with this value -/
  | str (value : String)
  /-- an integer or float -/
  | num
  /-- anything else: character, byte, byte string -/
  | other
deriving DecidableEq, Repr

/-- `proc_macro2::TokenTree`, with a lifetime (there a quote and an identifier) as one token. -/
inductive TokTree where
  | ident (s : String)
  /-- a punctuation character; `joint`: the next character is punctuation too -/
  | punct (c : Char) (joint : Bool)
  | lit (text : String) (kind : LitKind)
  | lifetime (s : String)
  | group (d : Delim) (ts : List TokTree)

/-- The way reading the macro input fails. -/
inductive ReadFault where
  /-- `Err(syn::Error)`: reported to the user as a compile error by `parse_macro_input!` -/
  | error
  /-- `panic!` or a failed `assert!` in ast.rs -/
  | panic
  /-- never happens (`read_fuel`) -/
  | outOfFuel
deriving DecidableEq, Repr

/-- The parts of `syn` that are parameters. -/
structure Syn (X Ty : Type) where
  /-- `input.parse::<syn::Type>()` -/
  type : List TokTree → Option (Ty × List TokTree)
  /-- `input.parse::<syn::Expr>()` -/
  expr : List TokTree → Option (X × List TokTree)
  /-- `input.parse::<syn::ExprPath>()?.path`, as text -/
  path : List TokTree → Option (String × List TokTree)
  /-- the words `syn::Ident` does not accept -/
  keyword : String → Bool
  type_consumes : ∀ ts a rest, type ts = some (a, rest) → ∃ pre, pre ≠ [] ∧ ts = pre ++ rest
  expr_consumes : ∀ ts a rest, expr ts = some (a, rest) → ∃ pre, pre ≠ [] ∧ ts = pre ++ rest
  path_consumes : ∀ ts a rest, path ts = some (a, rest) → ∃ pre, pre ≠ [] ∧ ts = pre ++ rest
  /-- no expression begins with `?` -/
  expr_question : ∀ j ts, expr (.punct '?' j :: ts) = none
  state : keyword "State" = false
  keywords : ∀ s ∈ ["enum", "type", "pub", "mut", "_", "true", "false"], keyword s = true

/-- A reading function: the value and the tokens left. -/
abbrev Reader (α : Type) := List TokTree → Except ReadFault (α × List TokTree)

variable {X Ty α β : Type}

/-- A reading function that only fails with an error. -/
def Reader.ofOption (f : List TokTree → Option (α × List TokTree)) : Reader α := fun ts =>
  match f ts with
  | some r => .ok r
  | none => .error .error

/-- `input.peek(T)` / `input.parse::<T>()` for a one-character punctuation `T`; the spacing of the last
character is not looked at. -/
def punct1 (c : Char) : List TokTree → Option (List TokTree)
  | .punct c' _ :: rest => if c' = c then some rest else none
  | _ => none

/-- The same for two characters; the first must be joint. -/
def punct2 (c d : Char) : List TokTree → Option (List TokTree)
  | .punct c' true :: .punct d' _ :: rest => if c' = c ∧ d' = d then some rest else none
  | _ => none

/-- The same for a keyword (also `_`). -/
def kw (s : String) : List TokTree → Option (List TokTree)
  | .ident s' :: rest => if s' = s then some rest else none
  | _ => none

/-- The same for a delimited group: its contents and the rest. -/
def group (d : Delim) : List TokTree → Option (List TokTree × List TokTree)
  | .group d' ts :: rest => if d' = d then some (ts, rest) else none
  | _ => none

/-- The same for `syn::Ident`. -/
def Syn.ident (S : Syn X Ty) : List TokTree → Option (String × List TokTree)
  | .ident s :: rest => if S.keyword s then none else some (s, rest)
  | _ => none

/-- The same for `syn::Lifetime`. -/
def lifetime : List TokTree → Option (String × List TokTree)
  | .lifetime s :: rest => some (s, rest)
  | _ => none

/-- The same for `syn::Lit`: a literal token, `true`, `false`, or a minus sign and a number.  The value
is the text and, for a string literal, its value. -/
def lit : List TokTree → Option ((String × Option String) × List TokTree)
  | .lit text (.str v) :: rest => some ((text, some v), rest)
  | .lit text .num :: rest => some ((text, none), rest)
  | .lit text .other :: rest => some ((text, none), rest)
  | .ident "true" :: rest => some (("true", none), rest)
  | .ident "false" :: rest => some (("false", none), rest)
  | .punct '-' _ :: .lit text .num :: rest => some (("-" ++ text, none), rest)
  | _ => none

/-- `input.parse::<syn::LitStr>()` of syn 1.0, which parses a `Lit` and fails if it is not a string:
the result, and the tokens left *also in case of failure*. -/
def litStr (ts : List TokTree) : Option String × List TokTree :=
  match lit ts with
  | some ((_, some v), rest) => (some v, rest)
  | some ((_, none), rest) => (none, rest)
  | none => (none, ts)

/-- `input.parse::<T>()?` for a token. -/
def expect (o : Option α) : Except ReadFault α :=
  match o with
  | some a => .ok a
  | none => .error .error

/-- `let _ = input.parse::<syn::token::Comma>();` -/
def skipComma (ts : List TokTree) : List TokTree := (punct1 ',' ts).getD ts

/-- `syn::punctuated::Punctuated::<T, Comma>::parse_terminated(&contents)?` followed by
`into_pairs`/`into_value`. -/
def terminated (p : Reader α) : Nat → List TokTree → Except ReadFault (List α)
  | _, [] => .ok []
  | 0, _ :: _ => .error .outOfFuel
  | k + 1, ts@(_ :: _) => do
    let (a, rest) ← p ts
    match rest with
    | [] => .ok [a]
    | _ :: _ => do
      let rest' ← expect (punct1 ',' rest)
      let as ← terminated p k rest'
      .ok (a :: as)

/-- ast.rs:163-173 `FieldPattern::parse`. -/
def fieldPattern (S : Syn X Ty) (p : Reader (Pattern Ty)) : Reader (String × Pattern Ty) := fun ts => do
  let (name, ts) ← expect (S.ident ts)
  let ts ← expect (punct1 ':' ts)
  let (pat, ts) ← p ts
  .ok ((name, pat), ts)

/-- ast.rs:213-231: the contents of a struct pattern: the fields, and whether `..` follows. -/
def structFields (S : Syn X Ty) (p : Reader (Pattern Ty)) : Nat → List TokTree →
    Except ReadFault (List (String × Pattern Ty) × Bool)
  | _, [] => .ok ([], false)
  | 0, _ :: _ => .error .outOfFuel
  | k + 1, ts@(_ :: _) =>
    match punct2 '.' '.' ts with
    | some rest => if rest.isEmpty then .ok ([], true) else .error .panic
    | none => do
      let (f, rest) ← fieldPattern S p ts
      match punct1 ',' rest with
      | some rest' => do
        let (fs, d) ← structFields S p k rest'
        .ok (f :: fs, d)
      | none =>
        if rest.isEmpty || (punct2 '.' '.' rest).isSome then do
          let (fs, d) ← structFields S p k rest
          .ok (f :: fs, d)
        else .error .panic

/-- ast.rs:175-245 `Pattern::parse`.  The fuel bounds the nesting of groups. -/
def pattern (S : Syn X Ty) : Nat → Reader (Pattern Ty)
  | 0, _ => .error .outOfFuel
  | n + 1, ts =>
    match punct2 '.' '.' ts with
    | some rest => .ok (.dotDot, rest)
    | none =>
    match lit ts with
    | some ((text, _), rest) => .ok (.lit text, rest)
    | none =>
    match kw "_" ts with
    | some rest => .ok (.underscore, rest)
    | none =>
    match group .paren ts with
    | some (contents, rest) => do
      let ps ← terminated (pattern S n) contents.length contents
      .ok (.tuple ps, rest)
    | none =>
    match S.ident ts with
    | some _ => do
      let (path, rest) ← expect (S.path ts)
      match group .paren rest with
      | some (contents, rest') => do
        let ps ← terminated (pattern S n) contents.length contents
        .ok (.enum path ps, rest')
      | none =>
      match group .brace rest with
      | some (contents, rest') => do
        let (fs, d) ← structFields S (pattern S n) contents.length contents
        .ok (.struct path fs d, rest')
      | none => .ok (.path path, rest)
    | none =>
    match punct1 '<' ts with
    | some rest => do
      let (ty, rest) ← expect (S.type rest)
      let rest ← expect (punct1 '>' rest)
      .ok (.choose ty, rest)
    | none => .error .panic

mutual
/-- How deeply groups are nested. -/
def TokTree.depth : TokTree → Nat
  | .group _ ts => TokTree.depthList ts + 1
  | _ => 0
/-- How deeply groups are nested. -/
def TokTree.depthList : List TokTree → Nat
  | [] => 0
  | t :: ts => max t.depth (TokTree.depthList ts)
end

/-- ast.rs:247-259 `Conversion::parse`.  (`parse::<LitStr>` also leaves other tokens on failure, but
the failure is returned.) -/
def conversion (S : Syn X Ty) : Reader (Conversion Ty) := fun ts => do
  match litStr ts with
  | (some from_, ts) => do
    let ts ← expect (punct2 '=' '>' ts)
    let (to, ts) ← pattern S (TokTree.depthList ts + 1) ts
    .ok (⟨from_, to⟩, ts)
  | (none, _) => .error .error

/-- ast.rs:270-273: lifetime parameters up to `>`. -/
def lifetimes : Nat → Reader (List String)
  | 0, _ => .error .outOfFuel
  | k + 1, ts =>
    match punct1 '>' ts with
    | some _ => .ok ([], ts)
    | none => do
      let (a, ts) ← expect (lifetime ts)
      let (as, ts) ← lifetimes k (skipComma ts)
      .ok (a :: as, ts)

/-- ast.rs:266-279: the lifetime parameters, if any. -/
def typeParams : Reader (List String) := fun ts =>
  match punct1 '<' ts with
  | some ts => do
    let (as, ts) ← lifetimes (ts.length + 1) ts
    let ts ← expect (punct1 '>' ts)
    .ok (as, ts)
  | none => .ok ([], ts)

/-- ast.rs:261-295 `TokenEnum::parse`. -/
def tokenEnum (S : Syn X Ty) : Reader (TokenEnum Ty) := fun ts => do
  let ts ← expect (kw "enum" ts)
  let (name, ts) ← expect (S.ident ts)
  let (as, ts) ← typeParams ts
  let (contents, ts) ← expect (group .brace ts)
  let cs ← terminated (conversion S) contents.length contents
  .ok (⟨name, as, cs⟩, ts)

/-- ast.rs:297-317 `TypeDef::parse` and `TypeDefKind::parse`. -/
def typeDef (S : Syn X Ty) : Reader Ty := fun ts => do
  let ts ← expect (kw "type" ts)
  let (name, ts) ← expect (S.ident ts)
  if name = "State" then do
    let ts ← expect (punct1 '=' ts)
    let (ty, ts) ← expect (S.type ts)
    let ts ← expect (punct1 ';' ts)
    .ok (ty, ts)
  else .error .panic

/-- ast.rs:374-394: the loop of `Symbol::parse`. -/
def symbolLoop (s : AstSymbol) : List TokTree → AstSymbol × List TokTree
  | .punct c j :: rest =>
    if c = '+' then symbolLoop (.repeat_ .plus s) rest
    else if c = '*' then symbolLoop (.repeat_ .star s) rest
    else if c = '?' then symbolLoop (.repeat_ .question s) rest
    else (s, .punct c j :: rest)
  | ts => (s, ts)

/-- ast.rs:410, 319-328: `input.parse::<Mut>().is_ok()`, `Visibility::parse`. -/
def optKw (w : String) (ts : List TokTree) : Bool × List TokTree :=
  match kw w ts with
  | some ts => (true, ts)
  | none => (false, ts)

/-- ast.rs:399-421 `symbol0`; `p` is `Symbol::parse`. -/
def symbol0 (S : Syn X Ty) (p : Reader AstSymbol) : Reader AstSymbol := fun ts =>
  match litStr ts with
  | (some v, ts) => .ok (AstSymbol.terminal v, ts)
  | (none, ts) =>
    match S.ident ts with
    | some (name, ts) => .ok (.nonTerminal name, ts)
    | none => do
      let ts ← expect (punct1 '<' ts)
      let (isMut, ts) := optKw "mut" ts
      let (name, ts) ← expect (S.ident ts)
      let ts ← expect (punct1 ':' ts)
      let (s, ts) ← p ts
      let ts ← expect (punct1 '>' ts)
      .ok (.named ⟨isMut, name⟩ s, ts)

/-- ast.rs:370-397 `Symbol::parse`.  The fuel bounds the nesting of names. -/
def symbol (S : Syn X Ty) : Nat → Reader AstSymbol
  | 0, _ => .error .outOfFuel
  | n + 1, ts => do
    let (s, ts) ← symbol0 S (symbol S n) ts
    .ok (symbolLoop s ts)

/-- ast.rs:361-364: symbols up to `=>`. -/
def symbols (S : Syn X Ty) : Nat → Reader (List AstSymbol)
  | 0, _ => .error .outOfFuel
  | k + 1, ts =>
    match punct2 '=' '>' ts with
    | some _ => .ok ([], ts)
    | none => do
      let (s, ts) ← symbol S (ts.length + 1) ts
      let (ss, ts) ← symbols S k ts
      .ok (s :: ss, ts)

/-- ast.rs:423-433 `Action::parse`. -/
def action (S : Syn X Ty) : Reader (AstAction X) := fun ts => do
  let ts ← expect (punct2 '=' '>' ts)
  match punct1 '?' ts with
  | some ts => do
    let (e, ts) ← expect (S.expr ts)
    .ok (.fallible e, ts)
  | none => do
    let (e, ts) ← expect (S.expr ts)
    .ok (.infallible e, ts)

/-- ast.rs:359-368 `Production::parse`. -/
def production (S : Syn X Ty) : Reader (AstProduction X) := fun ts => do
  let (ss, ts) ← symbols S (ts.length + 1) ts
  let (a, ts) ← action S ts
  .ok (⟨ss, a⟩, ts)

/-- ast.rs:341-344: the productions between braces. -/
def productions (S : Syn X Ty) : Nat → List TokTree → Except ReadFault (List (AstProduction X))
  | _, [] => .ok []
  | 0, _ :: _ => .error .outOfFuel
  | k + 1, ts@(_ :: _) => do
    let (p, ts) ← production S ts
    let ps ← productions S k (skipComma ts)
    .ok (p :: ps)

/-- ast.rs:333-356: `NonTerminal::parse` after the visibility. -/
def definition (S : Syn X Ty) (isPub : Bool) : Reader (AstNonTerminal X Ty) := fun ts => do
  let (name, ts) ← expect (S.ident ts)
  let ts ← expect (punct1 ':' ts)
  let (ty, ts) ← expect (S.type ts)
  let ts ← expect (punct1 '=' ts)
  match group .brace ts with
  | some (contents, ts) => do
    let ps ← productions S contents.length contents
    let ts ← expect (punct1 ';' ts)
    .ok (⟨isPub, name, ty, ps⟩, ts)
  | none => do
    let (p, ts) ← production S ts
    let ts ← expect (punct1 ',' ts)
    .ok (⟨isPub, name, ty, [p]⟩, ts)

/-- ast.rs:330-357 `NonTerminal::parse`. -/
def nonTerminal (S : Syn X Ty) : Reader (AstNonTerminal X Ty) := fun ts =>
  let (isPub, ts) := optKw "pub" ts
  definition S isPub ts

/-- ast.rs:435-445 `GrammarItem::parse`. -/
def grammarItem (S : Syn X Ty) : Reader (GrammarItem X Ty) := fun ts =>
  match kw "type" ts with
  | some _ => do
    let (ty, ts) ← typeDef S ts
    .ok (.typeDef ty, ts)
  | none =>
  match kw "enum" ts with
  | some _ => do
    let (t, ts) ← tokenEnum S ts
    .ok (.tokenEnum t, ts)
  | none => do
    let (n, ts) ← nonTerminal S ts
    .ok (.nonTerminal n, ts)

/-- ast.rs:447-455 `Parser::parse`. -/
def grammarItems (S : Syn X Ty) : Nat → List TokTree → Except ReadFault (List (GrammarItem X Ty))
  | _, [] => .ok []
  | 0, _ :: _ => .error .outOfFuel
  | k + 1, ts@(_ :: _) => do
    let (i, ts) ← grammarItem S ts
    let is ← grammarItems S k ts
    .ok (i :: is)

/-- lib.rs:23 `parse_macro_input!(input as ast::Parser)`. -/
def readItems (S : Syn X Ty) (ts : List TokTree) : Except ReadFault (List (GrammarItem X Ty)) :=
  grammarItems S ts.length ts

/-- The way the macro fails. -/
inductive MacroFault where
  | read (f : ReadFault)
  | panic (f : Fault)

/-- lib.rs:22-60: the whole macro `parser!`. -/
def parserMacroTokens [DecidableEq Ty] (S : Syn X Ty) (h : HashOrder) (mkPath : String → X)
    (ts : List TokTree) : Except MacroFault (Generated X × TokenEnum Ty) :=
  match readItems S ts with
  | .error f => .error (.read f)
  | .ok items =>
    match parserMacro h mkPath items with
    | .error f => .error (.panic f)
    | .ok r => .ok r

end Parsegen
