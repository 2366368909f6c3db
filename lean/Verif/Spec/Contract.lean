import Verif.Spec.Syntax
import Verif.Spec.Reports
import Verif.Spec.Knuth
import Verif.Spec.UserLR
import Verif.Spec.EmitNames
import Verif.Spec.Text
import Verif.Spec.Regular
import Verif.Spec.Idents

/-! # Specification: the contract of `parser!`

What is asked of the writer of a `parser!` invocation, as conditions on what is written, and what is
promised about running the text it expands to. -/

namespace Parsegen

variable {X Ty V W Tok E : Type}

/-- The symbol is a declared terminal or a defined non-terminal, possibly named by a binder. -/
def KnownSymbol (defs : List (AstNonTerminal X Ty)) (convs : List (Conversion Ty)) (s : AstSymbol) : Prop :=
  (∃ n, s.plain = some (.nt n) ∧ ∃ b ∈ defs, b.name = n) ∨
    (∃ t, s.plain = some (.term t) ∧ ∃ c ∈ convs, c.from_ = t)

/-- What is asked of the definitions `defs` and the token enum `te` that are written. -/
structure GrammarOk (U : IdentChars) (defs : List (AstNonTerminal X Ty)) (te : TokenEnum Ty) : Prop where
  /-- names are distinct, terminals are distinct -/
  names : (defs.map (·.name)).Nodup
  /-- names are plain identifiers, not raw ones -/
  identifiers : (∀ d ∈ defs, U.isIdent d.name = true) ∧ U.isIdent te.typeName = true
  terminals : (te.conversions.map (·.from_)).Nodup
  /-- only what is supported: `=>` actions, and symbols that are declared, without repetition operators -/
  actions : ∀ d ∈ defs, ∀ p ∈ d.productions, ∃ e, p.action = .infallible e
  symbols : ∀ d ∈ defs, ∀ p ∈ d.productions, ∀ s ∈ p.symbols, KnownSymbol defs te.conversions s
  /-- no binder is called `value_stack` -/
  binders : ¬ IsBinder defs "value_stack"
  /-- token patterns contain no one-element tuples -/
  patterns : ∀ c ∈ te.conversions, NoOneTuple c.to
  /-- the grammar is LR(1) for every `pub` definition -/
  lr1 : ULR1 defs
  /-- the rules that can be empty do not run into the defect of FIRST (finding 1): for example, there are none -/
  harmless : UHarmless defs
  /-- every definition derives a sentence -/
  productive : ∀ d ∈ defs, ∃ x, USentence defs d.name x
  /-- less than 2^32 non-terminals and terminals -/
  size : loweredCount defs ≤ 4294967296
  sizeT : te.conversions.length ≤ 4294967296

/-- What is asked of the writer: `ts` are the tokens of the invocation, `defs` the definitions and `te` the
token enum written there, `toR` gives the Rust value of a token, `code` the meaning of the actions. -/
structure Contract (U : IdentChars) (S : Syn X Ty) (ts : List TokTree) (items : List (GrammarItem X Ty))
    (defs : List (AstNonTerminal X Ty)) (te : TokenEnum Ty) (toR : Tok → RVal) (code : UserCode X V W) :
    Prop extends GrammarOk U defs te where
  /-- the invocation follows the syntax (`Actual` allows more than what is documented, see C43), with one
  `enum`, and at most one `type State` -/
  written : ItemsIn S Actual ts items
  definitions : itemNonTerminals items = defs
  tokenEnum : itemTokenEnums items = [te]
  state : (itemTypeDefs items).length ≤ 1
  /-- token patterns cover all tokens -/
  covers : ∀ t, (classify te.conversions (toR t)).isSome = true
  /-- no action panics -/
  total : ∀ d ∈ defs, ∀ p ∈ d.productions, ∀ e, p.action = .infallible e → ∀ env w, code.run e env w ≠ none

/-- The macro panics on these tokens because the grammar is too large: an index does not fit into 16 or 32
bits. -/
def TooLarge [DecidableEq Ty] (S : Syn X Ty) (order : HashOrder) (mkPath : String → X) (ts : List TokTree) :
    Prop :=
  parserMacroTokens S order mkPath ts = .error (.panic .u16Overflow) ∨
    parserMacroTokens S order mkPath ts = .error (.panic .u32Overflow)

/-- What is promised about executing the text of the `parse` function named `name` in the emitted module
`m`: everything that is executed compiles; what is reported, after how many calls of `next()`, is decided
by the language of the grammar; on a sentence the value and the effects are those of its derivation; the
call returns on every input that ends. -/
structure Kept [DecidableEq Ty] (P : Compiled X Ty V W Tok) (m : EModule X Ty) (name : String) : Prop where
  compiles : ∀ (E : Type) (input : Nat → Option (Except E Tok)) w, ¬ m.TextIllFormed P name input w
  report : ∀ (E : Type) (input : Nat → Option (Except E Tok)) w o n,
    (∃ o' w', m.TextReturns P name input w o' w' n ∧ o'.report = o) ↔
      Reports (USentence P.defs name) (P.tokens.conversions.map (·.from_)) (P.look input) o n
  value : ∀ (E : Type) (input : Nat → Option (Except E Tok)) w v w' n,
    m.TextReturns P name input w (.ok v) w' n ↔
      ∃ toks, Ends input toks ∧ n = toks.length + 1 ∧ P.Means [.nonTerminal name] toks w [.nt v] w'
  returns : ∀ (E : Type) (input : Nat → Option (Except E Tok)) w k, (∀ t, input k ≠ some (.ok t)) →
    ∃ o w' n, m.TextReturns P name input w o w' n
  once : ∀ (E : Type) (input : Nat → Option (Except E Tok)) w o w' n o' w'' n',
    m.TextReturns P name input w o w' n → m.TextReturns P name input w o' w'' n' → o = o' ∧ w' = w'' ∧ n = n'

/-- What is promised without any condition on the grammar: everything that is executed compiles; there is
at most one result; what was read is what the result says; `Ok` is only returned on a sentence, with the
value and the effects of one of its derivations; lexer errors are those of the lexer; syntax errors name
the token that is there; panics are those of actions. -/
structure Safe [DecidableEq Ty] (P : Compiled X Ty V W Tok) (m : EModule X Ty) (name : String) : Prop where
  compiles : ∀ (E : Type) (input : Nat → Option (Except E Tok)) w, ¬ m.TextIllFormed P name input w
  once : ∀ (E : Type) (input : Nat → Option (Except E Tok)) w o w' n o' w'' n',
    m.TextReturns P name input w o w' n → m.TextReturns P name input w o' w'' n' → o = o' ∧ w' = w'' ∧ n = n'
  lazily : ∀ (E : Type) (input : Nat → Option (Except E Tok)) w o w' n,
    m.TextReturns P name input w o w' n → ∃ toks, Reads input toks ∧ n = toks.length + 1
  value : ∀ (E : Type) (input : Nat → Option (Except E Tok)) w v w' n,
    m.TextReturns P name input w (.ok v) w' n →
      ∃ toks, Ends input toks ∧ n = toks.length + 1 ∧ P.IsSentence name toks ∧
        P.Means [.nonTerminal name] toks w [.nt v] w'
  lexerError : ∀ (E : Type) (input : Nat → Option (Except E Tok)) w e w' n,
    m.TextReturns P name input w (.lexerError e) w' n → input (n - 1) = some (.error e)
  syntaxError : ∀ (E : Type) (input : Nat → Option (Except E Tok)) w found expected w' n,
    m.TextReturns P name input w (.parserError found expected) w' n →
      (∃ t, input (n - 1) = some (.ok t) ∧ found = P.cls t) ∨ (input (n - 1) = none ∧ found = "end-of-input")
  panics : ∀ (E : Type) (input : Nat → Option (Except E Tok)) w f w' n,
    m.TextReturns P name input w (.fault f) w' n → f = .userPanic

end Parsegen
