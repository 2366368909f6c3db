import Verif.Model.Macro
import Verif.Spec.User
import Verif.Spec.Tokens
import Verif.Spec.Semantics

/-! # Specification: a compiled use of `parser!` and what can be observed of it

`Compiled` is the setting of the property theorems: the macro has accepted some items, and the
emitted token functions are total (rustc has accepted the two `match`es as exhaustive).  `Returns`
is what a caller of an emitted `parse` function can observe. -/

namespace Parsegen

variable {X Ty V W Tok E : Type}

/-- The non-terminal definitions among the items, in order. -/
def itemNonTerminals (items : List (GrammarItem X Ty)) : List (AstNonTerminal X Ty) :=
  items.filterMap fun
    | .nonTerminal n => some n
    | _ => none

/-- The token enums among the items, in order. -/
def itemTokenEnums (items : List (GrammarItem X Ty)) : List (TokenEnum Ty) :=
  items.filterMap fun
    | .tokenEnum t => some t
    | _ => none

/-- The `type State` declarations among the items, in order. -/
def itemTypeDefs (items : List (GrammarItem X Ty)) : List Ty :=
  items.filterMap fun
    | .typeDef t => some t
    | _ => none

/-- Apply a function to the values inside a stack value. -/
def SAR.map {V' : Type} (f : V → V') : SAR V → SAR V'
  | .token i fs => .token i (fs.map f)
  | .nonTerminal k v => .nonTerminal k (f v)

/-- A `parser!` invocation that compiles.  `Tok` is the user's token type, `toR` the Rust value of a
token as seen by pattern matching, `inj` embeds captured field values into the universe `V` of all
run-time values. -/
structure Compiled (X Ty V W Tok : Type) [DecidableEq Ty] where
  /-- iteration order of hash containers while the macro runs -/
  order : HashOrder
  /-- the user's action code -/
  code : UserCode X V W
  /-- the macro input -/
  items : List (GrammarItem X Ty)
  /-- what the macro emits -/
  gen : Generated X
  /-- the token enum declaration -/
  tokens : TokenEnum Ty
  toR : Tok → RVal
  inj : RVal → V
  /-- the emitted functions `token_terminal_idx` and `token_value` -/
  tf : TokenFns Tok V
  accepted : parserMacro order code.mkPath items = .ok (gen, tokens)
  idx : ∀ t, tokenTerminalIdx tokens.conversions 0 (toR t) = some (tf.terminalIdx t)
  value : ∀ t, (tokenValue tokens.conversions 0 (toR t)).map (SAR.map inj) = some (tf.value t)
  /-- token patterns contain no one-element tuple pattern (see C28) -/
  simple : ∀ c ∈ tokens.conversions, NoOneTuple c.to

namespace Compiled

variable [DecidableEq Ty]

/-- The user's non-terminal definitions. -/
def defs (P : Compiled X Ty V W Tok) : List (AstNonTerminal X Ty) := itemNonTerminals P.items

/-- The declared name of the terminal a token belongs to. -/
def cls (P : Compiled X Ty V W Tok) (t : Tok) : String :=
  ((classify P.tokens.conversions (P.toR t)).map (·.1)).getD ""

/-- The values captured from a token. -/
def fields (P : Compiled X Ty V W Tok) (t : Tok) : List V :=
  (((classify P.tokens.conversions (P.toR t)).map (·.2)).getD []).map P.inj

/-- `P.Returns ep input w o w' n`: calling the emitted `parse` of entry point `ep` in world `w` on
an iterator whose `i`-th `next()` is `input i` ends with outcome `o` (a returned value or error, or
a panic) in world `w'`, after `n` calls of `next()`. -/
def Returns (P : Compiled X Ty V W Tok) (ep : EntryPoint) (input : Nat → Option (Except E Tok))
    (w : W) (o : Outcome V E) (w' : W) (n : Nat) : Prop :=
  ∃ fuel s', parse P.gen P.code P.tf input ep w fuel = some (o, s') ∧ s'.world = w' ∧ s'.calls = n

/-- The meaning of a derivation of the user's grammar: symbols `ss` derive the tokens `toks`, the
actions of the derivation run once each, bottom-up and left to right, take world `w` to `w'` and
compute `vals`. -/
def Means (P : Compiled X Ty V W Tok) (ss : List AstSymbol) (toks : List Tok) (w : W)
    (vals : List (BVal V)) (w' : W) : Prop :=
  UEval P.defs P.cls (userValues P.code P.fields) ss toks w vals w'

/-- The tokens form a sentence of the user's non-terminal `name`. -/
def IsSentence (P : Compiled X Ty V W Tok) (name : String) (toks : List Tok) : Prop :=
  USentence P.defs name (toks.map P.cls)

end Compiled

end Parsegen
