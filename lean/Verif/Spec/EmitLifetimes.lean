import Verif.Spec.EmitNames

/-! # Specification: lifetimes and `Debug` in the emitted module

What rustc knows about the user's own types and expressions is a parameter. -/

namespace Parsegen

variable {X Ty : Type}

/-- rustc's judgements about the user's code. -/
structure LtJudge (X Ty : Type) where
  /-- a lifetime parameter may have this name (not `'static`, `'_` or a keyword) -/
  NameOk : String → Prop
  /-- the type may be written as the type of a field, or of a result, where just these lifetime
  parameters are in scope: it has no other lifetimes, and no references without a lifetime -/
  TyIn : List String → Ty → Prop
  /-- the expression may be written where just these lifetime parameters are in scope -/
  ExprIn : List String → X → Prop
  /-- a field of this type makes use of the lifetime parameter (cf. E0392) -/
  Uses : Ty → String → Prop
  /-- the type implements `Debug` -/
  IsDebug : Ty → Prop
  /-- the user's token type may be written with this many lifetime arguments -/
  TokenArgs : Nat → Prop

/-- The types written in the result type of a method. -/
def ERet.written : ERet Ty → List Ty
  | .parens ts => ts
  | .single t => [t]

/-- The parameter lists of the items of the module, except that of `SemanticActionResult`. -/
def ELifetimes.params (l : ELifetimes) : List (List String) :=
  [l.idxParams, l.valueParams, l.implParams, l.actionParams, l.genericParams, l.parseParams]

/-- The argument lists, except the one in a `static`, where lifetimes are left out. -/
def ELifetimes.args (l : ELifetimes) : List (List String) :=
  [l.idxToken, l.valueToken, l.valueResult, l.implSelf, l.actionStack, l.genericToken,
    l.genericExtract, l.genericStack, l.parseToken]

/-- rustc accepts the lifetimes in the emitted module, and its uses of `Debug`.  (rustc would also
accept a module whose items name their parameters differently; that all items have the same
parameters, and pass them on in the same order, makes a type of the user mean the same type wherever
it is copied to.) -/
structure EModule.LifetimesOk (J : LtJudge X Ty) (m : EModule X Ty) : Prop where
  /-- no parameter is declared twice or under a name that is not allowed -/
  enumParams : m.lifetimes.enumParams.Nodup ∧ ∀ a ∈ m.lifetimes.enumParams, J.NameOk a
  params : ∀ as ∈ m.lifetimes.params, as = m.lifetimes.enumParams
  args : ∀ as ∈ m.lifetimes.args, as = m.lifetimes.enumParams
  table : m.lifetimes.tableStack = []
  /-- the token type has the right number of arguments -/
  tokenArgs : J.TokenArgs m.lifetimes.idxToken.length ∧ J.TokenArgs m.lifetimes.valueToken.length ∧
    J.TokenArgs m.lifetimes.genericToken.length ∧ J.TokenArgs m.lifetimes.parseToken.length
  /-- the fields of `SemanticActionResult` -/
  fields : ∀ v ∈ m.variants, ∀ ty ∈ v.fields, J.TyIn m.lifetimes.enumParams ty
  /-- every parameter of `SemanticActionResult` is used -/
  used : ∀ a ∈ m.lifetimes.enumParams, ∃ v ∈ m.variants, ∃ ty ∈ v.fields, J.Uses ty a
  /-- `#[derive(Debug)]` -/
  derive : "Debug" ∈ m.resultDerives → ∀ v ∈ m.variants, ∀ ty ∈ v.fields, J.IsDebug ty
  /-- `unreachable!("{:?}", self)` in the methods of non-terminals (codegen.rs:329) -/
  format : ∀ f ∈ m.methods, (∃ ty, f.ret = .single ty) → "Debug" ∈ m.resultDerives
  methods : ∀ f ∈ m.methods, ∀ ty ∈ f.ret.written, J.TyIn m.lifetimes.implParams ty
  actions : ∀ f ∈ m.actionFns, J.ExprIn m.lifetimes.actionParams f.action
  structs : ∀ s ∈ m.structs, J.TyIn m.lifetimes.parseParams s.ret

/-- The same in terms of what the user wrote in the `parser!` invocation. -/
structure UserLifetimesOk (J : LtJudge X Ty) (defs : List (AstNonTerminal X Ty))
    (tokens : TokenEnum Ty) : Prop where
  declared : tokens.typeLifetimes.Nodup ∧ ∀ a ∈ tokens.typeLifetimes, J.NameOk a
  token : J.TokenArgs tokens.typeLifetimes.length
  /-- every type mentions declared lifetimes only -/
  types : ∀ ty ∈ writtenTypes defs tokens, J.TyIn tokens.typeLifetimes ty
  /-- every type implements `Debug` -/
  debug : ∀ ty ∈ writtenTypes defs tokens, J.IsDebug ty
  /-- every lifetime of the token type occurs in a captured type or a type of a non-terminal -/
  used : ∀ a ∈ tokens.typeLifetimes, ∃ ty ∈ writtenTypes defs tokens, J.Uses ty a
  actions : ∀ d ∈ defs, ∀ p ∈ d.productions, ∀ e, p.action = .infallible e →
    J.ExprIn tokens.typeLifetimes e

/-- The item with the lifetime parameters of a token enum replaced. -/
def GrammarItem.setLifetimes (as : List String) : GrammarItem X Ty → GrammarItem X Ty
  | .tokenEnum t => .tokenEnum { t with typeLifetimes := as }
  | i => i

end Parsegen
