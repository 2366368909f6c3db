import Verif.Model.Emit
import Verif.Spec.Emitted
import Verif.Spec.User
import Verif.Spec.Tokens

/-! # Specification: Rust's rules about names, for the emitted module

Everything the emitted module declares lives in the user's module, next to prelude names it refers
to.  `WellScoped` says that rustc finds no name declared twice, that every prelude name and every
type written by the user still means what it should, and that no variable tries to shadow a unit
struct or a static (rustc E0530). -/

namespace Parsegen

variable {X Ty : Type}

/-- lr_codegen.rs:126, 145 and codegen.rs:343: the fixed types of the emitted module. -/
def fixedTypes : List String := ["LRAction", "ParseError", "SemanticActionResult"]

/-- lr_codegen.rs:347, 377 and codegen.rs:123, 485, 507: the statics. -/
def fixedStatics : List String :=
  ["ACTION", "GOTO", "SEMANTIC_ACTIONS", "EXPECTED_TERMINALS", "TERMINAL_STRS"]

/-- Prelude and primitive types the emitted module mentions. -/
def usedTypes : List String :=
  ["Option", "Vec", "Result", "Iterator", "Clone", "usize", "u32", "u16", "str"]

/-- Prelude values the emitted module mentions. -/
def usedValues : List String := ["Some", "None", "Ok", "Err"]

/-- lr_codegen.rs:174-228: parameters and variables of `parse_generic` (and `input` of `parse`). -/
def genericLocals : List String :=
  ["input", "extract_value", "init_state", "action_idx", "state_stack", "value_stack", "token",
    "state", "terminal_idx", "err", "found", "expected", "next_state", "token_", "non_terminal_idx",
    "n_symbols", "semantic_action_idx"]

/-- lr_codegen.rs:188-192: the variables in scope where the token index function is called. -/
def idxCallLocals : List String :=
  ["input", "extract_value", "init_state", "action_idx", "state_stack", "value_stack", "token",
    "state"]

/-- lr_codegen.rs:201-207: the variables in scope where the token value function is called. -/
def valueCallLocals : List String := idxCallLocals ++ ["terminal_idx", "next_state", "token_"]

/-- The name bound by a statement of an action function. -/
def EStmt.binder : EStmt → Option String
  | .pop => none
  | .letPop _ n _ => some n

/-- The names an action function binds with `let`. -/
def EActionFn.lets (f : EActionFn X) : List String := f.stmts.filterMap EStmt.binder

/-- Types declared at the top level of the module. -/
def EModule.typeItems (m : EModule X Ty) : List String := fixedTypes ++ m.structs.map (·.name)

/-- Functions declared at the top level of the module. -/
def EModule.fnItems (m : EModule X Ty) : List String :=
  [m.idxName, m.valueName, "parse_generic"] ++ m.actionFns.map (·.name)

/-- Values declared at the top level of the module; a unit struct is also a value. -/
def EModule.valueItems (m : EModule X Ty) : List String :=
  fixedStatics ++ m.fnItems ++ m.structs.map (·.name)

/-- All parameters and variables of the emitted functions. -/
def EModule.locals (m : EModule X Ty) : List String :=
  genericLocals ++ m.methods.flatMap (·.ids) ++ m.valueArms.flatMap (·.args) ++
    m.actionFns.flatMap EActionFn.lets

/-- All types of the user that the module mentions inside its own items. -/
def EModule.userTypes (m : EModule X Ty) : List Ty :=
  m.variants.flatMap (·.fields) ++ m.structs.map (·.ret)

/-- Rust accepts the names.  `tyNames ty` are the names mentioned in the type `ty`. -/
structure EModule.WellScoped (tyNames : Ty → List String) (m : EModule X Ty) : Prop where
  /-- no type is declared twice -/
  types : m.typeItems.Nodup
  /-- no value is declared twice -/
  values : m.valueItems.Nodup
  /-- no variant is declared twice -/
  variants : (m.variants.map (·.name)).Nodup
  /-- no method is declared twice -/
  methods : (m.methods.map (·.name)).Nodup
  /-- no pattern binds an identifier twice -/
  methodIds : ∀ f ∈ m.methods, f.ids.Nodup
  armIds : ∀ a ∈ m.valueArms, a.args.Nodup
  /-- prelude names keep their meaning -/
  usedTypes : ∀ n ∈ usedTypes, n ∉ m.typeItems
  usedValues : ∀ n ∈ usedValues, n ∉ m.valueItems
  /-- no variable shadows a unit struct or a static -/
  shadowStruct : ∀ n ∈ m.locals, n ∉ m.structs.map (·.name)
  shadowStatic : ∀ n ∈ m.locals, n ∉ fixedStatics
  /-- `value_stack` in an action function is the parameter -/
  valueStack : ∀ f ∈ m.actionFns, "value_stack" ∉ f.lets
  /-- the token functions are not hidden by a variable where they are called -/
  idxCall : m.idxCall ∉ idxCallLocals
  valueCall : m.valueCall ∉ valueCallLocals
  /-- the user's types are not taken for types of the module ... -/
  userTypes : ∀ ty ∈ m.userTypes, ∀ n ∈ tyNames ty, n ∉ m.typeItems
  tokenType : m.tokenType ∉ m.typeItems
  /-- ... nor for the type parameters `E` of `parse` and `R`, `E` of `parse_generic` -/
  retParams : ∀ s ∈ m.structs, "E" ∉ tyNames s.ret
  tokenParams : m.tokenType ≠ "E" ∧ m.tokenType ≠ "R"

/-- Fixed names that a `pub` non-terminal must not have: items, prelude names and variables of the
emitted code. -/
def reservedNames : List String :=
  fixedTypes ++ fixedStatics ++ ["token_value", "parse_generic"] ++ usedTypes ++ usedValues ++
    genericLocals ++ ["f"]

/-- The names bound by a production. -/
def Production.binders (pr : Production X) : List String :=
  pr.symbols.filterMap fun s => s.binder.map (·.name)

/-- The names of the `pub` non-terminals. -/
def Grammar.pubNames (g : Grammar X Ty) : List String :=
  (g.nonTerminals.filter (·.isPublic)).map (·.name)

/-- The types of the user mentioned in the grammar and the token declarations. -/
def mentionedTypes (g : Grammar X Ty) (tokens : TokenEnum Ty) : List Ty :=
  tokens.conversions.flatMap (fun c => c.to.types) ++ g.nonTerminals.map (·.returnTy)

/-- What the user has to observe for the emitted module to be accepted: conditions on the grammar
`g`, the token declaration and the names in them only. -/
structure NamesOk (lc : String → String) (tyNames : Ty → List String) (g : Grammar X Ty)
    (tokens : TokenEnum Ty) : Prop where
  distinct : g.pubNames.Nodup
  reserved : ∀ n ∈ g.pubNames, n ∉ reservedNames
  idxName : ∀ n ∈ g.pubNames, n ≠ lc tokens.typeName ++ "_terminal_idx"
  /-- not the name `nt<i>p<j>_action` of the function of an existing production -/
  actionName : ∀ n ∈ g.pubNames, ∀ e ∈ g.listing, n ≠ actionFnName e.1 e.2.1
  /-- not a name `f<i>` used for a captured field -/
  fieldName : ∀ n ∈ g.pubNames, ∀ c ∈ tokens.conversions, ∀ i, i < c.to.types.length →
    n ≠ fieldIdent i
  /-- not a name bound in a production -/
  binder : ∀ n ∈ g.pubNames, ∀ e ∈ g.listing, n ∉ e.2.2.binders
  bindStatic : ∀ e ∈ g.listing, ∀ n ∈ e.2.2.binders, n ∉ fixedStatics ∧ n ≠ "value_stack"
  types : ∀ ty ∈ mentionedTypes g tokens, ∀ n ∈ tyNames ty, n ∉ fixedTypes ∧ n ∉ g.pubNames
  tokenType : tokens.typeName ∉ fixedTypes ∧ tokens.typeName ∉ g.pubNames ∧
    tokens.typeName ≠ "E" ∧ tokens.typeName ≠ "R"
  returnParam : ∀ nt ∈ g.nonTerminals, nt.isPublic = true → "E" ∉ tyNames nt.returnTy

/-- The names of the user's `pub` definitions, in order. -/
def pubDefNames (defs : List (AstNonTerminal X Ty)) : List String :=
  (defs.filter (·.isPub)).map (·.name)

/-- The types the user wrote: in the token patterns, and those declared for non-terminals. -/
def writtenTypes (defs : List (AstNonTerminal X Ty)) (tokens : TokenEnum Ty) : List Ty :=
  tokens.conversions.flatMap (fun c => c.to.types) ++ defs.map (·.typeDecl)

/-- `x` is bound in a production of the user. -/
def IsBinder (defs : List (AstNonTerminal X Ty)) (x : String) : Prop :=
  ∃ d ∈ defs, ∃ p ∈ d.productions, ∃ s ∈ p.symbols, s.boundName = some x

/-- The same in terms of what the user wrote in the `parser!` invocation. -/
structure UserNamesOk (lc : String → String) (tyNames : Ty → List String)
    (defs : List (AstNonTerminal X Ty)) (tokens : TokenEnum Ty) : Prop where
  /-- no two `pub` non-terminals have the same name -/
  distinct : (pubDefNames defs).Nodup
  reserved : ∀ n ∈ pubDefNames defs, n ∉ reservedNames ∧ n ≠ "x"
  idxName : ∀ n ∈ pubDefNames defs, n ≠ lc tokens.typeName ++ "_terminal_idx"
  fieldName : ∀ n ∈ pubDefNames defs, ∀ c ∈ tokens.conversions, ∀ i,
    i < c.to.types.length → n ≠ fieldIdent i
  binder : ∀ n ∈ pubDefNames defs, ¬ IsBinder defs n
  bindStatic : ∀ n, IsBinder defs n → n ∉ fixedStatics ∧ n ≠ "value_stack"
  types : ∀ ty ∈ writtenTypes defs tokens, ∀ n ∈ tyNames ty, n ∉ fixedTypes ∧ n ∉ pubDefNames defs
  tokenType : tokens.typeName ∉ fixedTypes ∧ tokens.typeName ∉ pubDefNames defs ∧
    tokens.typeName ≠ "E" ∧ tokens.typeName ≠ "R"
  returnParam : ∀ d ∈ defs, d.isPub = true → "E" ∉ tyNames d.typeDecl

/-- The name begins with an upper case ASCII letter, as Rust's conventions want for types and statics
(and not for variables and functions). -/
def StartsUpper (n : String) : Prop := ∃ c cs, n.toList = c :: cs ∧ c.isUpper = true

/-- The user follows Rust's naming conventions. -/
structure Conventional (defs : List (AstNonTerminal X Ty)) : Prop where
  /-- `pub` non-terminals are named like types, and differently -/
  upper : ∀ n ∈ pubDefNames defs, StartsUpper n
  distinct : (pubDefNames defs).Nodup
  /-- variables are not named like types -/
  lower : ∀ n, IsBinder defs n → ¬ StartsUpper n

/-- The names that begin with an upper case letter among those a `pub` non-terminal must not have. -/
def upperReserved : List String :=
  ["LRAction", "ParseError", "SemanticActionResult", "ACTION", "GOTO", "SEMANTIC_ACTIONS",
    "EXPECTED_TERMINALS", "TERMINAL_STRS", "Option", "Vec", "Result", "Iterator", "Clone", "Some",
    "None", "Ok", "Err"]

end Parsegen
