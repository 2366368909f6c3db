import Verif.Model.Emit

/-! # The identifiers the macro makes from text

`codegen.rs`, `lr_codegen.rs` and `lower.rs` turn strings into identifiers with `syn::Ident::new`,
which panics if the string is not an identifier.  In particular it panics for the text of a raw
identifier (`r#type`), which is what `Ident::to_string` returns for one.  The functions of
`Model/Emit.lean` are repeated here with these calls; names that are pasted as they are (`#name`) are
not checked again.  The strings that one function of the program turns into identifiers one after the
other are checked together, in the order in which they appear in the emitted items. -/

namespace Parsegen

variable {A X Ty α : Type}

/-- Which characters identifiers consist of (Unicode's `XID_Start` and `_`, `XID_Continue`); only what
holds for ASCII characters is assumed. -/
structure IdentChars where
  start : Char → Bool
  cont : Char → Bool
  alpha : ∀ c, c.isAlpha = true → start c = true
  underscore : start '_' = true
  start_cont : ∀ c, start c = true → cont c = true
  digit : ∀ c, c.isDigit = true → cont c = true
  hash : cont '#' = false

/-- `proc_macro2::Ident::new` accepts the string: not empty, a first character and other characters.
(Keywords are accepted.) -/
def IdentChars.isIdent (U : IdentChars) (s : String) : Bool :=
  match s.toList with
  | [] => false
  | c :: cs => U.start c && cs.all U.cont

/-- Panics of the macro: those of `Model/Emit.lean`, and those of `Ident::new`. -/
inductive IdentFault where
  | gen (f : Fault)
  | ident (s : String)
deriving DecidableEq

/-- A part of the program that does not call `Ident::new`. -/
def plainly : Except Fault α → Except IdentFault α
  | .ok a => .ok a
  | .error f => .error (.gen f)

/-- `syn::Ident::new(s, ..)`. -/
def identNew (U : IdentChars) (s : String) : Except IdentFault Unit :=
  if U.isIdent s then .ok () else .error (.ident s)

/-- Several calls of `syn::Ident::new`. -/
def identsNew (U : IdentChars) : List String → Except IdentFault Unit
  | [] => .ok ()
  | s :: rest => do
    identNew U s
    identsNew U rest

/-- codegen.rs:271, 282, 286, 290, 318, 323: the strings of `semantic_action_result_type`. -/
def resultTypeIdents (variants : List (EVariant Ty)) (methods : List (EMethod Ty)) : List String :=
  "SemanticActionResult" :: (variants.map (·.name) ++ methods.flatMap fun m => m.name :: m.ids)

/-- codegen.rs:66-73: the extraction method, for a bound symbol. -/
def EStmt.idents : EStmt → List String
  | .pop => []
  | .letPop _ _ m => [m]

/-- codegen.rs:66-73, 82, 88: the strings of `generate_semantic_action_table`. -/
def actionIdents (fns : List (EActionFn X)) : List String :=
  fns.flatMap fun f => f.stmts.flatMap (·.idents) ++ [f.name, f.variant]

/-- codegen.rs:149-153: the strings of `token_terminal_idx_fn`. -/
def idxIdents (lc : String → String) (tokens : TokenEnum Ty) : List String :=
  [lc tokens.typeName ++ "_terminal_idx", "token"]

/-- codegen.rs:186, 191, 397: the strings of `token_value_fn`. -/
def valueIdents (tokens : TokenEnum Ty) : List String :=
  "token_value" :: (emitValueArms tokens.conversions).flatMap fun a => a.variant :: a.args

/-- lr_codegen.rs:81-117: one parser struct. -/
def emitStructI (U : IdentChars) (g : Grammar Nat Ty) (variants : List Nat) (e : Nat × Nat) :
    Except IdentFault (EStruct Ty) := do
  let st ← plainly (tryU32 e.2)
  match g.getNonTerminal? e.1 with
  | none => .error (.gen .indexOutOfBounds)
  | some n =>
    identNew U n.name
    match g.getProduction? e.1 0, variants[e.1]? with
    | some p, some k =>
      identNew U (ntMethod k)
      .ok ⟨n.name, n.returnTy, ntMethod k, st, p.action⟩
    | _, _ => .error (.gen .indexOutOfBounds)

/-- lr_codegen.rs:15-232 `generate_lr1_parser`. -/
def emitParserI [DecidableEq Ty] (U : IdentChars) (h : HashOrder) (lc : String → String)
    (g : Grammar X Ty) (tokens : TokenEnum Ty) : Except IdentFault (EModule X Ty) := do
  let firstTable := generateFirstTable h g
  let auto ← plainly (generateAutomaton h g firstTable)
  let (variants, methods, nums) := emitResultType g tokens.conversions
  identsNew U (resultTypeIdents variants methods)
  let (fns, g') ← plainly (emitSemanticTable g nums)
  identsNew U (actionIdents fns)
  let table ← plainly (buildTable h g' auto.states)
  let action ← plainly (generateActionArray g' (actionTableVec g' table table.nStates)
    table.nStates g.nTerminals)
  let gotoVec ← plainly (generateGotoVec table table.nStates g'.nNonTerminals)
  let goto ← plainly (generateGotoArray gotoVec)
  identsNew U (idxIdents lc tokens)
  identsNew U (valueIdents tokens)
  let structs ← (h.iter auto.entries).mapM (emitStructI U g' nums)
  .ok
    { actionCols := g.nTerminals + 1
      actionRows := table.nStates
      action := action
      gotoCols := g'.nNonTerminals
      gotoRows := table.nStates
      goto := goto
      tokenType := tokens.typeName
      idxName := lc tokens.typeName ++ "_terminal_idx"
      idxArms := emitIdxArms tokens.conversions
      valueName := "token_value"
      valueArms := emitValueArms tokens.conversions
      variants := variants
      methods := methods
      actionFns := fns
      semanticLen := fns.length
      semantic := fns.map (·.name)
      expectedLen := table.nStates
      expected := generateExpected g' table
      terminalStrsLen := g'.nTerminals + 1
      terminalStrs := generateTokenText g'
      nTerminals := g.nTerminals
      idxCall := lc tokens.typeName ++ "_terminal_idx"
      valueCall := "token_value"
      structs := structs
      lifetimes := emitLifetimes tokens.typeLifetimes
      resultDerives := ["Debug"] }

/-- lib.rs:21-60 `parser`, after `syn` has parsed the input.  lower.rs:48 makes the identifier `x`
for every `pub` definition, while lowering. -/
def emitMacroI [DecidableEq Ty] (U : IdentChars) (h : HashOrder) (lc : String → String)
    (mkPath : String → X) (items : List (GrammarItem X Ty)) : Except IdentFault (EModule X Ty) := do
  let (nts, t) ← plainly (macroItems items)
  identsNew U ((nts.filter (·.isPub)).map fun _ => "x")
  let g ← plainly (lower mkPath nts t.conversions)
  emitParserI U h lc g t

end Parsegen
