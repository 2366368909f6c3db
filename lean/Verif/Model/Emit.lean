import Verif.Model.Pattern
import Verif.Model.Macro

/-! # Model of the text that `src/codegen.rs` and `src/lr_codegen.rs` emit

`Model/Codegen.lean` models the emitted items by index (`SEMANTIC_ACTIONS[k]` *is* a function, the
variant of a value *is* a number).  Here the same functions are modelled as they are written: they
build Rust items whose parts refer to each other by *name* (`format!("nt{}p{}_action", ..)`,
`format!("token_{}", ..)`, ...).  What the names mean is in `Model/EmitRuntime.lean`.

Simplifications: spans are left out.  The statements of `parse_generic` (the same for every grammar
but for the literal `#n_terminals`, the names of the two token functions and the lifetimes) are in
`Model/Text.lean`; here are the names it mentions. -/

namespace Parsegen

variable {A X Ty : Type}

/-! ## Names -/

/-- codegen.rs:191, 282 `format!("Token{}", i)`. -/
def tokenVariant (i : Nat) : String := "Token" ++ toString i

/-- codegen.rs:89, 318 `format!("NonTerminal{}", k)`. -/
def ntVariant (k : Nat) : String := "NonTerminal" ++ toString k

/-- codegen.rs:71, 286 `format!("token_{}", i)`. -/
def tokenMethod (i : Nat) : String := "token_" ++ toString i

/-- codegen.rs:67, 323 and lr_codegen.rs:94-97 `format!("non_terminal_{}", k)`. -/
def ntMethod (k : Nat) : String := "non_terminal_" ++ toString k

/-- codegen.rs:83 `format!("nt{}p{}_action", nt_i, p_i)`. -/
def actionFnName (i j : Nat) : String := "nt" ++ toString i ++ "p" ++ toString j ++ "_action"

/-! ## Emitted items -/

/-- A variant of the emitted `enum SemanticActionResult`: `Name(Ty, ..)`. -/
structure EVariant (Ty : Type) where
  name : String
  fields : List Ty
deriving DecidableEq, Repr

/-- The result type of an emitted method: `(T, ..)` (which is `T` itself if there is exactly one) or
`T`. -/
inductive ERet (Ty : Type) where
  | parens (tys : List Ty)
  | single (ty : Ty)
deriving DecidableEq, Repr

/-- The result expression of an emitted method: `(f0, ..)` (which is `f0` itself if there is exactly
one) or `f`. -/
inductive EBody where
  | parens (ids : List String)
  | single (id : String)
deriving DecidableEq, Repr

/-- `fn name(self) -> ret { match self { Self::variant(ids..) => body, _ => unreachable!() } }`. -/
structure EMethod (Ty : Type) where
  name : String
  ret : ERet Ty
  variant : String
  ids : List String
  body : EBody
deriving DecidableEq, Repr

/-- A statement of an emitted action function: `value_stack.pop();` or
`let [mut] name = value_stack.pop().unwrap().method();`. -/
inductive EStmt where
  | pop
  | letPop (isMut : Bool) (name : String) (method : String)
deriving DecidableEq, Repr

/-- `fn name(value_stack: &mut Vec<SemanticActionResult>) { stmts..
value_stack.push(SemanticActionResult::variant(action)); }`. -/
structure EActionFn (X : Type) where
  name : String
  stmts : List EStmt
  variant : String
  action : X

/-- `pub struct name; impl name { pub fn parse(..) -> Result<ret, ParseError<E>> {
parse_generic(input, SemanticActionResult::extract, state, action) } }`. -/
structure EStruct (Ty : Type) where
  name : String
  ret : Ty
  extract : String
  state : Nat
  action : Nat

/-- An arm of the emitted `token_value`: `pattern => { SemanticActionResult::variant(args..) }`. -/
structure EValueArm where
  pat : RPat
  variant : String
  args : List String

/-- The lifetime parameters and arguments written in the emitted code.  (Those of the action functions
and of the `parse` functions are written alike for every function and are kept once.) -/
structure ELifetimes where
  /-- `fn idxName<idxParams>(token: &tokenType<idxToken>) -> usize` -/
  idxParams : List String
  idxToken : List String
  /-- `fn token_value<valueParams>(token: tokenType<valueToken>) -> SemanticActionResult<valueResult>` -/
  valueParams : List String
  valueToken : List String
  valueResult : List String
  /-- `enum SemanticActionResult<enumParams>` -/
  enumParams : List String
  /-- `impl<implParams> SemanticActionResult<implSelf>` -/
  implParams : List String
  implSelf : List String
  /-- `fn nt0p0_action<actionParams>(value_stack: &mut Vec<SemanticActionResult<actionStack>>)` -/
  actionParams : List String
  actionStack : List String
  /-- `static SEMANTIC_ACTIONS: [fn(&mut Vec<SemanticActionResult<tableStack>>); ..]` -/
  tableStack : List String
  /-- `fn parse_generic<genericParams, R, E: Clone>(
  mut input: impl Iterator<Item=Result<tokenType<genericToken>, E>>,
  extract_value: fn(SemanticActionResult<genericExtract>) -> R, ..)`, and in it
  `let mut value_stack: Vec<SemanticActionResult<genericStack>>` -/
  genericParams : List String
  genericToken : List String
  genericExtract : List String
  genericStack : List String
  /-- `pub fn parse<parseParams, E: Clone>(
  input: impl Iterator<Item=Result<tokenType<parseToken>, E>>)` -/
  parseParams : List String
  parseToken : List String
deriving DecidableEq, Repr

/-- The emitted module. -/
structure EModule (X Ty : Type) where
  /-- `static ACTION: [[Option<LRAction>; actionCols]; actionRows] = action` -/
  actionCols : Nat
  actionRows : Nat
  action : List (List (Option RtAction))
  /-- `static GOTO: [[Option<u32>; gotoCols]; gotoRows] = goto` -/
  gotoCols : Nat
  gotoRows : Nat
  goto : List (List (Option Nat))
  /-- `fn idxName(token: &tokenType) -> usize { match token { idxArms } }` -/
  tokenType : String
  idxName : String
  idxArms : List (RPat × Nat)
  /-- `fn valueName(token: tokenType) -> SemanticActionResult { match token { valueArms } }` -/
  valueName : String
  valueArms : List EValueArm
  /-- `enum SemanticActionResult { variants }` -/
  variants : List (EVariant Ty)
  /-- `impl SemanticActionResult { methods }` -/
  methods : List (EMethod Ty)
  /-- the action functions -/
  actionFns : List (EActionFn X)
  /-- `static SEMANTIC_ACTIONS: [fn(..); semanticLen] = semantic` -/
  semanticLen : Nat
  semantic : List String
  /-- `static EXPECTED_TERMINALS: [&str; expectedLen] = expected` -/
  expectedLen : Nat
  expected : List String
  /-- `static TERMINAL_STRS: [&str; terminalStrsLen] = terminalStrs` -/
  terminalStrsLen : Nat
  terminalStrs : List String
  /-- in `parse_generic`: `None => #n_terminals` -/
  nTerminals : Nat
  /-- in `parse_generic`: `#token_terminal_idx_fn_name(&token)` -/
  idxCall : String
  /-- in `parse_generic`: `#token_value_fn_name(token)` -/
  valueCall : String
  /-- the parser structs -/
  structs : List (EStruct Ty)
  /-- the lifetimes in all of these -/
  lifetimes : ELifetimes
  /-- `#[derive(..)]` on `enum SemanticActionResult` -/
  resultDerives : List String

/-! ## codegen.rs -/

/-- codegen.rs:281-301: the variant and the method of token `i`. -/
def emitToken (i : Nat) (c : Conversion Ty) : EVariant Ty × EMethod Ty :=
  let tys := patternTypes c.to
  let ids := (List.range tys.length).map fieldIdent
  (⟨tokenVariant i, tys⟩, ⟨tokenMethod i, .parens tys, tokenVariant i, ids, .parens ids⟩)

/-- codegen.rs:320-331: the variant and the method of a type seen for the first time. -/
def emitNt (i : Nat) (ty : Ty) : EVariant Ty × EMethod Ty :=
  (⟨ntVariant i, [ty]⟩, ⟨ntMethod i, .single ty, ntVariant i, ["f"], .single "f"⟩)

/-- codegen.rs:304-339: the loop over the non-terminals' types; the new variants with their methods,
and the variant numbers. -/
def emitNts [DecidableEq Ty] :
    List Ty → AMap Ty Nat → Nat → List (EVariant Ty × EMethod Ty) × List Nat
  | [], _, _ => ([], [])
  | ty :: rest, seen, i =>
    match seen.get? ty with
    | some k =>
      let r := emitNts rest seen i
      (r.1, k :: r.2)
    | none =>
      let r := emitNts rest (seen.insert ty i) (i + 1)
      (emitNt i ty :: r.1, i :: r.2)

/-- codegen.rs:265-357 `semantic_action_result_type`. -/
def emitResultType [DecidableEq Ty] (g : Grammar A Ty) (convs : List (Conversion Ty)) :
    List (EVariant Ty) × List (EMethod Ty) × List Nat :=
  let toks := convs.zipIdx.map fun e => emitToken e.2 e.1
  let nts := emitNts (g.nonTerminals.map (·.returnTy)) [] 0
  let all := toks ++ nts.1
  (all.map (·.1), all.map (·.2), nts.2)

/-- codegen.rs:65-74: the extraction method called for a symbol. -/
def emitExtract (variants : List Nat) : Symbol → Except Fault String
  | .terminal t => .ok (tokenMethod t)
  | .nonTerminal b =>
    match variants[b]? with
    | none => .error .indexOutOfBounds
    | some k => .ok (ntMethod k)

/-- codegen.rs:55-80: the statement for one symbol. -/
def emitStmt (variants : List Nat) (s : BoundSymbol) : Except Fault EStmt :=
  match s.binder with
  | none => .ok .pop
  | some n => do
    let m ← emitExtract variants s.symbol
    .ok (.letPop n.isMut n.name m)

/-- codegen.rs:50-108: one production, `p_i`-th of the `nt_i`-th non-terminal; `decls` are the
functions declared so far (`fn_names` are their names). -/
def emitProduction (variants : List Nat) (nt p : Nat) (pr : Production X)
    (decls : List (EActionFn X)) : Except Fault (Production Nat × List (EActionFn X)) := do
  let stmts ← pr.symbols.reverse.mapM (emitStmt variants)
  match variants[nt]? with
  | none => .error .indexOutOfBounds
  | some k =>
    let idx ← tryU16 decls.length
    .ok (⟨pr.symbols, idx⟩, decls ++ [⟨actionFnName nt p, stmts, ntVariant k, pr.action⟩])

/-- codegen.rs:47-109: the productions of a non-terminal, `p` being the number of the head. -/
def emitProductions (variants : List Nat) (nt : Nat) : Nat → List (Production X) →
    List (EActionFn X) → Except Fault (List (Production Nat) × List (EActionFn X))
  | _, [], decls => .ok ([], decls)
  | p, pr :: rest, decls => do
    let (pr', decls) ← emitProduction variants nt p pr decls
    let (ps, decls) ← emitProductions variants nt (p + 1) rest decls
    .ok (pr' :: ps, decls)

/-- codegen.rs:34-119: the non-terminals, `nt` being the index of the head. -/
def emitNonTerminals (variants : List Nat) : Nat → List (NonTerminal X Ty) →
    List (EActionFn X) → Except Fault (List (NonTerminal Nat Ty) × List (EActionFn X))
  | _, [], decls => .ok ([], decls)
  | nt, n :: rest, decls => do
    let (ps, decls) ← emitProductions variants nt 0 n.productions decls
    let (ns, decls) ← emitNonTerminals variants (nt + 1) rest decls
    .ok (⟨n.name, ps, n.returnTy, n.isPublic⟩ :: ns, decls)

/-- codegen.rs:20-135 `generate_semantic_action_table`. -/
def emitSemanticTable (g : Grammar X Ty) (variants : List Nat) :
    Except Fault (List (EActionFn X) × Grammar Nat Ty) := do
  let (ns, decls) ← emitNonTerminals variants 0 g.nonTerminals []
  .ok (decls, ⟨ns, g.terminals⟩)

/-- codegen.rs:155-162: the arms of `token_terminal_idx`. -/
def emitIdxArms (convs : List (Conversion Ty)) : List (RPat × Nat) :=
  convs.zipIdx.map fun e => (patternIgnore e.1.to, e.2)

/-- codegen.rs:188-197: the arms of `token_value`. -/
def emitValueArms (convs : List (Conversion Ty)) : List EValueArm :=
  convs.zipIdx.map fun e =>
    let r := patternIdents e.1.to 0
    ⟨r.1, tokenVariant e.2, (List.range r.2).map fieldIdent⟩

/-- The lifetimes, where `as` is `type_lifetimes`: codegen.rs:94-95 (action functions), 122
(`SEMANTIC_ACTIONS`, which has none), 165-166 (`token_terminal_idx`), 202-204 (`token_value`), 343 and
347 (`SemanticActionResult`); lr_codegen.rs:105-106 (`parse`), 174-176 and 182 (`parse_generic`). -/
def emitLifetimes (as : List String) : ELifetimes where
  idxParams := as
  idxToken := as
  valueParams := as
  valueToken := as
  valueResult := as
  enumParams := as
  implParams := as
  implSelf := as
  actionParams := as
  actionStack := as
  tableStack := []
  genericParams := as
  genericToken := as
  genericExtract := as
  genericStack := as
  parseParams := as
  parseToken := as

/-! ## lr_codegen.rs -/

/-- lr_codegen.rs:81-117: one parser struct. -/
def emitStruct (g : Grammar Nat Ty) (variants : List Nat) (e : Nat × Nat) :
    Except Fault (EStruct Ty) := do
  let st ← tryU32 e.2
  match g.getNonTerminal? e.1, g.getProduction? e.1 0, variants[e.1]? with
  | some n, some p, some k => .ok ⟨n.name, n.returnTy, ntMethod k, st, p.action⟩
  | _, _, _ => .error .indexOutOfBounds

/-- lr_codegen.rs:15-232 `generate_lr1_parser`.  `lc` is Rust's `str::to_lowercase`, of which nothing
is assumed. -/
def emitParser [DecidableEq Ty] (h : HashOrder) (lc : String → String) (g : Grammar X Ty)
    (tokens : TokenEnum Ty) : Except Fault (EModule X Ty) := do
  let firstTable := generateFirstTable h g
  let auto ← generateAutomaton h g firstTable
  let (variants, methods, nums) := emitResultType g tokens.conversions
  let (fns, g') ← emitSemanticTable g nums
  let table ← buildTable h g' auto.states
  let action ← generateActionArray g' (actionTableVec g' table table.nStates)
    table.nStates g.nTerminals
  let gotoVec ← generateGotoVec table table.nStates g'.nNonTerminals
  let goto ← generateGotoArray gotoVec
  let structs ← (h.iter auto.entries).mapM (emitStruct g' nums)
  .ok
    { actionCols := g.nTerminals + 1
      actionRows := table.nStates
      action := action
      gotoCols := g'.nNonTerminals
      gotoRows := table.nStates
      goto := goto
      tokenType := tokens.typeName
      idxName := lc tokens.typeName ++ "_terminal_idx"
      idxArms := emitIdxArms tokens.conversions
      valueName := "token_value"
      valueArms := emitValueArms tokens.conversions
      variants := variants
      methods := methods
      actionFns := fns
      semanticLen := fns.length
      semantic := fns.map (·.name)
      expectedLen := table.nStates
      expected := generateExpected g' table
      terminalStrsLen := g'.nTerminals + 1
      terminalStrs := generateTokenText g'
      nTerminals := g.nTerminals
      idxCall := lc tokens.typeName ++ "_terminal_idx"
      valueCall := "token_value"
      structs := structs
      lifetimes := emitLifetimes tokens.typeLifetimes
      -- codegen.rs:342
      resultDerives := ["Debug"] }

/-- lib.rs:21-60 `parser`, after `syn` has parsed the input: the emitted module. -/
def emitMacro [DecidableEq Ty] (h : HashOrder) (lc : String → String) (mkPath : String → X)
    (items : List (GrammarItem X Ty)) : Except Fault (EModule X Ty) := do
  let (nts, t) ← macroItems items
  let g ← lower mkPath nts t.conversions
  emitParser h lc g t

end Parsegen
