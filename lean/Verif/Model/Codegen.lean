import Verif.Model.Table

/-! # Model of the generator side of `src/codegen.rs` and `src/lr_codegen.rs`

The emitted Rust items are modelled as data (`Generated`): the arrays as lists, the semantic action
functions as their list of `pop` statements plus result variant and action expression.  Their
execution is modelled in `Model/Runtime.lean`. -/

namespace Parsegen

variable {A X Ty : Type}

/-- codegen.rs:303-339: variant number of each non-terminal; equal types share a variant. -/
def variantNames [DecidableEq Ty] : List Ty → AMap Ty Nat → Nat → List Nat
  | [], _, _ => []
  | ty :: rest, seen, i =>
    match seen.get? ty with
    | some k => k :: variantNames rest seen i
    | none => i :: variantNames rest (seen.insert ty i) (i + 1)

/-- codegen.rs:265-357 `semantic_action_result_type`: the returned vector. -/
def semanticActionVariants [DecidableEq Ty] (g : Grammar A Ty) : List Nat :=
  variantNames (g.nonTerminals.map (·.returnTy)) [] 0

/-- Extraction methods of `SemanticActionResult` (codegen.rs:293-300 `token_i`,
codegen.rs:323-331 `non_terminal_k`). -/
inductive Extract where
  | token (i : Nat)
  | nonTerminal (k : Nat)
deriving DecidableEq, Repr

/-- codegen.rs:55-80: `value_stack.pop();` or
`let [mut] name = value_stack.pop().unwrap().extract();`. -/
inductive PopStmt where
  | drop
  | bind (name : String) (ex : Extract)
deriving DecidableEq, Repr

/-- codegen.rs:93-100: an emitted semantic action function. -/
structure SemFn (X : Type) where
  pops : List PopStmt
  variant : Nat
  action : X

/-- codegen.rs:56-79: the statement for one symbol.
`non_terminal_action_variant_name[nt_idx]` may be out of bounds. -/
def popStmt (variants : List Nat) (s : BoundSymbol) : Except Fault PopStmt :=
  match s.binder with
  | none => .ok .drop
  | some n =>
    match s.symbol with
    | .terminal t => .ok (.bind n.name (.token t))
    | .nonTerminal b =>
      match variants[b]? with
      | none => .error .indexOutOfBounds
      | some k => .ok (.bind n.name (.nonTerminal k))

/-- codegen.rs:55-80: `for symbol in symbols.iter().rev()`. -/
def popStmts (variants : List Nat) : List BoundSymbol → Except Fault (List PopStmt)
  | [] => .ok []
  | s :: rest => do
    let p ← popStmt variants s
    let ps ← popStmts variants rest
    .ok (p :: ps)

/-- codegen.rs:50-108: one production; `fns` are the declarations so far. -/
def semProduction (variants : List Nat) (nt : Nat) (p : Production X) (fns : List (SemFn X)) :
    Except Fault (Production Nat × List (SemFn X)) := do
  let pops ← popStmts variants p.symbols.reverse
  match variants[nt]? with
  | none => .error .indexOutOfBounds
  | some variant =>
    let idx ← tryU16 fns.length
    .ok (⟨p.symbols, idx⟩, fns ++ [⟨pops, variant, p.action⟩])

/-- codegen.rs:47-109: all productions of a non-terminal. -/
def semProductions (variants : List Nat) (nt : Nat) :
    List (Production X) → List (SemFn X) → Except Fault (List (Production Nat) × List (SemFn X))
  | [], fns => .ok ([], fns)
  | p :: rest, fns => do
    let (p', fns) ← semProduction variants nt p fns
    let (ps, fns) ← semProductions variants nt rest fns
    .ok (p' :: ps, fns)

/-- codegen.rs:34-119: all non-terminals, `nt` being the index of the head. -/
def semNonTerminals (variants : List Nat) : Nat →
    List (NonTerminal X Ty) → List (SemFn X) →
      Except Fault (List (NonTerminal Nat Ty) × List (SemFn X))
  | _, [], fns => .ok ([], fns)
  | nt, n :: rest, fns => do
    let (ps, fns) ← semProductions variants nt n.productions fns
    let (ns, fns) ← semNonTerminals variants (nt + 1) rest fns
    .ok (⟨n.name, ps, n.returnTy, n.isPublic⟩ :: ns, fns)

/-- codegen.rs:20-135 `generate_semantic_action_table`. -/
def generateSemanticActionTable (g : Grammar X Ty) (variants : List Nat) :
    Except Fault (List (SemFn X) × Grammar Nat Ty) := do
  let (ns, fns) ← semNonTerminals variants 0 g.nonTerminals []
  .ok (fns, ⟨ns, g.terminals⟩)

/-- lr_codegen.rs:125-136: the emitted `enum LRAction`. -/
inductive RtAction where
  | shift (next : Nat)
  | reduce (nt nSymbols semIdx : Nat)
  | accept
deriving DecidableEq, Repr

/-- lr_codegen.rs:235-266 `action_table_vec`: end of input is the last column. -/
def actionTableVec (g : Grammar A Ty) (t : LRTable A) (nStates : Nat) :
    List (List (Option (LRAction A))) :=
  (List.range nStates).map fun s =>
    (List.range g.nTerminals).map (fun x => t.action.get? (s, some x)) ++ [t.action.get? (s, none)]

/-- lr_codegen.rs:269-291 `generate_goto_vec` (`NonTerminalIdx::from_usize` is the u32 check). -/
def generateGotoVec (t : LRTable A) (nStates nNts : Nat) :
    Except Fault (List (List (Option Nat))) :=
  (List.range nStates).mapM fun s =>
    (List.range nNts).mapM fun n => do
      let n' ← tryU32 n
      .ok (t.goto.get? (s, n'))

/-- lr_codegen.rs:310-333: the literal emitted for one action. -/
def encodeAction (g : Grammar A Ty) : LRAction Nat → Except Fault RtAction
  | .shift next => do
    let n ← tryU32 next
    .ok (.shift n)
  | .reduce nt p a =>
    match g.getProduction? nt p with
    | none => .error .indexOutOfBounds
    | some pr => do
      let n ← tryU16 pr.symbols.length
      let nt' ← tryU16 nt
      .ok (.reduce nt' n a)
  | .accept => .ok .accept

/-- lr_codegen.rs:308-337: one cell. -/
def encodeCell (g : Grammar A Ty) : Option (LRAction Nat) → Except Fault (Option RtAction)
  | none => .ok none
  | some a => do
    let r ← encodeAction g a
    .ok (some r)

/-- lr_codegen.rs:293-351 `generate_action_array`, including its two assertions. -/
def generateActionArray (g : Grammar A Ty) (table : List (List (Option (LRAction Nat))))
    (nStates nTerminals : Nat) : Except Fault (List (List (Option RtAction))) :=
  if table.length = nStates then
    table.mapM fun row =>
      if row.length = nTerminals + 1 then row.mapM (encodeCell g) else .error .assertFailed
  else .error .assertFailed

/-- lr_codegen.rs:353-381 `generate_goto_array`. -/
def generateGotoArray (table : List (List (Option Nat))) :
    Except Fault (List (List (Option Nat))) :=
  table.mapM fun row => row.mapM fun
    | none => .ok none
    | some s => do
      let s' ← tryU32 s
      .ok (some s')

/-- codegen.rs:459-489 `generate_expected_state_tokens`: terminals with an action, in declaration
order, joined with ", "; end of input is not considered. -/
def expectedTerminals (g : Grammar A Ty) (t : LRTable A) (s : Nat) : List String :=
  (g.terminals.zipIdx.filter fun e => (t.getAction s (some e.2)).isSome).map (·.1)

/-- codegen.rs:466-489. -/
def generateExpected (g : Grammar A Ty) (t : LRTable A) : List String :=
  (List.range t.nStates).map fun s => ", ".intercalate (expectedTerminals g t s)

/-- codegen.rs:498-511 `generate_token_to_text`. -/
def generateTokenText (g : Grammar A Ty) : List String := g.terminals ++ ["end-of-input"]

/-- lr_codegen.rs:101-117: an emitted parser struct: its name and the three constants passed to
`parse_generic`. -/
structure EntryPoint where
  name : String
  /-- `#extract_method_id`: `non_terminal_k` -/
  extract : Nat
  /-- `#parser_state` -/
  initState : Nat
  /-- `#action_idx` -/
  actionIdx : Nat
deriving DecidableEq, Repr

/-- lr_codegen.rs:81-117: the closure building one parser struct. -/
def entryPoint (g : Grammar Nat Ty) (variants : List Nat) (e : Nat × Nat) :
    Except Fault EntryPoint := do
  let st ← tryU32 e.2
  match g.getNonTerminal? e.1, g.getProduction? e.1 0, variants[e.1]? with
  | some n, some p, some k => .ok ⟨n.name, k, st, p.action⟩
  | _, _, _ => .error .indexOutOfBounds

/-- Everything `generate_lr1_parser` emits that has run-time behaviour. -/
structure Generated (X : Type) where
  /-- `static ACTION` -/
  action : List (List (Option RtAction))
  /-- `static GOTO` -/
  goto : List (List (Option Nat))
  /-- `static SEMANTIC_ACTIONS` -/
  semActions : List (SemFn X)
  /-- `static EXPECTED_TERMINALS` -/
  expected : List String
  /-- `static TERMINAL_STRS` -/
  terminalStrs : List String
  /-- the `#n_terminals` literal in `parse_generic` -/
  nTerminals : Nat
  /-- the parser structs -/
  entries : List EntryPoint

/-- lr_codegen.rs:15-232 `generate_lr1_parser`. -/
def generateParser [DecidableEq Ty] (h : HashOrder) (g : Grammar X Ty) :
    Except Fault (Generated X) := do
  let firstTable := generateFirstTable h g
  let auto ← generateAutomaton h g firstTable
  let variants := semanticActionVariants g
  let (fns, g') ← generateSemanticActionTable g variants
  let table ← buildTable h g' auto.states
  let action ← generateActionArray g' (actionTableVec g' table table.nStates)
    table.nStates g.nTerminals
  let gotoVec ← generateGotoVec table table.nStates g'.nNonTerminals
  let goto ← generateGotoArray gotoVec
  let entries ← (h.iter auto.entries).mapM (entryPoint g' variants)
  .ok { action := action, goto := goto, semActions := fns,
        expected := generateExpected g' table, terminalStrs := generateTokenText g',
        nTerminals := g.nTerminals, entries := entries }

end Parsegen
