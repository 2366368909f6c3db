import Verif.Model.Rust

/-! # The text of the emitted functions (src/codegen.rs, src/lr_codegen.rs)

Types, lifetimes and derives are left out (they are in `EModule`, for C49 and C53). -/

namespace Parsegen

variable {X Ty V W Tok E : Type}

/-- `Some(p)` -/
def Pat.some (p : Pat) : Pat := .ctor "Option" "Some" [p]

/-- `None` -/
def Pat.none : Pat := .ctor "Option" "None" []

/-- `()` -/
def Ex.unit : Ex X := .tuple []

/-- `{ ss }` -/
def Ex.body (ss : List (Stmt X)) : Ex X := .block ss .unit

/-- lr_codegen.rs:187: `*state_stack.last().unwrap() as usize` -/
def topState : Ex X :=
  .cast (.deref (.method (.method (.name "state_stack") "last" []) "unwrap" []))

/-- lr_codegen.rs:188-192: the `match` for `terminal_idx`. -/
def terminalIdxText (nTerminals : Nat) (idxCall : String) : Ex X :=
  .match_ (.ref (.name "token")) [
    (.none, .num nTerminals),
    (.some (.ctor "Result" "Err" [.var "err"]),
      .return_ (.call (.path "Result" "Err")
        [.call (.path "ParseError" "LexerError") [.method (.name "err") "clone" []]])),
    (.some (.ctor "Result" "Ok" [.var "token"]), .call (.name idxCall) [.ref (.name "token")])]

/-- lr_codegen.rs:194-200: no action. -/
def errorText : Ex X :=
  .body [
    .let_ false "found" (.index (.name "TERMINAL_STRS") (.name "terminal_idx")),
    .let_ false "expected" (.index (.name "EXPECTED_TERMINALS") (.name "state")),
    .semi (.return_ (.call (.path "Result" "Err")
      [.record "ParseError" "ParserError" ["found", "expected"]]))]

/-- lr_codegen.rs:201-207: `Shift`. -/
def shiftText (valueCall : String) : Ex X :=
  .body [
    .semi (.method (.name "state_stack") "push" [.name "next_state"]),
    .let_ false "token_"
      (.call (.path "::std::mem" "replace") [.refMut "token", .method (.name "input") "next" []]),
    .semi (.ifLet (.some (.ctor "Result" "Ok" [.var "token"])) (.name "token_") (.body [
      .semi (.method (.name "value_stack") "push" [.call (.name valueCall) [.name "token"]])]))]

/-- lr_codegen.rs:208-218: `Reduce`. -/
def reduceText' : Ex X :=
  .body [
    .semi (.call (.index (.name "SEMANTIC_ACTIONS") (.cast (.name "semantic_action_idx")))
      [.refMut "value_stack"]),
    .semi (.forRange (.name "n_symbols") (.body [
      .semi (.method (.method (.name "state_stack") "pop" []) "unwrap" [])])),
    .let_ false "state" topState,
    .semi (.match_ (.index (.index (.name "GOTO") (.name "state")) (.cast (.name "non_terminal_idx"))) [
      (.none, .panic_ .stuck),
      (.some (.var "next_state"), .method (.name "state_stack") "push" [.name "next_state"])])]

/-- lr_codegen.rs:187-220: the body of the loop. -/
def loopText (nTerminals : Nat) (idxCall valueCall : String) : Ex X :=
  .body [
    .let_ false "state" topState,
    .let_ false "terminal_idx" (terminalIdxText nTerminals idxCall),
    .semi (.match_ (.index (.index (.name "ACTION") (.name "state")) (.name "terminal_idx")) [
      (.none, errorText),
      (.some (.record "LRAction" "Shift" ["next_state"]), shiftText valueCall),
      (.some (.record "LRAction" "Reduce" ["non_terminal_idx", "n_symbols", "semantic_action_idx"]),
        reduceText'),
      (.some (.record "LRAction" "Accept" []), .break_)])]

/-- lr_codegen.rs:174-228 `parse_generic`. -/
def genericText (nTerminals : Nat) (idxCall valueCall : String) : FnDecl X where
  name := .free "parse_generic"
  params := ["input", "extract_value", "init_state", "action_idx"]
  body := .block [
      .let_ true "state_stack" (.vec [.name "init_state"]),
      .let_ true "value_stack" (.vec []),
      .let_ true "token" (.method (.name "input") "next" []),
      .semi (.loop (loopText nTerminals idxCall valueCall)),
      .semi (.call (.index (.name "SEMANTIC_ACTIONS") (.name "action_idx")) [.refMut "value_stack"])]
    (.call (.path "Result" "Ok")
      [.call (.name "extract_value") [.method (.method (.name "value_stack") "pop" []) "unwrap" []]])

/-- codegen.rs:164-173: `token_terminal_idx`. -/
def idxFnText (name : String) (arms : List (RPat × Nat)) : FnDecl X where
  name := .free name
  params := ["token"]
  body := .block [] (.match_ (.name "token") (arms.map fun a => (.token a.1, .num a.2)))

/-- codegen.rs:201-210: `token_value`. -/
def valueFnText (name : String) (arms : List EValueArm) : FnDecl X where
  name := .free name
  params := ["token"]
  body := .block [] (.match_ (.name "token") (arms.map fun a =>
    (.token a.pat, .block [] (.call (.path "SemanticActionResult" a.variant) (a.args.map .name)))))

/-- codegen.rs:293-300, 324-331: an extraction method. -/
def methodText (m : EMethod Ty) : FnDecl X where
  name := .assoc "SemanticActionResult" m.name
  params := ["self"]
  body := .block [] (.match_ (.name "self") [
    (.ctor "SemanticActionResult" m.variant (m.ids.map .var),
      match m.body with
      | .parens ids => .tuple (ids.map .name)
      | .single x => .name x),
    (.wild, .panic_ .unreachable)])

/-- codegen.rs:57-79: a statement of an action function. -/
def stmtText : EStmt → Stmt X
  | .pop => .semi (.method (.name "value_stack") "pop" [])
  | .letPop isMut n m =>
    .let_ isMut n (.method (.method (.method (.name "value_stack") "pop" []) "unwrap" []) m [])

/-- codegen.rs:93-100: an action function. -/
def actionFnText (f : EActionFn X) : FnDecl X where
  name := .free f.name
  params := ["value_stack"]
  body := .body (f.stmts.map stmtText ++ [
    .semi (.method (.name "value_stack") "push"
      [.call (.path "SemanticActionResult" f.variant) [.user f.action]])])

/-- lr_codegen.rs:105-116: the `parse` function of a parser struct. -/
def parseText (s : EStruct Ty) : FnDecl X where
  name := .assoc s.name "parse"
  params := ["input"]
  body := .block [] (.call (.name "parse_generic")
    [.name "input", .path "SemanticActionResult" s.extract, .num s.state, .num s.action])

/-- lr_codegen.rs:310-333: an emitted action. -/
def RtAction.toVal : RtAction → Val V Tok E
  | .shift n => .record "LRAction" "Shift" [("next_state", .num n)]
  | .reduce nt n k => .record "LRAction" "Reduce"
      [("non_terminal_idx", .num nt), ("n_symbols", .num n), ("semantic_action_idx", .num k)]
  | .accept => .record "LRAction" "Accept" []

/-- The emitted module as a program: lr_codegen.rs:123-231. -/
def EModule.text (m : EModule X Ty) : Program X V Tok E where
  fns := genericText m.nTerminals m.idxCall m.valueCall :: idxFnText m.idxName m.idxArms ::
    valueFnText m.valueName m.valueArms :: (m.actionFns.map actionFnText ++
      (m.methods.map methodText ++ m.structs.map parseText))
  statics := [
    ("ACTION", .vec (m.action.map fun row => .vec (row.map fun c => .ofOption (c.map RtAction.toVal)))),
    ("GOTO", .vec (m.goto.map fun row => .vec (row.map fun c => .ofOption (c.map .num)))),
    ("SEMANTIC_ACTIONS", .vec (m.semantic.map fun f => .fn (.free f))),
    ("EXPECTED_TERMINALS", .vec (m.expected.map .str)),
    ("TERMINAL_STRS", .vec (m.terminalStrs.map .str))]
  variants := (("Option", "Some"), 1) :: (("Result", "Ok"), 1) :: (("Result", "Err"), 1) ::
    (("ParseError", "LexerError"), 1) ::
      m.variants.map fun v => (("SemanticActionResult", v.name), v.fields.length)

/-- `Name::parse(input)`, cut off after `fuel` iterations of the loop; calls are nested four deep: `parse`,
`parse_generic`, an action function, an extraction method. -/
def EModule.runText (m : EModule X Ty) (H : Host X V W Tok E) (name : String) (w : W) (fuel : Nat) :
    Res V W Tok E (Val V Tok E) :=
  callFn m.text H fuel 4 (.assoc name "parse") [.iter] ⟨[], w, 0⟩

/-- The result of `parse` that a value represents. -/
def Val.outcome : Val V Tok E → Option (Outcome V E)
  | .adt "Result" "Ok" [.ext v] => some (.ok v)
  | .adt "Result" "Err" [.adt "ParseError" "LexerError" [.err e]] => some (.lexerError e)
  | .adt "Result" "Err" [.record "ParseError" "ParserError" [("found", .str f), ("expected", .str x)]] =>
    some (.parserError f x)
  | _ => none

end Parsegen
