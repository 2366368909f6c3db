import Verif.Conformance.Source
import Verif.Model.Simulate

/-! # The unit tests of the project (`src/ast.rs`, `src/lr1.rs`), replayed -/

namespace Parsegen.Conformance

set_option maxRecDepth 100000

/-! ## ast.rs -/

/-- `syn::parse_str::<T>(text).unwrap()`: the whole text must be read. -/
def parseStr {α : Type} (r : List TokTree → Except ReadFault (α × List TokTree)) (s : List Char) :
    Option α :=
  match tokens s with
  | none => none
  | some ts =>
    match r ts with
    | .ok (a, []) => some a
    | _ => none

/-- Which constructor of `ast::Pattern`. -/
def patternKind : Pattern String → String
  | .enum .. => "Enum"
  | .struct _ _ true => "Struct .."
  | .struct _ _ false => "Struct"
  | .tuple _ => "Tuple"
  | .path _ => "Path"
  | .underscore => "Underscore"
  | .dotDot => "DotDot"
  | .lit _ => "Lit"
  | .choose _ => "Choose"

def patternOf (s : List Char) : Option String := (parseStr (pattern syn 10) s).map patternKind

/-- ast.rs:458-512 `parse_pattern` -/
theorem parse_pattern :
    [ chars! "X(A, B)", chars! "X::Y(A, B)", chars! "X::Y { a: A, b: B, .. }",
      chars! "X::Y { a: A, b: B }", chars! "(A, B)", chars! "X::Y", chars! "X", chars! "_",
      chars! "..", chars! "123", chars! "'a'", chars! "\"a\"", chars! "<A>" ].map patternOf =
    ["Enum", "Enum", "Struct ..", "Struct", "Tuple", "Path", "Path", "Underscore", "DotDot", "Lit",
      "Lit", "Lit", "Choose"].map some := by decide +kernel

/-- ast.rs:514-536 `parse_enum_token` -/
theorem parse_enum_token :
    [ chars! "enum Token {
            }", chars! "enum Token {
                \"id\" => Token::Id(<&'input str>),
            }" ].map (fun s => (parseStr (tokenEnum syn) s).map (·.conversions.length)) =
    [some 0, some 1] := by decide +kernel

/-- ast.rs:538-541 `parse_typedef` -/
theorem parse_typedef : parseStr (typeDef syn) (chars! "type State = Y<i32>;") = some "Y < i32 >" := by
  decide +kernel

/-- Which constructor of `ast::Symbol`. -/
def symbolKind : AstSymbol → String
  | .terminal _ => "Terminal"
  | .nonTerminal _ => "NonTerminal"
  | .repeat_ .. => "Repeat"
  | .named .. => "NamedSymbol"

/-- ast.rs:543-569 `parse_symbol` -/
theorem parse_symbol :
    [ chars! " \"a\" ", chars! " <x:\"a\"> ", chars! " <mut x:\"a\"> ", chars! " \"x\"+*? ",
      chars! "Expr", chars! " <exprs:Expr+> " ].map
        (fun s => (parseStr (symbol syn 10) s).map symbolKind) =
    ["Terminal", "NamedSymbol", "NamedSymbol", "Repeat", "NonTerminal", "NamedSymbol"].map some := by
  decide +kernel

/-- ast.rs:571-590 `parse_nonterminal` -/
theorem parse_nonterminal :
    [ chars! "pub Test: A = { };", chars! "Test: A = \"a\" \"b\" => (),",
      chars! "Test: usize = {
                \"a\" \"b\" => {
                    1
                },
                \"c\" => {
                    2
                },
            };" ].map (fun s => (parseStr (nonTerminal syn) s).map (·.productions.length)) =
    [some 0, some 1, some 2] := by decide +kernel

/-! ## lr1.rs -/

/-- test_grammars.rs:9-63: build a grammar with `add_nt`, `add_t`, `add_p`; `nt(i)` and `t(i)` are the
symbols without binder. -/
def testGrammar (nts : List (String × Bool)) (ts : List String) (ps : List (Nat × List Symbol)) :
    Except Fault (Grammar Unit Unit) := do
  let g := nts.foldl (fun g n => (g.addNonTerminal n.1 () n.2).1) Grammar.new
  let g ← ts.foldlM (fun g t => do let r ← g.newTerminal t; .ok r.1) g
  ps.foldlM (fun g p => g.addProduction p.1 (p.2.map fun s => ⟨none, s⟩) ()) g

abbrev n (i : Nat) : Symbol := .nonTerminal i

abbrev t (i : Nat) : Symbol := .terminal i

/-- test_grammars.rs:68-88 -/
def grammar1 := testGrammar [("E0", true), ("E", false)] ["+", "n"]
  [(0, [n 1]), (1, [n 1, t 0, n 1]), (1, [t 1])]

/-- test_grammars.rs:97-127 -/
def grammar2 := testGrammar [("S0", true), ("S", false), ("A", false), ("E", false)] ["a"]
  [(0, [n 1]), (1, [n 2, n 2, n 2, n 2]), (2, [t 0]), (2, [n 3]), (3, [])]

/-- test_grammars.rs:136-171 -/
def grammar3 := testGrammar [("S", true), ("A", false), ("B", false), ("C", false)] ["a", "b", "d"]
  [(0, [n 1]), (1, [n 2, t 0]), (1, [n 2, t 1]), (1, [n 3, t 0, t 1]), (1, [n 1, t 2]), (2, [t 0]),
    (3, [t 0])]

/-- test_grammars.rs:207-254 -/
def grammar5 := testGrammar
  [("E0", true), ("E", false), ("E'", false), ("T", false), ("T'", false), ("F", false)]
  ["+", "*", "(", ")", "n"]
  [(0, [n 1]), (1, [n 3, n 2]), (2, [t 0, n 3, n 2]), (2, []), (3, [n 5, n 4]), (4, [t 1, n 5, n 4]),
    (4, []), (5, [t 2, n 1, t 3]), (5, [t 4])]

/-- test_grammars.rs:262-300 -/
def grammar6 := testGrammar [("E0", true), ("E", false), ("T", false), ("F", false)]
  ["+", "*", "(", ")", "id"]
  [(0, [n 1]), (1, [n 1, t 0, n 2]), (1, [n 2]), (2, [n 2, t 1, n 3]), (2, [n 3]), (3, [t 2, n 1, t 3]),
    (3, [t 4])]

/-- test_grammars.rs:310-343; both `L` and `R` are called `R`. -/
def grammar7 := testGrammar [("S0", true), ("S", false), ("R", false), ("R", false)] ["=", "*", "id"]
  [(0, [n 1]), (1, [n 2, t 0, n 3]), (1, [n 3]), (2, [t 1, n 3]), (2, [t 2]), (3, [n 2])]

/-- test_grammars.rs:352-375 -/
def grammar8 := testGrammar [("S0", true), ("S", false), ("C", false)] ["c", "d"]
  [(0, [n 1]), (1, [n 2, n 2]), (2, [t 0, n 2]), (2, [t 1])]

/-- test_grammars.rs:379-399 -/
def grammar9 := testGrammar [("S0", true), ("S", false)] ["(", ")"]
  [(0, [n 1]), (1, [t 0, n 1, t 1]), (1, [])]

/-- test_grammars.rs:409-432 -/
def hiddenLeftRecursion := testGrammar [("S0", true), ("S1", false), ("A", false)] ["b", "c"]
  [(0, [n 1]), (1, [n 2, n 1, t 1]), (1, [t 0]), (2, [])]

/-- The item sets of some states. -/
def states (g : Except Fault (Grammar Unit Unit)) (is : List Nat) :
    Option (List (Option (List Item))) :=
  match g with
  | .error _ => none
  | .ok g =>
    match generateAutomaton .insertion g (generateFirstTable .insertion g) with
    | .error _ => none
    | .ok a => some (is.map fun i => (a.states[i]?).map (·.items))

/-- lr1.rs:494-595 `grammar8_lr1_states`; `c` is 0, `d` is 1; sets in the order of `BTreeSet`. -/
theorem grammar8_lr1_states : states grammar8 [0, 1, 2, 3, 4, 5, 8, 9] =
    some
      [ some [⟨0, 0, 0, none⟩, ⟨1, 0, 0, none⟩, ⟨2, 0, 0, some 0⟩, ⟨2, 0, 0, some 1⟩,
          ⟨2, 1, 0, some 0⟩, ⟨2, 1, 0, some 1⟩],
        some [⟨0, 0, 1, none⟩],
        some [⟨1, 0, 1, none⟩, ⟨2, 0, 0, none⟩, ⟨2, 1, 0, none⟩],
        some [⟨2, 0, 0, some 0⟩, ⟨2, 0, 0, some 1⟩, ⟨2, 0, 1, some 0⟩, ⟨2, 0, 1, some 1⟩,
          ⟨2, 1, 0, some 0⟩, ⟨2, 1, 0, some 1⟩],
        some [⟨2, 1, 1, some 0⟩, ⟨2, 1, 1, some 1⟩],
        some [⟨1, 0, 2, none⟩],
        some [⟨2, 0, 2, some 0⟩, ⟨2, 0, 2, some 1⟩],
        some [⟨2, 0, 2, none⟩] ] := by decide +kernel

/-- `simulate` on each input: how it ends. -/
def sims (g : Except Fault (Grammar Unit Unit)) (inputs : List (List Nat)) :
    Except Fault (List (Option SimEnd)) := do
  let g ← g
  let T ← testTable .insertion g
  .ok (inputs.map fun l => (simulate T g (fun i => l[i]?) 1000).map (·.1))

/-- The list of results, all of them `done`. -/
def allDone (r : Except Fault (List (Option SimEnd))) (k : Nat) : Bool :=
  match r with
  | .ok l => l == List.replicate k (some .done)
  | .error _ => false

/-- lr1.rs:597-640 `simulate1` -/
theorem simulate1 : allDone (sims grammar6 [[4, 0, 4], [4, 0, 4, 1, 4], [2, 4, 0, 4, 3, 1, 4]]) 3 =
    true := by decide +kernel

/-- lr1.rs:642-669 `simulate2` -/
theorem simulate2 : allDone (sims grammar9 [[], [0, 1]]) 2 = true := by decide +kernel

/-- lr1.rs:671-693 `simulate3` -/
theorem simulate3 : allDone (sims grammar7 [[1, 2], [2, 0, 2], [2, 0, 1, 2], [1, 2, 0, 2],
    [1, 2, 0, 1, 2]]) 5 = true := by decide +kernel

/-- lr1.rs:695-729 `simulate4` -/
theorem simulate4 : allDone (sims grammar5 [[4], [4, 0, 4], [4, 0, 4, 1, 4]]) 3 = true := by
  decide +kernel

/-- How building the table fails. -/
def conflict (g : Except Fault (Grammar Unit Unit)) : Option Fault :=
  match g with
  | .error _ => none
  | .ok g =>
    match testTable .insertion g with
    | .ok _ => none
    | .error f => some f

/-- The grammars `test_grammars.rs` calls ambiguous or not LR(1) are rejected; for
`hidden_left_recursion` the comment (lines 406-407) says the conflict is in state 0, between shifting
`b` (terminal 0) and reducing `A` (non-terminal 2). -/
theorem conflicts : [grammar1, grammar2, grammar3, hiddenLeftRecursion].map conflict =
    [some (.reduceOverShift 4 (some 0) 3 1 0), some (.reduceOverShift 0 (some 0) 4 3 0),
      some (.reduceOverReduce 4 (some 0) 2 0 3 0), some (.reduceOverShift 0 (some 0) 3 2 0)] := by
  decide +kernel

end Parsegen.Conformance
