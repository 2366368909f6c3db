import Verif.Model.Table

/-! # Model of the `Display` implementations: dumps of the grammar, FIRST sets, automaton and table

grammar.rs:313-404, first.rs:107-157, lr1.rs:397-490, lr_common.rs:259-343.  Texts are lists of
characters.  `write!` to a `Formatter` is appending; the formatter's own errors are not modelled.
`dbg` is `<str as Debug>::fmt` of the standard library.  The code is for debugging: the macro's own
calls are commented out (lib.rs:56-57, lr_codegen.rs:38-51), tests call it.  The displays of lr0.rs
are not modelled. -/

namespace Parsegen

variable {A Ty : Type}

/-- Text written to a formatter. -/
abbrev Chars := List Char

/-- A string literal in a format string. -/
def txt (s : String) : Chars := s.toList

/-- `{}` of a `usize` or `u32`. -/
def numText (n : Nat) : Chars := Nat.toDigits 10 n

/-- `{}` of `grammar.get_non_terminal(i).non_terminal` (grammar.rs:131-133: indexing may panic). -/
def showNonTerminal (g : Grammar A Ty) (i : Nat) : Except Fault Chars :=
  match g.nonTerminals[i]? with
  | none => .error .indexOutOfBounds
  | some n => .ok n.name.toList

/-- `{:?}` of `grammar.get_terminal(i)` (grammar.rs:135-137: indexing may panic). -/
def showTerminal (dbg : String → Chars) (g : Grammar A Ty) (i : Nat) : Except Fault Chars :=
  match g.terminals[i]? with
  | none => .error .indexOutOfBounds
  | some t => .ok (dbg t)

/-- grammar.rs:391-404 `SymbolKindDisplay` (and the match in lines 373-382). -/
def showSymbol (dbg : String → Chars) (g : Grammar A Ty) : Symbol → Except Fault Chars
  | .nonTerminal i => showNonTerminal g i
  | .terminal i => showTerminal dbg g i

/-- grammar.rs:370-389 `ProductionDisplay`. -/
def showProduction (dbg : String → Chars) (g : Grammar A Ty) (p : Production A) :
    Except Fault Chars := do
  let l ← p.symbols.zipIdx.mapM fun x => do
    let t ← showSymbol dbg g x.1.symbol
    .ok (t ++ if x.2 ≠ p.symbols.length - 1 then txt " " else [])
  .ok l.flatten

/-- grammar.rs:341-368 `Display for Grammar`. -/
def showGrammar (dbg : String → Chars) (g : Grammar A Ty) : Except Fault Chars := do
  let l ← g.nonTerminals.zipIdx.mapM fun x => do
    let ps ← x.1.productions.zipIdx.mapM fun y => do
      let t ← showProduction dbg g y.1
      .ok (txt "  " ++ numText y.2 ++ txt ": " ++ t ++ txt "\n")
    .ok (numText x.2 ++ txt ": " ++ (if x.1.isPublic then txt "pub" else txt "") ++ txt " " ++
      x.1.name.toList ++ txt " = {" ++ txt "\n" ++ ps.flatten ++ txt "}" ++ txt "\n")
  .ok l.flatten

/-- first.rs:140-157 `FirstSetDisplay`; the terminals are visited in hash order. -/
def showFirstSet (dbg : String → Chars) (h : HashOrder) (g : Grammar A Ty) (s : FirstSet) :
    Except Fault Chars := do
  let l ← (h.iter s.terminals).zipIdx.mapM fun x => do
    let t ← showTerminal dbg g x.1
    .ok (t ++ if x.2 ≠ s.terminals.length - 1 then txt ", " else [])
  .ok (txt "{" ++ l.flatten ++ txt "}" ++ if s.empty then txt " (+ empty)" else [])

/-- first.rs:117-138 `FirstTableDisplay`. -/
def showFirstTable (dbg : String → Chars) (h : HashOrder) (g : Grammar A Ty) (F : FirstTable) :
    Except Fault Chars := do
  let l ← F.zipIdx.mapM fun x => do
    let n ← showNonTerminal g x.2
    let s ← showFirstSet dbg h g x.1
    .ok (txt "    " ++ n ++ txt ": " ++ s ++ txt "\n")
  .ok (txt "{" ++ txt "\n" ++ l.flatten ++ txt "}" ++ txt "\n")

/-- lr1.rs:440-443: the lookahead of an item. -/
def showLookahead (dbg : String → Chars) (g : Grammar A Ty) : Option Nat → Except Fault Chars
  | some t => do
    let t ← showTerminal dbg g t
    .ok (txt ", " ++ t ++ txt "]")
  | none => .ok (txt ", $]")

/-- lr1.rs:416-446 `LR1ItemDisplay`. -/
def showItem (dbg : String → Chars) (g : Grammar A Ty) (it : Item) : Except Fault Chars := do
  let n ← showNonTerminal g it.nt
  match g.getProduction? it.nt it.prod with
  | none => .error .indexOutOfBounds
  | some p =>
    let l ← p.symbols.zipIdx.mapM fun x => do
      let t ← showSymbol dbg g x.1.symbol
      .ok ((if x.2 = it.cursor then txt "|" else []) ++ t ++
        if x.2 ≠ p.symbols.length - 1 then txt " " else [])
    let la ← showLookahead dbg g it.la
    .ok (txt "[" ++ n ++ txt " -> " ++ l.flatten ++
      (if it.cursor = p.symbols.length then txt "|" else []) ++ la)

/-- The entries of a hash map, in hash order. -/
def AMap.entries {K V : Type} [DecidableEq K] (h : HashOrder) (m : AMap K V) : List (K × V) :=
  (h.iter ((m.map (·.1)).eraseDups)).filterMap fun k => (m.get? k).map fun v => (k, v)

/-- lr1.rs:448-472 `LR1StateDisplay`; the items are a `BTreeSet`, the transitions a hash map. -/
def showState (dbg : String → Chars) (h : HashOrder) (g : Grammar A Ty) (st : LR1State) :
    Except Fault Chars := do
  let is ← st.items.mapM fun it => do
    let t ← showItem dbg g it
    .ok (txt "  " ++ t ++ txt "\n")
  let gs ← (st.goto.entries h).mapM fun e => do
    let t ← showSymbol dbg g e.1
    .ok (txt "  GOTO " ++ t ++ txt " -> " ++ numText e.2 ++ txt "\n")
  .ok (is.flatten ++ gs.flatten)

/-- lr1.rs:474-490 `LR1AutomatonDisplay`. -/
def showAutomaton (dbg : String → Chars) (h : HashOrder) (g : Grammar A Ty) (a : Automaton) :
    Except Fault Chars := do
  let l ← a.states.zipIdx.mapM fun x => do
    let t ← showState dbg h g x.1
    .ok (numText x.2 ++ txt ": {" ++ txt "\n" ++ t ++ txt "}" ++ txt "\n")
  .ok l.flatten

/-- lr_common.rs:324-343 `LRActionDisplay`. -/
def showAction (dbg : String → Chars) (g : Grammar A Ty) : LRAction A → Except Fault Chars
  | .shift next => .ok (txt "Shift " ++ numText next)
  | .reduce nt p _ => do
    match g.getProduction? nt p with
    | none => .error .indexOutOfBounds
    | some pr =>
      let n ← showNonTerminal g nt
      let t ← showProduction dbg g pr
      .ok (txt "Reduce (" ++ n ++ txt " -> " ++ t ++ txt ") (nt_idx=" ++ numText nt ++
        txt ", p_idx=" ++ numText p ++ txt ")")
  | .accept => .ok (txt "Accept")

/-- lr_common.rs:293-299: the left part of a line for an action. -/
def showActionKey (dbg : String → Chars) (g : Grammar A Ty) : Option Nat → Except Fault Chars
  | some t => do
    let t ← showTerminal dbg g t
    .ok (txt "  " ++ t ++ txt " -> ")
  | none => .ok (txt "  EOF -> ")

/-- lr_common.rs:289 `self.table.action.get(&state_idx)`: the inner map of the state, empty if there is
none (the loop is then skipped, with the same effect). -/
def LRTable.actionsOf (T : LRTable A) (s : Nat) : AMap (Option Nat) (LRAction A) :=
  T.action.filterMap fun e => if e.1.1 = s then some (e.1.2, e.2) else none

/-- lr_common.rs:291 `self.table.goto.get(&state_idx)`. -/
def LRTable.gotosOf (T : LRTable A) (s : Nat) : AMap Nat Nat :=
  T.goto.filterMap fun e => if e.1.1 = s then some (e.1.2, e.2) else none

/-- lr_common.rs:280-322 `LRTableDisplay`. -/
def showTable (dbg : String → Chars) (h : HashOrder) (g : Grammar A Ty) (T : LRTable A) :
    Except Fault Chars := do
  let l ← (List.range T.nStates).mapM fun s => do
    let as ← ((T.actionsOf s).entries h).mapM fun e => do
      let k ← showActionKey dbg g e.1
      let t ← showAction dbg g e.2
      .ok (k ++ t ++ txt "\n")
    let gs ← ((T.gotosOf s).entries h).mapM fun e => do
      let n ← showNonTerminal g e.1
      .ok (txt "  " ++ n ++ txt " -> " ++ numText e.2 ++ txt "\n")
    .ok (numText s ++ txt ": {" ++ txt "\n" ++ as.flatten ++ gs.flatten ++ txt "}" ++ txt "\n")
  .ok l.flatten

end Parsegen
