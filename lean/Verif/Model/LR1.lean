import Verif.Model.First

/-! # Model of `src/lr1.rs` (items, closure, goto, automaton) -/

namespace Parsegen

variable {A Ty : Type}

/-- lr1.rs:9-16 `LR1Item`; lookahead `none` is end of input. -/
structure Item where
  nt : Nat
  prod : Nat
  cursor : Nat
  la : Option Nat
deriving DecidableEq, Repr

/-- `Option<TerminalIdx>` ordering key: `None < Some(0) < Some(1) < ...`. -/
def laKey : Option Nat → Nat
  | none => 0
  | some t => t + 1

/-- lr1.rs:9 `derive(PartialOrd, Ord)`: lexicographic in field declaration order. -/
def Item.lt (a b : Item) : Bool :=
  decide (a.nt < b.nt) || (decide (a.nt = b.nt) &&
    (decide (a.prod < b.prod) || (decide (a.prod = b.prod) &&
      (decide (a.cursor < b.cursor) || (decide (a.cursor = b.cursor) &&
        decide (laKey a.la < laKey b.la))))))

/-- lr1.rs:34-37 `next_symbol`. -/
def Item.nextSymbol (g : Grammar A Ty) (it : Item) : Option Symbol :=
  (g.rhs it.nt it.prod)[it.cursor]?

/-- lr1.rs:41-46 `next_non_terminal`. -/
def Item.nextNonTerminal (g : Grammar A Ty) (it : Item) : Option Nat :=
  match it.nextSymbol g with
  | some (.nonTerminal b) => some b
  | _ => none

/-- lr1.rs:50-55 `next_terminal`. -/
def Item.nextTerminal (g : Grammar A Ty) (it : Item) : Option Nat :=
  match it.nextSymbol g with
  | some (.terminal t) => some t
  | _ => none

/-- lr1.rs:64-68 `advance`. -/
def Item.advance (it : Item) : Item := { it with cursor := it.cursor + 1 }

/-- lr1.rs:70-73 `is_complete`. -/
def Item.isComplete (g : Grammar A Ty) (it : Item) : Bool :=
  decide (it.cursor = (g.rhs it.nt it.prod).length)

/-- `BTreeSet::insert` on the sorted duplicate-free list representation. -/
def btInsert (x : Item) : List Item → List Item
  | [] => [x]
  | y :: ys => if x = y then y :: ys else if Item.lt x y then x :: y :: ys else y :: btInsert x ys

/-- `iter.collect::<BTreeSet<_>>()`. -/
def btCollect (l : List Item) : List Item := l.foldr btInsert []

/-- lr1.rs:95-128: loop over the symbols after the non-terminal; returns the accumulated set and
`end_allowed`. -/
def closureFirstLoop (h : HashOrder) (tbl : FirstTable) : List Symbol → FirstSet → FirstSet × Bool
  | [], first => (first, true)
  | .terminal t :: _, first => (first.add t, false)
  | .nonTerminal b :: rest, first =>
    let s := tbl.get b
    let first' := (h.iter s.terminals).foldl FirstSet.add first
    if s.empty then closureFirstLoop h tbl rest first' else (first', false)

/-- lr1.rs:93-130: FIRST of the rest of the production followed by the lookahead
(`empty` means end of input is allowed). -/
def closureFirst (h : HashOrder) (tbl : FirstTable) (rest : List Symbol) (la : Option Nat) :
    FirstSet :=
  let r := closureFirstLoop h tbl rest {}
  if r.2 then
    match la with
    | some t => r.1.add t
    | none => r.1.setEmpty
  else r.1

/-- lr1.rs:147-149 / 158-160: `if closure.insert(item.clone()) { work_list.push(item) }`.
State: (closure in insertion order, work list with its top at the head). -/
def closureAdd (s : List Item × List Item) (it : Item) : List Item × List Item :=
  if it ∈ s.1 then s else (s.1 ++ [it], it :: s.2)

/-- lr1.rs:139-162: items predicted for non-terminal `b` with FIRST set `first`, in the order in
which the nested loops produce them. -/
def predicted (h : HashOrder) (g : Grammar A Ty) (b : Nat) (first : FirstSet) : List Item :=
  (List.range (g.nProductions b)).flatMap fun p =>
    (h.iter first.terminals).map (fun t => (⟨b, p, 0, some t⟩ : Item)) ++
    (if first.empty then [⟨b, p, 0, none⟩] else [])

/-- lr1.rs:85-163: the loop body for one popped item. -/
def closureProcess (h : HashOrder) (g : Grammar A Ty) (tbl : FirstTable) (it : Item)
    (s : List Item × List Item) : List Item × List Item :=
  match it.nextNonTerminal g with
  | none => s
  | some b =>
    let first := closureFirst h tbl ((g.rhs it.nt it.prod).drop (it.cursor + 1)) it.la
    (predicted h g b first).foldl closureAdd s

/-- lr1.rs:84-164: `while let Some(item) = work_list.pop() { .. }`; stops when the work list is
empty or the fuel is used up (returning what is left of the work list). -/
def closureLoop (h : HashOrder) (g : Grammar A Ty) (tbl : FirstTable) :
    Nat → List Item × List Item → List Item × List Item
  | 0, s => s
  | _ + 1, (cl, []) => (cl, [])
  | fuel + 1, (cl, it :: wl) => closureLoop h g tbl fuel (closureProcess h g tbl it (cl, wl))

/-- Total number of productions of the grammar. -/
def Grammar.totalProductions (g : Grammar A Ty) : Nat :=
  (g.nonTerminals.map (fun n => n.productions.length)).sum

/-- Number of pops that always suffices (see `Proofs/Closure.lean`). -/
def closureFuel (g : Grammar A Ty) (items : List Item) : Nat :=
  items.length + g.totalProductions * (g.nTerminals + 1) + 1

/-- lr1.rs:81-164: the closure as a hash set, with the left-over work list. -/
def closureRun (h : HashOrder) (g : Grammar A Ty) (tbl : FirstTable) (items : List Item) :
    List Item × List Item :=
  closureLoop h g tbl (closureFuel g items) (items, (h.iter items).reverse)

/-- lr1.rs:76-167 `compute_lr1_closure`. -/
def computeClosure (h : HashOrder) (g : Grammar A Ty) (tbl : FirstTable) (items : List Item) :
    List Item :=
  btCollect (h.iter (closureRun h g tbl items).1)

/-- lr1.rs:175-183: the advanced items, as a hash set. -/
def gotoKernel (g : Grammar A Ty) (items : List Item) (sym : Symbol) : List Item :=
  items.foldl (fun s it => if it.nextSymbol g = some sym then setInsert s it.advance else s) []

/-- lr1.rs:169-186 `compute_lr1_goto`. -/
def computeGoto (h : HashOrder) (g : Grammar A Ty) (tbl : FirstTable) (items : List Item)
    (sym : Symbol) : List Item :=
  computeClosure h g tbl (gotoKernel g items sym)

/-- lr1.rs:188-192 `LR1State`. -/
structure LR1State where
  items : List Item
  goto : AMap Symbol Nat
deriving DecidableEq

/-- Mutable state of `generate_lr1_automaton`: `automaton.states` and `state_indices`. -/
structure AutoState where
  states : List LR1State
  index : AMap (List Item) Nat
deriving DecidableEq

/-- lr1.rs:251-277: the entry states.  The `assert_eq!` on the number of productions is line 253. -/
def initStates (h : HashOrder) (g : Grammar A Ty) (tbl : FirstTable) :
    List (NonTerminal A Ty × Nat) → AutoState × AMap Nat Nat →
      Except Fault (AutoState × AMap Nat Nat)
  | [], s => .ok s
  | (n, nt) :: rest, (st, entries) =>
    if n.isPublic then
      if n.productions.length = 1 then
        let items := computeClosure h g tbl [⟨nt, 0, 0, none⟩]
        let idx := st.states.length
        initStates h g tbl rest
          (⟨st.states ++ [⟨items, []⟩], st.index.insert items idx⟩, entries.insert nt idx)
      else .error .assertFailed
    else initStates h g tbl rest (st, entries)

/-- lr1.rs:292-295: all symbols, non-terminals first. -/
def Grammar.allSymbols (g : Grammar A Ty) : List Symbol :=
  (List.range g.nNonTerminals).map .nonTerminal ++ (List.range g.nTerminals).map .terminal

/-- Accumulators of one pass of the `while updated` loop (lr1.rs:283-289); `next_state_idx` is
`base + newStates.length`. -/
structure PassState where
  index : AMap (List Item) Nat
  newStates : List LR1State
  newGotos : List (Nat × Symbol × Nat)

/-- lr1.rs:297-317: one (state, symbol) pair.  `base` is `automaton.states.len()`. -/
def passSymbol (h : HashOrder) (g : Grammar A Ty) (tbl : FirstTable) (base : Nat)
    (st : LR1State) (i : Nat) (ps : PassState) (sym : Symbol) : PassState :=
  let goto := computeGoto h g tbl st.items sym
  if goto.isEmpty then ps
  else match ps.index.get? goto with
    | some j => { ps with newGotos := ps.newGotos ++ [(i, sym, j)] }
    | none =>
      let j := base + ps.newStates.length
      { index := ps.index.insert goto j,
        newStates := ps.newStates ++ [⟨goto, []⟩],
        newGotos := ps.newGotos ++ [(i, sym, j)] }

/-- lr1.rs:291-319: all (state, symbol) pairs of the current automaton. -/
def passAll (h : HashOrder) (g : Grammar A Ty) (tbl : FirstTable) (st : AutoState) : PassState :=
  st.states.zipIdx.foldl
    (fun ps (s, i) => g.allSymbols.foldl (passSymbol h g tbl st.states.length s i) ps)
    ⟨st.index, [], []⟩

/-- lr1.rs:335-340: `goto.insert(symbol, next)` on state `state`, with `updated |= old.is_none()`. -/
def addGoto (s : List LR1State × Bool) (e : Nat × Symbol × Nat) : List LR1State × Bool :=
  match s.1[e.1]? with
  | none => s   -- Rust: index out of bounds; the first component always indexes an existing state
  | some st =>
    (s.1.set e.1 { st with goto := st.goto.insert e.2.1 e.2.2 },
     s.2 || (st.goto.get? e.2.1).isNone)

/-- lr1.rs:281-341: one pass of the `while updated` loop. -/
def autoPass (h : HashOrder) (g : Grammar A Ty) (tbl : FirstTable) (st : AutoState) :
    AutoState × Bool :=
  let ps := passAll h g tbl st
  let upd := !ps.newStates.isEmpty
  let r := ps.newGotos.foldl addGoto (st.states ++ ps.newStates, upd)
  (⟨r.1, ps.index⟩, r.2)

/-- Number of items over the grammar's productions, cursors and lookaheads. -/
def Grammar.nItems (g : Grammar A Ty) : Nat :=
  (g.nonTerminals.map fun n => (n.productions.map fun p => p.symbols.length + 1).sum).sum *
    (g.nTerminals + 1)

/-- Number of passes that always suffices (see `Proofs/Automaton.lean`). -/
def autoFuel (g : Grammar A Ty) : Nat := g.nNonTerminals + 2 ^ g.nItems + 2

/-- Result of `generate_lr1_automaton`. -/
structure Automaton where
  states : List LR1State
  /-- `Map<NonTerminalIdx, StateIdx>` of the entry points -/
  entries : AMap Nat Nat
deriving DecidableEq

/-- lr1.rs:239-344 `generate_lr1_automaton`. -/
def generateAutomaton (h : HashOrder) (g : Grammar A Ty) (tbl : FirstTable) :
    Except Fault Automaton := do
  let (st, entries) ← initStates h g tbl g.nonTerminals.zipIdx (⟨[], []⟩, [])
  let (st', upd) := whileUpdated (autoPass h g tbl) (autoFuel g) st
  if upd then .error .outOfFuel else .ok ⟨st'.states, entries⟩

end Parsegen
