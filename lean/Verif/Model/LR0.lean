import Verif.Model.Table
import Verif.Model.FollowSets

/-! # Model of `src/lr0.rs`: the LR(0) automaton and the SLR(1) table

Like `follow.rs` the module is switched off (lib.rs:15 `// mod lr0;`).  It is modelled over today's
`Grammar` and with today's table builder (lr_common.rs).  An `LR0Item` (lr0.rs:9-14) is an `Item` whose
lookahead is always `none`; the derived orders agree on such items. -/

namespace Parsegen

variable {A Ty : Type}

/-- lr0.rs:17-23 `LR0Item::new`. -/
def lr0Item (nt prod : Nat) : Item := ⟨nt, prod, 0, none⟩

/-- lr0.rs:76-88: the items predicted by the closure that are not in it yet (a hash set). -/
def lr0Fresh (g : Grammar A Ty) (cl : List Item) : List Item :=
  cl.foldl (fun s it =>
    match it.nextNonTerminal g with
    | none => s
    | some b => (List.range (g.nProductions b)).foldl
        (fun s p => if lr0Item b p ∈ cl then s else setInsert s (lr0Item b p)) s) []

/-- lr0.rs:73-91: one pass of the `while updated` loop; `updated` is set iff something is inserted into
`new_items`. -/
def lr0ClosurePass (h : HashOrder) (g : Grammar A Ty) (cl : List Item) : List Item × Bool :=
  let new := lr0Fresh g cl
  ((h.iter new).foldl (fun cl x => btInsert x cl) cl, !new.isEmpty)

/-- lr0.rs:66-94 `compute_lr0_closure`, with the last value of `updated`. -/
def lr0ClosureLoop (h : HashOrder) (g : Grammar A Ty) (items : List Item) : List Item × Bool :=
  whileUpdated (lr0ClosurePass h g) (closureFuel g items) items

/-- lr0.rs:66-94 `compute_lr0_closure`. -/
def lr0Closure (h : HashOrder) (g : Grammar A Ty) (items : List Item) : List Item :=
  (lr0ClosureLoop h g items).1

/-- lr0.rs:101-109: the advanced items. -/
def lr0Kernel (g : Grammar A Ty) (items : List Item) (sym : Symbol) : List Item :=
  items.foldl (fun s it => if it.nextSymbol g = some sym then btInsert it.advance s else s) []

/-- lr0.rs:96-112 `compute_lr0_goto`. -/
def lr0Goto (h : HashOrder) (g : Grammar A Ty) (items : List Item) (sym : Symbol) : List Item :=
  lr0Closure h g (lr0Kernel g items sym)

/-- lr0.rs:146-159 `add_state_or_get_idx`: the index, and whether a state is added. -/
def AutoState.addState (st : AutoState) (items : List Item) : AutoState × Nat × Bool :=
  match st.index.get? items with
  | some q => (st, q, false)
  | none =>
    (⟨st.states ++ [⟨items, []⟩], st.index.insert items st.states.length⟩, st.states.length, true)

/-- lr0.rs:169-171 `add_goto`. -/
def AutoState.addEdge (st : AutoState) (from_ to : Nat) (sym : Symbol) : AutoState :=
  ⟨st.states.modify from_ fun s => { s with goto := s.goto.insert sym to }, st.index⟩

/-- lr0.rs:189-194: the symbols after the cursors (a hash set). -/
def lr0NextSymbols (g : Grammar A Ty) (items : List Item) : List Symbol :=
  items.foldl (fun s it => match it.nextSymbol g with
    | some x => setInsert s x
    | none => s) []

/-- lr0.rs:196-203: the loop body for one symbol of state `q` with items `I`; the work list has its top
at the head. -/
def lr0Symbol (h : HashOrder) (g : Grammar A Ty) (q : Nat) (I : List Item) (s : AutoState × List Nat)
    (sym : Symbol) : AutoState × List Nat :=
  let r := s.1.addState (lr0Goto h g I sym)
  (r.1.addEdge q r.2.1 sym, if r.2.2 then r.2.1 :: s.2 else s.2)

/-- lr0.rs:188-203: one popped state. -/
def lr0Process (h : HashOrder) (g : Grammar A Ty) (q : Nat) (s : AutoState × List Nat) :
    AutoState × List Nat :=
  match s.1.states[q]? with
  | none => s    -- Rust: index out of bounds; only indices of existing states are pushed
  | some st => (h.iter (lr0NextSymbols g st.items)).foldl (lr0Symbol h g q st.items) s

/-- lr0.rs:187-204: `while let Some(state_idx) = work_list.pop()`, for at most `fuel` pops. -/
def lr0Loop (h : HashOrder) (g : Grammar A Ty) : Nat → AutoState × List Nat → AutoState × List Nat
  | 0, s => s
  | _ + 1, (st, []) => (st, [])
  | fuel + 1, (st, q :: wl) => lr0Loop h g fuel (lr0Process h g q (st, wl))

/-- lr0.rs:175-207 `compute_lr0_automaton`, with what is left of the work list. -/
def lr0Run (h : HashOrder) (g : Grammar A Ty) : AutoState × List Nat :=
  let init := (⟨[], []⟩ : AutoState).addState (lr0Closure h g [lr0Item 0 0])
  lr0Loop h g (2 ^ g.nItems + 1) (init.1, [init.2.1])

/-- lr0.rs:175-207 `compute_lr0_automaton`. -/
def lr0Automaton (h : HashOrder) (g : Grammar A Ty) : List LR1State := (lr0Run h g).1.states

/-- lr0.rs:229-234, rule 2.a. -/
def slrShift (g : Grammar A Ty) (i : Nat) (st : LR1State) (it : Item) (t : LRTable A) :
    Except Fault (LRTable A) :=
  match it.nextTerminal g with
  | none => .ok t
  | some tok =>
    match st.goto.get? (.terminal tok) with
    | none => .ok t
    | some next => t.addShift i tok next

/-- lr0.rs:236-261, rule 2.b. -/
def slrReduce (h : HashOrder) (g : Grammar A Ty) (fol : FollowTable) (i : Nat) (it : Item) (t : LRTable A) :
    Except Fault (LRTable A) :=
  match it.nextSymbol g with
  | some _ => .ok t
  | none =>
    match g.getProduction? it.nt it.prod with
    | none => .error .indexOutOfBounds
    | some p => do
      let f := fol.get it.nt
      let t ← (h.iter f.terminals).foldlM (fun t c => t.addReduce i (some c) it.nt it.prod p.action) t
      if f.end_ then t.addReduce i none it.nt it.prod p.action else .ok t

/-- lr0.rs:263-270, rule 2.c. -/
def slrAccept (i : Nat) (it : Item) (t : LRTable A) : LRTable A :=
  if it.nt = 0 ∧ it.prod = 0 ∧ it.cursor = 1 then t.addAccept i else t

/-- lr0.rs:226-271: one item of one state. -/
def slrItem (h : HashOrder) (g : Grammar A Ty) (fol : FollowTable) (i : Nat) (st : LR1State)
    (t : LRTable A) (it : Item) : Except Fault (LRTable A) := do
  let t ← slrShift g i st it t
  let t ← slrReduce h g fol i it t
  .ok (slrAccept i it t)

/-- lr0.rs:273-277: the gotos of a state. -/
def slrGotos (h : HashOrder) (i : Nat) (st : LR1State) (t : LRTable A) : LRTable A :=
  (h.iter st.goto).foldl
    (fun t e => match e.1 with
      | .nonTerminal b => t.addGoto i b e.2
      | .terminal _ => t) t

/-- lr0.rs:225-278: one state. -/
def slrState (h : HashOrder) (g : Grammar A Ty) (fol : FollowTable) (t : LRTable A) (s : LR1State × Nat) :
    Except Fault (LRTable A) := do
  let t ← s.1.items.foldlM (slrItem h g fol s.2 s.1) t
  .ok (slrGotos h s.2 s.1 t)

/-- lr0.rs:213-281 `build_slr_table`. -/
def buildSlrTable (h : HashOrder) (g : Grammar A Ty) (states : List LR1State) (fol : FollowTable) :
    Except Fault (LRTable A) :=
  states.zipIdx.foldlM (slrState h g fol) (LRTable.new states.length)

/-- What the unit tests do (lr0.rs:576-590): FIRST, FOLLOW, automaton, table. -/
def slrTable (h : HashOrder) (g : Grammar A Ty) : Except Fault (LRTable A) :=
  buildSlrTable h g (lr0Automaton h g) (generateFollowTable h g (generateFirstTable h g))

end Parsegen
