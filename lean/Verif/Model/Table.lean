import Verif.Model.LR1

/-! # Model of `src/lr_common.rs` (table builder) and `build_lr1_table` of `src/lr1.rs`

The nested maps `Map<StateIdx, Map<K, V>>` are flattened to maps keyed by pairs: the code only ever
uses `entry(state).or_default().insert(k, v)` and `get(&state).and_then(|m| m.get(&k))`. -/

namespace Parsegen

variable {A Ty : Type}

/-- lr_common.rs:13-23 `LRAction<A>`. -/
inductive LRAction (A : Type) where
  | shift (next : Nat)
  | reduce (nt prod : Nat) (action : A)
  | accept
deriving DecidableEq, Repr

/-- lr_common.rs:25-29 `LRTable<A>`. -/
structure LRTable (A : Type) where
  action : AMap (Nat × Option Nat) (LRAction A)
  goto : AMap (Nat × Nat) Nat
  nStates : Nat

/-- lr_common.rs:36-44 `LRTableBuilder::new`. -/
def LRTable.new (n : Nat) : LRTable A := ⟨[], [], n⟩

/-- lr_common.rs:173-181 `get_action`. -/
def LRTable.getAction (t : LRTable A) (state : Nat) (term : Option Nat) : Option (LRAction A) :=
  t.action.get? (state, term)

/-- lr_common.rs:184-189 `get_goto`. -/
def LRTable.getGoto (t : LRTable A) (state nt : Nat) : Option Nat := t.goto.get? (state, nt)

/-- lr_common.rs:50-96 `add_shift`: overriding a reduce is silently allowed (lines 74-85). -/
def LRTable.addShift (t : LRTable A) (state tok next : Nat) : Except Fault (LRTable A) :=
  let t' := { t with action := t.action.insert (state, some tok) (.shift next) }
  match t.action.get? (state, some tok) with
  | none => .ok t'
  | some (.shift s) => if s ≠ next then .error (.shiftOverShift state tok s next) else .ok t'
  | some (.reduce _ _ _) => .ok t'
  | some .accept => .error (.shiftOverAccept state tok next)

/-- lr_common.rs:98-148 `add_reduce`: overriding anything panics. -/
def LRTable.addReduce (t : LRTable A) (state : Nat) (tok : Option Nat) (nt prod : Nat) (a : A) :
    Except Fault (LRTable A) :=
  let t' := { t with action := t.action.insert (state, tok) (.reduce nt prod a) }
  match t.action.get? (state, tok) with
  | none => .ok t'
  | some (.shift s) => .error (.reduceOverShift state tok s nt prod)
  | some (.reduce nt' prod' _) => .error (.reduceOverReduce state tok nt' prod' nt prod)
  | some .accept => .error (.reduceOverAccept state tok nt prod)

/-- lr_common.rs:150-158 `add_accept`: silently overrides. -/
def LRTable.addAccept (t : LRTable A) (state : Nat) : LRTable A :=
  { t with action := t.action.insert (state, none) .accept }

/-- lr_common.rs:160-169 `add_goto`: silently overrides. -/
def LRTable.addGoto (t : LRTable A) (state nt next : Nat) : LRTable A :=
  { t with goto := t.goto.insert (state, nt) next }

/-- lr1.rs:354-359, rule 2.a. -/
def ruleShift (g : Grammar A Ty) (i : Nat) (st : LR1State) (it : Item) (t : LRTable A) :
    Except Fault (LRTable A) :=
  match it.nextTerminal g with
  | none => .ok t
  | some tok =>
    match st.goto.get? (.terminal tok) with
    | none => .ok t
    | some next => t.addShift i tok next

/-- lr1.rs:361-374, rule 2.b (and the `get_non_terminal`/`get_production` lookups). -/
def ruleReduce (g : Grammar A Ty) (i : Nat) (it : Item) (n : NonTerminal A Ty) (t : LRTable A) :
    Except Fault (LRTable A) :=
  if it.isComplete g && !n.isPublic then
    match g.getProduction? it.nt it.prod with
    | none => .error .indexOutOfBounds
    | some p => t.addReduce i it.la it.nt it.prod p.action
  else .ok t

/-- lr1.rs:376-382, rule 2.c. -/
def ruleAccept (i : Nat) (it : Item) (n : NonTerminal A Ty) (t : LRTable A) :
    Except Fault (LRTable A) :=
  if n.isPublic && decide (it.cursor = 1) && it.la.isNone then
    if n.productions.length = 1 then .ok (t.addAccept i) else .error .assertFailed
  else .ok t

/-- lr1.rs:384-389: add the state's gotos on non-terminals (hash map iteration). -/
def ruleGotos (h : HashOrder) (i : Nat) (st : LR1State) (t : LRTable A) : LRTable A :=
  (h.iter st.goto).foldl
    (fun t e => match e.1 with
      | .nonTerminal b => t.addGoto i b e.2
      | .terminal _ => t) t

/-- lr1.rs:353-390: one item of one state. -/
def buildItem (h : HashOrder) (g : Grammar A Ty) (i : Nat) (st : LR1State) (t : LRTable A)
    (it : Item) : Except Fault (LRTable A) := do
  let t ← ruleShift g i st it t
  match g.getNonTerminal? it.nt with
  | none => .error .indexOutOfBounds
  | some n =>
    let t ← ruleReduce g i it n t
    let t ← ruleAccept i it n t
    .ok (ruleGotos h i st t)

/-- lr1.rs:352-391: one state. -/
def buildState (h : HashOrder) (g : Grammar A Ty) (t : LRTable A) (s : LR1State × Nat) :
    Except Fault (LRTable A) :=
  s.1.items.foldlM (buildItem h g s.2 s.1) t

/-- lr1.rs:346-394 `build_lr1_table`. -/
def buildTable (h : HashOrder) (g : Grammar A Ty) (states : List LR1State) :
    Except Fault (LRTable A) :=
  states.zipIdx.foldlM (buildState h g) (LRTable.new states.length)

end Parsegen
