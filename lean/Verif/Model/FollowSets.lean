import Verif.Model.First

/-! # Model of `src/follow.rs`

The module is switched off in lib.rs:14 (`// mod follow;`) and still written for an older `Grammar`, in
which symbols carry a terminal value `T` instead of a `TerminalIdx`.  It is modelled on today's grammars,
with terminal indices for `T`; nothing in it looks at a terminal except to compare and to store it. -/

namespace Parsegen

variable {A Ty : Type}

/-- follow.rs:14-18 `FollowSet` (the terminals are a hash set). -/
structure FollowSet where
  end_ : Bool := false
  terminals : List Nat := []
deriving DecidableEq, Repr

/-- follow.rs:11 `FollowTable(Vec<FollowSet>)`. -/
abbrev FollowTable := List FollowSet

/-- follow.rs:40-46 `FollowTable::new`. -/
def FollowTable.new (n : Nat) : FollowTable := List.replicate n {}

/-- follow.rs:63-65 `get_follow` (total version: empty set where Rust would panic). -/
def FollowTable.get (tbl : FollowTable) (nt : Nat) : FollowSet := tbl.getD nt {}

/-- follow.rs:49-53 `add_follow`: returns whether the value is added. -/
def FollowTable.addFollow (tbl : FollowTable) (nt t : Nat) : FollowTable × Bool :=
  let s := tbl.get nt
  if t ∈ s.terminals then (tbl, false)
  else (tbl.set nt { s with terminals := s.terminals ++ [t] }, true)

/-- follow.rs:56-61 `set_end`: returns whether the value is changed. -/
def FollowTable.setEnd (tbl : FollowTable) (nt : Nat) : FollowTable × Bool :=
  let s := tbl.get nt
  (tbl.set nt { s with end_ := true }, !s.end_)

/-- follow.rs:109-111 and 130-132: `for t in .. { updated |= table.add_follow(nt, t) }`. -/
def followAddAll (nt : Nat) (ts : List Nat) (s : FollowTable × Bool) : FollowTable × Bool :=
  ts.foldl (fun s t => let r := s.1.addFollow nt t; (r.1, s.2 || r.2)) s

/-- follow.rs:123-132: `nt` is at the end of a production of `lhs`: everything that follows `lhs`
follows `nt` (`nt_follows` is a copy of the set of `lhs`). -/
def followAtEnd (h : HashOrder) (nt lhs : Nat) (s : FollowTable × Bool) : FollowTable × Bool :=
  let f := s.1.get lhs
  let s' := if f.end_ then let r := s.1.setEnd nt; (r.1, s.2 || r.2) else s
  followAddAll nt (h.iter f.terminals) s'

mutual
/-- follow.rs:87-92: `'symbol_loop_0`, looking for `nt` in a right-hand side. -/
def followSearch (h : HashOrder) (F : FirstTable) (nt lhs : Nat) :
    List Symbol → FollowTable × Bool → FollowTable × Bool
  | [], s => s
  | x :: rest, s =>
    if x = .nonTerminal nt then followAfter h F nt lhs rest s else followSearch h F nt lhs rest s
/-- follow.rs:93-133: `'symbol_loop_1`, the symbols after an occurrence of `nt`.  The last line stands for
`current_symbol = Some(b); continue 'symbol_loop_0` (lines 116-120) with the test at the head of that loop. -/
def followAfter (h : HashOrder) (F : FirstTable) (nt lhs : Nat) :
    List Symbol → FollowTable × Bool → FollowTable × Bool
  | [], s => followAtEnd h nt lhs s
  | .terminal t :: rest, s =>
    let r := s.1.addFollow nt t
    followSearch h F nt lhs rest (r.1, s.2 || r.2)
  | .nonTerminal b :: rest, s =>
    let f := F.get b
    let s' := followAddAll nt (h.iter f.terminals) s
    if f.empty then followAfter h F nt lhs rest s'
    else if b = nt then followAfter h F nt lhs rest s' else followSearch h F nt lhs rest s'
end

/-- grammar.rs `production_indices`: all productions with the non-terminal they belong to. -/
def Grammar.productions (g : Grammar A Ty) : List (Nat × List Symbol) :=
  g.nonTerminals.zipIdx.flatMap fun e => e.1.productions.map fun p => (e.2, p.syms)

/-- follow.rs:80-137: one pass of the `while updated` loop. -/
def followPass (h : HashOrder) (g : Grammar A Ty) (F : FirstTable) (tbl : FollowTable) :
    FollowTable × Bool :=
  (List.range g.nNonTerminals).foldl
    (fun s nt => g.productions.foldl (fun s e => followSearch h F nt e.1 e.2 s) s) (tbl, false)

/-- Number of passes that always suffices (see `Proofs/FollowSets.lean`). -/
def followFuel (g : Grammar A Ty) : Nat := g.nNonTerminals * (g.nTerminals + 1) + 1

/-- follow.rs:68-140 `generate_follow_table`, with the final value of `updated`. -/
def followLoop (h : HashOrder) (g : Grammar A Ty) (F : FirstTable) : FollowTable × Bool :=
  let table := FollowTable.new g.nNonTerminals
  if g.nNonTerminals = 0 then (table, false)
  else whileUpdated (followPass h g F) (followFuel g) (table.setEnd 0).1

/-- follow.rs:68-140 `generate_follow_table`. -/
def generateFollowTable (h : HashOrder) (g : Grammar A Ty) (F : FirstTable) : FollowTable :=
  (followLoop h g F).1

end Parsegen
