import Verif.Model.Grammar

/-! # Model of `src/first.rs` -/

namespace Parsegen

variable {A Ty : Type}

/-- first.rs:11-15 `FirstSet` (the terminals are a hash set). -/
structure FirstSet where
  empty : Bool := false
  terminals : List Nat := []
deriving DecidableEq, Repr

/-- first.rs:18-20 `FirstSet::add`. -/
def FirstSet.add (s : FirstSet) (t : Nat) : FirstSet :=
  { s with terminals := setInsert s.terminals t }

/-- first.rs:22-24 `FirstSet::set_empty`. -/
def FirstSet.setEmpty (s : FirstSet) : FirstSet := { s with empty := true }

/-- first.rs:9 `FirstTable(Vec<FirstSet>)`. -/
abbrev FirstTable := List FirstSet

/-- first.rs:36-42 `FirstTable::new`. -/
def FirstTable.new (n : Nat) : FirstTable := List.replicate n {}

/-- first.rs:59-61 `get_first` (total version: empty set where Rust would panic). -/
def FirstTable.get (tbl : FirstTable) (nt : Nat) : FirstSet := tbl.getD nt {}

/-- first.rs:45-49 `add_first`: returns whether the value is added. -/
def FirstTable.addFirst (tbl : FirstTable) (nt t : Nat) : FirstTable × Bool :=
  let s := tbl.get nt
  if t ∈ s.terminals then (tbl, false)
  else (tbl.set nt { s with terminals := s.terminals ++ [t] }, true)

/-- first.rs:52-57 `set_empty`: returns whether the value is changed. -/
def FirstTable.setEmpty (tbl : FirstTable) (nt : Nat) : FirstTable × Bool :=
  let s := tbl.get nt
  (tbl.set nt { s with empty := true }, !s.empty)

/-- first.rs:84-86: `for terminal in terminals.clone() { updated |= table.add_first(..) }`. -/
def firstAddAll (nt : Nat) (ts : List Nat) (tbl : FirstTable) (upd : Bool) : FirstTable × Bool :=
  ts.foldl (fun s t => let r := s.1.addFirst nt t; (r.1, s.2 || r.2)) (tbl, upd)

/-- first.rs:75-97: the symbol loop of one production of `nt`.
* a non-terminal already known to be empty is skipped *without* adding its terminals (lines 79-82);
* falling off the end sets the empty flag *without* touching `updated` (line 97). -/
def firstSymbols (h : HashOrder) (nt : Nat) :
    List Symbol → FirstTable → Bool → FirstTable × Bool
  | [], tbl, upd => ((tbl.setEmpty nt).1, upd)
  | .nonTerminal b :: rest, tbl, upd =>
    let s := tbl.get b
    if s.empty then firstSymbols h nt rest tbl upd
    else firstAddAll nt (h.iter s.terminals) tbl upd
  | .terminal t :: _, tbl, upd =>
    let r := tbl.addFirst nt t
    (r.1, upd || r.2)

/-- first.rs:71-98: one production of `nt` (lines 72-74 first handle an empty right-hand side). -/
def firstProduction (h : HashOrder) (nt : Nat) (syms : List Symbol) (s : FirstTable × Bool) :
    FirstTable × Bool :=
  let s' := if syms.isEmpty then
      let r := s.1.setEmpty nt
      (r.1, s.2 || r.2)
    else s
  firstSymbols h nt syms s'.1 s'.2

/-- first.rs:70-99: one pass over all non-terminals and their productions, starting with
`updated = false`. -/
def firstPass (h : HashOrder) (g : Grammar A Ty) (tbl : FirstTable) : FirstTable × Bool :=
  g.nonTerminals.zipIdx.foldl
    (fun s (n, nt) => n.productions.foldl (fun s p => firstProduction h nt p.syms s) s)
    (tbl, false)

/-- Number of passes that always suffices (see `Proofs/First.lean`). -/
def firstFuel (g : Grammar A Ty) : Nat := g.nNonTerminals * (g.nTerminals + 1) + 1

/-- first.rs:64-103 `generate_first_table`, with the final value of `updated`. -/
def firstLoop (h : HashOrder) (g : Grammar A Ty) : FirstTable × Bool :=
  whileUpdated (firstPass h g) (firstFuel g) (FirstTable.new g.nNonTerminals)

/-- first.rs:64-103 `generate_first_table`. -/
def generateFirstTable (h : HashOrder) (g : Grammar A Ty) : FirstTable := (firstLoop h g).1

end Parsegen
