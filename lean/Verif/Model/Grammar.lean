import Verif.Model.Basic

/-!
# Model of `src/grammar.rs`

`A` is the semantic action type (as in Rust); `Ty` stands for `syn::Type`.
Index newtypes (`NonTerminalIdx`, `TerminalIdx`, `ProductionIdx`) are plain `Nat`s; the conversions
that can truncate or panic are explicit (`asU32`, `tryU32`).
-/

namespace Parsegen

/-- ast.rs:135-139 `Name` (used by `BoundSymbol`). -/
structure Name where
  isMut : Bool
  name : String
deriving DecidableEq, Repr

/-- grammar.rs:95-99 `Symbol`. -/
inductive Symbol where
  | nonTerminal (i : Nat)
  | terminal (i : Nat)
deriving DecidableEq, Repr

/-- grammar.rs:89-93 `BoundSymbol`. -/
structure BoundSymbol where
  binder : Option Name
  symbol : Symbol
deriving DecidableEq, Repr

/-- grammar.rs:74-78 `Production<A>`. -/
structure Production (A : Type) where
  symbols : List BoundSymbol
  action : A

/-- grammar.rs:65-72 `NonTerminal<A>`. -/
structure NonTerminal (A Ty : Type) where
  name : String
  productions : List (Production A)
  returnTy : Ty
  isPublic : Bool

/-- grammar.rs:4-23 `Grammar<A>`. -/
structure Grammar (A Ty : Type) where
  nonTerminals : List (NonTerminal A Ty)
  terminals : List String

variable {A Ty : Type}

/-- grammar.rs:102-107 `Grammar::new`. -/
def Grammar.new : Grammar A Ty := ⟨[], []⟩

/-- grammar.rs:109-123 `add_non_terminal`; note the truncating cast `idx as u32`. -/
def Grammar.addNonTerminal (g : Grammar A Ty) (name : String) (ty : Ty) (isPublic : Bool) :
    Grammar A Ty × Nat :=
  ({ g with nonTerminals := g.nonTerminals ++
      [{ name := name, productions := [], returnTy := ty, isPublic := isPublic }] },
   asU32 g.nonTerminals.length)

/-- grammar.rs:125-129 `new_terminal`. -/
def Grammar.newTerminal (g : Grammar A Ty) (s : String) : Except Fault (Grammar A Ty × Nat) := do
  let idx ← tryU32 g.terminals.length
  .ok ({ g with terminals := g.terminals ++ [s] }, idx)

/-- grammar.rs:139-141 `n_non_terminals`. -/
def Grammar.nNonTerminals (g : Grammar A Ty) : Nat := g.nonTerminals.length

/-- grammar.rs:143-145 `n_terminals`. -/
def Grammar.nTerminals (g : Grammar A Ty) : Nat := g.terminals.length

/-- grammar.rs:163-175 `add_production` (index out of bounds panics). -/
def Grammar.addProduction (g : Grammar A Ty) (nt : Nat) (symbols : List BoundSymbol) (action : A) :
    Except Fault (Grammar A Ty) :=
  match g.nonTerminals[nt]? with
  | none => .error .indexOutOfBounds
  | some n =>
    let n' : NonTerminal A Ty := { n with productions := n.productions ++ [⟨symbols, action⟩] }
    .ok { g with nonTerminals := g.nonTerminals.set nt n' }

/-- grammar.rs:177-183 `get_production`; `none` is the out-of-bounds panic. -/
def Grammar.getProduction? (g : Grammar A Ty) (nt p : Nat) : Option (Production A) :=
  (g.nonTerminals[nt]?).bind fun n => n.productions[p]?

/-- grammar.rs:131-133 `get_non_terminal`; `none` is the out-of-bounds panic. -/
def Grammar.getNonTerminal? (g : Grammar A Ty) (nt : Nat) : Option (NonTerminal A Ty) :=
  g.nonTerminals[nt]?

/-- The plain symbols of a production (`symbols().iter().map(|s| &s.symbol)`). -/
def Production.syms (p : Production A) : List Symbol := p.symbols.map (·.symbol)

/-- Right-hand side of production `p` of non-terminal `nt`, as used through
`grammar.get_production(nt, p).symbols()`.  Total version: `[]` where Rust would panic; see
`Proofs/WF.lean` for the theorem that generation never gets there. -/
def Grammar.rhs (g : Grammar A Ty) (nt p : Nat) : List Symbol :=
  match g.getProduction? nt p with
  | some pr => pr.syms
  | none => []

/-- `grammar.non_terminals[nt].productions.len()`; total version as above. -/
def Grammar.nProductions (g : Grammar A Ty) (nt : Nat) : Nat :=
  match g.nonTerminals[nt]? with
  | some n => n.productions.length
  | none => 0

/-- `grammar.get_non_terminal(nt).public`; total version as above. -/
def Grammar.isPublic (g : Grammar A Ty) (nt : Nat) : Bool :=
  match g.nonTerminals[nt]? with
  | some n => n.isPublic
  | none => false

end Parsegen
