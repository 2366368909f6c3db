import Verif.Spec.Derivation
import Verif.Model.First

/-! # Specification: well-formed grammars and FIRST tables -/

namespace Parsegen

variable {A Ty : Type}

/-- What lowering guarantees about the grammar it hands to the generator (proved in
`Proofs/Lower.lean`): symbols on right-hand sides are declared and not entry points, and every entry
point has exactly one production, consisting of a single non-terminal. -/
structure Grammar.WF (g : Grammar A Ty) : Prop where
  nt_lt : ∀ {nt p α b}, g.HasProd nt p α → .nonTerminal b ∈ α → b < g.nNonTerminals
  nt_priv : ∀ {nt p α b}, g.HasProd nt p α → .nonTerminal b ∈ α → g.isPublic b = false
  term_lt : ∀ {nt p α t}, g.HasProd nt p α → .terminal t ∈ α → t < g.nTerminals
  pub : ∀ {nt}, g.isPublic nt = true →
    g.nProductions nt = 1 ∧ ∃ b, g.HasProd nt 0 [.nonTerminal b]

/-- Everything in the table is right. -/
structure FirstSound (g : Grammar A Ty) (F : FirstTable) : Prop where
  terminals : ∀ nt t, t ∈ (F.get nt).terminals → g.Begins nt t
  empty : ∀ nt, (F.get nt).empty = true → g.Nullable nt

/-- Everything about non-terminals that can occur on a right-hand side is in the table. -/
structure FirstComplete (g : Grammar A Ty) (F : FirstTable) : Prop where
  terminals : ∀ nt t, nt < g.nNonTerminals → g.isPublic nt = false → g.Begins nt t →
    t ∈ (F.get nt).terminals
  empty : ∀ nt, nt < g.nNonTerminals → g.isPublic nt = false → g.Nullable nt →
    (F.get nt).empty = true

/-- `b` can be what comes after a non-terminal on a right-hand side: the LR(1) construction looks at
FIRST of such non-terminals and of no others. -/
def Grammar.Behind (g : Grammar A Ty) (b : Nat) : Prop :=
  ∃ nt p α c l r, g.HasProd nt p (α ++ .nonTerminal c :: (l ++ .nonTerminal b :: r)) ∧ g.Derives l []

/-- Non-terminals whose FIRST set matters: those that can come after a non-terminal, and those their FIRST
sets are computed from. -/
inductive Grammar.Relevant (g : Grammar A Ty) : Nat → Prop
  | behind {b} (h : g.Behind b) : g.Relevant b
  | leading {nt p l b r} (h : g.Relevant nt) (hp : g.HasProd nt p (l ++ .nonTerminal b :: r))
      (hl : g.Derives l []) : g.Relevant b

/-- Everything about non-terminals that can come after a non-terminal is in the table. -/
structure FirstEnough (g : Grammar A Ty) (F : FirstTable) : Prop where
  terminals : ∀ nt t, g.Behind nt → g.Begins nt t → t ∈ (F.get nt).terminals
  empty : ∀ nt, g.Behind nt → g.Nullable nt → (F.get nt).empty = true

/-- All symbols are non-terminals flagged empty in the table. -/
def AllFlagged (F : FirstTable) (α : List Symbol) : Prop :=
  ∀ s ∈ α, ∃ b, s = .nonTerminal b ∧ (F.get b).empty = true

/-- The set computed for every non-terminal that can occur on a right-hand side contains something. -/
def FirstNonemptyAll (g : Grammar A Ty) (F : FirstTable) : Prop :=
  ∀ b, b < g.nNonTerminals → g.isPublic b = false →
    (F.get b).empty = true ∨ ∃ t, t ∈ (F.get b).terminals

/-- The set computed for every non-terminal that comes after another one in some production, with nothing
but symbols flagged empty in between, contains something. -/
def FirstNonempty (g : Grammar A Ty) (F : FirstTable) : Prop :=
  ∀ nt p α c l b r, g.HasProd nt p (α ++ .nonTerminal c :: (l ++ .nonTerminal b :: r)) → AllFlagged F l →
    (F.get b).empty = true ∨ ∃ t, t ∈ (F.get b).terminals

/-- The textbook FIRST equations hold for every production of a non-entry non-terminal. -/
structure FirstClosed (g : Grammar A Ty) (F : FirstTable) : Prop where
  term : ∀ {nt p α1 t α2}, g.isPublic nt = false → g.HasProd nt p (α1 ++ .terminal t :: α2) →
    AllFlagged F α1 → t ∈ (F.get nt).terminals
  nonTerm : ∀ {nt p α1 b α2 t}, g.isPublic nt = false →
    g.HasProd nt p (α1 ++ .nonTerminal b :: α2) → AllFlagged F α1 →
    t ∈ (F.get b).terminals → t ∈ (F.get nt).terminals
  empty : ∀ {nt p α}, g.isPublic nt = false → g.HasProd nt p α → AllFlagged F α →
    (F.get nt).empty = true

/-- The textbook FIRST equations hold for the productions of the non-terminals in `R`. -/
structure FirstClosedOn (g : Grammar A Ty) (F : FirstTable) (R : Nat → Prop) : Prop where
  term : ∀ {nt p α1 t α2}, R nt → g.HasProd nt p (α1 ++ .terminal t :: α2) →
    AllFlagged F α1 → t ∈ (F.get nt).terminals
  nonTerm : ∀ {nt p α1 b α2 t}, R nt →
    g.HasProd nt p (α1 ++ .nonTerminal b :: α2) → AllFlagged F α1 →
    t ∈ (F.get b).terminals → t ∈ (F.get nt).terminals
  empty : ∀ {nt p α}, R nt → g.HasProd nt p α → AllFlagged F α → (F.get nt).empty = true

/-- Side condition under which `first.rs` is complete: in productions of a non-entry non-terminal `A`,
a nullable non-terminal reachable through a nullable prefix has an empty production and is `A` itself, or
is the beginning of nothing but the empty string. -/
def Grammar.HarmlessNullable (g : Grammar A Ty) : Prop :=
  ∀ nt p α1 b α2, g.isPublic nt = false → g.HasProd nt p (α1 ++ .nonTerminal b :: α2) →
    g.Derives α1 [] → g.Nullable b → (∃ q, g.HasProd b q []) ∧ (b = nt ∨ ∀ t, ¬ g.Begins b t)

/-- The same condition for the non-terminals whose FIRST set matters. -/
def Grammar.HarmlessRelevant (g : Grammar A Ty) : Prop :=
  ∀ nt p α1 b α2, g.Relevant nt → g.HasProd nt p (α1 ++ .nonTerminal b :: α2) →
    g.Derives α1 [] → g.Nullable b → (∃ q, g.HasProd b q []) ∧ (b = nt ∨ ∀ t, ¬ g.Begins b t)

end Parsegen
