import Verif.Spec.Compiled

/-! # Specification: programs that differ in the order of their declarations, or by additions -/

namespace Parsegen

variable {X Ty V W Tok E : Type}

/-- The same definition, with its productions in any order. -/
structure AstNonTerminal.SameAs (d d' : AstNonTerminal X Ty) : Prop where
  name : d'.name = d.name
  isPub : d'.isPub = d.isPub
  typeDecl : d'.typeDecl = d.typeDecl
  productions : d'.productions.Perm d.productions

/-- All definitions of `defs` are among `defs'`. -/
def Includes (defs defs' : List (AstNonTerminal X Ty)) : Prop :=
  ∀ d ∈ defs, ∃ d' ∈ defs', d.SameAs d'

/-- The names defined by both `defs` and `defs'` have the same productions in both, in any order. -/
def SameDefinitions (defs defs' : List (AstNonTerminal X Ty)) : Prop :=
  ∀ n, (∃ d ∈ defs, d.name = n) → (∃ d ∈ defs', d.name = n) →
    ∀ q, q ∈ userProds defs n ↔ q ∈ userProds defs' n

/-- `defs'` consists of the definitions of `defs` in another order, each with its productions in any
order. -/
def Rearranged (defs defs' : List (AstNonTerminal X Ty)) : Prop :=
  ∃ l, List.Forall₂ AstNonTerminal.SameAs defs l ∧ l.Perm defs'

/-- The messages list the same terminals, each in the order of its own token declaration. -/
def SameList (terms terms' : List String) (e e' : String) : Prop :=
  ∃ Q : String → Bool, (∀ t, Q t = true → t ∈ terms ∧ t ∈ terms') ∧
    e = ", ".intercalate (terms.filter Q) ∧ e' = ", ".intercalate (terms'.filter Q)

/-- The same outcome, up to the order in which the expected terminals are listed. -/
def SameOutcome (terms terms' : List String) : Outcome V E → Outcome V E → Prop
  | .ok v, .ok v' => v = v'
  | .lexerError e, .lexerError e' => e = e'
  | .parserError f e, .parserError f' e' => f = f' ∧ SameList terms terms' e e'
  | .fault f, .fault f' => f = f'
  | _, _ => False

/-- `items'` declares what `items` declares, in another order: the items, the productions inside the
definitions and the token declarations inside the token enum. -/
structure RearrangedItems (items items' : List (GrammarItem X Ty)) : Prop where
  defs : Rearranged (itemNonTerminals items) (itemNonTerminals items')
  states : (itemTypeDefs items').Perm (itemTypeDefs items)
  tokens : ∃ t t', itemTokenEnums items = [t] ∧ itemTokenEnums items' = [t'] ∧
    t'.conversions.Perm t.conversions

/-- The grammar is well below the size limits of the generator (finding: u16 and u32 indices). -/
structure SmallItems (items : List (GrammarItem X Ty)) : Prop where
  nonTerminals : loweredCount (itemNonTerminals items) ≤ 65536
  productions : ((itemNonTerminals items).map (·.productions.length)).sum +
    ((itemNonTerminals items).filter (·.isPub)).length ≤ 65536
  symbols : ∀ d ∈ itemNonTerminals items, ∀ p ∈ d.productions, p.symbols.length ≤ 65535
  terminals : ∀ t ∈ itemTokenEnums items, t.conversions.length ≤ 4294967296

variable [DecidableEq Ty]

/-- The declared terminal names of a program, in order. -/
def Compiled.terms (P : Compiled X Ty V W Tok) : List String := P.tokens.conversions.map (·.from_)

/-- The two entry points behave the same: on every input, in every world, one returns exactly if the
other does, with the same outcome (up to the order of the expected terminals), the same effects on the
world and the same number of calls of `next()`. -/
def SameBehaviour (P P' : Compiled X Ty V W Tok) (ep ep' : EntryPoint) : Prop :=
  ∀ {E : Type} (input : Nat → Option (Except E Tok)) (w w' : W) (n : Nat),
    (∀ o, P.Returns ep input w o w' n →
      ∃ o', SameOutcome P.terms P'.terms o o' ∧ P'.Returns ep' input w o' w' n) ∧
    (∀ o', P'.Returns ep' input w o' w' n →
      ∃ o, SameOutcome P.terms P'.terms o o' ∧ P.Returns ep input w o w' n)

end Parsegen
