import Verif.Spec.Valid
import Verif.Spec.Compiled
import Verif.Spec.Emitted

/-! # Specification: what the panics of the macro mean -/

namespace Parsegen

variable {A X Ty : Type}

/-- The symbols occurring in the user's productions. -/
def Occurs (asts : List (AstNonTerminal X Ty)) (s : AstSymbol) : Prop :=
  ∃ a ∈ asts, ∃ p ∈ a.productions, s ∈ p.symbols

/-- The user's definitions justify the panic `f` of lowering. -/
def Complaint (asts : List (AstNonTerminal X Ty)) (convs : List (Conversion Ty)) : Fault → Prop
  | .duplicateTerminal t => ∃ l1 c l2, convs = l1 ++ c :: l2 ∧ c.from_ = t ∧ ∃ d ∈ l1, d.from_ = t
  | .undefinedNonTerminal n =>
    (∃ s, Occurs asts s ∧ s.plain = some (.nt n)) ∧ ∀ a ∈ asts, a.name ≠ n
  | .unknownTerminal t =>
    (∃ s, Occurs asts s ∧ s.plain = some (.term t)) ∧ ∀ c ∈ convs, c.from_ ≠ t
  | .repeatUnsupported => ∃ s, Occurs asts s ∧ s.plain = none
  | .fallibleUnsupported => ∃ a ∈ asts, ∃ p ∈ a.productions, ∃ e, p.action = .fallible e
  | .u32Overflow => 4294967296 < convs.length
  | _ => False

/-- A size limit is exceeded by a grammar whose automaton has `nStates` states. -/
def TooBig (g : Grammar A Ty) (nStates : Nat) : Fault → Prop
  | .u16Overflow => 65536 < g.listing.length ∨ 65536 < g.nNonTerminals ∨
      ∃ nt p α, g.HasProd nt p α ∧ 65535 < α.length
  | .u32Overflow => 4294967296 < g.nNonTerminals ∨ 4294967296 < nStates
  | _ => False

/-- Item order: by left-hand side, then production, then position. -/
def Item.Before (a b : Item) : Prop :=
  a.nt < b.nt ∨ (a.nt = b.nt ∧ (a.prod < b.prod ∨ (a.prod = b.prod ∧ a.cursor < b.cursor)))

/-- In the item set `I`, an item wants to reduce on lookahead `c` for which an earlier item wants
move `m`. -/
def Grammar.Clash (g : Grammar A Ty) (I : Item → Prop) (c : Option Nat) (m : Move) (nt p : Nat) :
    Prop :=
  ∃ it it', I it ∧ I it' ∧ it.Before it' ∧ g.Wants (· = it) c m ∧ g.Wants (· = it') c (.reduce nt p)

/-- The panic for a reduction of production `p` of `nt`, in state `q` on lookahead `c`, that would
override a move (`r`: the state a shift leads to). -/
def Move.fault (q : Nat) (c : Option Nat) (r nt p : Nat) : Move → Fault
  | .shift => .reduceOverShift q c r nt p
  | .reduce nt' p' => .reduceOverReduce q c nt' p' nt p
  | .accept => .reduceOverAccept q c nt p

/-- The panic reports a conflict. -/
def Fault.IsConflict : Fault → Prop
  | .reduceOverShift _ _ _ _ _ | .reduceOverReduce _ _ _ _ _ _ | .reduceOverAccept _ _ _ _ => True
  | _ => False

/-- State `q` of the automaton consists of the items `I`. -/
def Automaton.HasState (a : Automaton) (q : Nat) (I : Item → Prop) : Prop :=
  ∃ st, a.states[q]? = some st ∧ ∀ x, x ∈ st.items ↔ I x

/-- State `q` has no clash. -/
def Grammar.NoClash (g : Grammar A Ty) (a : Automaton) (q : Nat) : Prop :=
  ∀ st, a.states[q]? = some st → ∀ c m nt p, ¬ g.Clash (· ∈ st.items) c m nt p

/-- What a conflict message says: state `q` is the first with a clash; it is entered by reading the
symbols `γ` from an entry point; there, on lookahead `c`, move `m` is wanted (a shift, to state `r`), and
by an item that comes later, reducing production `p` of non-terminal `nt`; both moves are justified by
derivations. -/
inductive Conflict (h : HashOrder) (g : Grammar A Ty) : Fault → Prop
  | mk {a E γ q c r m nt p}
      (ha : generateAutomaton h g (generateFirstTable h g) = .ok a)
      (hE : g.isPublic E = true)
      (hq : a.HasState q (ItemsAt g (generateFirstTable h g) E γ))
      (hr : m = .shift → ∃ t, c = some t ∧
        a.HasState r (ItemsAt g (generateFirstTable h g) E (γ ++ [.terminal t])))
      (hfirst : ∀ q' < q, g.NoClash a q')
      (hc : g.Clash (ItemsAt g (generateFirstTable h g) E γ) c m nt p)
      (hm : g.Wants (g.Valid E γ) c m) (hp : g.Wants (g.Valid E γ) c (.reduce nt p)) :
      Conflict h g (m.fault q c r nt p)

/-- The emitted parser goes from state `q` to state `r` over the symbols `γ` (shifts on terminals,
gotos on non-terminals). -/
inductive Generated.Path (gen : Generated X) (q : Nat) : List Symbol → Nat → Prop
  | nil : gen.Path q [] q
  | shift {γ r t s row} (h : gen.Path q γ r) (hr : gen.action[r]? = some row)
      (ht : t < gen.nTerminals) (hs : row[t]? = some (some (.shift s))) :
      gen.Path q (γ ++ [.terminal t]) s
  | goto {γ r b s row} (h : gen.Path q γ r) (hr : gen.goto[r]? = some row)
      (hs : row[b]? = some (some s)) : gen.Path q (γ ++ [.nonTerminal b]) s

/-- The entry of `ACTION` in state `q` for lookahead `c` (the last column is end of input). -/
def Generated.cell (gen : Generated X) (q : Nat) : Option Nat → Option RtAction
  | some t => ((gen.action[q]?).bind fun row => row[t]?).join
  | none => ((gen.action[q]?).bind fun row => row[gen.nTerminals]?).join

/-- The reason for a panic of the macro. -/
inductive Cause [DecidableEq Ty] (h : HashOrder) (mkPath : String → X)
    (items : List (GrammarItem X Ty)) : Fault → Prop
  /-- `type State` is declared twice -/
  | states (hs : 2 ≤ (itemTypeDefs items).length) : Cause h mkPath items .duplicateState
  /-- `enum Token` is declared twice -/
  | enums (hs : 2 ≤ (itemTokenEnums items).length) : Cause h mkPath items .duplicateTokenEnum
  /-- `enum Token` is missing -/
  | noEnum (hs : itemTokenEnums items = []) : Cause h mkPath items .missingTokenEnum
  /-- the definitions are ill-formed -/
  | defs {t f} (ht : itemTokenEnums items = [t])
      (hc : Complaint (itemNonTerminals items) t.conversions f) : Cause h mkPath items f
  /-- the grammar is too big -/
  | size {t g a f} (ht : itemTokenEnums items = [t])
      (hl : lower mkPath (itemNonTerminals items) t.conversions = .ok g)
      (ha : generateAutomaton h g (generateFirstTable h g) = .ok a)
      (hb : TooBig g a.states.length f) : Cause h mkPath items f
  /-- the grammar has a conflict, and an item comes before the one that wants to reduce -/
  | conflict {t g f} (ht : itemTokenEnums items = [t])
      (hl : lower mkPath (itemNonTerminals items) t.conversions = .ok g)
      (hc : Conflict h g f) : Cause h mkPath items f

/-- The `ACTION` entry makes the parser perform the move (`none`: report a syntax error).  A reduction
names the function of its own production (`Grammar.listing`) and pops one state per symbol. -/
def Performs (g : Grammar A Ty) : Option RtAction → Option Move → Prop
  | none, none => True
  | some (.shift _), some .shift => True
  | some .accept, some .accept => True
  | some (.reduce nt n k), some (.reduce nt' p) =>
    nt = nt' ∧ ∃ pr, g.listing[k]? = some (nt, p, pr) ∧ n = pr.symbols.length
  | _, _ => False

/-- The move is a reduction. -/
def Move.IsReduce : Move → Prop
  | .reduce _ _ => True
  | _ => False

end Parsegen
