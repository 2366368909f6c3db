import Verif.Model.Messages
import Verif.Spec.Reject
import Verif.Spec.UserLR

/-! # Specification: what a conflict message claims about the user's grammar -/

namespace Parsegen

variable {X Ty : Type}

/-- `j` is the number of the definition of `name`: definitions are counted from 0, `pub` definitions
twice. -/
def NumberOf (defs : List (AstNonTerminal X Ty)) (j : Nat) (name : String) : Prop :=
  ∃ l1 d l2, defs = l1 ++ d :: l2 ∧ d.name = name ∧ j = loweredCount l1

/-- How a message prints a lookahead: `Some("x")` or `None`. -/
def laText (dbg : String → String) : Option String → String
  | some t => "Some(" ++ dbg t ++ ")"
  | none => "None"

/-- The text of a message: `(q, la): Overriding OLD with NEW`. -/
def conflictText (q : Nat) (la old new : String) : String :=
  "(" ++ toString q ++ ", " ++ la ++ "): Overriding " ++ old ++ " with " ++ new

/-- `Reduce(nt, p)` -/
def reduceText (nt p : Nat) : String := "Reduce(" ++ toString nt ++ ", " ++ toString p ++ ")"

/-- The texts of conflict messages that are true.  For some `pub` definition, some symbols `γ` that have
been recognised and the next terminal (or end of input) named in the message, both moves named in it are
right; and they are different. -/
inductive ConflictText (defs : List (AstNonTerminal X Ty)) (terms : List String)
    (dbg : String → String) : String → Prop
  /-- `Overriding Shift(r) with Reduce(nt, p)` -/
  | shift {d γ q t nt p name} {r : Nat} (hd : d ∈ defs) (hpub : d.isPub = true) (ht : t ∈ terms)
      (hn : NumberOf defs nt name)
      (h1 : UWants defs d.name γ (some t) .shift)
      (h2 : UWants defs d.name γ (some t) (.reduce name p)) :
      ConflictText defs terms dbg
        (conflictText q (laText dbg (some t)) ("Shift(" ++ toString r ++ ")") (reduceText nt p))
  /-- `Overriding Reduce(nt', p') action with Reduce(nt, p)` -/
  | reduce {d γ q la nt p name nt' p' name'} (hd : d ∈ defs) (hpub : d.isPub = true)
      (ht : ∀ t ∈ la, t ∈ terms) (hn : NumberOf defs nt name) (hn' : NumberOf defs nt' name')
      (hlt : nt' < nt ∨ nt' = nt ∧ p' < p) (hne : name' ≠ name ∨ p' ≠ p)
      (h1 : UWants defs d.name γ la (.reduce name' p'))
      (h2 : UWants defs d.name γ la (.reduce name p)) :
      ConflictText defs terms dbg
        (conflictText q (laText dbg la) (reduceText nt' p' ++ " action") (reduceText nt p))
  /-- `Overriding Accept action with Reduce(nt, p)` -/
  | accept {d q nt p name} (hd : d ∈ defs) (hpub : d.isPub = true) (hn : NumberOf defs nt name)
      (h2 : UWants defs d.name [.nt d.name] none (.reduce name p)) :
      ConflictText defs terms dbg
        (conflictText q (laText dbg none) "Accept action" (reduceText nt p))

/-- The texts of the macro's panics that are true of its input. -/
inductive TrueText (items : List (GrammarItem X Ty)) (dbg : String → String) : String → Prop
  | states (h : 2 ≤ (itemTypeDefs items).length) :
      TrueText items dbg "`type State` is declared multiple times"
  | enums (h : 2 ≤ (itemTokenEnums items).length) :
      TrueText items dbg "`enum Token` is declared multiple times"
  | noEnum (h : itemTokenEnums items = []) :
      TrueText items dbg "Token type (`enum Token`) is not defined"
  /-- two entries of the token enum have the name `t` -/
  | terminal {e l1 c l2 c'} (he : itemTokenEnums items = [e]) (h : e.conversions = l1 ++ c :: l2)
      (hc : c' ∈ l1) (h' : c'.from_ = c.from_) :
      TrueText items dbg ("Terminal " ++ dbg c.from_ ++ " defined multiple times")
  /-- `n` is used in a production and no definition is called so -/
  | nonTerminal {s n} (h : Occurs (itemNonTerminals items) s) (hs : s.plain = some (.nt n))
      (hn : ∀ a ∈ itemNonTerminals items, a.name ≠ n) :
      TrueText items dbg ("Non-terminal not defined: " ++ n)
  /-- `t` is used in a production and not in the token enum (the text says "non-terminal") -/
  | unknown {e s t} (he : itemTokenEnums items = [e]) (h : Occurs (itemNonTerminals items) s)
      (hs : s.plain = some (.term t)) (hn : ∀ c ∈ e.conversions, c.from_ ≠ t) :
      TrueText items dbg ("Unknown non-terminal: " ++ dbg t)
  | repeated {s} (h : Occurs (itemNonTerminals items) s) (hs : s.plain = none) :
      TrueText items dbg "not yet implemented: Repeat symbol not supported yet"
  | fallible {a p e} (ha : a ∈ itemNonTerminals items) (hp : p ∈ a.productions)
      (h : p.action = .fallible e) :
      TrueText items dbg "not yet implemented: Fallible actions not supported yet"
  | conflict {e text} (he : itemTokenEnums items = [e])
      (h : ConflictText (itemNonTerminals items) (e.conversions.map (·.from_)) dbg text) :
      TrueText items dbg text

end Parsegen
