import Verif.Spec.FollowSets
import Verif.Model.LR0
import Verif.Spec.Valid

/-! # Specification: LR(0) items, and SLR(1) grammars

Start symbol is non-terminal 0 (`S' → S`). -/

namespace Parsegen

variable {A Ty : Type}

/-- Having read the symbols `δ` (terminals, and non-terminals standing for what has been reduced to them),
non-terminal `B` can be expected next. -/
inductive Grammar.Expects (g : Grammar A Ty) : List Symbol → Nat → Prop
  | root : g.Expects [] 0
  | child {δ B p α C β} (h : g.Expects δ B) (hp : g.HasProd B p (α ++ .nonTerminal C :: β)) :
      g.Expects (δ ++ α) C

/-- The LR(0) item `[B → α . β]` (production `p` of `B`, `c` symbols before the dot) is valid for `γ`. -/
def Grammar.Valid0 (g : Grammar A Ty) (γ : List Symbol) (B p c : Nat) : Prop :=
  ∃ δ α β, g.Expects δ B ∧ g.HasProd B p (α ++ β) ∧ c = α.length ∧ γ = δ ++ α

/-- Reading the symbols `γ` leads from state 0 to state `q`. -/
inductive Path0 (states : List LR1State) : List Symbol → Nat → Prop
  | nil : Path0 states [] 0
  | snoc {γ q st X r} (h : Path0 states γ q) (hq : states[q]? = some st) (hr : st.goto.get? X = some r) :
      Path0 states (γ ++ [X]) r

/-- `c` (a terminal, or end of input for `none`) comes after `a` in a sentential form: of any non-terminal
if `c` is a terminal, of the start symbol if `c` is the end of the input. -/
def Grammar.MayFollow (g : Grammar A Ty) (a : Nat) (c : Option Nat) : Prop :=
  ∃ S, (c = none → S = 0) ∧ g.InFollow S a c

/-- The moves of an SLR(1) parser that has read `γ` and sees `c`. -/
def Grammar.SLRMove (g : Grammar A Ty) (γ : List Symbol) (c : Option Nat) : Move → Prop
  | .shift => ∃ B p α t β, g.Valid0 γ B p α.length ∧ g.HasProd B p (α ++ .terminal t :: β) ∧ c = some t
  | .reduce B p => ∃ α, g.Valid0 γ B p α.length ∧ g.HasProd B p α ∧ B ≠ 0 ∧ g.MayFollow B c
  | .accept => g.Valid0 γ 0 0 1 ∧ c = none

/-- The grammar is SLR(1). -/
def Grammar.IsSLR1 (g : Grammar A Ty) : Prop :=
  ∀ γ c m m', g.SLRMove γ c m → g.SLRMove γ c m' → m = m'

end Parsegen
