import Verif.Model.Grammar

/-! # Specification: derivations and evaluation for a (lowered) grammar

Nothing here mentions items, automata or tables. -/

namespace Parsegen

variable {A Ty : Type}

/-- Production number `p` of non-terminal `nt` has right-hand side `α`. -/
def Grammar.HasProd (g : Grammar A Ty) (nt p : Nat) (α : List Symbol) : Prop :=
  ∃ n pr, g.nonTerminals[nt]? = some n ∧ n.productions[p]? = some pr ∧
    α = pr.symbols.map (·.symbol)

/-- One rewriting step. -/
inductive Grammar.Produces (g : Grammar A Ty) : List Symbol → List Symbol → Prop
  | mk (u v α : List Symbol) (nt p : Nat) (h : g.HasProd nt p α) :
      g.Produces (u ++ .nonTerminal nt :: v) (u ++ α ++ v)

/-- `u ⇒* v`. -/
inductive Grammar.Derives (g : Grammar A Ty) : List Symbol → List Symbol → Prop
  | refl (u) : g.Derives u u
  | tail {u v w} (h : g.Derives u v) (s : g.Produces v w) : g.Derives u w

/-- `w` (a string of terminal numbers) is a sentence of non-terminal `nt`. -/
def Grammar.Sentence (g : Grammar A Ty) (nt : Nat) (w : List Nat) : Prop :=
  g.Derives [.nonTerminal nt] (w.map .terminal)

/-- A way to give values to derivations: `leaf` for tokens, `node nt p children` for a use of
production `p` of `nt`; `W` is a state threaded through, `none` a failing action. -/
structure Alg (Tok Val W : Type) where
  leaf : Tok → Val
  node : Nat → Nat → List Val → W → Option (Val × W)

variable {Tok Val W : Type}

/-- `Eval g ti alg syms toks w vals w'`: the symbol string `syms` derives exactly the tokens `toks`
(`ti` gives the terminal number of a token), and evaluating that derivation bottom-up, children
left to right before their parent, starting in world `w`, yields the values `vals` (one per symbol)
and ends in world `w'`. -/
inductive Eval (g : Grammar A Ty) (ti : Tok → Nat) (alg : Alg Tok Val W) :
    List Symbol → List Tok → W → List Val → W → Prop
  | nil (w) : Eval g ti alg [] [] w [] w
  | term {t i ss ts w vs w'} (ht : ti t = i) (h : Eval g ti alg ss ts w vs w') :
      Eval g ti alg (.terminal i :: ss) (t :: ts) w (alg.leaf t :: vs) w'
  | nt {b p α t1 t2 w us w1 v w2 ss vs w3} (hp : g.HasProd b p α)
      (hc : Eval g ti alg α t1 w us w1) (ha : alg.node b p us w1 = some (v, w2))
      (h : Eval g ti alg ss t2 w2 vs w3) :
      Eval g ti alg (.nonTerminal b :: ss) (t1 ++ t2) w (v :: vs) w3

/-- The algebra without values. -/
def Alg.unit : Alg Tok Unit Unit := ⟨fun _ => (), fun _ _ _ _ => some ((), ())⟩

/-- `syms` derives the tokens `toks`. -/
def Grammar.Yields (g : Grammar A Ty) (ti : Tok → Nat) (syms : List Symbol) (toks : List Tok) :
    Prop := ∃ vs, Eval g ti Alg.unit syms toks () vs ()

/-- Derivation trees. -/
inductive Tree (Tok : Type) where
  | leaf (t : Tok)
  | node (nt p : Nat) (children : List (Tree Tok))

/-- The algebra that builds derivation trees. -/
def Alg.tree : Alg Tok (Tree Tok) Unit := ⟨.leaf, fun nt p cs _ => some (.node nt p cs, ())⟩

/-- `tr` is a derivation tree of the tokens `toks` from symbol `s`. -/
def Grammar.IsTree (g : Grammar A Ty) (ti : Tok → Nat) (s : Symbol) (toks : List Tok)
    (tr : Tree Tok) : Prop := Eval g ti Alg.tree [s] toks () [tr] ()

/-- `nt` derives the empty string. -/
def Grammar.Nullable (g : Grammar A Ty) (nt : Nat) : Prop := g.Derives [.nonTerminal nt] []

/-- `nt` derives a sentential form beginning with terminal `t`. -/
def Grammar.Begins (g : Grammar A Ty) (nt t : Nat) : Prop :=
  ∃ x, g.Derives [.nonTerminal nt] (.terminal t :: x)

end Parsegen
