import Verif.Model.Ast
import Verif.Model.Runtime
import Batteries.Data.List.Basic

/-! # Specification: the language and the values of a grammar as the user wrote it

Everything here is in terms of the names in the `parser!` input: no indices, no lowered grammar. -/

namespace Parsegen

variable {X Ty V W Tok Val : Type}

/-- A symbol without its binders. -/
inductive USym where
  | term (name : String)
  | nt (name : String)
deriving DecidableEq, Repr

/-- The symbol inside any number of binders `<x:..>`; repetitions have no meaning (they are rejected
by the macro). -/
def AstSymbol.plain : AstSymbol → Option USym
  | .terminal s => some (.term s)
  | .nonTerminal n => some (.nt n)
  | .repeat_ _ _ => none
  | .named _ s => s.plain

/-- The binder of a symbol, with its `mut`: in `<x:<mut y:S>>` the innermost one, `mut y`. -/
def AstSymbol.boundVar : AstSymbol → Option Name
  | .named b s => some (s.boundVar.getD b)
  | _ => none

/-- The name a symbol is bound to: in `<x:<y:S>>` the innermost one, `y`. -/
def AstSymbol.boundName : AstSymbol → Option String
  | .named b s => some (s.boundName.getD b.name)
  | _ => none

/-- The productions of non-terminal `name`: those of all definitions of that name, in order. -/
def userProds (asts : List (AstNonTerminal X Ty)) (name : String) : List (AstProduction X) :=
  (asts.filter fun a => a.name == name).flatMap (·.productions)

/-- One rewriting step of the user's grammar. -/
inductive UProduces (asts : List (AstNonTerminal X Ty)) : List USym → List USym → Prop
  | mk (l r rhs : List USym) (name : String) (p : AstProduction X) (hp : p ∈ userProds asts name)
      (hs : p.symbols.map (·.plain) = rhs.map some) :
      UProduces asts (l ++ .nt name :: r) (l ++ rhs ++ r)

/-- `l ⇒* r` in the user's grammar. -/
inductive UDerives (asts : List (AstNonTerminal X Ty)) : List USym → List USym → Prop
  | refl (l) : UDerives asts l l
  | tail {l m r} (h : UDerives asts l m) (s : UProduces asts m r) : UDerives asts l r

/-- The terminal names `w` form a sentence of non-terminal `name`. -/
def USentence (asts : List (AstNonTerminal X Ty)) (name : String) (w : List String) : Prop :=
  UDerives asts [.nt name] (w.map .term)

/-- A way to give values to derivations of the user's grammar: `node name i p children` for a use of
`p`, the `i`-th production of `name`. -/
structure UAlg (X Tok Val W : Type) where
  leaf : Tok → Val
  node : String → Nat → AstProduction X → List Val → W → Option (Val × W)

/-- `UEval asts cls alg syms toks w vals w'`: the symbols `syms` derive exactly the tokens `toks`
(`cls` gives the terminal name of a token), and evaluating that derivation bottom-up, every node
exactly once, children left to right before their parent, starting in world `w`, yields the values
`vals` (one per symbol) and ends in world `w'`. -/
inductive UEval (asts : List (AstNonTerminal X Ty)) (cls : Tok → String) (alg : UAlg X Tok Val W) :
    List AstSymbol → List Tok → W → List Val → W → Prop
  | nil (w) : UEval asts cls alg [] [] w [] w
  | term {s t ss ts w vs w'} (hs : s.plain = some (.term (cls t)))
      (h : UEval asts cls alg ss ts w vs w') :
      UEval asts cls alg (s :: ss) (t :: ts) w (alg.leaf t :: vs) w'
  | nt {s name i p t1 t2 w us w1 v w2 ss vs w3} (hs : s.plain = some (.nt name))
      (hp : (userProds asts name)[i]? = some p)
      (hc : UEval asts cls alg p.symbols t1 w us w1)
      (ha : alg.node name i p us w1 = some (v, w2))
      (h : UEval asts cls alg ss t2 w2 vs w3) :
      UEval asts cls alg (s :: ss) (t1 ++ t2) w (v :: vs) w3

/-- The variables of an action: `n` is the value of the *leftmost* symbol bound to `n`. -/
def userEnv : List AstSymbol → List (BVal V) → Env V
  | s :: ss, v :: vs => fun n => if s.boundName = some n then some v else userEnv ss vs n
  | _, _ => fun _ => none

/-- The values computed by the user's semantic actions; `fields t` are the fields captured from
token `t`.  (Fallible actions are rejected by the macro.) -/
def userValues (u : UserCode X V W) (fields : Tok → List V) : UAlg X Tok (BVal V) W where
  leaf t := .tok (fields t)
  node _ _ p vs w :=
    match p.action with
    | .infallible e => (u.run e (userEnv p.symbols vs) w).map fun r => (.nt r.1, r.2)
    | .fallible _ => none

/-- Derivation trees of the user's grammar: `node name i children` uses production `i` of `name`. -/
inductive UTree (Tok : Type) where
  | leaf (t : Tok)
  | node (name : String) (i : Nat) (children : List (UTree Tok))

/-- The algebra that builds derivation trees. -/
def userTrees : UAlg X Tok (UTree Tok) Unit :=
  ⟨.leaf, fun name i _ cs _ => some (.node name i cs, ())⟩

/-- `tr` is a derivation tree of the tokens `toks` from non-terminal `name`. -/
def IsUTree (asts : List (AstNonTerminal X Ty)) (cls : Tok → String) (name : String)
    (toks : List Tok) (tr : UTree Tok) : Prop :=
  UEval asts cls userTrees [.nonTerminal name] toks () [tr] ()

mutual
/-- The productions used in a derivation tree, children left to right before their parent. -/
def UTree.postorder : UTree Tok → List (String × Nat)
  | .leaf _ => []
  | .node name i cs => UTree.postorderList cs ++ [(name, i)]
/-- For a list of trees, left to right. -/
def UTree.postorderList : List (UTree Tok) → List (String × Nat)
  | [] => []
  | t :: ts => t.postorder ++ UTree.postorderList ts
end

/-- The lowered symbol `b` stands for the user's symbol `s`, where `num` numbers the user's
non-terminals and terminals are numbered by their position in `terms`. -/
def SameSymbol (num : String → Option Nat) (terms : List String) (s : AstSymbol) (b : BoundSymbol) :
    Prop :=
  b.binder = s.boundVar ∧
    match s.plain, b.symbol with
    | some (.nt n), .nonTerminal i => num n = some i
    | some (.term t), .terminal i => terms[i]? = some t
    | _, _ => False

/-- The lowered production `q` stands for the user's production `p`. -/
def SameProduction (num : String → Option Nat) (terms : List String) (p : AstProduction X)
    (q : Production X) : Prop :=
  List.Forall₂ (SameSymbol num terms) p.symbols q.symbols ∧ p.action = .infallible q.action

/-- The number of lowered non-terminals: an extra one for every `pub` definition. -/
def loweredCount (asts : List (AstNonTerminal X Ty)) : Nat :=
  asts.length + (asts.filter (·.isPub)).length

end Parsegen
