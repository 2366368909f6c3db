import Verif.Spec.Layered

/-! # Specification: expressions as they are written, and what they mean

`9 - (2 ^ -1 ^ 3) + 1` -/

namespace Parsegen

variable {X Ty V W Tok : Type} [DecidableEq Ty]

mutual

/-- An operand. -/
inductive Operand (Tok : Type) where
  | leaf (t : Tok)
  | pre (s : Tok) (x : Operand Tok)
  | paren (l : Tok) (x : Written Tok) (r : Tok)

/-- Operands with operators between them, as they are written: nothing says how they are grouped. -/
inductive Written (Tok : Type) where
  | one (x : Operand Tok)
  | more (x : Operand Tok) (s : Tok) (rest : Written Tok)

end

mutual

/-- The tokens. -/
def Operand.tokens : Operand Tok → List Tok
  | .leaf t => [t]
  | .pre s x => s :: x.tokens
  | .paren l x r => l :: (x.tokens ++ [r])

/-- The tokens. -/
def Written.tokens : Written Tok → List Tok
  | .one x => x.tokens
  | .more x s rest => x.tokens ++ s :: rest.tokens

end

/-- Which tokens are what, and what they compute. -/
structure Calculator (V Tok : Type) where
  /-- The terminal of a token. -/
  cls : Tok → String
  levels : List (Level V)
  leaves : List String
  pres : List String
  lp : String
  rp : String
  /-- The value of a token that is an operand. -/
  leafVal : Tok → V
  /-- What a prefix operator computes. -/
  preVal : String → V → V

mutual

/-- The tokens of an operand are what they should be. -/
def Operand.Ok (c : Calculator V Tok) : Operand Tok → Prop
  | .leaf t => c.cls t ∈ c.leaves
  | .pre s x => c.cls s ∈ c.pres ∧ x.Ok c
  | .paren l x r => c.cls l = c.lp ∧ x.Ok c ∧ c.cls r = c.rp

/-- The tokens of an expression are what they should be. -/
def Written.Ok (c : Calculator V Tok) : Written Tok → Prop
  | .one x => x.Ok c
  | .more x s rest => x.Ok c ∧ c.cls s ∈ Levels.ops c.levels ∧ rest.Ok c

end

mutual

/-- The value of an operand.  Prefix operators bind tightest. -/
def Operand.val (c : Calculator V Tok) : Operand Tok → V
  | .leaf t => c.leafVal t
  | .pre s x => c.preVal (c.cls s) (x.val c)
  | .paren _ x _ => Levels.value c.levels (x.parts c).1 (x.parts c).2

/-- The values of the operands, with the operators between them. -/
def Written.parts (c : Calculator V Tok) : Written Tok → V × List (String × V)
  | .one x => (x.val c, [])
  | .more x s rest => (x.val c, (c.cls s, (rest.parts c).1) :: (rest.parts c).2)

end

/-- The value of an expression, by precedence and associativity. -/
def Written.val (c : Calculator V Tok) (x : Written Tok) : V :=
  Levels.value c.levels (x.parts c).1 (x.parts c).2

/-- `p` is the production `t`, and its action computes `f` of the token. -/
def Compiled.IsLeaf (P : Compiled X Ty V W Tok) (p : AstProduction X) (t : String) (f : Tok → V) : Prop :=
  p.symbols.map (·.plain) = [some (.term t)] ∧
  ∃ e, p.action = .infallible e ∧ ∀ s w, P.cls s = t →
    P.code.run e (userEnv p.symbols [.tok (P.fields s)]) w = some (f s, w)

/-- `p` is the production `t A`, and its action computes `f` of the value of `A`. -/
def Compiled.IsPrefix (P : Compiled X Ty V W Tok) (p : AstProduction X) (t A : String) (f : V → V) : Prop :=
  p.symbols.map (·.plain) = [some (.term t), some (.nt A)] ∧
  ∃ e, p.action = .infallible e ∧ ∀ s a w, P.cls s = t →
    P.code.run e (userEnv p.symbols [.tok (P.fields s), .nt a]) w = some (f a, w)

/-- `p` is the production `lp A rp`, and its action returns the value of `A`. -/
def Compiled.IsParens (P : Compiled X Ty V W Tok) (p : AstProduction X) (lp A rp : String) : Prop :=
  p.symbols.map (·.plain) = [some (.term lp), some (.nt A), some (.term rp)] ∧
  ∃ e, p.action = .infallible e ∧ ∀ s a s' w, P.cls s = lp → P.cls s' = rp →
    P.code.run e (userEnv p.symbols [.tok (P.fields s), .nt a, .tok (P.fields s')]) w = some (a, w)

/-- The program is the calculator `c`, with operands defined by `atom`: its definitions have the rules of the
layered grammar, and its actions compute what `c` says. -/
structure Compiled.IsCalculator (P : Compiled X Ty V W Tok) (c : Calculator V Tok) (atom : String) : Prop where
  cls : P.cls = c.cls
  layered : Layered P.defs c.levels atom c.leaves c.pres c.lp c.rp
  tower : P.Tower atom c.levels
  leaf : ∀ t ∈ c.leaves, ∃ p ∈ userProds P.defs atom, P.IsLeaf p t c.leafVal
  pre : ∀ t ∈ c.pres, ∃ p ∈ userProds P.defs atom, P.IsPrefix p t atom (c.preVal t)
  parens : ∃ p ∈ userProds P.defs atom, P.IsParens p c.lp (Levels.name atom c.levels) c.rp

/-- Every terminal that it uses is the terminal of some token. -/
def Calculator.Inhabited (c : Calculator V Tok) : Prop :=
  ∀ t, t ∈ Levels.ops c.levels ∨ t ∈ c.leaves ∨ t ∈ c.pres ∨ t = c.lp ∨ t = c.rp → ∃ s, c.cls s = t

/-- The expressions, as sequences of terminals. -/
def Calculator.Sentence (c : Calculator V Tok) (x : List String) : Prop :=
  ∃ y : Written Tok, y.Ok c ∧ y.tokens.map c.cls = x

end Parsegen
