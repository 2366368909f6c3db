import Verif.Spec.Compiled

/-! # Specification: lists and operators -/

namespace Parsegen

variable {X Ty V W Tok E : Type} [DecidableEq Ty]

/-- `P.Seq T seps toks w xs w'`: the tokens `toks` are phrases of the non-terminal `T`, separated by tokens
of the terminals `seps`; evaluated from left to right they have the values `xs` and take the world from `w` to
`w'`. -/
inductive Compiled.Seq (P : Compiled X Ty V W Tok) (T : String) (seps : List String) :
    List Tok → W → List V → W → Prop
  | one {toks w x w'} (h : P.Means [.nonTerminal T] toks w [.nt x] w') : Compiled.Seq P T seps toks w [x] w'
  | more {toks s rest w x w1 xs w'} (h : P.Means [.nonTerminal T] toks w [.nt x] w1)
      (hs : s.map P.cls = seps) (hr : Compiled.Seq P T seps rest w1 xs w') :
      Compiled.Seq P T seps (toks ++ s ++ rest) w (x :: xs) w'

/-- `p` is the production `B seps C`, and its action computes `f` of the values of `B` and `C`. -/
def Compiled.IsJoin (P : Compiled X Ty V W Tok) (p : AstProduction X) (B C : String) (seps : List String)
    (f : V → V → V) : Prop :=
  p.symbols.map (·.plain) = some (.nt B) :: seps.map (fun s => some (.term s)) ++ [some (.nt C)] ∧
  ∃ e, p.action = .infallible e ∧ ∀ a b (s : List Tok) w, s.map P.cls = seps →
    P.code.run e (userEnv p.symbols (.nt a :: (s.map fun t => .tok (P.fields t)) ++ [.nt b])) w =
      some (f a b, w)

/-- `p` is the production `T`, and its action computes `g` of the value of `T`. -/
def Compiled.IsLift (P : Compiled X Ty V W Tok) (p : AstProduction X) (T : String) (g : V → V) : Prop :=
  p.symbols.map (·.plain) = [some (.nt T)] ∧
  ∃ e, p.action = .infallible e ∧ ∀ a w, P.code.run e (userEnv p.symbols [.nt a]) w = some (g a, w)

/-- `p` is the empty production, and its action computes `z`. -/
def Compiled.IsEmpty (P : Compiled X Ty V W Tok) (p : AstProduction X) (z : V) : Prop :=
  p.symbols = [] ∧ ∃ e, p.action = .infallible e ∧ ∀ w, P.code.run e (userEnv [] []) w = some (z, w)

/-- `A = { A seps T => f, T => g }` -/
structure Compiled.LeftRecursive (P : Compiled X Ty V W Tok) (A T : String) (seps : List String)
    (f : V → V → V) (g : V → V) : Prop where
  join : ∃ p ∈ userProds P.defs A, P.IsJoin p A T seps f
  lift : ∃ p ∈ userProds P.defs A, P.IsLift p T g
  only : ∀ p ∈ userProds P.defs A, P.IsJoin p A T seps f ∨ P.IsLift p T g

/-- `A = { T seps A => f, T => g }` -/
structure Compiled.RightRecursive (P : Compiled X Ty V W Tok) (A T : String) (seps : List String)
    (f : V → V → V) (g : V → V) : Prop where
  join : ∃ p ∈ userProds P.defs A, P.IsJoin p T A seps f
  lift : ∃ p ∈ userProds P.defs A, P.IsLift p T g
  only : ∀ p ∈ userProds P.defs A, P.IsJoin p T A seps f ∨ P.IsLift p T g

/-- `A = { A T => f, => z }` -/
structure Compiled.Repeats (P : Compiled X Ty V W Tok) (A T : String) (f : V → V → V) (z : V) : Prop where
  join : ∃ p ∈ userProds P.defs A, P.IsJoin p A T [] f
  empty : ∃ p ∈ userProds P.defs A, P.IsEmpty p z
  only : ∀ p ∈ userProds P.defs A, P.IsJoin p A T [] f ∨ P.IsEmpty p z

end Parsegen
