import Verif.Spec.Compiled
import Verif.Spec.Alpha

/-! # Specification: programs whose actions correspond

Two programs with the same rules, run on corresponding tokens with corresponding actions.  What
corresponds to what is up to the user: a relation between the values of each non-terminal, between the
values captured from each terminal, and between the states the actions work on. -/

namespace Parsegen

variable {X X' Ty Ty' V V' W W' Tok Tok' E E' : Type}

/-- What corresponds to what. -/
structure Rels (V V' W W' : Type) where
  /-- values of the non-terminal with this name -/
  nt : String → V → V' → Prop
  /-- values captured from tokens of the terminal with this name -/
  term : String → List V → List V' → Prop
  /-- states of the world -/
  world : W → W' → Prop

/-- Corresponding values of a symbol. -/
def Rels.sym (R : Rels V V' W W') : USym → BVal V → BVal V' → Prop
  | .nt n, .nt v, .nt v' => R.nt n v v'
  | .term t, .tok fs, .tok fs' => R.term t fs fs'
  | _, _, _ => False

/-- Corresponding values of the symbols of a production. -/
inductive Rels.Vals (R : Rels V V' W W') : List AstSymbol → List (BVal V) → List (BVal V') → Prop
  | nil : R.Vals [] [] []
  | cons {s : AstSymbol} {x : USym} {v : BVal V} {v' : BVal V'} {ss vs vs'} (hs : s.plain = some x)
      (hv : R.sym x v v') (h : R.Vals ss vs vs') : R.Vals (s :: ss) (v :: vs) (v' :: vs')

/-- Both panic, or both return, with corresponding values and states. -/
def Rels.Results (R : Rels V V' W W') (n : String) : Option (V × W) → Option (V' × W') → Prop
  | none, none => True
  | some (v, w), some (v', w') => R.nt n v v' ∧ R.world w w'
  | _, _ => False

/-- The actions of two productions of `n` take corresponding values and states to corresponding ones. -/
def Rels.Actions (R : Rels V V' W W') (u : UserCode X V W) (u' : UserCode X' V' W') (n : String)
    (p : AstProduction X) (p' : AstProduction X') : Prop :=
  match p.action, p'.action with
  | .infallible e, .infallible e' => ∀ vals vals' w w', R.Vals p.symbols vals vals' → R.world w w' →
      R.Results n (u.run e (userEnv p.symbols vals) w) (u'.run e' (userEnv p'.symbols vals') w')
  | .fallible _, .fallible _ => True
  | _, _ => False

/-- The same definition with corresponding actions. -/
structure Rels.Definition (R : Rels V V' W W') (u : UserCode X V W) (u' : UserCode X' V' W')
    (d : AstNonTerminal X Ty) (d' : AstNonTerminal X' Ty') : Prop where
  isPub : d.isPub = d'.isPub
  name : d.name = d'.name
  productions : List.Forall₂ (fun p p' => p.symbols.map (·.plain) = p'.symbols.map (·.plain) ∧
    R.Actions u u' d.name p p') d.productions d'.productions

/-- Two programs with the same rules, terminals of the same names (the patterns, the token types, the
types, binders and actions can be completely different), and corresponding actions. -/
structure Compiled.Corresponds [DecidableEq Ty] [DecidableEq Ty'] (R : Rels V V' W W')
    (P : Compiled X Ty V W Tok) (Q : Compiled X' Ty' V' W' Tok') : Prop where
  order : P.order = Q.order
  terminals : P.tokens.conversions.map (·.from_) = Q.tokens.conversions.map (·.from_)
  defs : List.Forall₂ (R.Definition P.code Q.code) P.defs Q.defs

/-- Corresponding items of the two iterators: tokens of the same terminal with corresponding captured
values, or corresponding lexer errors, or the end. -/
def CorrespondingItems [DecidableEq Ty] [DecidableEq Ty'] (R : Rels V V' W W') (RE : E → E' → Prop)
    (P : Compiled X Ty V W Tok) (Q : Compiled X' Ty' V' W' Tok') :
    Option (Except E Tok) → Option (Except E' Tok') → Prop
  | none, none => True
  | some (.error e), some (.error e') => RE e e'
  | some (.ok t), some (.ok t') => P.cls t = Q.cls t' ∧ R.term (P.cls t) (P.fields t) (Q.fields t')
  | _, _ => False

/-- Corresponding outcomes: `Ok` of corresponding values of the non-terminal, corresponding lexer
errors, the same syntax error, or the same panic. -/
def CorrespondingOutcomes (r : V → V' → Prop) (RE : E → E' → Prop) : Outcome V E → Outcome V' E' → Prop
  | .ok v, .ok v' => r v v'
  | .lexerError e, .lexerError e' => RE e e'
  | .parserError f x, .parserError f' x' => f = f' ∧ x = x'
  | .fault f, .fault f' => f = f'
  | _, _ => False

/-! ## Special cases -/

/-- The outcome with the lexer error converted. -/
def Outcome.mapError (f : E → E') : Outcome V E → Outcome V E'
  | .ok v => .ok v
  | .lexerError e => .lexerError (f e)
  | .parserError found expected => .parserError found expected
  | .fault x => .fault x

/-- Conditions on the values of non-terminals, on the values captured from terminals and on the state
the actions work on. -/
structure Invariant (V W : Type) where
  nt : String → V → Prop
  term : String → List V → Prop
  world : W → Prop

/-- The condition on the value of a symbol. -/
def Invariant.sym (I : Invariant V W) : Option USym → BVal V → Prop
  | some (.nt n), .nt v => I.nt n v
  | some (.term t), .tok fs => I.term t fs
  | _, _ => False

/-- Every action of the program, given values and a state as required, leaves a value and a state as
required (or panics). -/
def Compiled.Preserves [DecidableEq Ty] (P : Compiled X Ty V W Tok) (I : Invariant V W) : Prop :=
  ∀ d ∈ P.defs, ∀ p ∈ d.productions, ∀ e, p.action = .infallible e → ∀ vals w v w',
    List.Forall₂ (fun s v => I.sym s.plain v) p.symbols vals → I.world w →
    P.code.run e (userEnv p.symbols vals) w = some (v, w') → I.nt d.name v ∧ I.world w'

end Parsegen
