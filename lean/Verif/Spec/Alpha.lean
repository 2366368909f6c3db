import Verif.Spec.Compiled
import Verif.Spec.Actions

/-! # Specification: programs that differ in types, binders and the wording of actions -/

namespace Parsegen

variable {X X' Ty Ty' V W Tok : Type}

/-- Values a symbol can have: a tuple of captured fields for a terminal, a result for a
non-terminal. -/
def HasKind : Option USym → BVal V → Prop
  | some (.term _), .tok _ => True
  | some (.nt _), .nt _ => True
  | _, _ => False

/-- The two actions, each with the names of its own production, do the same: given values for the
symbols, they panic alike or have the same result and the same effect. -/
def SameAction (u : UserCode X V W) (u' : UserCode X' V W) (p : AstProduction X)
    (p' : AstProduction X') : Prop :=
  match p.action, p'.action with
  | .infallible e, .infallible e' =>
    ∀ vals w, List.Forall₂ (fun s v => HasKind s.plain v) p.symbols vals →
      u.run e (userEnv p.symbols vals) w = u'.run e' (userEnv p'.symbols vals) w
  | .fallible _, .fallible _ => True
  | _, _ => False

/-- The same production with other binders (names, `mut`, with and without) and an action that does
the same. -/
structure AlphaProduction (u : UserCode X V W) (u' : UserCode X' V W) (p : AstProduction X)
    (p' : AstProduction X') : Prop where
  symbols : p.symbols.map (·.plain) = p'.symbols.map (·.plain)
  action : SameAction u u' p p'

/-- The same definition with possibly another type. -/
structure AlphaDefinition (u : UserCode X V W) (u' : UserCode X' V W) (d : AstNonTerminal X Ty)
    (d' : AstNonTerminal X' Ty') : Prop where
  isPub : d.isPub = d'.isPub
  name : d.name = d'.name
  productions : List.Forall₂ (AlphaProduction u u') d.productions d'.productions

mutual
/-- Replace the types of the `<T>` in a pattern. -/
def Pattern.mapTy (f : Ty → Ty') : Pattern Ty → Pattern Ty'
  | .enum p ps => .enum p (Pattern.mapTyList f ps)
  | .struct p fs dots => .struct p (Pattern.mapTyFields f fs) dots
  | .tuple ps => .tuple (Pattern.mapTyList f ps)
  | .path p => .path p
  | .underscore => .underscore
  | .dotDot => .dotDot
  | .lit s => .lit s
  | .choose ty => .choose (f ty)
/-- In components. -/
def Pattern.mapTyList (f : Ty → Ty') : List (Pattern Ty) → List (Pattern Ty')
  | [] => []
  | p :: ps => p.mapTy f :: Pattern.mapTyList f ps
/-- In fields. -/
def Pattern.mapTyFields (f : Ty → Ty') : List (String × Pattern Ty) → List (String × Pattern Ty')
  | [] => []
  | (n, p) :: fs => (n, p.mapTy f) :: Pattern.mapTyFields f fs
end

/-- The same terminal declaration with possibly other types. -/
structure AlphaConversion (c : Conversion Ty) (c' : Conversion Ty') : Prop where
  from_ : c.from_ = c'.from_
  to : c.to.mapTy (fun _ => ()) = c'.to.mapTy (fun _ => ())

/-- The same item up to types, binders and the wording of actions. -/
inductive AlphaItem (u : UserCode X V W) (u' : UserCode X' V W) :
    GrammarItem X Ty → GrammarItem X' Ty' → Prop
  | typeDef (ty ty') : AlphaItem u u' (.typeDef ty) (.typeDef ty')
  | tokenEnum {t t'} (h : List.Forall₂ AlphaConversion t.conversions t'.conversions) :
      AlphaItem u u' (.tokenEnum t) (.tokenEnum t')
  | nonTerminal {d d'} (h : AlphaDefinition u u' d d') :
      AlphaItem u u' (.nonTerminal d) (.nonTerminal d')

/-- The same program up to types, binders and the wording of actions. -/
structure Compiled.Alpha [DecidableEq Ty] [DecidableEq Ty'] (P : Compiled X Ty V W Tok)
    (P' : Compiled X' Ty' V W Tok) : Prop where
  order : P.order = P'.order
  items : List.Forall₂ (AlphaItem P.code P'.code) P.items P'.items
  toR : P.toR = P'.toR
  inj : P.inj = P'.inj

/-! ## Programs with the same rules -/

variable {V' W' : Type}

/-- A production without binders and action: the symbols, and whether it is written with `=>?`. -/
def AstProduction.rule (p : AstProduction X) : List (Option USym) × Bool :=
  (p.symbols.map (·.plain), p.shape.2)

/-- The same item up to types, binders and actions. -/
inductive SameRules : GrammarItem X Ty → GrammarItem X' Ty' → Prop
  | typeDef (ty ty') : SameRules (.typeDef ty) (.typeDef ty')
  | tokenEnum {t t'} (h : List.Forall₂ AlphaConversion t.conversions t'.conversions) :
      SameRules (.tokenEnum t) (.tokenEnum t')
  | nonTerminal {d d'} (hp : d.isPub = d'.isPub) (hn : d.name = d'.name)
      (hr : d.productions.map (·.rule) = d'.productions.map (·.rule)) :
      SameRules (.nonTerminal d) (.nonTerminal d')

/-- Two compiled programs with the same grammar rules and token declarations; types, binders and
actions can be completely different. -/
structure Compiled.SameLanguage [DecidableEq Ty] [DecidableEq Ty'] (P : Compiled X Ty V W Tok)
    (Q : Compiled X' Ty' V' W' Tok) : Prop where
  order : P.order = Q.order
  items : List.Forall₂ SameRules P.items Q.items
  toR : P.toR = Q.toR

end Parsegen
