import Verif.Spec.Compiled

/-! # Specification: the report of a parser for a language -/

namespace Parsegen

variable {X Ty V W Tok E : Type}

/-- The outcome without the value. -/
def Outcome.report : Outcome V E → Outcome Unit E
  | .ok _ => .ok ()
  | .lexerError e => .lexerError e
  | .parserError f e => .parserError f e
  | .fault f => .fault f

/-- The items of the token iterator with only the names of the terminals. -/
def Compiled.look [DecidableEq Ty] (P : Compiled X Ty V W Tok) (input : Nat → Option (Except E Tok)) (i : Nat) :
    Option (Except E String) :=
  (input i).map (·.map P.cls)

/-- No action panics. -/
def Compiled.Total [DecidableEq Ty] (P : Compiled X Ty V W Tok) : Prop :=
  ∀ d ∈ P.defs, ∀ p ∈ d.productions, ∀ e, p.action = .infallible e → ∀ env w, P.code.run e env w ≠ none

/-- `Reports L terms look o n`: what is to be reported, after `n` calls of `next()`, about the input
`look` by a parser of the language `L` with terminals `terms`:

* `Ok`, if the input is a sentence;
* the first lexer error, if what precedes it is the beginning of a sentence;
* a syntax error at the first terminal with which the input is no longer the beginning of a sentence, or
  at the end, if it is one but not a sentence; with the terminals that could have come instead. -/
inductive Reports (L : List String → Prop) (terms : List String) (look : Nat → Option (Except E String)) :
    Outcome Unit E → Nat → Prop
  | ok (cs : List String) (hr : ∀ (i : Nat) c, cs[i]? = some c → look i = some (.ok c))
      (he : look cs.length = none) (hs : L cs) : Reports L terms look (.ok ()) (cs.length + 1)
  | lexer (cs : List String) (err : E) (hr : ∀ (i : Nat) c, cs[i]? = some c → look i = some (.ok c))
      (he : look cs.length = some (.error err)) (hv : ∃ rest, L (cs ++ rest)) :
      Reports L terms look (.lexerError err) (cs.length + 1)
  | unexpected (cs : List String) (c : String) (names : List String)
      (hr : ∀ (i : Nat) c, cs[i]? = some c → look i = some (.ok c))
      (he : look cs.length = some (.ok c)) (hv : ∃ rest, L (cs ++ rest))
      (hn : ∀ rest, ¬ L (cs ++ c :: rest)) (hs : names.Sublist terms)
      (hm : ∀ t, t ∈ names ↔ ∃ rest, L (cs ++ t :: rest)) :
      Reports L terms look (.parserError c (", ".intercalate names)) (cs.length + 1)
  | ended (cs : List String) (names : List String)
      (hr : ∀ (i : Nat) c, cs[i]? = some c → look i = some (.ok c))
      (he : look cs.length = none) (hv : ∃ rest, L (cs ++ rest)) (hn : ¬ L cs)
      (hs : names.Sublist terms) (hm : ∀ t, t ∈ names ↔ ∃ rest, L (cs ++ t :: rest)) :
      Reports L terms look (.parserError "end-of-input" (", ".intercalate names)) (cs.length + 1)

end Parsegen
