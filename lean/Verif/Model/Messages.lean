import Verif.Model.Basic

/-! # Model of the texts of the macro's panics (src/lower.rs, src/lib.rs, src/lr_common.rs)

They are what the user sees as compile-time errors.  `dbg` is what `{:?}` prints for a string (part of
the standard library), `terms` are the terminals of the grammar, in order. -/

namespace Parsegen

/-- `{:?}` of `grammar.get_terminal(token)` (lr_common.rs:68, 90); an index out of bounds, which would
be another panic, is printed as `?` (excluded by `c57_truth`). -/
def showTerm (dbg : String → String) (terms : List String) (t : Nat) : String :=
  match terms[t]? with
  | some s => dbg s
  | none => "?"

/-- `{:?}` of `token.map(|t| grammar.get_terminal(t))` (lr_common.rs:120, 130, 141). -/
def showTok (dbg : String → String) (terms : List String) : Option Nat → String
  | some t => "Some(" ++ showTerm dbg terms t ++ ")"
  | none => "None"

/-- The text of a panic; `none` for panics whose text is not written in this code base (`unwrap` of
`None` or `Err`, indexing, `assert!`) and for those of the emitted code. -/
def Fault.message (dbg : String → String) (terms : List String) : Fault → Option String
  /- lower.rs:23 -/
  | .duplicateTerminal t => some ("Terminal " ++ dbg t ++ " defined multiple times")
  /- lower.rs:111 -/
  | .undefinedNonTerminal n => some ("Non-terminal not defined: " ++ n)
  /- lower.rs:123 -/
  | .unknownTerminal t => some ("Unknown non-terminal: " ++ dbg t)
  /- lower.rs:130 `todo!` -/
  | .repeatUnsupported => some "not yet implemented: Repeat symbol not supported yet"
  /- lower.rs:90 `todo!` -/
  | .fallibleUnsupported => some "not yet implemented: Fallible actions not supported yet"
  /- lib.rs:35 -/
  | .duplicateState => some "`type State` is declared multiple times"
  /- lib.rs:42 -/
  | .duplicateTokenEnum => some "`enum Token` is declared multiple times"
  /- lib.rs:53 -/
  | .missingTokenEnum => some "Token type (`enum Token`) is not defined"
  /- lr_common.rs:65-71 -/
  | .shiftOverShift q t r r' => some ("(" ++ toString q ++ ", " ++ showTerm dbg terms t ++
      "): Overriding Shift(" ++ toString r ++ ") with Shift(" ++ toString r' ++ ")")
  /- lr_common.rs:87-92 -/
  | .shiftOverAccept q t r => some ("(" ++ toString q ++ ", " ++ showTerm dbg terms t ++
      "): Overriding Accept action with Shift(" ++ toString r ++ ")")
  /- lr_common.rs:117-124 -/
  | .reduceOverShift q c r nt p => some ("(" ++ toString q ++ ", " ++ showTok dbg terms c ++
      "): Overriding Shift(" ++ toString r ++ ") with Reduce(" ++ toString nt ++ ", " ++
      toString p ++ ")")
  /- lr_common.rs:127-135 -/
  | .reduceOverReduce q c nt' p' nt p => some ("(" ++ toString q ++ ", " ++ showTok dbg terms c ++
      "): Overriding Reduce(" ++ toString nt' ++ ", " ++ toString p' ++ ") action with Reduce(" ++
      toString nt ++ ", " ++ toString p ++ ")")
  /- lr_common.rs:138-144 -/
  | .reduceOverAccept q c nt p => some ("(" ++ toString q ++ ", " ++ showTok dbg terms c ++
      "): Overriding Accept action with Reduce(" ++ toString nt ++ ", " ++ toString p ++ ")")
  | _ => none

end Parsegen
