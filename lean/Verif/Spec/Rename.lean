import Verif.Spec.Compiled

/-! # Specification: programs that differ in the names of their non-terminals and terminals -/

namespace Parsegen

variable {X Ty V W Tok E : Type}

/-- Rename non-terminals by `ρ` and terminals by `σ` in a symbol; binders keep their names. -/
def AstSymbol.rename (ρ σ : String → String) : AstSymbol → AstSymbol
  | .terminal s => .terminal (σ s)
  | .nonTerminal n => .nonTerminal (ρ n)
  | .repeat_ op s => .repeat_ op (s.rename ρ σ)
  | .named b s => .named b (s.rename ρ σ)

/-- Rename in a production; the action stays the same. -/
def AstProduction.rename (ρ σ : String → String) (p : AstProduction X) : AstProduction X :=
  ⟨p.symbols.map (·.rename ρ σ), p.action⟩

/-- Rename a definition; visibility and type stay the same. -/
def AstNonTerminal.rename (ρ σ : String → String) (d : AstNonTerminal X Ty) : AstNonTerminal X Ty :=
  ⟨d.isPub, ρ d.name, d.typeDecl, d.productions.map (·.rename ρ σ)⟩

/-- Rename a terminal declaration; the pattern stays the same. -/
def Conversion.rename (σ : String → String) (c : Conversion Ty) : Conversion Ty := ⟨σ c.from_, c.to⟩

/-- Rename the terminals of a token enum. -/
def TokenEnum.rename (σ : String → String) (t : TokenEnum Ty) : TokenEnum Ty :=
  ⟨t.typeName, t.typeLifetimes, t.conversions.map (·.rename σ)⟩

/-- Rename in one item of the macro input. -/
def GrammarItem.rename (ρ σ : String → String) : GrammarItem X Ty → GrammarItem X Ty
  | .typeDef ty => .typeDef ty
  | .tokenEnum t => .tokenEnum (t.rename σ)
  | .nonTerminal d => .nonTerminal (d.rename ρ σ)

/-- Rename in a panic of the macro: the three panics about a name are about the new name. -/
def Fault.rename (ρ σ : String → String) : Fault → Fault
  | .duplicateTerminal t => .duplicateTerminal (σ t)
  | .unknownTerminal t => .unknownTerminal (σ t)
  | .undefinedNonTerminal n => .undefinedNonTerminal (ρ n)
  | f => f

/-- The same outcome up to the new names of the terminals: a syntax error names the new name of the
terminal found, one of `terms`, or "end-of-input" as before, and lists the new names of the expected
terminals. -/
def RenamedOutcome (σ : String → String) (terms : List String) : Outcome V E → Outcome V E → Prop
  | .ok v, .ok v' => v' = v
  | .lexerError e, .lexerError e' => e' = e
  | .parserError f e, .parserError f' e' =>
    ((f ∈ terms ∧ f' = σ f) ∨ (f = "end-of-input" ∧ f' = "end-of-input")) ∧
    ∃ l : List String, l.Sublist terms ∧ e = ", ".intercalate l ∧ e' = ", ".intercalate (l.map σ)
  | .fault f, .fault f' => f' = f
  | _, _ => False

/-- The two entry points behave the same up to the names of terminals in error messages. -/
def RenamedBehaviour [DecidableEq Ty] (σ : String → String) (P P' : Compiled X Ty V W Tok)
    (ep ep' : EntryPoint) : Prop :=
  ∀ {E : Type} (input : Nat → Option (Except E Tok)) (w w' : W) (n : Nat),
    (∀ o, P.Returns ep input w o w' n →
      ∃ o', RenamedOutcome σ (P.tokens.conversions.map (·.from_)) o o' ∧
        P'.Returns ep' input w o' w' n) ∧
    (∀ o', P'.Returns ep' input w o' w' n →
      ∃ o, RenamedOutcome σ (P.tokens.conversions.map (·.from_)) o o' ∧
        P.Returns ep input w o w' n)

end Parsegen
