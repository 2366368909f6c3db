import Verif.Model.Idents

/-! # Specification: names as they can be written in a Rust program -/

namespace Parsegen

variable {X Ty : Type}

/-- The text of a raw identifier: `r#` and an identifier. -/
def IsRaw (U : IdentChars) (s : String) : Prop := ∃ t, U.isIdent t = true ∧ s = "r#" ++ t

/-- The text of an identifier, raw or not. -/
def IsName (U : IdentChars) (s : String) : Prop := U.isIdent s = true ∨ IsRaw U s

/-- What is assumed of `str::to_lowercase`: identifiers stay identifiers, and `#` stays. -/
structure Lowercase (U : IdentChars) (lc : String → String) : Prop where
  ident : ∀ s, U.isIdent s = true → U.isIdent (lc s) = true
  hash : ∀ s, '#' ∈ s.toList → '#' ∈ (lc s).toList

/-- The characters of ASCII identifiers. -/
def asciiIdent : IdentChars where
  start c := c.isAlpha || c == '_'
  cont c := c.isAlphanum || c == '_'
  alpha c h := by simp [h]
  underscore := by decide
  start_cont c h := by
    simp only [Bool.or_eq_true, Char.isAlphanum] at h ⊢
    exact h.imp Or.inl id
  digit c h := by simp [Char.isAlphanum, h]
  hash := by decide

end Parsegen
