import Verif.Props.Contract
import Verif.Props.Classes
import Verif.Props.Harmless
import Verif.Proofs.Check

/-! # C83: the conditions on the grammar, checked by computation -/

namespace Parsegen

variable {X Ty : Type} [DecidableEq Ty]

/-! ## Candidates, found by iteration (not trusted: they are checked) -/

/-- Iterate. -/
def iterN {σ : Type} (f : σ → σ) : Nat → σ → σ
  | 0, s => s
  | n + 1, s => iterN f n (f s)

/-- Non-terminals that derive the empty string. -/
def nullableNames (defs : List (AstNonTerminal X Ty)) : List String :=
  iterN (fun nul => nul ++ (defs.filter fun d => !nul.contains d.name &&
    d.productions.any fun p => p.rhs.all (USym.isIn nul)).map (·.name)) defs.length []

/-- Non-terminals for which it matters what they begin with. -/
def relevantNames (defs : List (AstNonTerminal X Ty)) (nul : List String) : List String :=
  iterN (fun rel => rel ++ (defs.flatMap fun d => d.productions.flatMap fun p =>
    (behindNts nul p.rhs ++ if rel.contains d.name then leadNts nul p.rhs else []).filter
      (!rel.contains ·)).eraseDups) (defs.length + 1) []

/-- For non-terminals, in an order, a production that derives a string if the ones before do. -/
def productiveOrder (defs : List (AstNonTerminal X Ty)) : List (String × Nat) :=
  iterN (fun l => l ++ defs.filterMap fun d =>
    if l.any (·.1 == d.name) then none
    else ((userProds defs d.name).findIdx? fun p => p.symbols.all fun s => match s.plain with
      | some (.nt B) => l.any (·.1 == B)
      | some (.term _) => true
      | none => false).map fun i => (d.name, i)) defs.length []

/-! ## The check -/

/-- Not one component, unless that is `..`. -/
def notLone : List (Pattern Ty) → Bool
  | [.dotDot] => true
  | [_] => false
  | _ => true

mutual
/-- `NoOneTuple` -/
def noOneTuple : Pattern Ty → Bool
  | .enum _ ps => noOneTuples ps
  | .struct _ fs _ => noOneTupleFields fs
  | .tuple ps => notLone ps && noOneTuples ps
  | _ => true
/-- For all components. -/
def noOneTuples : List (Pattern Ty) → Bool
  | [] => true
  | p :: ps => noOneTuple p && noOneTuples ps
/-- For all fields. -/
def noOneTupleFields : List (String × Pattern Ty) → Bool
  | [] => true
  | (_, p) :: fs => noOneTuple p && noOneTupleFields fs
end

omit [DecidableEq Ty] in
mutual
theorem noOneTuple_sound : ∀ (p : Pattern Ty), noOneTuple p = true → NoOneTuple p
  | .enum _ ps, h => noOneTuples_sound ps h
  | .struct _ fs _, h => noOneTupleFields_sound fs h
  | .tuple ps, h => by
    rw [noOneTuple, Bool.and_eq_true] at h
    refine ⟨?_, noOneTuples_sound ps h.2⟩
    rintro p rfl
    have h1 := h.1
    cases p with
    | dotDot => rfl
    | _ => cases h1
  | .dotDot, _ => trivial
  | .lit _, _ => trivial
  | .underscore, _ => trivial
  | .path _, _ => trivial
  | .choose _, _ => trivial
theorem noOneTuples_sound : ∀ (ps : List (Pattern Ty)), noOneTuples ps = true → NoOneTupleList ps
  | [], _ => trivial
  | p :: ps, h => by
    rw [noOneTuples, Bool.and_eq_true] at h
    exact ⟨noOneTuple_sound p h.1, noOneTuples_sound ps h.2⟩
theorem noOneTupleFields_sound : ∀ (fs : List (String × Pattern Ty)), noOneTupleFields fs = true →
    NoOneTupleFields fs
  | [], _ => trivial
  | (_, p) :: fs, h => by
    rw [noOneTupleFields, Bool.and_eq_true] at h
    exact ⟨noOneTuple_sound p h.1, noOneTupleFields_sound fs h.2⟩
end

/-- The automaton of the grammar has no state in which two moves are possible. -/
def lrCheckOf (r : Except Fault (Grammar X Ty)) : Bool :=
  match r with
  | .error _ => false
  | .ok g =>
    match generateAutomaton .insertion g (generateFirstTable .insertion g) with
    | .ok a => lrCheck g a
    | .error _ => false

/-- The definitions and the token enum keep the contract. -/
def grammarCheck (U : IdentChars) (mkPath : String → X) (defs : List (AstNonTerminal X Ty))
    (te : TokenEnum Ty) : Bool :=
  let nul := nullableNames defs
  decide (defs.map (·.name)).Nodup &&
    (defs.all fun d => U.isIdent d.name) && U.isIdent te.typeName &&
    (!(defs.flatMap fun d => d.productions.flatMap fun p =>
      p.symbols.filterMap AstSymbol.boundName).contains "value_stack") &&
    (te.conversions.all fun c => noOneTuple c.to) &&
    harmlessCheck defs nul (relevantNames defs nul) &&
    productiveCheck defs [] (productiveOrder defs) &&
    decide (loweredCount defs ≤ 4294967296) && decide (te.conversions.length ≤ 4294967296) &&
    lrCheckOf (lower mkPath defs te.conversions)

omit [DecidableEq Ty] in
/-- **C83.** What the check accepts keeps the contract, as far as the grammar is concerned. -/
theorem c83_check {U : IdentChars} {mkPath : String → X} {defs : List (AstNonTerminal X Ty)}
    {te : TokenEnum Ty} (h : grammarCheck U mkPath defs te = true) : GrammarOk U defs te := by
  simp only [grammarCheck, Bool.and_eq_true, decide_eq_true_eq, List.all_eq_true] at h
  obtain ⟨⟨⟨⟨⟨⟨⟨⟨⟨h1, h2⟩, h3⟩, h4⟩, h5⟩, h6⟩, h7⟩, h8⟩, h9⟩, h10⟩ := h
  unfold lrCheckOf at h10
  split at h10
  · cases h10
  · next g hg =>
    split at h10
    · next a ha =>
      obtain ⟨nts, ts, hl⟩ := lower_ok (by rw [← loweredCount_eq]; exact h8) hg
      have hh := UHarmless.of_check _ _ h6
      have hF := generateFirstTable_enough hl.wf (hl.harmless hl.wf hh) .insertion
      obtain ⟨k1, k2⟩ := (c26_rejects_iff h8 h9).1 ⟨g, hg⟩
      exact {
        names := h1, identifiers := ⟨h2, h3⟩, terminals := k1
        actions := fun d hd p hp => (k2 d hd p hp).1
        symbols := fun d hd p hp => (k2 d hd p hp).2
        binders := by
          rw [isBinder_iff]
          simpa using h4
        patterns := fun c hc => noOneTuple_sound _ (h5 c hc)
        lr1 := (hl.lr1_iff hl.wf h1).1 (isLR1_of_check hl.wf .insertion hF ha h10)
        harmless := hh
        productive := productive_of_check (by simp) h7
        size := h8, sizeT := h9 }
    · cases h10

end Parsegen
