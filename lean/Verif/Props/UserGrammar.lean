import Verif.Props.Interactive
import Verif.Props.UserLevel

/-! # C07, C08, C10, C41, C50, C51 with conditions on the grammar as the user wrote it

The computed FIRST table and the lowered grammar do not occur in these statements. -/

namespace Parsegen

variable {X Ty V W Tok E : Type} [DecidableEq Ty] {P : Compiled X Ty V W Tok} {ep : EntryPoint}
  {input : Nat → Option (Except E Tok)} {w w' : W} {n : Nat}

/-- Conditions on the user's grammar that make the computed FIRST sets nonempty. -/
theorem Compiled.firstNonempty_of_user (hep : ep ∈ P.gen.entries)
    (hnd : (P.defs.map (·.name)).Nodup) (hh : UHarmless P.defs)
    (hP : ∀ d ∈ P.defs, ∃ x, USentence P.defs d.name x) : P.FirstNonempty := by
  refine Compiled.Productive.firstNonempty hP hep hnd ?_
  intro g hg
  obtain ⟨g1, nts, ts, a, g', T, S⟩ := P.setup hep
  rw [S.lower] at hg; cases hg
  exact generateFirstTable_enough S.wf (S.lowered.harmless S.wf hh) P.order

/-- **C07** with conditions on the user's grammar only: no name is defined twice, nullable
non-terminals are harmless (for example: there are no empty productions) and every non-terminal derives
something.  The grammar may be ambiguous. -/
theorem c07_user (hnd : (P.defs.map (·.name)).Nodup) (hh : UHarmless P.defs)
    (hP : ∀ d ∈ P.defs, ∃ x, USentence P.defs d.name x) (hep : ep ∈ P.gen.entries) {k : Nat}
    (hk : ∀ t, input k ≠ some (.ok t)) : ∃ o w' n, P.Returns ep input w o w' n :=
  c07_terminates (Compiled.firstNonempty_of_user hep hnd hh hP) hep hk

/-- **C08** with conditions on the user's grammar only. -/
theorem c08_user (hnd : (P.defs.map (·.name)).Nodup) (hlr : ULR1 P.defs) (hh : UHarmless P.defs)
    (hep : ep ∈ P.gen.entries) {found expected : String}
    (h : P.Returns ep input w (.parserError found expected) w' n) :
    ∃ toks, Reads input toks ∧ n = toks.length + 1 ∧
      (∀ t, input toks.length = some (.ok t) →
        ∀ rest, ¬ USentence P.defs ep.name (toks.map P.cls ++ P.cls t :: rest)) ∧
      (input toks.length = none → ¬ P.IsSentence ep.name toks) :=
  c08_first_error (Compiled.regular_of_user hep hnd hlr hh) hep h

/-- **C10** with conditions on the user's grammar only. -/
theorem c10_user (hnd : (P.defs.map (·.name)).Nodup) (hlr : ULR1 P.defs) (hh : UHarmless P.defs)
    (hP : ∀ d ∈ P.defs, ∃ x, USentence P.defs d.name x) (hep : ep ∈ P.gen.entries)
    {found expected : String} (h : P.Returns ep input w (.parserError found expected) w' n) :
    ∃ toks names, Reads input toks ∧ n = toks.length + 1 ∧ expected = ", ".intercalate names ∧
      names.Sublist (P.tokens.conversions.map (·.from_)) ∧
      ∀ t, t ∈ names ↔ ∃ rest, USentence P.defs ep.name (toks.map P.cls ++ t :: rest) :=
  c10_expected_complete (Compiled.regular_of_user hep hnd hlr hh) hP hep h

/-- **C41** with conditions on the user's grammar only. -/
theorem c41_user (hnd : (P.defs.map (·.name)).Nodup) (hh : UHarmless P.defs)
    (hP : ∀ d ∈ P.defs, ∃ x, USentence P.defs d.name x) (hep : ep ∈ P.gen.entries) (n : Nat) :
    (∃ (o : Outcome V E) (w' : W) (m : Nat), m ≤ n ∧ P.Returns ep input w o w' m) ∨
    ∃ (w' : W) (m : Nat), n < m ∧ P.During ep input w w' m :=
  c41_progress (Compiled.firstNonempty_of_user hep hnd hh hP) hep n

/-- **C50** with conditions on the user's grammar only: for an unambiguous or ambiguous grammar, every
call of `parse` on a stream that ends or fails after `n` tokens returns within `K * (n + 1)` iterations. -/
theorem c50_user (hnd : (P.defs.map (·.name)).Nodup) (hh : UHarmless P.defs)
    (hP : ∀ d ∈ P.defs, ∃ x, USentence P.defs d.name x) :
    ∃ K : Nat, ∀ {E : Type}, ∀ ep ∈ P.gen.entries,
    ∀ (input : Nat → Option (Except E Tok)) (w : W) (n : Nat), (∀ t, input n ≠ some (.ok t)) →
      ∃ o w' i, i ≤ n + 1 ∧ P.ReturnsWithin ep input w (K * (n + 1)) o w' i := by
  by_cases he : ∃ ep, ep ∈ P.gen.entries
  · obtain ⟨ep, hep⟩ := he
    exact c50_time (Compiled.firstNonempty_of_user hep hnd hh hP)
  · exact ⟨0, fun ep hep => absurd ⟨ep, hep⟩ he⟩

/-- **C51** with conditions on the user's grammar only: when `next()` and the actions influence each
other, a successful interleaved evaluation is what `parse` returns. -/
theorem c51_user (hnd : (P.defs.map (·.name)).Nodup) (hlr : ULR1 P.defs) (hh : UHarmless P.defs)
    {next : W → Option (Except E Tok) × W} (hep : ep ∈ P.gen.entries) {toks : List Tok} {v : V}
    (h : P.IMeans next [.nonTerminal ep.name] toks ((next w).2, (next w).1) [.nt v] (w', none)) :
    P.IReturns ep next w (.ok v) w' (toks.map (fun t => some (.ok t)) ++ [none]) :=
  c51_complete (Compiled.regular_of_user hep hnd hlr hh) hep h

/-- **C51**, errors, with conditions on the user's grammar only. -/
theorem c51_user_error (hnd : (P.defs.map (·.name)).Nodup) (hlr : ULR1 P.defs) (hh : UHarmless P.defs)
    {next : W → Option (Except E Tok) × W} {items : List (Option (Except E Tok))}
    (hep : ep ∈ P.gen.entries) {found expected : String}
    (h : P.IReturns ep next w (.parserError found expected) w' items) :
    ∃ toks la, items = toks.map (fun t => some (.ok t)) ++ [la] ∧
      (∀ t, la = some (.ok t) →
        ∀ rest, ¬ USentence P.defs ep.name (toks.map P.cls ++ P.cls t :: rest)) ∧
      (la = none → ¬ P.IsSentence ep.name toks) :=
  c51_first_error (Compiled.regular_of_user hep hnd hlr hh) hep h

/-! ## Concrete cases -/

namespace Examples

/-- The hypotheses of `c50_user` (and of `c07_user`, `c41_user`) hold for `arith`. -/
example : ∃ K : Nat, ∀ {E : Type}, ∀ ep ∈ arith.gen.entries,
    ∀ (input : Nat → Option (Except E Tk)) (w : Log) (n : Nat), (∀ t, input n ≠ some (.ok t)) →
      ∃ o w' i, i ≤ n + 1 ∧ arith.ReturnsWithin ep input w (K * (n + 1)) o w' i :=
  c50_user arith_regular.names arith_harmless arith_productive

/-- The hypotheses of `c10_user` (and of `c08_user`) hold for `arith`. -/
example {ep : EntryPoint} (hep : ep ∈ arith.gen.entries) {toks : List Tk} {w w' : Log} {n : Nat}
    {found expected : String}
    (h : arith.Returns ep (stream toks) w (.parserError found expected) w' n) :
    ∃ toks' names, Reads (stream toks) toks' ∧ n = toks'.length + 1 ∧
      expected = ", ".intercalate names ∧
      names.Sublist (arith.tokens.conversions.map (·.from_)) ∧
      ∀ t, t ∈ names ↔ ∃ rest, USentence arith.defs ep.name (toks'.map arith.cls ++ t :: rest) :=
  c10_user arith_regular.names arith_ulr1 arith_harmless arith_productive hep h

end Examples

end Parsegen
