import Verif.Props.Space
import Verif.Props.UserGrammar
import Verif.Props.LeftRecursion

/-! # C72 and C73 with conditions on the user's grammar only -/

namespace Parsegen

variable {X Ty V W Tok E : Type} [DecidableEq Ty] {P : Compiled X Ty V W Tok} {ep : EntryPoint}

/-- **C72** with conditions on the user's grammar only: when nullable non-terminals are harmless, hidden
left recursion or a cycle passes the generator only through a conflict that it resolves silently. -/
theorem c72_user (hnd : (P.defs.map (·.name)).Nodup) (hh : UHarmless P.defs)
    (hP : ∀ d ∈ P.defs, ∃ x, USentence P.defs d.name x) (hep : ep ∈ P.gen.entries) {x : String}
    (hr : UReaches P.defs ep.name x) (hx : UHiddenLeftRecursive P.defs x ∨ UCyclic P.defs x) :
    ∃ γ c name i m, UWants P.defs ep.name γ c (.reduce name i) ∧ UWants P.defs ep.name γ c m ∧
      (m = .shift ∨ m = .accept) := by
  refine c72_accepted hnd hP (fun g hg => ?_) hep hr hx
  obtain ⟨g1, nts, ts, a, g', T, S⟩ := P.setup hep
  rw [S.lower] at hg; cases hg
  exact generateFirstTable_enough S.wf (S.lowered.harmless S.wf hh) P.order

/-- **C73** with conditions on the user's grammar only. -/
theorem c73_user [Nonempty W] (hnd : (P.defs.map (·.name)).Nodup) (hlr : ULR1 P.defs)
    (hh : UHarmless P.defs) (hP : ∀ d ∈ P.defs, ∃ x, USentence P.defs d.name x)
    (hT : ∀ c ∈ P.tokens.conversions, ∃ t, P.cls t = c.from_)
    (hu : ∀ d ∈ P.defs, ∀ p ∈ d.productions, ∀ e, p.action = .infallible e →
      ∀ env w, P.code.run e env w ≠ none)
    (hep : ep ∈ P.gen.entries) :
    (∃ K : Nat, ∀ (input : Nat → Option (Except E Tok)) (w : W) (k m : Nat) (w' : W) (n : Nat),
      P.After ep input w k m w' n → m ≤ K) ↔
    ∀ x, UReaches P.defs ep.name x → ¬ URecursesInside P.defs x :=
  c73_iff (Compiled.regular_of_user hep hnd hlr hh) hP hT hu hep

/-! ## Concrete cases -/

namespace Examples

/-- The hypotheses of `c72_user` hold for the cyclic grammar. -/
example {ep : EntryPoint} (hep : ep ∈ (program cycleDefs cycle_ok).gen.entries) (hn : ep.name = "S") :
    ∃ γ c name i m, UWants cycleDefs "S" γ c (.reduce name i) ∧ UWants cycleDefs "S" γ c m ∧
      (m = .shift ∨ m = .accept) := by
  have hd : (program cycleDefs cycle_ok).defs = cycleDefs := defs_itemsOf _
  have := c72_user (P := program cycleDefs cycle_ok) (ep := ep) (x := "S")
    (by rw [hd]; decide)
    (by
      rw [hd]
      refine .of_no_empty fun d hm p hp => ?_
      simp only [cycleDefs, List.mem_cons, List.not_mem_nil, or_false] at hm
      rcases hm with rfl | rfl <;> simp only [List.mem_cons, List.not_mem_nil, or_false] at hp
      · subst hp; simp
      · rcases hp with rfl | rfl <;> simp)
    (by rw [hd]; exact cycle_productive) hep
    (by rw [hd, hn]; exact ⟨[], [], .refl _⟩) (by rw [hd]; exact .inr cycle_cyclic)
  rw [hd, hn] at this
  exact this

/-- The hypotheses of `c73_user` hold for the grammar of sums. -/
example (ep : EntryPoint) (hep : ep ∈ arith.gen.entries) :
    (∃ K : Nat, ∀ (input : Nat → Option (Except String Tk)) (w : Log) (k m : Nat) (w' : Log) (n : Nat),
      arith.After ep input w k m w' n → m ≤ K) ↔
    ∀ x, UReaches arith.defs ep.name x → ¬ URecursesInside arith.defs x :=
  haveI : Nonempty Log := ⟨[]⟩
  c73_user arith_regular.names arith_ulr1 arith_harmless arith_productive arith_tokens arith_total hep

end Examples

end Parsegen
