import Verif.Proofs.Terminate
import Verif.Proofs.Compiled
import Verif.Proofs.Valid
import Verif.Proofs.FirstComplete

/-! # No infinite sequences of reductions

Two sufficient conditions: no computed FIRST set is empty, or the grammar is LR(1) and productive.  In
the second case the computed FIRST sets may be too small: the reductions the emitted parser makes are
still moves of the canonical LR(1) parser, which makes no infinite sequence of them. -/

namespace Parsegen

variable {X Ty V W Tok : Type} {g : Grammar X Ty}

/-- There is no infinite sequence of reductions, whatever is on the stack. -/
def Compiled.Stops [DecidableEq Ty] (P : Compiled X Ty V W Tok) : Prop :=
  ∀ ⦃g nts ts a g' T⦄, lower P.code.mkPath P.defs P.tokens.conversions = .ok g →
    Lowered P.code.mkPath P.defs P.tokens.conversions g nts ts → GenStages P.order g P.gen a g' T →
    ∀ e c γ, g.isPublic e = true → LaOk g.nTerminals c → Stop P.gen (StateAt g (generateFirstTable P.order g) a) e c γ

/-! ## A complete table all of whose entries are justified -/

/-- `nt` derives the empty string. -/
inductive NullBy (g : Grammar X Ty) : Nat → Prop
  | mk {nt p α} (hp : g.HasProd nt p α) (ht : ∀ s ∈ α, ∃ b, s = .nonTerminal b)
      (h : ∀ b, .nonTerminal b ∈ α → NullBy g b) : NullBy g nt

theorem NullBy.of {nt p : Nat} {α : List Symbol} (hp : g.HasProd nt p α)
    (h : ∀ s ∈ α, ∃ b, s = .nonTerminal b ∧ NullBy g b) : NullBy g nt :=
  .mk hp (fun s hs => (h s hs).imp fun _ h => h.1) fun b hb => by
    obtain ⟨b', e, h'⟩ := h _ hb
    cases e
    exact h'

/-- `nt` derives something beginning with `t`. -/
inductive FirstBy (g : Grammar X Ty) : Nat → Nat → Prop
  | term {nt p α1 t α2} (hp : g.HasProd nt p (α1 ++ .terminal t :: α2))
      (hf : ∀ s ∈ α1, ∃ b, s = .nonTerminal b ∧ NullBy g b) : FirstBy g nt t
  | nt {nt p α1 b α2 t} (hp : g.HasProd nt p (α1 ++ .nonTerminal b :: α2))
      (hf : ∀ s ∈ α1, ∃ b, s = .nonTerminal b ∧ NullBy g b) (h : FirstBy g b t) : FirstBy g nt t

theorem Grammar.HasProd.nt_lt {nt p : Nat} {α : List Symbol} (h : g.HasProd nt p α) :
    nt < g.nNonTerminals := Grammar.lt_of_nProductions h.lt

theorem NullBy.lt {nt : Nat} (h : NullBy g nt) : nt < g.nNonTerminals := by
  cases h with
  | mk hp => exact hp.nt_lt

theorem FirstBy.lt (hwf : g.WF) {nt t : Nat} (h : FirstBy g nt t) :
    nt < g.nNonTerminals ∧ t < g.nTerminals := by
  induction h with
  | term hp _ => exact ⟨hp.nt_lt, hwf.term_lt hp (by simp)⟩
  | nt hp _ _ ih => exact ⟨hp.nt_lt, ih.2⟩

open Classical in
/-- The table of these facts. -/
noncomputable def Grammar.justFirst (g : Grammar X Ty) : FirstTable :=
  (List.range g.nNonTerminals).map fun nt =>
    ⟨decide (NullBy g nt), (List.range g.nTerminals).filter fun t => decide (FirstBy g nt t)⟩

theorem Grammar.justFirst_get (hwf : g.WF) (nt : Nat) :
    ((g.justFirst.get nt).empty = true ↔ NullBy g nt) ∧
    ∀ t, t ∈ (g.justFirst.get nt).terminals ↔ FirstBy g nt t := by
  classical
  by_cases h : nt < g.nNonTerminals
  · have : g.justFirst.get nt = ⟨decide (NullBy g nt),
        (List.range g.nTerminals).filter fun t => decide (FirstBy g nt t)⟩ := by
      unfold FirstTable.get Grammar.justFirst
      rw [List.getD_eq_getElem?_getD, List.getElem?_map, List.getElem?_range h]
      simp only [Option.map_some, Option.getD_some]
    rw [this]
    simp only [decide_eq_true_eq, List.mem_filter, List.mem_range, and_iff_right_iff_imp,
      iff_self, true_and]
    exact fun t ht => (ht.lt hwf).2
  · have : g.justFirst.get nt = {} := by
      unfold FirstTable.get
      rw [List.getD_eq_getElem?_getD, List.getElem?_eq_none (by simp [Grammar.justFirst]; omega)]
      rfl
    rw [this]
    exact ⟨⟨fun h => (by cases h), fun h' => absurd h'.lt h⟩,
      fun t => ⟨fun h => (by cases h), fun h' => absurd (h'.lt hwf).1 h⟩⟩

theorem allFlagged_justFirst (hwf : g.WF) {α : List Symbol} :
    AllFlagged g.justFirst α ↔ ∀ s ∈ α, ∃ b, s = .nonTerminal b ∧ NullBy g b := by
  unfold AllFlagged
  simp only [(Grammar.justFirst_get hwf _).1]

theorem Grammar.justFirst_justified (hwf : g.WF) : Justified g g.justFirst where
  null := by
    intro nt h
    have h := (Grammar.justFirst_get hwf nt).1.1 h
    induction h with
    | mk hp ht hα ih =>
      refine .mk hp ((allFlagged_justFirst hwf).2 fun s hs => ?_) fun b hb =>
        ih b hb ((Grammar.justFirst_get hwf _).1.2 (hα b hb))
      obtain ⟨b, rfl⟩ := ht s hs
      exact ⟨b, rfl, hα b hs⟩
  first := by
    intro nt t h
    have h := ((Grammar.justFirst_get hwf nt).2 t).1 h
    induction h with
    | term hp hf => exact .term hp ((allFlagged_justFirst hwf).2 hf)
    | nt hp hf hb ih =>
      have hb' := ((Grammar.justFirst_get hwf _).2 _).2 hb
      exact .nt hp ((allFlagged_justFirst hwf).2 hf) hb' (ih hb')

theorem Grammar.justFirst_closed (hwf : g.WF) : FirstClosed g g.justFirst where
  term := by
    intro nt p α1 t α2 _ hp hf
    exact ((Grammar.justFirst_get hwf _).2 _).2 (.term hp ((allFlagged_justFirst hwf).1 hf))
  nonTerm := by
    intro nt p α1 b α2 t _ hp hf hb
    exact ((Grammar.justFirst_get hwf _).2 _).2
      (.nt hp ((allFlagged_justFirst hwf).1 hf) (((Grammar.justFirst_get hwf _).2 _).1 hb))
  empty := by
    intro nt p α _ hp hf
    exact (Grammar.justFirst_get hwf _).1.2 (.of hp ((allFlagged_justFirst hwf).1 hf))

theorem derives_nil_of_forall {α : List Symbol}
    (h : ∀ s ∈ α, ∃ b, s = .nonTerminal b ∧ g.Nullable b) : g.Derives α [] := by
  induction α with
  | nil => exact .refl _
  | cons s α ih =>
    obtain ⟨b, rfl, hb⟩ := h s (by simp)
    exact Grammar.Derives.append (u := [.nonTerminal b]) hb (ih fun s hs => h s (by simp [hs]))

theorem Grammar.justFirst_sound (hwf : g.WF) : FirstSound g g.justFirst := by
  have h1 : ∀ {nt}, NullBy g nt → g.Nullable nt := by
    intro nt h
    induction h with
    | mk hp ht _ ih =>
      exact (Grammar.Derives.of_hasProd hp).trans (derives_nil_of_forall fun s hs => by
        obtain ⟨b, rfl⟩ := ht s hs
        exact ⟨b, rfl, ih b hs⟩)
  refine ⟨fun nt t h => ?_, fun nt h => h1 ((Grammar.justFirst_get hwf nt).1.1 h)⟩
  have h := ((Grammar.justFirst_get hwf nt).2 t).1 h
  induction h with
  | @term nt p α1 t α2 hp hf =>
    have h2 : g.Derives α1 [] := derives_nil_of_forall fun s hs => by
      obtain ⟨b, rfl, hb⟩ := hf s hs
      exact ⟨b, rfl, h1 hb⟩
    exact ⟨α2, (Grammar.Derives.of_hasProd hp).trans (by simpa using h2.append_right _)⟩
  | @nt nt p α1 b α2 t hp hf hb ih =>
    have h2 : g.Derives α1 [] := derives_nil_of_forall fun s hs => by
      obtain ⟨b, rfl, hb⟩ := hf s hs
      exact ⟨b, rfl, h1 hb⟩
    obtain ⟨x, hx⟩ := ih (((Grammar.justFirst_get hwf _).2 _).2 hb)
    refine ⟨x ++ α2, (Grammar.Derives.of_hasProd hp).trans
      (Grammar.Derives.trans (by simpa using h2.append_right (.nonTerminal b :: α2)) ?_)⟩
    simpa using hx.append_right α2

/-! ## LR(1) grammars -/

theorem Tables.guided_lr1 [DecidableEq Ty] {F : FirstTable} {gen : Generated X}
    {At : Nat → List Symbol → Nat → Prop} {e : Nat} (hwf : g.WF) (hlr : g.IsLR1)
    (hF : FirstSound g F) (hT : Tables g F gen At) (he : g.isPublic e = true) :
    Guided g g.justFirst e fun c γ' γ => RStep gen At e c γ' γ ∧ LaOk g.nTerminals c := by
  have hs := Grammar.justFirst_sound hwf
  have key : ∀ {c γ γ'}, (RStep gen At e c γ' γ ∧ LaOk g.nTerminals c) → ∃ γ0 b p α, γ = γ0 ++ α ∧
      γ' = γ0 ++ [.nonTerminal b] ∧ g.HasProd b p α ∧ g.isPublic b = false ∧
      g.Valid e γ ⟨b, p, α.length, c⟩ := by
    rintro c γ γ' h
    obtain ⟨γ0, b, p, α, rfl, rfl, hp, hpriv, hit⟩ := (hT.guided he).step h
    exact ⟨γ0, b, p, α, rfl, rfl, hp, hpriv, hit.valid hF hwf he⟩
  constructor
  · intro c γ α γ' b p hit hp hpriv h
    obtain ⟨γ0, b', p', α', e1, rfl, hp', hpriv', hv⟩ := key h
    have := hlr e (γ ++ α) c (.reduce b p) (.reduce b' p') he
      ⟨α, hit.valid hs hwf he, hp, hpriv⟩ ⟨α', hv, hp', hpriv'⟩
    cases this
    have e2 : α = α' := hp.rhs_eq.symm.trans hp'.rhs_eq
    subst e2
    rw [List.append_cancel_right e1]
  · intro γ γ' α β nt p t la hit hp h
    obtain ⟨γ0, b', p', α', rfl, rfl, hp', hpriv', hv⟩ := key h
    have := hlr e _ (some t) .shift (.reduce b' p') he
      ⟨nt, p, α, t, β, la, hit.valid hs hwf he, hp, rfl⟩ ⟨α', hv, hp', hpriv'⟩
    cases this
  · intro γ γ' hit h
    obtain ⟨γ0, b', p', α', rfl, rfl, hp', hpriv', hv⟩ := key h
    obtain ⟨_, b, hb⟩ := hwf.pub he
    have := hlr e _ none .accept (.reduce b' p') he
      ⟨e, 0, [.nonTerminal b], hit.valid hs hwf he, hb, he, rfl⟩ ⟨α', hv, hp', hpriv'⟩
    cases this
  · intro c γ γ' h
    obtain ⟨γ0, b, p, α, rfl, rfl, hp, hpriv, hv⟩ := key h
    exact ⟨γ0, b, p, α, rfl, rfl, hp, hpriv,
      hv.itemsAt (((Grammar.justFirst_closed hwf).complete hwf).enough hwf) hwf he⟩

theorem stop_lr1 [DecidableEq Ty] {F : FirstTable} {gen : Generated X}
    {At : Nat → List Symbol → Nat → Prop} {e : Nat} {c : Option Nat} (hwf : g.WF) (hlr : g.IsLR1)
    (hN : FirstNonempty g g.justFirst) (hF : FirstSound g F) (hT : Tables g F gen At)
    (he : g.isPublic e = true) (hc : LaOk g.nTerminals c) (γ : List Symbol) : Stop gen At e c γ :=
  stop_of_guided (g := g) (stop_guided (c := c) hwf (Grammar.justFirst_justified hwf) hN
    (hT.guided_lr1 hwf hlr hF he) he γ) hc

end Parsegen
