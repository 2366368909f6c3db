import Verif.Proofs.LeftRecStop
import Verif.Props.SLRExamples

/-! # C71: the SLR parser ends on finite inputs -/

namespace Parsegen

variable {A Ty : Type} {g : Grammar A Ty} {h : HashOrder} {T : LRTable A} {input : Nat → Option Nat}

theorem Grammar.Expects.spine {δ : List Symbol} {b : Nat} (h : g.Expects δ b) : g.Spine 0 δ b := by
  induction h with
  | root => exact .root
  | child _ hp ih => exact ih.child hp

theorem Grammar.IsLR1.lr1At (hl : g.IsLR1) {e : Nat} (he : g.isPublic e = true) : LR1At g e :=
  fun γ c m m' hm hm' => hl e γ c m m' he hm hm'

theorem Grammar.IsSLR1.lr1At (hl : g.IsSLR1) (hwf : g.WF) (h0 : g.isPublic 0 = true) : LR1At g 0 := by
  intro γ c m m' hm hm'
  have key : ∀ m, g.Wants (g.Valid 0 γ) c m → g.SLRMove γ c m := by
    intro m hm
    cases m with
    | shift =>
      obtain ⟨nt, p, α, t, β, la, hv, hp, hc⟩ := hm
      exact ⟨nt, p, α, t, β, hv.valid0.1, hp, hc⟩
    | reduce nt p =>
      obtain ⟨α, hv, hp, hpr⟩ := hm
      refine ⟨α, hv.valid0.1, hp, ?_, hv.valid0.2⟩
      rintro rfl
      rw [h0] at hpr; cases hpr
    | accept =>
      obtain ⟨nt, p, α, hv, hp, hpb, hc⟩ := hm
      have hit := hv.itemsAt (((Grammar.justFirst_closed hwf).complete hwf).enough hwf) hwf h0
      obtain ⟨e1, e2, _⟩ := hit.pub hwf hpb
      simp only at e1 e2
      subst e1 e2
      obtain ⟨h1, b, hb⟩ := hwf.pub h0
      have hα := hp.rhs_eq.symm.trans hb.rhs_eq
      refine ⟨?_, hc⟩
      have := hv.valid0.1
      rw [hα] at this
      exact this
  exact hl γ c m m' (key m hm) (key m' hm')

theorem slr_ends (hwf : g.WF) (h0 : g.isPublic 0 = true) (hl : LR1At g 0) (hP : g.AllProductive)
    (hT : slrTable h g = .ok T) {k : Nat} (hk : input k = none) :
    ∀ (m : Nat) {γ : List Symbol} {toks : List Nat} {s : SimState}, k - toks.length ≤ m →
      Stk0 (lr0Automaton h g) γ s.stack → s.calls = toks.length + 1 →
      (∀ i, i < toks.length → input i = toks[i]?) → s.a = input toks.length →
      ∃ fuel r, simLoop T g input fuel s = some r := by
  intro m
  induction m with
  | zero | succ m ihm =>
    intro γ
    have hacc := hl.acc0 hwf h0 hP γ
    induction hacc with
    | intro γ _ ih =>
      intro toks s hm hs hc hin ha
      have hle : toks.length ≤ k := by
        by_contra hlt
        have := hin k (by omega)
        rw [hk, List.getElem?_eq_getElem (by omega)] at this
        cases this
      obtain ⟨q, s', hq, hp⟩ := hs.shape
      cases hst : simStep T g input s with
      | done e s1 => exact ⟨1, (e, s1), by simp [simLoop, hst]⟩
      | next s1 =>
        have hnext : (∃ fuel r, simLoop T g input fuel s1 = some r) →
            ∃ fuel r, simLoop T g input fuel s = some r := by
          rintro ⟨fuel, r, hr⟩
          exact ⟨fuel + 1, r, by simp [simLoop, hst, hr]⟩
        apply hnext
        unfold simStep at hst
        rw [hq] at hst
        simp only at hst
        cases hact : T.getAction q s.a with
        | none => rw [hact] at hst; cases hst
        | some act =>
          cases act with
          | shift n =>
            simp only [hact] at hst
            cases hst
            obtain ⟨t, hat, st, hst, hg⟩ := slr_shift hwf h0 hT hp hact
            have hlt : toks.length < k := by
              rcases Nat.lt_or_ge toks.length k with hlt | hge
              · exact hlt
              · have : toks.length = k := by omega
                rw [ha, this, hk] at hat; cases hat
            first
            | omega
            | refine ihm (γ := γ ++ [.terminal t]) (toks := toks ++ [t]) (by simp; omega)
                (.snoc (hq ▸ hs) hst hg) (by simp [hc]) ?_ (by simp [hc])
              intro i hi
              simp only [List.length_append, List.length_singleton] at hi
              by_cases he : i = toks.length
              · subst he; rw [← ha, hat]; simp
              · rw [hin i (by omega), List.getElem?_append_left (by omega)]
          | reduce b p a =>
            obtain ⟨hb, _, ⟨δ, α, rfl, hpr, hex⟩, pr, hpr', _⟩ := slr_reduce hwf h0 hT hp hact
            simp only [hact, hpr', slr_production hpr hpr'] at hst
            have hs2 := hs.drop
            rw [hq] at hs2
            obtain ⟨q2, s2, hq2, hp2⟩ := hs2.shape
            rw [hq2] at hs2 hst
            obtain ⟨r, hr, st, hst', hg⟩ := slr_goto hwf h0 hT hp2 hb hex
            simp only [hr] at hst
            cases hst
            exact ih (δ ++ [.nonTerminal b]) ⟨δ, b, p, α, rfl, rfl, hpr, hex.spine⟩ hm
              (.snoc hs2 hst' hg) hc hin ha
          | accept => simp only [hact] at hst; cases hst

/-- **C71.** For an LR(1) grammar in which every non-terminal derives some string, whatever SLR table has
been built (even if a conflict has been resolved silently): the parser ends on every finite input. -/
theorem c71_terminates (hwf : g.WF) (h0 : g.isPublic 0 = true) (hl : g.IsLR1)
    (hP : ∀ b, b < g.nNonTerminals → g.isPublic b = false → ∃ inp, g.Sentence b inp)
    (hT : slrTable h g = .ok T) {k : Nat} (hk : input k = none) : ∃ e n, Simulates T g input e n := by
  obtain ⟨fuel, r, hr⟩ := slr_ends hwf h0 (hl.lr1At h0) hP hT hk k (γ := []) (toks := [])
    (s := ⟨[0], input 0, 1⟩) (by simp) .nil rfl (by simp) rfl
  exact ⟨r.1, r.2.calls, fuel, r.2, hr, rfl⟩

/-- **C71.** The same for SLR(1) grammars, for which there always is a table (`c71_accepts`). -/
theorem c71_terminates_slr (hwf : g.WF) (h0 : g.isPublic 0 = true) (hl : g.IsSLR1)
    (hP : ∀ b, b < g.nNonTerminals → g.isPublic b = false → ∃ inp, g.Sentence b inp)
    (hT : slrTable h g = .ok T) {k : Nat} (hk : input k = none) : ∃ e n, Simulates T g input e n := by
  obtain ⟨fuel, r, hr⟩ := slr_ends hwf h0 (hl.lr1At hwf h0) hP hT hk k (γ := []) (toks := [])
    (s := ⟨[0], input 0, 1⟩) (by simp) .nil rfl (by simp) rfl
  exact ⟨r.1, r.2.calls, fuel, r.2, hr, rfl⟩

theorem simLoop_mono {r : SimEnd × SimState} : ∀ {fuel : Nat} {s : SimState} (k : Nat),
    simLoop T g input fuel s = some r → simLoop T g input (fuel + k) s = some r := by
  intro fuel
  induction fuel with
  | zero => intro s k h; cases h
  | succ fuel ih =>
    intro s k h
    rw [Nat.add_right_comm]
    unfold simLoop at h ⊢
    cases hs : simStep T g input s with
    | done e s1 => rw [hs] at h; exact h
    | next s1 => rw [hs] at h; exact ih k h

/-- A run has one end. -/
theorem Simulates.unique {e e' : SimEnd} {n n' : Nat} (h : Simulates T g input e n)
    (h' : Simulates T g input e' n') : e = e' ∧ n = n' := by
  obtain ⟨f, s, h, rfl⟩ := h
  obtain ⟨f', s', h', rfl⟩ := h'
  have h1 := simLoop_mono f' h
  have h2 := simLoop_mono f h'
  rw [Nat.add_comm, h2] at h1
  cases h1
  exact ⟨rfl, rfl⟩

/-- **C71.** For an SLR(1) grammar in which every non-terminal derives some string, with a complete FIRST
table, the parser decides the language: given a finite input it ends normally exactly if the input is a
sentence, and otherwise with `Stuck!`. -/
theorem c71_decides (hwf : g.WF) (h0 : g.isPublic 0 = true) (hl : g.IsSLR1)
    (hP : ∀ b, b < g.nNonTerminals → g.isPublic b = false → ∃ inp, g.Sentence b inp)
    (hF : FirstComplete g (generateFirstTable h g)) (hT : slrTable h g = .ok T) {toks : List Nat}
    (hin : ∀ i, input i = toks[i]?) :
    (g.Sentence 0 toks ∧ ∃ n, ∀ e m, Simulates T g input e m ↔ e = .done ∧ m = n) ∨
    (¬ g.Sentence 0 toks ∧ ∃ n, ∀ e m, Simulates T g input e m ↔ e = .stuck ∧ m = n) := by
  have huniq : ∀ {e n}, Simulates T g input e n → ∀ e' m, Simulates T g input e' m ↔ e' = e ∧ m = n :=
    fun h e' m => ⟨fun h' => h'.unique h, fun ⟨a, b⟩ => a ▸ b ▸ h⟩
  obtain ⟨e, n, hs⟩ := c71_terminates_slr hwf h0 hl hP hT (input := input) (k := toks.length) (by simp [hin])
  have hc := c71_complete hwf h0 hl hF hT hin
  rcases c71_no_panic hwf h0 hT hs with rfl | rfl
  · exact .inl ⟨hc.1 ⟨n, hs⟩, n, huniq hs⟩
  · refine .inr ⟨fun h => ?_, n, huniq hs⟩
    obtain ⟨m, hm⟩ := hc.2 h
    cases (hm.unique hs).1

namespace Examples

theorem bare_step {α : List Symbol} {b p : Nat} (hp : exprGrammar.HasProd b p α) {β : List Symbol}
    (h : exprGrammar.Derives α β) : exprGrammar.Derives [.nonTerminal b] β :=
  ((Grammar.Derives.refl _).tail (by simpa using Grammar.Produces.mk [] [] _ _ _ hp)).trans h

theorem exprGrammar_productive : ∀ b, b < exprGrammar.nNonTerminals → exprGrammar.isPublic b = false →
    ∃ inp, exprGrammar.Sentence b inp := by
  have h3 : exprGrammar.Derives [.nonTerminal 3] [.terminal 4] :=
    bare_step (p := 1) (α := [.terminal 4]) ⟨_, _, rfl, rfl, rfl⟩ (.refl _)
  have h2 : exprGrammar.Derives [.nonTerminal 2] [.terminal 4] :=
    bare_step (p := 1) (α := [.nonTerminal 3]) ⟨_, _, rfl, rfl, rfl⟩ h3
  have h1 : exprGrammar.Derives [.nonTerminal 1] [.terminal 4] :=
    bare_step (p := 1) (α := [.nonTerminal 2]) ⟨_, _, rfl, rfl, rfl⟩ h2
  intro b hb hpub
  have : exprGrammar.nNonTerminals = 4 := rfl
  rw [this] at hb
  match b, hb with
  | 0, _ => cases hpub
  | 1, _ => exact ⟨[4], h1⟩
  | 2, _ => exact ⟨[4], h2⟩
  | 3, _ => exact ⟨[4], h3⟩

/-- `c71_decides` applies to the grammar of expressions. -/
example {T : LRTable Unit} (hT : slrTable .insertion exprGrammar = .ok T) (toks : List Nat) :
    (exprGrammar.Sentence 0 toks ∧
      ∃ n, ∀ e m, Simulates T exprGrammar (fun i => toks[i]?) e m ↔ e = .done ∧ m = n) ∨
    (¬ exprGrammar.Sentence 0 toks ∧
      ∃ n, ∀ e m, Simulates T exprGrammar (fun i => toks[i]?) e m ↔ e = .stuck ∧ m = n) :=
  c71_decides exprGrammar_wf rfl exprGrammar_slr1 exprGrammar_productive exprGrammar_complete hT fun _ => rfl

end Examples

end Parsegen
