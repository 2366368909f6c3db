import Verif.Props.SLR
import Verif.Props.Examples

/-! # C71: deciding SLR(1), concrete cases -/

namespace Parsegen

variable {A Ty : Type} {g : Grammar A Ty}

/-- The move item `it` wants to make on `c`. -/
def slrWant (g : Grammar A Ty) (fol : FollowTable) (it : Item) (c : Option Nat) : Option Move :=
  match it.nextSymbol g with
  | some (.terminal t) => if c = some t then some .shift else none
  | some (.nonTerminal _) => none
  | none =>
    if it.nt = 0 then if c = none then some .accept else none
    else match c with
      | some t => if t ∈ (fol.get it.nt).terminals then some (.reduce it.nt it.prod) else none
      | none => if (fol.get it.nt).end_ then some (.reduce it.nt it.prod) else none

/-- No two items of a state want different moves. -/
def slrCheck (h : HashOrder) (g : Grammar A Ty) : Bool :=
  (lr0Automaton h g).all fun st => st.items.all fun it => st.items.all fun it' =>
    (none :: (List.range g.nTerminals).map some).all fun c =>
      match slrWant g (slrFollow h g) it c, slrWant g (slrFollow h g) it' c with
      | some m, some m' => decide (m = m')
      | _, _ => true

theorem SLRMove.want (hwf : g.WF) (h0 : g.isPublic 0 = true) {h : HashOrder}
    (hF : FirstComplete g (generateFirstTable h g)) {γ : List Symbol} {c : Option Nat} {m : Move}
    (hm : g.SLRMove γ c m) : (∀ t, c = some t → t < g.nTerminals) ∧
      ∃ it, At0 g γ it ∧ slrWant g (slrFollow h g) it c = some m := by
  have h1 := (hwf.pub h0).1
  cases m with
  | shift =>
    obtain ⟨B, p, α, t, β, hv, hp, rfl⟩ := hm
    refine ⟨fun t' ht => ?_, ⟨B, p, α.length, none⟩, (at0_iff_valid0 h1 rfl).2 hv, ?_⟩
    · cases ht; exact hwf.term_lt hp (by simp)
    · unfold slrWant
      rw [Item.nextSymbol_iff.2 ⟨α, β, hp, rfl⟩]
      simp
  | reduce B p =>
    obtain ⟨α, hv, hp, hB, S, hS, hf⟩ := hm
    have hat := (at0_iff_valid0 h1 (it := ⟨B, p, α.length, none⟩) rfl).2 hv
    have hnone : (⟨B, p, α.length, none⟩ : Item).nextSymbol g = none := by
      unfold Item.nextSymbol; simp only [hp.rhs_eq]; simp
    cases c with
    | none =>
      obtain rfl := hS rfl
      have hh := (c69_complete hwf h h (pub_lt hwf h0) hF B).2 hf
      refine ⟨by simp, _, hat, ?_⟩
      unfold slrWant
      rw [hnone]
      simp only [if_neg hB]
      exact if_pos hh
    | some t =>
      have hh := (c69_complete hwf h h (pub_lt hwf h0) hF B).1 S t hf
      refine ⟨fun t' ht => ?_, _, hat, ?_⟩
      · cases ht
        exact FollowTable.Ok.lt (followTable_ok hwf (generateFirstTable_ok hwf h) h (pub_lt hwf h0)) hh
      · unfold slrWant
        rw [hnone]
        simp only [if_neg hB]
        exact if_pos hh
  | accept =>
    obtain ⟨hv, rfl⟩ := hm
    obtain ⟨_, b, hb⟩ := hwf.pub h0
    refine ⟨by simp, ⟨0, 0, 1, none⟩, (at0_iff_valid0 h1 rfl).2 hv, ?_⟩
    have hnone : (⟨0, 0, 1, none⟩ : Item).nextSymbol g = none := by
      unfold Item.nextSymbol; simp only [hb.rhs_eq]; rfl
    unfold slrWant
    rw [hnone]
    simp

/-- The check decides (in one direction). -/
theorem isSLR1_of_check (hwf : g.WF) (h0 : g.isPublic 0 = true) {h : HashOrder}
    (hF : FirstComplete g (generateFirstTable h g)) (hc : slrCheck h g = true) : g.IsSLR1 := by
  intro γ c m m' hm hm'
  obtain ⟨ht, it, hat, hw⟩ := SLRMove.want hwf h0 hF hm
  obtain ⟨_, it', hat', hw'⟩ := SLRMove.want hwf h0 hF hm'
  obtain ⟨q, hq⟩ := Path0.exists_of_at0 (lr0Run_spec hwf h0 h).2 hat
  obtain ⟨st, hst, hI⟩ := hq.at0 (lr0Run_spec hwf h0 h).2
  have hmem : c ∈ none :: (List.range g.nTerminals).map some := by
    cases c with
    | none => simp
    | some t => simp [ht t rfl]
  have a1 := List.all_eq_true.1 hc st (List.mem_of_getElem? hst)
  have a2 := List.all_eq_true.1 a1 it ((hI it).2 hat)
  have a3 := List.all_eq_true.1 a2 it' ((hI it').2 hat')
  have a4 := List.all_eq_true.1 a3 c hmem
  rw [hw, hw'] at a4
  simpa using a4

namespace Examples

theorem exprGrammar_complete : FirstComplete exprGrammar (generateFirstTable .insertion exprGrammar) :=
  FirstClosed.complete exprGrammar_wf (firstClosed_of_check (by decide +kernel))

set_option maxRecDepth 10000 in
theorem exprGrammar_slr1 : exprGrammar.IsSLR1 :=
  isSLR1_of_check exprGrammar_wf (by decide) exprGrammar_complete (by decide +kernel)

/-- `simulate` with the SLR table. -/
def slrSim (g : Grammar Unit Unit) (toks : List Nat) (fuel : Nat) : Option (SimEnd × Nat) :=
  match slrTable .insertion g with
  | .error _ => none
  | .ok T => (simulate T g (toks[·]?) fuel).map fun r => (r.1, r.2.calls)

set_option maxRecDepth 10000 in
/-- lr0.rs `simulate1`: `id + id` is accepted; `( id + ) id` is refused at `)`. -/
theorem c71_example : slrSim exprGrammar [4, 0, 4] 100 = some (.done, 4) ∧
    slrSim exprGrammar [2, 4, 0, 3, 4] 100 = some (.stuck, 4) ∧
    (∀ E, exprGrammar.isPublic E = true → E = 0) := by
  refine ⟨by decide +kernel, by decide +kernel, fun E hE => ?_⟩
  match E with
  | 0 => rfl
  | 1 => simp [exprGrammar, Grammar.isPublic, Grammar.bare] at hE
  | 2 => simp [exprGrammar, Grammar.isPublic, Grammar.bare] at hE
  | 3 => simp [exprGrammar, Grammar.isPublic, Grammar.bare] at hE
  | n + 4 => simp [exprGrammar, Grammar.isPublic, Grammar.bare] at hE

/-- test_grammars.rs:310-343: `S → L = R | R;  L → * R | id;  R → L`. -/
def lrNotSlr : Grammar Unit Unit := .bare
  [(true, [[.nonTerminal 1]]), (false, [[.nonTerminal 2, .terminal 0, .nonTerminal 3], [.nonTerminal 3]]),
    (false, [[.terminal 1, .nonTerminal 3], [.terminal 2]]), (false, [[.nonTerminal 2]])] 3

/-- The SLR table has conflicts where the table in use has none. -/
theorem c71_not_slr : (slrTable .insertion lrNotSlr).toOption.isNone = true ∧ ¬ lrNotSlr.IsSLR1 ∧
    (generateParser .insertion lrNotSlr).toOption.isSome = true := by
  have hn : (slrTable .insertion lrNotSlr).toOption.isNone = true := by decide +kernel
  refine ⟨hn, ?_, by decide +kernel⟩
  cases he : slrTable .insertion lrNotSlr with
  | ok T => rw [he] at hn; cases hn
  | error f => exact (c71_rejects (Grammar.wf_of_check (by decide)) (by decide) he).2

/-- `S → A x | B;  A → x;  B → x x y`. -/
def slrSilent : Grammar Unit Unit := .bare
  [(true, [[.nonTerminal 1]]), (false, [[.nonTerminal 2, .terminal 0], [.nonTerminal 3]]),
    (false, [[.terminal 0]]), (false, [[.terminal 0, .terminal 0, .terminal 1]])] 2

/-- A table is also built for some grammars that are not SLR(1) (a shift silently replaces a reduction);
then sentences can be refused: here `x x`. -/
theorem c71_counterexample : slrSilent.WF ∧ slrSilent.Sentence 0 [0, 0] ∧
    slrSim slrSilent [0, 0] 100 = some (.stuck, 3) := by
  refine ⟨Grammar.wf_of_check (by decide), ?_, by decide +kernel⟩
  have s1 : slrSilent.Produces [.nonTerminal 0] [.nonTerminal 1] :=
    .mk [] [] [.nonTerminal 1] 0 0 ⟨_, _, rfl, rfl, rfl⟩
  have s2 : slrSilent.Produces [.nonTerminal 1] [.nonTerminal 2, .terminal 0] :=
    .mk [] [] [.nonTerminal 2, .terminal 0] 1 0 ⟨_, _, rfl, rfl, rfl⟩
  have s3 : slrSilent.Produces [.nonTerminal 2, .terminal 0] [.terminal 0, .terminal 0] :=
    .mk [] [.terminal 0] [.terminal 0] 2 0 ⟨_, _, rfl, rfl, rfl⟩
  exact (((Grammar.Derives.refl _).tail s1).tail s2).tail s3

end Examples

end Parsegen
