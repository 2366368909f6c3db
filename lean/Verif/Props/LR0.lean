import Verif.Spec.LR0
import Verif.Proofs.LR0Valid
import Verif.Props.FollowSets

/-! # C70 The LR(0) automaton (lr0.rs) -/

namespace Parsegen

variable {A Ty : Type} {g : Grammar A Ty}

/-- **C70.** Both kinds of loops end: the work list runs empty, every closure loop is left because a pass
added nothing. -/
theorem c70_terminates (hwf : g.WF) (h0 : g.isPublic 0 = true) (h : HashOrder) :
    (lr0Run h g).2 = [] ∧
    ∀ items : List Item, BTSorted items → (lr0ClosureLoop h g items).2 = false :=
  ⟨(lr0Run_spec hwf h0 h).1, fun _ hs => (lr0Closure_spec h hs).1⟩

theorem Path0.state {h : HashOrder} (hwf : g.WF) (h0 : g.isPublic 0 = true) {γ : List Symbol} {q : Nat}
    (hp : Path0 (lr0Automaton h g) γ q) :
    ∃ s : LR1State, (lr0Automaton h g)[q]? = some s ∧ ∀ x, x ∈ s.items ↔ At0 g γ x :=
  hp.at0 (lr0Run_spec hwf h0 h).2

/-- **C70.** The state reached by reading `γ` consists of exactly the items valid for `γ` (each once). -/
theorem c70_items (hwf : g.WF) (h0 : g.isPublic 0 = true) (h : HashOrder) {γ : List Symbol} {q : Nat}
    (hp : Path0 (lr0Automaton h g) γ q) :
    ∃ s : LR1State, (lr0Automaton h g)[q]? = some s ∧ s.items.Nodup ∧
      ∀ B p c la, (⟨B, p, c, la⟩ : Item) ∈ s.items ↔ g.Valid0 γ B p c ∧ la = none := by
  obtain ⟨s, hs, hI⟩ := hp.state hwf h0
  refine ⟨s, hs, ((lr0Run_spec hwf h0 h).2.sorted q s hs).nodup, fun B p c la => ?_⟩
  rw [hI]
  have h1 := (hwf.pub h0).1
  constructor
  · intro hx
    have hla : la = none := (hx.itemOk hwf h0).2
    exact ⟨(at0_iff_valid0 h1 (it := ⟨B, p, c, la⟩) hla).1 hx, hla⟩
  · rintro ⟨hv, hla⟩
    exact (at0_iff_valid0 h1 (it := ⟨B, p, c, la⟩) hla).2 hv

/-- **C70.** `γ` can be read iff some item is valid for it, and then leads to one state only. -/
theorem c70_paths (hwf : g.WF) (h0 : g.isPublic 0 = true) (h : HashOrder) (γ : List Symbol) :
    ((∃ q, Path0 (lr0Automaton h g) γ q) ↔ ∃ B p c, g.Valid0 γ B p c) ∧
    ∀ q r, Path0 (lr0Automaton h g) γ q → Path0 (lr0Automaton h g) γ r → q = r := by
  have hi := (lr0Run_spec hwf h0 h).2
  have h1 := (hwf.pub h0).1
  refine ⟨⟨?_, ?_⟩, fun q r a b => a.det b⟩
  · rintro ⟨q, hq⟩
    suffices hx : ∃ x, At0 g γ x by
      obtain ⟨x, hx⟩ := hx
      exact ⟨_, _, _, (at0_iff_valid0 h1 (hx.itemOk hwf h0).2).1 hx⟩
    cases hq with
    | nil => exact ⟨_, .entry⟩
    | @snoc γ q s X r hq hs hr =>
      obtain ⟨s', hs', hI⟩ := hq.at0 hi
      obtain rfl : s = s' := Option.some.inj (hs.symm.trans hs')
      obtain ⟨⟨it, hit, hn⟩, _⟩ := hi.edge _ _ _ _ hs hr
      exact ⟨_, .advance ((hI it).1 hit) hn⟩
  · rintro ⟨B, p, c, hv⟩
    exact Path0.exists_of_at0 hi ((at0_iff_valid0 h1 (it := ⟨B, p, c, none⟩) rfl).2 hv)

/-- What can be expected can be derived. -/
theorem Grammar.Expects.derives {δ : List Symbol} {B : Nat} (h : g.Expects δ B) :
    ∃ z, g.Derives [.nonTerminal 0] (δ ++ .nonTerminal B :: z) := by
  induction h with
  | root => exact ⟨[], .refl _⟩
  | @child δ B p α C β _ hp ih =>
    obtain ⟨z, hz⟩ := ih
    refine ⟨β ++ z, hz.tail ?_⟩
    have := Grammar.Produces.mk δ z _ B p hp
    simpa using this

/-- **C70.** Whatever can be read is the beginning of a sentential form of the start symbol. -/
theorem c70_prefix (hwf : g.WF) (h0 : g.isPublic 0 = true) (h : HashOrder) {γ : List Symbol} {q : Nat}
    (hp : Path0 (lr0Automaton h g) γ q) : ∃ z, g.Derives [.nonTerminal 0] (γ ++ z) := by
  obtain ⟨B, p, c, δ, α, β, h1, h2, _, rfl⟩ := (c70_paths hwf h0 h γ).1.1 ⟨q, hp⟩
  obtain ⟨z, hz⟩ := h1.derives
  refine ⟨β ++ z, hz.tail ?_⟩
  have := Grammar.Produces.mk δ z _ B p h2
  simpa using this

/-- **C70.** Every state can be reached, and no two states have the same items. -/
theorem c70_states (hwf : g.WF) (h0 : g.isPublic 0 = true) (h : HashOrder) :
    (∀ q, q < (lr0Automaton h g).length → ∃ γ, Path0 (lr0Automaton h g) γ q) ∧
    ((lr0Automaton h g).map (·.items)).Nodup := by
  have hi := (lr0Run_spec hwf h0 h).2
  constructor
  · intro q hq
    obtain ⟨γ, hγ, _⟩ := hi.reach q _ (List.getElem?_eq_getElem hq) (by simp)
    exact ⟨γ, hγ⟩
  · rw [List.nodup_iff_getElem?_ne_getElem?]
    intro i j hij hj he
    rw [List.length_map] at hj
    rw [List.getElem?_map, List.getElem?_map] at he
    have hj' : (lr0Automaton h g)[j]? = some _ := List.getElem?_eq_getElem hj
    have hi' : (lr0Automaton h g)[i]? = some _ := List.getElem?_eq_getElem (hij.trans hj)
    rw [hj', hi'] at he
    have he' := Option.some.inj he
    dsimp only at he'
    have a := (hi.idx _ i).2 ⟨_, hi', rfl⟩
    have b := (hi.idx _ j).2 ⟨_, hj', rfl⟩
    rw [he'] at a
    have := a.symm.trans b
    simp at this
    omega

/-- **C70.** The order in which the hash sets are iterated decides only about the numbering of the states:
the item sets are the same, and so is the set reached by reading `γ`. -/
theorem c70_order (hwf : g.WF) (h0 : g.isPublic 0 = true) (h h' : HashOrder) :
    ((lr0Automaton h g).map (·.items)).Perm ((lr0Automaton h' g).map (·.items)) ∧
    ∀ γ q q', Path0 (lr0Automaton h g) γ q → Path0 (lr0Automaton h' g) γ q' →
      ((lr0Automaton h g)[q]?.map (·.items)) = ((lr0Automaton h' g)[q']?.map (·.items)) := by
  have key : ∀ h h' γ q q', Path0 (lr0Automaton h g) γ q → Path0 (lr0Automaton h' g) γ q' →
      ((lr0Automaton h g)[q]?.map (·.items)) = ((lr0Automaton h' g)[q']?.map (·.items)) := by
    intro h h' γ q q' hp hp'
    obtain ⟨s, hs, hI⟩ := hp.state hwf h0
    obtain ⟨s', hs', hI'⟩ := hp'.state hwf h0
    rw [hs, hs']
    simp only [Option.map_some]
    congr 1
    exact ((lr0Run_spec hwf h0 h).2.sorted q s hs).ext ((lr0Run_spec hwf h0 h').2.sorted q' s' hs')
      (fun x => (hI x).trans (hI' x).symm)
  refine ⟨?_, key h h'⟩
  have sub : ∀ h h' I, I ∈ (lr0Automaton h g).map (·.items) → I ∈ (lr0Automaton h' g).map (·.items) := by
    intro h h' I hI
    obtain ⟨s, hs, rfl⟩ := List.mem_map.1 hI
    obtain ⟨q, hq⟩ := List.mem_iff_getElem?.1 hs
    obtain ⟨γ, hγ⟩ := (c70_states hwf h0 h).1 q (List.getElem?_eq_some_iff.1 hq).1
    obtain ⟨q', hq'⟩ := (c70_paths hwf h0 h' γ).1.2 ((c70_paths hwf h0 h γ).1.1 ⟨q, hγ⟩)
    have := key h h' γ q q' hγ hq'
    rw [hq] at this
    cases hs2 : (lr0Automaton h' g)[q']? with
    | none => rw [hs2] at this; simp at this
    | some s' =>
      rw [hs2] at this
      simp only [Option.map_some, Option.some.injEq] at this
      exact List.mem_map.2 ⟨s', List.mem_of_getElem? hs2, this.symm⟩
  exact (List.perm_ext_iff_of_nodup (c70_states hwf h0 h).2 (c70_states hwf h0 h').2).2
    fun I => ⟨sub h h' I, sub h' h I⟩

/-! ## A concrete case: the grammar of the project's tests (test_grammars.rs:262-300) -/

namespace Examples

/-- `E0 → E;  E → E + T | T;  T → T * F | F;  F → ( E ) | id`. -/
def exprGrammar : Grammar Unit Unit := .bare
  [(true, [[.nonTerminal 1]]), (false, [[.nonTerminal 1, .terminal 0, .nonTerminal 2], [.nonTerminal 2]]),
    (false, [[.nonTerminal 2, .terminal 1, .nonTerminal 3], [.nonTerminal 3]]),
    (false, [[.terminal 2, .nonTerminal 1, .terminal 3], [.terminal 4]])] 5

theorem exprGrammar_wf : exprGrammar.WF := Grammar.wf_of_check (by decide)

/-- The state after reading `symbols`, started in `q`. -/
def walk (states : List LR1State) : Nat → List Symbol → Option Nat
  | q, [] => some q
  | q, X :: l => ((states[q]?).bind fun s => s.goto.get? X).bind fun r => walk states r l

theorem walk_path {states : List LR1State} : ∀ {l γ : List Symbol} {q r : Nat}, Path0 states γ q →
    walk states q l = some r → Path0 states (γ ++ l) r
  | [], γ, q, r, hp, h => by cases h; simpa using hp
  | X :: l, γ, q, r, hp, h => by
    simp only [walk] at h
    obtain ⟨q', h1, h2⟩ := Option.bind_eq_some_iff.1 h
    obtain ⟨s, h3, h4⟩ := Option.bind_eq_some_iff.1 h1
    simpa using walk_path (.snoc hp h3 h4) h2

set_option maxRecDepth 10000 in
/-- After `E + T` exactly `E → E + T .` and `T → T . * F` are valid; nothing is after `E T`; there are 12
states. -/
theorem c70_example :
    (∀ B p c, exprGrammar.Valid0 [.nonTerminal 1, .terminal 0, .nonTerminal 2] B p c ↔
      (B, p, c) ∈ [(1, 0, 3), (2, 0, 1)]) ∧
    (¬ ∃ B p c, exprGrammar.Valid0 [.nonTerminal 1, .nonTerminal 2] B p c) ∧
    (lr0Automaton .insertion exprGrammar).length = 12 := by
  have hpub : exprGrammar.isPublic 0 = true := by decide
  refine ⟨fun B p c => ?_, ?_, by decide +kernel⟩
  · have hq : ∃ q, walk (lr0Automaton .insertion exprGrammar) 0
        [.nonTerminal 1, .terminal 0, .nonTerminal 2] = some q ∧
        ((lr0Automaton .insertion exprGrammar)[q]?.map (·.items)) =
          some [⟨1, 0, 3, none⟩, ⟨2, 0, 1, none⟩] := ⟨9, by decide +kernel⟩
    obtain ⟨q, h1, h2⟩ := hq
    obtain ⟨s, hs, _, hI⟩ := c70_items exprGrammar_wf hpub .insertion (walk_path .nil h1)
    rw [hs] at h2
    simp only [Option.map_some, Option.some.injEq] at h2
    rw [List.nil_append] at hI
    have := hI B p c none
    rw [h2] at this
    simpa using this.symm
  · intro hx
    obtain ⟨q, hq⟩ := (c70_paths exprGrammar_wf hpub .insertion _).1.2 hx
    generalize hγ : [Symbol.nonTerminal 1, .nonTerminal 2] = γ at hq
    cases hq with
    | nil => cases hγ
    | @snoc γ q st X r h1 h2 h3 =>
      obtain ⟨rfl, hX⟩ := List.append_inj' (t₁ := [Symbol.nonTerminal 2]) (s₁ := [Symbol.nonTerminal 1]) hγ rfl
      obtain rfl : Symbol.nonTerminal 2 = X := by simpa using hX
      have h4 : walk (lr0Automaton .insertion exprGrammar) 0 [.nonTerminal 1] = some 1 := by decide +kernel
      obtain rfl := h1.det (walk_path .nil h4)
      have h5 : ((lr0Automaton .insertion exprGrammar)[1]?.bind fun s =>
        s.goto.get? (.nonTerminal 2)) = none := by decide +kernel
      rw [h2, Option.bind_some, h3] at h5
      cases h5

end Examples

end Parsegen
