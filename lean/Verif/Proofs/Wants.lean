import Verif.Proofs.Reject

/-! # The table in terms of moves wanted by items -/

namespace Parsegen

variable {A X Ty : Type} {g : Grammar A Ty}

theorem Item.Before.lt {a b : Item} (h : a.Before b) : Item.lt a b = true := by
  rw [Item.lt_iff]
  rcases h with h | ⟨h1, h | ⟨h2, h3⟩⟩
  · exact .inl h
  · exact .inr ⟨h1, .inl h⟩
  · exact .inr ⟨h1, .inr ⟨h2, .inl h3⟩⟩

theorem Item.before_of_lt {a b : Item} (h : Item.lt a b = true) :
    a.Before b ∨ (a.nt = b.nt ∧ a.prod = b.prod ∧ a.cursor = b.cursor ∧ a.la ≠ b.la) := by
  rw [Item.lt_iff] at h
  rcases h with h | ⟨h1, h | ⟨h2, h3 | ⟨h4, h5⟩⟩⟩
  · exact .inl (.inl h)
  · exact .inl (.inr ⟨h1, .inl h⟩)
  · exact .inl (.inr ⟨h1, .inr ⟨h2, h3⟩⟩)
  · exact .inr ⟨h1, h2, h4, fun e => by rw [e] at h5; omega⟩

theorem wants_shift_iff {it : Item} {c : Option Nat} :
    g.Wants (· = it) c .shift ↔ ∃ t, c = some t ∧ it.nextSymbol g = some (.terminal t) := by
  constructor
  · rintro ⟨nt, p, α, t, β, la, h1, h2, h3⟩
    subst h1
    exact ⟨t, h3, nextSymbol_of_hasProd h2⟩
  · rintro ⟨t, rfl, h⟩
    obtain ⟨α, β, h1, h2⟩ := Item.nextSymbol_iff.1 h
    obtain ⟨nt, p, k, la⟩ := it
    simp only at h1 h2
    subst h2
    exact ⟨nt, p, α, t, β, la, rfl, h1, rfl⟩

theorem wants_reduce_iff {it : Item} (hok : ItemOk g it) {c : Option Nat} {nt p : Nat} :
    g.Wants (· = it) c (.reduce nt p) ↔ it.nt = nt ∧ it.prod = p ∧ WantsReduce g it c := by
  constructor
  · rintro ⟨α, h1, h2, h3⟩
    subst h1
    exact ⟨rfl, rfl, by simp [h2.rhs_eq], h3, rfl⟩
  · rintro ⟨rfl, rfl, h1, h2, h3⟩
    refine ⟨g.rhs it.nt it.prod, ?_, Grammar.hasProd_of_lt hok.1, h2⟩
    rw [← h1, ← h3]

theorem wants_accept_iff (hwf : g.WF) {it : Item} (hok : ItemOk g it) {c : Option Nat} :
    g.Wants (· = it) c .accept ↔ WantsAccept g it c := by
  constructor
  · rintro ⟨nt, p, α, h1, h2, h3, rfl⟩
    subst h1
    obtain ⟨h4, b, h5⟩ := hwf.pub h3
    have := h2.lt
    have hp : p = 0 := by omega
    subst hp
    have := h2.rhs_eq.symm.trans h5.rhs_eq
    exact ⟨h3, by simp [this], rfl, rfl⟩
  · rintro ⟨h1, h2, h3, rfl⟩
    obtain ⟨h4, b, h5⟩ := hwf.pub h1
    have := hok.1
    have hp : it.prod = 0 := by omega
    refine ⟨it.nt, it.prod, [.nonTerminal b], ?_, by rw [hp]; exact h5, h1, rfl⟩
    obtain ⟨nt, p, k, la⟩ := it
    simp at h2 h3 ⊢
    exact ⟨h2.symm, h3.symm⟩

theorem Grammar.wants_iff {I : Item → Prop} {c : Option Nat} {m : Move} :
    g.Wants I c m ↔ ∃ it, I it ∧ g.Wants (· = it) c m := by
  constructor
  · intro h
    cases m with
    | shift =>
      obtain ⟨nt, p, α, t, β, la, h1, h2, h3⟩ := h
      exact ⟨_, h1, nt, p, α, t, β, la, rfl, h2, h3⟩
    | reduce nt p =>
      obtain ⟨α, h1, h2, h3⟩ := h
      exact ⟨_, h1, α, rfl, h2, h3⟩
    | accept =>
      obtain ⟨nt, p, α, h1, h2, h3⟩ := h
      exact ⟨_, h1, nt, p, α, rfl, h2, h3⟩
  · rintro ⟨it, h1, h2⟩
    exact h2.mono (fun x hx => hx ▸ h1)

theorem Grammar.Clash.mono {I J : Item → Prop} (h : ∀ x, I x → J x) {c : Option Nat} {m : Move}
    {nt p : Nat} (hc : g.Clash I c m nt p) : g.Clash J c m nt p := by
  obtain ⟨it, it', h1, h2, h3⟩ := hc
  exact ⟨it, it', h _ h1, h _ h2, h3⟩

/-- In a clash the two moves differ. -/
theorem Grammar.Clash.ne {I : Item → Prop} {c : Option Nat} {m : Move}
    {nt p : Nat} (hc : g.Clash I c m nt p) : m ≠ .reduce nt p := by
  obtain ⟨it, it', _, _, h3, h4, h5⟩ := hc
  rintro rfl
  obtain ⟨α, h6, h7, _⟩ := h4
  obtain ⟨α', h6', h7', _⟩ := h5
  have := h7.rhs_eq.symm.trans h7'.rhs_eq
  subst this
  rw [← h6, ← h6'] at h3
  unfold Item.Before at h3
  simp at h3

theorem Grammar.Clash.left {I : Item → Prop} {c : Option Nat} {m : Move}
    {nt p : Nat} (hc : g.Clash I c m nt p) : g.Wants I c m := by
  obtain ⟨it, it', h1, h2, h3, h4, h5⟩ := hc
  exact g.wants_iff.2 ⟨it, h1, h4⟩

theorem Grammar.Clash.right {I : Item → Prop} {c : Option Nat} {m : Move}
    {nt p : Nat} (hc : g.Clash I c m nt p) : g.Wants I c (.reduce nt p) := by
  obtain ⟨it, it', h1, h2, h3, h4, h5⟩ := hc
  exact g.wants_iff.2 ⟨it', h2, h5⟩

/-- The panic of a state is a clash. -/
theorem StateClash.clash (hwf : g.WF) {q : Nat} {st : LR1State} {f : Fault}
    (hok : ∀ x ∈ st.items, ItemOk g x) (h : StateClash g q st f) :
    ∃ c r m nt p, g.Clash (· ∈ st.items) c m nt p ∧ f = m.fault q c r nt p ∧
      (m = .shift → ∃ t, c = some t ∧ st.goto.get? (.terminal t) = some r) := by
  obtain ⟨it, h1, it', h2, h3, h4, h5⟩ := h
  have hb : ∀ m, g.Wants (· = it) it'.la m → it.Before it' := by
    intro m hm
    rcases Item.before_of_lt h3 with h | ⟨e1, e2, e3, e4⟩
    · exact h
    · exfalso
      cases m with
      | shift =>
        obtain ⟨t, _, ht⟩ := wants_shift_iff.1 hm
        have := h4.1
        rw [← e1, ← e2, ← e3] at this
        unfold Item.nextSymbol at ht
        have := (List.getElem?_eq_some_iff.1 ht).1
        omega
      | reduce nt p =>
        obtain ⟨_, _, h6⟩ := (wants_reduce_iff (hok it h1)).1 hm
        exact e4 h6.2.2
      | accept =>
        have h6 := (wants_accept_iff hwf (hok it h1)).1 hm
        have := h4.2.1
        rw [← e1, h6.1] at this
        cases this
  have hr := (wants_reduce_iff (hok it' h2) (c := it'.la)).2 ⟨rfl, rfl, h4⟩
  rcases h5 with ⟨r, rfl, ⟨t, hc, h6, _⟩, h7⟩ | ⟨rfl, h6⟩ | ⟨rfl, h6⟩
  · have hw := wants_shift_iff.2 ⟨t, hc, h6⟩
    exact ⟨_, r, .shift, _, _, ⟨it, it', h1, h2, hb _ hw, hw, hr⟩, rfl, fun _ => ⟨t, hc, h7 t hc⟩⟩
  · have hw := (wants_reduce_iff (hok it h1) (c := it'.la)).2 ⟨rfl, rfl, h6⟩
    exact ⟨_, 0, .reduce _ _, _, _, ⟨it, it', h1, h2, hb _ hw, hw, hr⟩, rfl, by simp⟩
  · have hw := (wants_accept_iff hwf (hok it h1)).2 h6
    exact ⟨_, 0, .accept, _, _, ⟨it, it', h1, h2, hb _ hw, hw, hr⟩, rfl, by simp⟩

section

variable [DecidableEq Ty] {h : HashOrder} {g : Grammar X Ty} {gen : Generated X}

/-- An accepted grammar has no clash in any state. -/
theorem GenStages.no_clash {a : Automaton} {g' : Grammar Nat Ty} {T : LRTable Nat}
    (hs : GenStages h g gen a g' T) (hwf : g.WF) {st : LR1State} {q : Nat}
    (hst : a.states[q]? = some st) {E : Nat} {γ : List Symbol} (hE : g.isPublic E = true)
    (hI : ∀ x, x ∈ st.items ↔ ItemsAt g (generateFirstTable h g) E γ x) {c : Option Nat} {m : Move}
    {nt p : Nat} : ¬ g.Clash (ItemsAt g (generateFirstTable h g) E γ) c m nt p := by
  rintro ⟨it, it', h1, h2, h3, h4, h5⟩
  have hF := generateFirstTable_ok hwf h
  have ha := hs.autoSpec hwf
  have hfine := (hs.tableSpec hwf).1 st (List.mem_of_getElem? hst)
  have o1 := h1.itemOk hwf hF hE
  have o2 := h2.itemOk hwf hF hE
  have hr := ((wants_reduce_iff o2).1 h5).2.2
  have hsh := hs.shape
  refine hfine it ((hI _).2 h1) it' ((hI _).2 h2) c h3.lt ((hsh.wantsReduce _ _).2 hr) ?_
  rw [hsh.wantsShift, hsh.wantsReduce, hsh.wantsAccept]
  cases m with
  | shift =>
    left
    obtain ⟨nt, p, α, t, β, la, e, h7, rfl⟩ := h4
    subst e
    obtain ⟨r, hr⟩ := goto_isSome hwf hF ha hE hst hI h1 h7
    exact ⟨t, rfl, nextSymbol_of_hasProd h7, by simp [hr]⟩
  | reduce nt p => exact .inr (.inl ((wants_reduce_iff o1).1 h4).2.2)
  | accept => exact .inr (.inr ((wants_accept_iff hwf o1).1 h4))

omit [DecidableEq Ty] in
theorem ItemsAt.prefix {F : FirstTable} {E : Nat} {γ : List Symbol} {s : Symbol} {x : Item}
    (h : ItemsAt g F E (γ ++ [s]) x) : ∃ nt p α β la, ItemsAt g F E γ ⟨nt, p, α.length, la⟩ ∧
      g.HasProd nt p (α ++ s :: β) := by
  obtain ⟨y, hy⟩ := (itemsAt_snoc_iff.1 h).exists_base
  cases hy with
  | mk h1 hp => exact ⟨_, _, _, _, _, h1, hp⟩

omit [DecidableEq Ty] in
/-- Every string with an item is read into a state. -/
theorem AutoSpec.stateAt {F : FirstTable} {a : Automaton} (hwf : g.WF) (hF : F.Ok g.nTerminals)
    (ha : AutoSpec h g F a) {E : Nat} (hE : g.isPublic E = true) (γ : List Symbol) :
    ∀ x, ItemsAt g F E γ x → ∃ q, StateAt g F a E γ q := by
  induction γ using List.reverseRecOn with
  | nil =>
    intro x _
    obtain ⟨q, hq⟩ := Option.isSome_iff_exists.1 ((ha.ent_dom E).2 hE)
    obtain ⟨s, h1, h2⟩ := ha.ent E q hq
    exact ⟨q, s, h1, h2⟩
  | append_singleton γ s ih =>
    intro x hx
    obtain ⟨nt, p, α, β, la, h1, h2⟩ := hx.prefix
    obtain ⟨q, st, h3, h4⟩ := ih _ h1
    obtain ⟨r, hr⟩ := goto_isSome hwf hF ha hE h3 h4 h1 h2
    exact ⟨r, stateAt_goto hwf hF ha hE h3 h4 hr⟩

/-- Rejections that are not about sizes are clashes. -/
theorem generateParser_conflict (hwf : g.WF) {f : Fault} (he : generateParser h g = .error f) :
    f = .u16Overflow ∨ f = .u32Overflow ∨ Conflict h g f := by
  have hF := generateFirstTable_ok hwf h
  obtain ⟨a, ha, (⟨h1, _⟩ | ⟨h1, _⟩) | ⟨q, st, hq, hc, hfirst⟩⟩ := generateParser_error hwf he
  · exact .inl h1
  · exact .inr (.inl h1)
  · obtain ⟨a', ha', has⟩ := generateAutomaton_spec hwf hF h
    rw [ha] at ha'; cases ha'
    have hreach := has.reach q st hq
    obtain ⟨c, r, m, nt, p, h1, rfl, h3⟩ := hc.clash hwf (hreach.itemOk hwf hF)
    obtain ⟨E, γ, hE, hI, _⟩ := hreach
    have hv : ∀ x, ItemsAt g (generateFirstTable h g) E γ x → g.Valid E γ x :=
      fun x hx => hx.valid (generateFirstTable_sound h g) hwf hE
    have hc' := h1.mono (fun x hx => (hI x).1 hx)
    refine .inr (.inr (.mk ha hE ⟨st, hq, hI⟩ ?_ ?_ hc' (hc'.left.mono hv) (hc'.right.mono hv)))
    · intro hm
      obtain ⟨t, h4, h5⟩ := h3 hm
      exact ⟨t, h4, stateAt_goto hwf hF has hE hq hI h5⟩
    · intro q' hq' st' hst' c m nt p hcl
      obtain ⟨it, it', m1, m2, m3, m4, m5⟩ := hcl
      have hok := (has.reach q' st' hst').itemOk hwf hF
      refine hfirst q' hq' st' hst' it m1 it' m2 c m3.lt ((wants_reduce_iff (hok it' m2)).1 m5).2.2 ?_
      cases m with
      | shift =>
        left
        obtain ⟨E', γ', hE', hI', _⟩ := has.reach q' st' hst'
        obtain ⟨nt, p, α, t, β, la, e, h7, rfl⟩ := m4
        subst e
        obtain ⟨r, hr⟩ := goto_isSome hwf hF has hE' hst' hI' ((hI' _).1 m1) h7
        exact ⟨t, rfl, nextSymbol_of_hasProd h7, by simp [hr]⟩
      | reduce nt p => exact .inr (.inl ((wants_reduce_iff (hok it m1)).1 m4).2.2)
      | accept => exact .inr (.inr ((wants_accept_iff hwf (hok it m1)).1 m4))

theorem generateParser_no_clash (hwf : g.WF) (hg : generateParser h g = .ok gen) {E : Nat}
    (hE : g.isPublic E = true) {γ : List Symbol} {c : Option Nat} {m : Move} {nt p : Nat} :
    ¬ g.Clash (ItemsAt g (generateFirstTable h g) E γ) c m nt p := by
  intro hc
  obtain ⟨a, g', T, hs⟩ := generateParser_ok hg
  have hF := generateFirstTable_ok hwf h
  obtain ⟨it, _, h1, _⟩ := id hc
  obtain ⟨q, st, h2, h3⟩ := (hs.autoSpec hwf).stateAt hwf hF hE γ it h1
  exact hs.no_clash hwf h2 hE h3 hc

/-! ## Paths in the emitted tables -/

theorem Generated.cell_some {q t : Nat} {gen : Generated X} :
    gen.cell q (some t) = (gen.act q (some t)).join := rfl

theorem Generated.cell_none {q : Nat} {gen : Generated X} :
    gen.cell q none = (gen.act q none).join := rfl

theorem Generated.cell_eq {q : Nat} {gen : Generated X} (c : Option Nat) :
    gen.cell q c = (gen.act q c).join := by cases c <;> rfl

theorem GenStages.path_at {a : Automaton} {g' : Grammar Nat Ty} {T : LRTable Nat}
    (hs : GenStages h g gen a g' T) (hwf : g.WF) {E q0 : Nat} (hE : g.isPublic E = true)
    (h0 : StateAt g (generateFirstTable h g) a E [] q0) {γ : List Symbol} {q : Nat}
    (hp : gen.Path q0 γ q) : StateAt g (generateFirstTable h g) a E γ q := by
  have ht := hs.tables hwf
  induction hp with
  | nil => exact h0
  | shift _ hr hlt hc ih =>
    next γ r t s row _ =>
    obtain ⟨t', nt, p, α, β, la, h1, _, _, h2⟩ := ht.shift_of (c := some t) (r := s) hE ih (by
      intro x hx; cases hx; rw [← ht.nT]; exact hlt) (by
        simp [Generated.act, hr, laCol, hc])
    cases h1
    exact h2
  | goto _ hr hc ih =>
    next γ r b s row _ =>
    have hgo : gen.go r b = some (some s) := by simp [Generated.go, hr, hc]
    refine ht.goto_of hE ih ?_ hgo
    obtain ⟨st, h1, _⟩ := ih
    have hrlt : r < T.nStates := by
      rw [(hs.tableSpec hwf).2.n]; exact (List.getElem?_eq_some_iff.1 h1).1
    obtain ⟨row', e1, e2, _⟩ := hs.goto.row r hrlt
    rw [hr] at e1; cases e1
    have := (List.getElem?_eq_some_iff.1 hc).1
    rw [e2, hs.shape.nNonTerminals] at this
    exact this

theorem GenStages.path_exists {a : Automaton} {g' : Grammar Nat Ty} {T : LRTable Nat}
    (hs : GenStages h g gen a g' T) (hwf : g.WF) {E q0 : Nat} (hE : g.isPublic E = true)
    (h0 : StateAt g (generateFirstTable h g) a E [] q0) (γ : List Symbol) :
    ∀ x, ItemsAt g (generateFirstTable h g) E γ x → ∃ q, gen.Path q0 γ q := by
  have ht := hs.tables hwf
  have hF := generateFirstTable_ok hwf h
  induction γ using List.reverseRecOn with
  | nil => exact fun _ _ => ⟨q0, .nil⟩
  | append_singleton γ s ih =>
    intro x hx
    obtain ⟨nt, p, α, β, la, h1, h2⟩ := hx.prefix
    obtain ⟨q, hq⟩ := ih _ h1
    have hat := hs.path_at hwf hE h0 hq
    cases s with
    | terminal t =>
      obtain ⟨r, h3, _⟩ := ht.shift_mk hE hat h1 h2
      have hlt : t < gen.nTerminals := by rw [ht.nT]; exact hwf.term_lt h2 (by simp)
      unfold Generated.act at h3
      obtain ⟨row, h4, h5⟩ := Option.bind_eq_some_iff.1 h3
      exact ⟨r, .shift hq h4 hlt h5⟩
    | nonTerminal b =>
      obtain ⟨r, h3, _⟩ := ht.goto_mk hE hat h1 h2
      unfold Generated.go at h3
      obtain ⟨row, h4, h5⟩ := Option.bind_eq_some_iff.1 h3
      exact ⟨r, .goto hq h4 h5⟩

end

end Parsegen
