import Verif.Proofs.Codegen

/-! # Generated arrays meet the interface `Tables` -/

namespace Parsegen

variable {A X Ty : Type}

theorem encodeCell_none {g : Grammar A Ty} {o} (h : encodeCell g none = .ok o) : o = none := by
  cases h; rfl

theorem encodeCell_shift {g : Grammar A Ty} {r o} (h : encodeCell g (some (.shift r)) = .ok o) :
    o = some (.shift r) := by
  obtain ⟨x, h1, h2⟩ := Except.bind_eq_ok.1 h
  obtain ⟨y, h3, h4⟩ := Except.bind_eq_ok.1 h1
  obtain ⟨rfl, _⟩ := tryU32_ok.1 h3
  cases h4; cases h2; rfl

theorem encodeCell_accept {g : Grammar A Ty} {o} (h : encodeCell g (some .accept) = .ok o) :
    o = some .accept := by
  cases h; rfl

theorem encodeCell_reduce {g : Grammar A Ty} {nt p k o}
    (h : encodeCell g (some (.reduce nt p k)) = .ok o) :
    ∃ pr, g.getProduction? nt p = some pr ∧ o = some (.reduce nt pr.symbols.length k) := by
  obtain ⟨x, h1, h2⟩ := Except.bind_eq_ok.1 h
  unfold encodeAction at h1
  simp only at h1
  split at h1
  · cases h1
  · next pr hpr =>
    obtain ⟨y, h3, h4⟩ := Except.bind_eq_ok.1 h1
    obtain ⟨rfl, _⟩ := tryU16_ok.1 h3
    obtain ⟨z, h5, h6⟩ := Except.bind_eq_ok.1 h4
    obtain ⟨rfl, _⟩ := tryU16_ok.1 h5
    cases h6; cases h2
    exact ⟨pr, hpr, rfl⟩

theorem rhs_of_getProduction {g : Grammar A Ty} {nt p : Nat} {pr : Production A}
    (h : g.getProduction? nt p = some pr) : g.rhs nt p = pr.syms := by
  unfold Grammar.rhs; rw [h]

theorem hasProd_of_getProduction {g : Grammar A Ty} {nt p : Nat} {pr : Production A}
    (h : g.getProduction? nt p = some pr) : g.HasProd nt p pr.syms := by
  unfold Grammar.getProduction? at h
  cases hn : g.nonTerminals[nt]? with
  | none => rw [hn] at h; cases h
  | some n => rw [hn] at h; exact ⟨n, pr, hn, h, rfl⟩

theorem getProduction_of_hasProd {g : Grammar A Ty} {nt p : Nat} {α : List Symbol}
    (h : g.HasProd nt p α) : ∃ pr, g.getProduction? nt p = some pr ∧ pr.syms = α := by
  obtain ⟨n, pr, h1, h2, h3⟩ := h
  exact ⟨pr, by unfold Grammar.getProduction?; rw [h1]; exact h2, h3.symm⟩

section
variable [DecidableEq Ty] {h : HashOrder} {g : Grammar X Ty} {gen : Generated X} {a : Automaton}
  {g' : Grammar Nat Ty} {T : LRTable Nat}

theorem GenStages.shape (hs : GenStages h g gen a g' T) : SameShape g g' :=
  (generateSemanticActionTable_ok hs.sem).1

theorem GenStages.autoSpec (hs : GenStages h g gen a g' T) (hwf : g.WF) :
    AutoSpec h g (generateFirstTable h g) a := by
  obtain ⟨a', h1, h2⟩ := generateAutomaton_spec hwf (generateFirstTable_ok hwf h) h
  rw [hs.auto] at h1; cases h1; exact h2

theorem GenStages.tableSpec (hs : GenStages h g gen a g' T) (hwf : g.WF) :
    (∀ st ∈ a.states, StateFine g' st) ∧ TableSpec g' a.states T := by
  have ha := hs.autoSpec hwf
  refine (buildTable_spec (hs.shape.wf hwf) h ?_).2 T hs.table
  intro i st hi
  refine ⟨?_, ha.sorted i st hi, ha.nodup i st hi⟩
  intro x hx
  exact (hs.shape.itemOk x).2 ((ha.reach i st hi).itemOk hwf (generateFirstTable_ok hwf h) x hx)

/-- The cell of the action array is the encoded table entry. -/
theorem GenStages.act_cell (hs : GenStages h g gen a g' T) (hwf : g.WF) {q : Nat} {s : LR1State}
    (hq : a.states[q]? = some s) {c : Option Nat} (hc : LaOk g.nTerminals c) :
    ∃ o, gen.act q c = some o ∧ encodeCell g' (T.getAction q c) = .ok o := by
  have hlt : q < T.nStates := by
    rw [(hs.tableSpec hwf).2.n]; exact (List.getElem?_eq_some_iff.1 hq).1
  obtain ⟨row, h1, _, h3⟩ := hs.action.row q hlt
  obtain ⟨o, h4, h5⟩ := h3 c hc
  refine ⟨o, ?_, h5⟩
  unfold Generated.act
  rw [h1, hs.nT]; exact h4

theorem GenStages.go_cell (hs : GenStages h g gen a g' T) (hwf : g.WF) {q : Nat} {s : LR1State}
    (hq : a.states[q]? = some s) {b : Nat} (hb : b < g.nNonTerminals) :
    gen.go q b = some (T.getGoto q b) := by
  have hlt : q < T.nStates := by
    rw [(hs.tableSpec hwf).2.n]; exact (List.getElem?_eq_some_iff.1 hq).1
  obtain ⟨row, h1, _, h3⟩ := hs.goto.row q hlt
  unfold Generated.go
  rw [h1]
  exact (h3 b (by rw [hs.shape.nNonTerminals]; exact hb)).1

theorem GenStages.isSem (hs : GenStages h g gen a g' T) {nt p : Nat} {pr' : Production Nat}
    (hp : g'.getProduction? nt p = some pr') : gen.IsSem g pr'.action nt p := by
  have h1 := hs.shape.getProduction nt p
  rw [hp] at h1
  cases h2 : g.getProduction? nt p with
  | none => rw [h2] at h1; cases h1
  | some pr =>
    obtain ⟨h3, f, h4, h5⟩ := (generateSemanticActionTable_ok hs.sem).2.2.2 nt p pr h2
    rw [hp] at h3; cases h3
    exact ⟨pr, f, h2, h4, h5⟩

omit [DecidableEq Ty] in
theorem stateAt_goto {F : FirstTable} (hwf : g.WF) (hF : F.Ok g.nTerminals)
    (ha : AutoSpec h g F a) {E : Nat} {γ : List Symbol} {q : Nat} {s : LR1State} {Y : Symbol} {r : Nat}
    (hE : g.isPublic E = true) (hs : a.states[q]? = some s)
    (hI : ∀ x, x ∈ s.items ↔ ItemsAt g F E γ x) (hr : s.goto.get? Y = some r) :
    StateAt g F a E (γ ++ [Y]) r := by
  obtain ⟨_, s', h1, h2⟩ := ha.edge q s Y r hs hr
  refine ⟨s', h1, ?_⟩
  intro x; rw [h2]
  exact mem_goto_itemsAt hwf hF h hE hI Y x

omit [DecidableEq Ty] in
theorem mem_allSymbols (hwf : g.WF) {nt p : Nat} {α β : List Symbol} {s : Symbol}
    (hp : g.HasProd nt p (α ++ s :: β)) : s ∈ g.allSymbols := by
  unfold Grammar.allSymbols
  cases s with
  | nonTerminal b => simp; exact hwf.nt_lt hp (by simp)
  | terminal t => simp; exact hwf.term_lt hp (by simp)

omit [DecidableEq Ty] in
theorem goto_isSome {F : FirstTable} (hwf : g.WF) (hF : F.Ok g.nTerminals)
    (ha : AutoSpec h g F a) {E : Nat} {γ : List Symbol} {q : Nat} {s : LR1State}
    (hE : g.isPublic E = true) (hs : a.states[q]? = some s)
    (hI : ∀ x, x ∈ s.items ↔ ItemsAt g F E γ x) {nt p : Nat} {α β : List Symbol} {Y : Symbol}
    {la : Option Nat} (hit : ItemsAt g F E γ ⟨nt, p, α.length, la⟩)
    (hp : g.HasProd nt p (α ++ Y :: β)) : ∃ r, s.goto.get? Y = some r := by
  apply Option.isSome_iff_exists.1
  apply ha.complete q s Y hs (mem_allSymbols hwf hp)
  have := (mem_goto_itemsAt hwf hF h hE hI Y _).2 (.advance hit hp)
  exact List.ne_nil_of_mem this

omit [DecidableEq Ty] in
theorem nextSymbol_of_hasProd {g : Grammar A Ty} {nt p : Nat} {α β : List Symbol} {s : Symbol}
    {la : Option Nat} (hp : g.HasProd nt p (α ++ s :: β)) :
    (⟨nt, p, α.length, la⟩ : Item).nextSymbol g = some s :=
  Item.nextSymbol_iff.2 ⟨α, β, hp, rfl⟩

theorem GenStages.tables (hs : GenStages h g gen a g' T) (hwf : g.WF) :
    Tables g (generateFirstTable h g) gen (StateAt g (generateFirstTable h g) a) := by
  have ha := hs.autoSpec hwf
  have hF := generateFirstTable_ok hwf h
  have hT := (hs.tableSpec hwf).2
  have hsh := hs.shape
  have hentry : ∀ e ep, e ∈ a.entries → entryPoint g' (semanticActionVariants g) e = .ok ep →
      g.isPublic e.1 = true ∧ StateAt g (generateFirstTable h g) a e.1 [] ep.initState ∧
      (g.nonTerminals[e.1]?).map (·.name) = some ep.name ∧
      (semanticActionVariants g)[e.1]? = some ep.extract ∧ gen.IsSem g ep.actionIdx e.1 0 := by
    rintro ⟨E, q⟩ ep he hep
    have hq := (AMap.mem_iff_get? ha.ent_nodup).1 he
    obtain ⟨s, h1, h2⟩ := ha.ent E q hq
    unfold entryPoint at hep
    obtain ⟨st, h3, h4⟩ := Except.bind_eq_ok.1 hep
    obtain ⟨rfl, _⟩ := tryU32_ok.1 h3
    simp only at h4
    split at h4
    · next n p k hn hp hk =>
      cases h4
      refine ⟨(ha.ent_dom E).1 (by rw [hq]; rfl), ⟨s, h1, h2⟩, ?_, hk, hs.isSem hp⟩
      obtain ⟨n0, e1, e2, _⟩ := hsh.nt' hn
      simp only; rw [e1]; simp [e2]
    · cases h4
  constructor
  · rintro E γ q c hE ⟨s, h1, h2⟩ hc
    obtain ⟨o, h3, _⟩ := hs.act_cell hwf h1 hc
    exact ⟨o, h3⟩
  · rintro E γ q c r hE ⟨s, h1, h2⟩ hc hact
    obtain ⟨o, h3, h4⟩ := hs.act_cell hwf h1 hc
    rw [hact] at h3; cases h3
    cases hx : T.getAction q c with
    | none => rw [hx] at h4; have := encodeCell_none h4; cases this
    | some act =>
      rw [hx] at h4
      cases act with
      | shift n =>
        have := encodeCell_shift h4; cases this
        obtain ⟨it, m1, t, m2, m3, m4⟩ := (hT.row q s h1).act.shift_of c r hx
        rw [hsh.nextSymbol] at m3
        obtain ⟨α, β, k1, k2⟩ := Item.nextSymbol_iff.1 m3
        refine ⟨t, it.nt, it.prod, α, β, it.la, m2, ?_, k1, ?_⟩
        · rw [k2]; exact (h2 _).1 m1
        · exact stateAt_goto hwf hF ha hE h1 h2 m4
      | reduce nt p k => obtain ⟨pr, _, h5⟩ := encodeCell_reduce h4; cases h5
      | accept => have := encodeCell_accept h4; cases this
  · rintro E γ q nt p α t β la hE ⟨s, h1, h2⟩ hit hp
    obtain ⟨r, hr⟩ := goto_isSome hwf hF ha hE h1 h2 hit hp
    have hx := (hT.row q s h1).act.shift_mk _ ((h2 _).2 hit) t r
      (by rw [hsh.nextSymbol]; exact nextSymbol_of_hasProd hp) hr
    have hc : LaOk g.nTerminals (some t) := by
      intro t' ht; cases ht; exact hwf.term_lt hp (by simp)
    obtain ⟨o, h3, h4⟩ := hs.act_cell hwf h1 hc
    rw [hx] at h4
    have := encodeCell_shift h4; subst this
    exact ⟨r, h3, stateAt_goto hwf hF ha hE h1 h2 hr⟩
  · rintro E γ q c b n k hE ⟨s, h1, h2⟩ hc hact
    obtain ⟨o, h3, h4⟩ := hs.act_cell hwf h1 hc
    rw [hact] at h3; cases h3
    cases hx : T.getAction q c with
    | none => rw [hx] at h4; have := encodeCell_none h4; cases this
    | some act =>
      rw [hx] at h4
      cases act with
      | shift n => have := encodeCell_shift h4; cases this
      | reduce nt p k' =>
        obtain ⟨pr, h5, h6⟩ := encodeCell_reduce h4; cases h6
        obtain ⟨it, m1, rfl, rfl, m4, pr', m5, m6⟩ := (hT.row q s h1).act.reduce_of c _ _ _ hx
        rw [h5] at m5; cases m5
        rw [hsh.wantsReduce] at m4
        obtain ⟨w1, w2, w3⟩ := m4
        have hp := hsh.hasProd.1 (hasProd_of_getProduction h5)
        have hl : pr.symbols.length = pr.syms.length := by simp [Production.syms]
        refine ⟨it.prod, pr.syms, hp, hl, ?_, w2, ?_⟩
        · have : (⟨it.nt, it.prod, pr.syms.length, c⟩ : Item) = it := by
            rw [← w3, ← hp.rhs_eq, ← w1]
          rw [this]; exact (h2 _).1 m1
        · rw [← m6]; exact hs.isSem h5
      | accept => have := encodeCell_accept h4; cases this
  · rintro E γ q c b p α hE ⟨s, h1, h2⟩ hit hp hpub
    have hok := hit.itemOk hwf hF hE
    have hc : LaOk g.nTerminals c := hok.2.2
    obtain ⟨o, h3, h4⟩ := hs.act_cell hwf h1 hc
    have hw : WantsReduce g' ⟨b, p, α.length, c⟩ c :=
      (hsh.wantsReduce _ _).2 ⟨by simp only [hp.rhs_eq], hpub, rfl⟩
    have hsome := (hT.row q s h1).act.reduce_mk _ ((h2 _).2 hit) c hw
    obtain ⟨act, hx⟩ := Option.isSome_iff_exists.1 hsome
    rw [hx] at h4
    cases act with
    | shift n =>
      have := encodeCell_shift h4; subst this
      exact Or.inr (Or.inl ⟨n, h3⟩)
    | accept =>
      have := encodeCell_accept h4; subst this
      exact Or.inr (Or.inr h3)
    | reduce nt p' k =>
      obtain ⟨pr, h5, h6⟩ := encodeCell_reduce h4; subst h6
      obtain ⟨it, m1, rfl, rfl, m4, pr', m5, m6⟩ := (hT.row q s h1).act.reduce_of c _ _ _ hx
      rw [h5] at m5; cases m5
      rcases (hT.row q s h1).act.order it m1 _ ((h2 _).2 hit) c hw (Or.inr (Or.inl m4)) with h7 | h7
      · subst h7
        left
        have hp' := hsh.hasProd.1 (hasProd_of_getProduction h5)
        have he : pr.syms = α := hp'.rhs_eq.symm.trans hp.rhs_eq
        have hl : pr.symbols.length = pr.syms.length := by simp [Production.syms]
        refine ⟨k, ?_, ?_⟩
        · rw [h3, hl, he]
        · rw [← m6]; exact hs.isSem h5
      · exact absurd m4 h7.2
  · rintro E γ q c hE ⟨s, h1, h2⟩ hc hact
    obtain ⟨o, h3, h4⟩ := hs.act_cell hwf h1 hc
    rw [hact] at h3; cases h3
    cases hx : T.getAction q c with
    | none => rw [hx] at h4; have := encodeCell_none h4; cases this
    | some act =>
      rw [hx] at h4
      cases act with
      | shift n => have := encodeCell_shift h4; cases this
      | reduce nt p k' => obtain ⟨pr, h5, h6⟩ := encodeCell_reduce h4; cases h6
      | accept =>
        obtain ⟨it, m1, m2⟩ := (hT.row q s h1).act.accept_of c hx
        rw [hsh.wantsAccept] at m2
        obtain ⟨w1, w2, w3, w4⟩ := m2
        have hi := (h2 _).1 m1
        obtain ⟨p1, p2, p3⟩ := hi.pub hwf w1
        refine ⟨w4, ?_⟩
        have : (⟨E, 0, 1, none⟩ : Item) = it := by
          rw [← p1, ← p2, ← w2, ← p3]
        rw [this]; exact hi
  · rintro E γ q hE ⟨s, h1, h2⟩ hit
    have hc : LaOk g.nTerminals none := by intro t ht; cases ht
    obtain ⟨o, h3, h4⟩ := hs.act_cell hwf h1 hc
    have hx := (hT.row q s h1).act.accept_mk _ ((h2 _).2 hit) none
      ((hsh.wantsAccept _ _).2 ⟨hE, rfl, rfl, rfl⟩)
    rw [hx] at h4
    have := encodeCell_accept h4; subst this
    exact h3
  · rintro E γ q nt p α b β la hE ⟨s, h1, h2⟩ hit hp
    obtain ⟨r, hr⟩ := goto_isSome hwf hF ha hE h1 h2 hit hp
    have hx := (hT.row q s h1).go.goto_mk (List.ne_nil_of_mem ((h2 _).2 hit)) b r hr
    refine ⟨r, ?_, stateAt_goto hwf hF ha hE h1 h2 hr⟩
    rw [hs.go_cell hwf h1 (hwf.nt_lt hp (by simp)), hx]
  · rintro E γ q b r hE ⟨s, h1, h2⟩ hb hgo
    rw [hs.go_cell hwf h1 hb] at hgo
    simp only [Option.some.injEq] at hgo
    exact stateAt_goto hwf hF ha hE h1 h2 ((hT.row q s h1).go.goto_of b r hgo)
  · intro ep hep
    obtain ⟨i, hi⟩ := List.getElem?_of_mem hep
    obtain ⟨e, h1, h2⟩ := forall₂_getElem?' hs.entries hi
    have he : e ∈ a.entries := by simpa using List.mem_of_getElem? h1
    exact ⟨e.1, hentry e ep he h2⟩
  · intro E hE
    obtain ⟨q, hq⟩ := Option.isSome_iff_exists.1 ((ha.ent_dom E).2 hE)
    have he : (E, q) ∈ h.iter a.entries := by simpa using AMap.mem_of_get? hq
    obtain ⟨i, hi⟩ := List.getElem?_of_mem he
    obtain ⟨ep, h1, h2⟩ := forall₂_getElem? hs.entries hi
    exact ⟨ep, List.mem_of_getElem? h1, (hentry (E, q) ep (AMap.mem_of_get? hq) h2).2⟩
  · exact hs.nT
  · rw [hs.strs]; unfold generateTokenText; rw [hsh.terms]
  · rintro E γ q hE ⟨s, h1, h2⟩
    have hlt : q < T.nStates := by
      rw [hT.n]; exact (List.getElem?_eq_some_iff.1 h1).1
    rw [hs.expected]
    unfold generateExpected
    rw [List.getElem?_map, List.getElem?_range hlt]
    simp only [Option.map_some, expectedTerminals, hsh.terms]
    congr 3
    apply List.filter_congr
    rintro ⟨x, t⟩ hx
    have ht : t < g.nTerminals := by
      have := List.mem_zipIdx_iff_getElem?.1 hx
      exact (List.getElem?_eq_some_iff.1 this).1
    obtain ⟨o, h3, h4⟩ := hs.act_cell hwf h1 (c := some t) (by intro t' ht'; cases ht'; exact ht)
    simp only [h3, Option.join_some]
    cases hx : T.getAction q (some t) with
    | none => rw [hx] at h4; rw [encodeCell_none h4]; rfl
    | some act =>
      rw [hx] at h4
      cases act with
      | shift n => rw [encodeCell_shift h4]; rfl
      | accept => rw [encodeCell_accept h4]; rfl
      | reduce nt p k => obtain ⟨pr, _, h6⟩ := encodeCell_reduce h4; rw [h6]; rfl

end

end Parsegen
