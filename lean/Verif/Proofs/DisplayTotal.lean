import Verif.Proofs.Display
import Verif.Proofs.SLR
import Verif.Props.Generator

/-! # The dumps never panic -/

namespace Parsegen

variable {A X Ty : Type} {dbg : String → Chars} {g : Grammar A Ty}

theorem mapM_total {α β : Type} {f : α → Except Fault β} {l : List α}
    (h : ∀ x ∈ l, ∃ y, f x = .ok y) : ∃ r, l.mapM f = .ok r := by
  induction l with
  | nil => exact ⟨[], rfl⟩
  | cons a l ih =>
    obtain ⟨y, hy⟩ := h a (by simp)
    obtain ⟨r, hr⟩ := ih fun x hx => h x (by simp [hx])
    exact ⟨y :: r, by rw [List.mapM_cons, hy, Except.bind_ok, hr, Except.bind_ok]; rfl⟩

theorem showNonTerminal_total {i : Nat} (h : i < g.nNonTerminals) :
    ∃ t, showNonTerminal g i = .ok t := by
  unfold showNonTerminal
  rw [List.getElem?_eq_getElem h]
  exact ⟨_, rfl⟩

theorem showTerminal_total {i : Nat} (h : i < g.nTerminals) :
    ∃ t, showTerminal dbg g i = .ok t := by
  unfold showTerminal
  rw [List.getElem?_eq_getElem h]
  exact ⟨_, rfl⟩

theorem showSymbol_total (hwf : g.WF) {nt p : Nat} {α : List Symbol} (hp : g.HasProd nt p α) {s : Symbol}
    (hs : s ∈ α) : ∃ t, showSymbol dbg g s = .ok t := by
  cases s with
  | nonTerminal b => exact showNonTerminal_total (hwf.nt_lt hp hs)
  | terminal t => exact showTerminal_total (hwf.term_lt hp hs)

theorem getProduction?_hasProd {nt p : Nat} {pr : Production A} (h : g.getProduction? nt p = some pr) :
    g.HasProd nt p (pr.symbols.map (·.symbol)) := by
  obtain ⟨n, h1, h2⟩ := Option.bind_eq_some_iff.1 h
  exact ⟨n, pr, h1, h2, rfl⟩

theorem mem_zipIdx_fst {α : Type} {l : List α} {k : Nat} {x : α × Nat} (h : x ∈ l.zipIdx k) :
    x.1 ∈ l := by
  have := List.mem_map_of_mem (f := Prod.fst) h
  rwa [List.zipIdx_map_fst] at this

theorem showProduction_total (hwf : g.WF) {nt p : Nat} {pr : Production A}
    (h : g.getProduction? nt p = some pr) : ∃ t, showProduction dbg g pr = .ok t := by
  have hp := getProduction?_hasProd h
  unfold showProduction
  obtain ⟨r, hr⟩ := mapM_total (l := pr.symbols.zipIdx) (f := fun x => do
    let t ← showSymbol dbg g x.1.symbol
    .ok (t ++ if x.2 ≠ pr.symbols.length - 1 then txt " " else [])) fun x hx => by
      obtain ⟨t, ht⟩ := showSymbol_total (dbg := dbg) hwf hp
        (List.mem_map_of_mem (f := (·.symbol)) (mem_zipIdx_fst hx))
      simp only [ht, Except.bind_ok]
      exact ⟨_, rfl⟩
  rw [hr, Except.bind_ok]
  exact ⟨_, rfl⟩

theorem showGrammar_total (hwf : g.WF) : ∃ t, showGrammar dbg g = .ok t := by
  unfold showGrammar
  refine Exists.imp (fun t h => h) ?_
  suffices h : ∃ r, g.nonTerminals.zipIdx.mapM (fun x => (do
    let ps ← x.1.productions.zipIdx.mapM fun y => do
      let t ← showProduction dbg g y.1
      .ok (txt "  " ++ numText y.2 ++ txt ": " ++ t ++ txt "\n")
    .ok (numText x.2 ++ txt ": " ++ (if x.1.isPublic then txt "pub" else txt "") ++ txt " " ++
      x.1.name.toList ++ txt " = {" ++ txt "\n" ++ ps.flatten ++ txt "}" ++ txt "\n") :
      Except Fault Chars)) = .ok r by
    obtain ⟨r, hr⟩ := h
    rw [hr]
    exact ⟨_, rfl⟩
  refine mapM_total fun x hx => ?_
  obtain ⟨r, hr⟩ := mapM_total (l := x.1.productions.zipIdx) (f := fun y => (do
      let t ← showProduction dbg g y.1
      .ok (txt "  " ++ numText y.2 ++ txt ": " ++ t ++ txt "\n") : Except Fault Chars)) fun y hy => by
    have h1 := List.mk_mem_zipIdx_iff_getElem?.1 hx
    have h2 := List.mk_mem_zipIdx_iff_getElem?.1 hy
    obtain ⟨t, ht⟩ := showProduction_total (dbg := dbg) hwf (nt := x.2) (p := y.2) (pr := y.1) (by
      unfold Grammar.getProduction?
      rw [h1]
      exact h2)
    simp only [ht, Except.bind_ok]
    exact ⟨_, rfl⟩
  rw [hr]
  exact ⟨_, rfl⟩

theorem showFirstTable_total {h : HashOrder} {F : FirstTable} (hF : F.Ok g.nTerminals)
    (hl : F.length = g.nNonTerminals) : ∃ t, showFirstTable dbg h g F = .ok t := by
  have : ∃ r, F.zipIdx.mapM (fun x => (do
    let n ← showNonTerminal g x.2
    let s ← showFirstSet dbg h g x.1
    .ok (txt "    " ++ n ++ txt ": " ++ s ++ txt "\n") : Except Fault Chars)) = .ok r := by
    refine mapM_total fun x hx => ?_
    have hx := List.mk_mem_zipIdx_iff_getElem?.1 hx
    have hlt : x.2 < F.length := (List.getElem?_eq_some_iff.1 hx).1
    obtain ⟨n, hn⟩ := showNonTerminal_total (g := g) (hl ▸ hlt)
    have hs : ∃ s, showFirstSet dbg h g x.1 = .ok s := by
      unfold showFirstSet
      obtain ⟨r, hr⟩ := mapM_total (l := (h.iter x.1.terminals).zipIdx) (f := fun y => (do
        let t ← showTerminal dbg g y.1
        .ok (t ++ if y.2 ≠ x.1.terminals.length - 1 then txt ", " else []) : Except Fault Chars))
        fun y hy => by
          have hm := h.mem_iter.1 (mem_zipIdx_fst hy)
          have h2 := (hF x.2).2 y.1 (by
            unfold FirstTable.get
            rw [List.getD_eq_getElem?_getD, hx]
            exact hm)
          obtain ⟨t, ht⟩ := showTerminal_total (dbg := dbg) h2
          simp only [ht, Except.bind_ok]
          exact ⟨_, rfl⟩
      rw [hr]
      exact ⟨_, rfl⟩
    obtain ⟨s, hs⟩ := hs
    rw [hn, Except.bind_ok, hs]
    exact ⟨_, rfl⟩
  obtain ⟨r, hr⟩ := this
  unfold showFirstTable
  rw [hr]
  exact ⟨_, rfl⟩

theorem showItem_total (hwf : g.WF) {it : Item} (ho : ItemOk g it) :
    ∃ t, showItem dbg g it = .ok t := by
  obtain ⟨h1, _, h3⟩ := ho
  obtain ⟨n, hn⟩ := showNonTerminal_total (Grammar.lt_of_nProductions h1)
  obtain ⟨pr, hpr⟩ := getProduction?_of_lt h1
  have hp := getProduction?_hasProd hpr
  have hla : ∃ q, showLookahead dbg g it.la = .ok q := by
    cases hc : it.la with
    | none => exact ⟨_, rfl⟩
    | some t =>
      obtain ⟨u, hu⟩ := showTerminal_total (dbg := dbg) (h3 t hc)
      exact ⟨_, by simp only [showLookahead, hu, Except.bind_ok]; rfl⟩
  obtain ⟨q, hq⟩ := hla
  obtain ⟨r, hr⟩ := mapM_total (l := pr.symbols.zipIdx) (f := fun x => (do
      let t ← showSymbol dbg g x.1.symbol
      .ok ((if x.2 = it.cursor then txt "|" else []) ++ t ++
        if x.2 ≠ pr.symbols.length - 1 then txt " " else []) : Except Fault Chars)) fun x hx => by
      obtain ⟨t, ht⟩ := showSymbol_total (dbg := dbg) hwf hp
        (List.mem_map_of_mem (f := (·.symbol)) (mem_zipIdx_fst hx))
      simp only [ht, Except.bind_ok]
      exact ⟨_, rfl⟩
  unfold showItem
  rw [hn, Except.bind_ok, hpr]
  simp only
  rw [hr, Except.bind_ok, hq]
  exact ⟨_, rfl⟩

theorem showState_total (hwf : g.WF) {h : HashOrder} {st : LR1State} (ho : ∀ x ∈ st.items, ItemOk g x)
    (hg : ∀ s r, st.goto.get? s = some r → ∃ nt p α, g.HasProd nt p α ∧ s ∈ α) :
    ∃ t, showState dbg h g st = .ok t := by
  obtain ⟨r, hr⟩ := mapM_total (l := st.items) (f := fun it => (do
    let t ← showItem dbg g it
    .ok (txt "  " ++ t ++ txt "\n") : Except Fault Chars)) fun x hx => by
      obtain ⟨t, ht⟩ := showItem_total (dbg := dbg) hwf (ho x hx)
      simp only [ht, Except.bind_ok]
      exact ⟨_, rfl⟩
  obtain ⟨r', hr'⟩ := mapM_total (l := st.goto.entries h) (f := fun e => (do
    let t ← showSymbol dbg g e.1
    .ok (txt "  GOTO " ++ t ++ txt " -> " ++ numText e.2 ++ txt "\n") : Except Fault Chars))
    fun x hx => by
      obtain ⟨nt, p, α, h1, h2⟩ := hg _ _ (AMap.mem_entries.1 hx)
      obtain ⟨t, ht⟩ := showSymbol_total (dbg := dbg) hwf h1 h2
      simp only [ht, Except.bind_ok]
      exact ⟨_, rfl⟩
  unfold showState
  rw [hr, Except.bind_ok, hr']
  exact ⟨_, rfl⟩

/-- The states belong to the grammar. -/
def StatesOf (g : Grammar A Ty) (l : List LR1State) : Prop :=
  ∀ st ∈ l, (∀ x ∈ st.items, ItemOk g x) ∧
    ∀ s r, st.goto.get? s = some r → ∃ nt p α, g.HasProd nt p α ∧ s ∈ α

theorem showAutomaton_total (hwf : g.WF) {h : HashOrder} {a : Automaton} (ho : StatesOf g a.states) :
    ∃ t, showAutomaton dbg h g a = .ok t := by
  obtain ⟨r, hr⟩ := mapM_total (l := a.states.zipIdx) (f := fun x => (do
    let t ← showState dbg h g x.1
    .ok (numText x.2 ++ txt ": {" ++ txt "\n" ++ t ++ txt "}" ++ txt "\n") : Except Fault Chars))
    fun x hx => by
      obtain ⟨h1, h2⟩ := ho _ (mem_zipIdx_fst hx)
      obtain ⟨t, ht⟩ := showState_total (dbg := dbg) (h := h) hwf h1 h2
      simp only [ht, Except.bind_ok]
      exact ⟨_, rfl⟩
  unfold showAutomaton
  rw [hr]
  exact ⟨_, rfl⟩

theorem showTable_total (hwf : g.WF) {h : HashOrder} {states : List LR1State} {T : LRTable A}
    (ho : StatesOf g states) (hT : TableSpec g states T) : ∃ t, showTable dbg h g T = .ok t := by
  suffices hs : ∀ s ∈ List.range T.nStates, ∃ t, showTableState dbg h g T s = .ok t by
    obtain ⟨r, hr⟩ := mapM_total hs
    refine ⟨r.flatten, ?_⟩
    show (do let l ← (List.range T.nStates).mapM (showTableState dbg h g T); .ok l.flatten) = _
    rw [hr]
    rfl
  intro s hs
  rw [List.mem_range, hT.n] at hs
  have hst : states[s]? = some states[s] := List.getElem?_eq_getElem hs
  have hrow := hT.row s _ hst
  obtain ⟨h1, h2⟩ := ho _ (List.getElem_mem hs)
  obtain ⟨r, hr⟩ := mapM_total (l := (T.actionsOf s).entries h) (f := fun e => (do
    let k ← showActionKey dbg g e.1
    let t ← showAction dbg g e.2
    .ok (k ++ t ++ txt "\n") : Except Fault Chars)) fun x hx => by
      have hx : T.getAction s x.1 = some x.2 := by
        have := AMap.mem_entries.1 hx
        rwa [LRTable.actionsOf, AMap.get?_inner] at this
      have hk : ∃ k, showActionKey dbg g x.1 = .ok k := by
        cases hc : x.1 with
        | none => exact ⟨_, rfl⟩
        | some t =>
          have : t < g.nTerminals := by
            rw [hc] at hx
            cases ha : x.2 with
            | shift n =>
              rw [ha] at hx
              obtain ⟨it, hit, t', e, _, hgo⟩ := hrow.act.shift_of _ _ hx
              cases e
              obtain ⟨nt, p, α, hp, hm⟩ := h2 _ _ hgo
              exact hwf.term_lt hp hm
            | reduce nt p a =>
              rw [ha] at hx
              obtain ⟨it, hit, _, _, hw, _⟩ := hrow.act.reduce_of _ _ _ _ hx
              exact (h1 it hit).2.2 t hw.2.2
            | accept =>
              rw [ha] at hx
              obtain ⟨it, hit, hw⟩ := hrow.act.accept_of _ hx
              exact absurd hw.2.2.2 (by simp)
          obtain ⟨u, hu⟩ := showTerminal_total (dbg := dbg) this
          exact ⟨_, by simp only [showActionKey, hu, Except.bind_ok]; rfl⟩
      obtain ⟨k, hk⟩ := hk
      have ha : ∃ t, showAction dbg g x.2 = .ok t := by
        cases ha : x.2 with
        | shift n => exact ⟨_, rfl⟩
        | accept => exact ⟨_, rfl⟩
        | reduce nt p a =>
          rw [ha] at hx
          obtain ⟨it, hit, e1, e2, _, pr, hpr, _⟩ := hrow.act.reduce_of _ _ _ _ hx
          obtain ⟨n, hn⟩ := showNonTerminal_total (Grammar.lt_of_nProductions (h1 it hit).1)
          obtain ⟨t, ht⟩ := showProduction_total (dbg := dbg) hwf hpr
          rw [e1] at hn
          unfold showAction
          simp only
          rw [hpr]
          simp only
          rw [hn, Except.bind_ok, ht]
          exact ⟨_, rfl⟩
      obtain ⟨t, ht⟩ := ha
      rw [hk, Except.bind_ok, ht]
      exact ⟨_, rfl⟩
  obtain ⟨r', hr'⟩ := mapM_total (l := (T.gotosOf s).entries h) (f := fun e => (do
    let n ← showNonTerminal g e.1
    .ok (txt "  " ++ n ++ txt " -> " ++ numText e.2 ++ txt "\n") : Except Fault Chars)) fun x hx => by
      have hx : T.getGoto s x.1 = some x.2 := by
        have := AMap.mem_entries.1 hx
        rwa [LRTable.gotosOf, AMap.get?_inner] at this
      obtain ⟨nt, p, α, hp, hm⟩ := h2 _ _ (hrow.go.goto_of _ _ hx)
      obtain ⟨n, hn⟩ := showNonTerminal_total (g := g) (hwf.nt_lt hp hm)
      simp only [hn, Except.bind_ok]
      exact ⟨_, rfl⟩
  unfold showTableState
  rw [hr, Except.bind_ok, hr']
  exact ⟨_, rfl⟩

/-- The states of the generated automaton belong to the grammar, and to one with the same shape. -/
theorem statesOf_automaton {B : Type} {g' : Grammar B Ty} (hwf : g.WF) (hsh : SameShape g g')
    {h : HashOrder} {a : Automaton} (ha : generateAutomaton h g (generateFirstTable h g) = .ok a) :
    StatesOf g' a.states := by
  have hF := generateFirstTable_ok hwf h
  obtain ⟨a', ha', has⟩ := generateAutomaton_spec hwf hF h
  rw [ha] at ha'; cases ha'
  intro st hst
  obtain ⟨q, hq⟩ := List.getElem?_of_mem hst
  refine ⟨fun x hx => (hsh.itemOk x).2 ((has.reach q st hq).itemOk hwf hF x hx), fun s r hr => ?_⟩
  obtain ⟨nt, p, α, β, la, _, h2⟩ := (c36_transitions hwf h ha hq s).1 ⟨r, hr⟩
  exact ⟨nt, p, _, hsh.hasProd.2 h2, by simp⟩

end Parsegen
