import Verif.Props.SLR

/-! # Hash iteration orders and the SLR(1) table -/

namespace Parsegen

variable {A Ty : Type} {g : Grammar A Ty}

/-- A cell containing `x` may be set to `act`. -/
def cellAllows : Option (LRAction A) → LRAction A → Bool
  | _, .accept => true
  | none, _ => true
  | some (.shift s), .shift n => decide (s = n)
  | some (.reduce _ _ _), .shift _ => true
  | _, _ => false

/-- The history of a cell. -/
def cellFold : Option (LRAction A) → List (LRAction A) → Option (Option (LRAction A))
  | x, [] => some x
  | x, a :: l => if cellAllows x a then cellFold (some a) l else none

/-- The attempts on a cell. -/
def keyed (c : Option Nat) (ops : List (Op A)) : List (LRAction A) :=
  ops.filterMap fun o => if o.1 = c then some o.2 else none

theorem keyed_append (c : Option Nat) (a b : List (Op A)) : keyed c (a ++ b) = keyed c a ++ keyed c b :=
  List.filterMap_append

theorem Op.run_iff {i : Nat} {T : LRTable A} {c : Option Nat} {act : LRAction A}
    (hs : c = none → ∀ n, act ≠ .shift n) (ha : act = .accept → c = none) :
    if cellAllows (T.getAction i c) act then
      Op.run i T (c, act) = .ok { T with action := T.action.insert (i, c) act }
    else ∃ f, Op.run i T (c, act) = .error f := by
  unfold LRTable.getAction
  cases act with
  | accept =>
    obtain rfl := ha rfl
    simp [cellAllows, Op.run, LRTable.addAccept]
  | shift n =>
    cases c with
    | none => exact absurd rfl (hs rfl n)
    | some t =>
      simp only [Op.run, LRTable.addShift]
      cases T.action.get? (i, some t) with
      | none => simp [cellAllows]
      | some a =>
        cases a with
        | shift s => by_cases he : s = n <;> simp [cellAllows, he]
        | reduce => simp [cellAllows]
        | accept => simp [cellAllows]
  | reduce b p a =>
    simp only [Op.run, LRTable.addReduce]
    cases T.action.get? (i, c) with
    | none => simp [cellAllows]
    | some a => cases a <;> simp [cellAllows]

theorem run_cells {i : Nat} : ∀ (ops : List (Op A)) (T : LRTable A), OpsOk ops →
    (∀ T', ops.foldlM (Op.run i) T = .ok T' →
      ∀ c, cellFold (T.getAction i c) (keyed c ops) = some (T'.getAction i c)) ∧
    ((∀ c, (cellFold (T.getAction i c) (keyed c ops)).isSome = true) →
      ∃ T', ops.foldlM (Op.run i) T = .ok T')
  | [], T, _ => by
    refine ⟨?_, fun _ => ⟨T, rfl⟩⟩
    intro T' h c
    cases h
    rfl
  | (d, act) :: ops, T, hok => by
    have hk := hok d act (by simp)
    have hok' : OpsOk ops := fun c a hm => hok c a (by simp [hm])
    have hrun := Op.run_iff (i := i) (T := T) hk.1 hk.2
    have hkey : ∀ c, keyed c ((d, act) :: ops) = if d = c then act :: keyed c ops else keyed c ops := by
      intro c
      by_cases he : d = c <;> simp [keyed, he]
    have hg : ∀ c, LRTable.getAction { T with action := T.action.insert (i, d) act } i c =
        if d = c then some act else T.getAction i c := by
      intro c; rw [getAction_insert]; simp
    by_cases hc : cellAllows (T.getAction i d) act = true
    · rw [if_pos hc] at hrun
      obtain ⟨r1, r2⟩ := run_cells ops { T with action := T.action.insert (i, d) act } hok'
      have hcell : ∀ c, cellFold (T.getAction i c) (keyed c ((d, act) :: ops)) =
          cellFold (LRTable.getAction { T with action := T.action.insert (i, d) act } i c) (keyed c ops) := by
        intro c
        rw [hkey, hg]
        by_cases he : d = c
        · subst he
          rw [if_pos rfl, if_pos rfl, cellFold, if_pos hc]
        · rw [if_neg he, if_neg he]
      constructor
      · intro T' h c
        rw [List.foldlM_cons, hrun] at h
        rw [hcell]
        exact r1 T' h c
      · intro hs
        obtain ⟨T', hT'⟩ := r2 fun c => by rw [← hcell]; exact hs c
        exact ⟨T', by rw [List.foldlM_cons, hrun]; exact hT'⟩
    · rw [if_neg hc] at hrun
      obtain ⟨f, hf⟩ := hrun
      constructor
      · intro T' h
        rw [List.foldlM_cons, hf] at h
        cases h
      · intro hs
        have := hs d
        rw [hkey, if_pos rfl, cellFold, if_neg hc] at this
        cases this

/-- Forget where a shift goes. -/
def LRAction.erase : LRAction A → LRAction A
  | .shift _ => .shift 0
  | a => a

theorem cellFold_erase {n : Nat} : ∀ (l : List (LRAction A)) (x : Option (LRAction A)),
    (∀ m, .shift m ∈ l → m = n) → (∀ m, x = some (.shift m) → m = n) →
    cellFold (x.map LRAction.erase) (l.map LRAction.erase) =
      (cellFold x l).map (Option.map LRAction.erase)
  | [], x, _, _ => rfl
  | a :: l, x, hl, hx => by
    have ha : cellAllows (x.map LRAction.erase) a.erase = cellAllows x a := by
      cases x with
      | none => cases a <;> rfl
      | some y =>
        cases y with
        | shift s =>
          cases a with
          | shift m =>
            obtain rfl := hx s rfl
            obtain rfl := hl m (by simp)
            simp [cellAllows, LRAction.erase]
          | reduce => rfl
          | accept => rfl
        | reduce => cases a <;> rfl
        | accept => cases a <;> rfl
    simp only [List.map_cons, cellFold, ha]
    split
    · refine cellFold_erase l (some a) (fun m hm => hl m (by simp [hm])) ?_
      intro m hm
      exact hl m (by simp [Option.some.inj hm])
    · rfl

theorem filterMap_nodup {B : Type} {b : B} {t : Nat} : ∀ {l : List Nat}, l.Nodup →
    (l.filterMap fun x => if (some x : Option Nat) = some t then some b else none) =
      if t ∈ l then [b] else []
  | [], _ => rfl
  | x :: l, h => by
    have ih := filterMap_nodup (b := b) (t := t) (List.nodup_cons.1 h).2
    have hx := (List.nodup_cons.1 h).1
    by_cases he : x = t
    · subst he
      rw [List.filterMap_cons_some (b := b) (by simp), ih, if_neg hx]
      simp
    · have he' : ¬ t = x := fun h => he h.symm
      rw [List.filterMap_cons_none (by simp [he]), ih]
      simp [he']

open Classical in
/-- The attempts of an item on cell `c`, targets of shifts forgotten. -/
noncomputable def wantK (g : Grammar A Ty) (fol : FollowTable) (it : Item) (c : Option Nat) :
    List (LRAction A) :=
  (if ∃ t, it.nextSymbol g = some (.terminal t) ∧ c = some t then [.shift 0] else []) ++
  (if it.nextSymbol g = none ∧ fol.Has it.nt c then
    match g.getProduction? it.nt it.prod with
    | none => []
    | some p => [.reduce it.nt it.prod p.action]
   else []) ++
  (if (it.nt = 0 ∧ it.prod = 0 ∧ it.cursor = 1) ∧ c = none then [.accept] else [])

theorem keyed_itemOps {h : HashOrder} {fol : FollowTable} {st : LR1State} {it : Item}
    (hnd : ∀ b, (fol.get b).terminals.Nodup)
    (hgo : ∀ t, it.nextSymbol g = some (.terminal t) → (st.goto.get? (.terminal t)).isSome = true)
    (c : Option Nat) :
    (keyed c (itemOps h g fol st it)).map LRAction.erase = wantK g fol it c := by
  unfold itemOps wantK
  rw [keyed_append, keyed_append, List.map_append, List.map_append]
  congr 1
  · congr 1
    · unfold shiftOps
      cases hn : it.nextTerminal g with
      | none =>
        rw [if_neg]
        · rfl
        · rintro ⟨t, ht, _⟩
          rw [Item.nextTerminal_iff.2 ht] at hn; cases hn
      | some t =>
        have ht := Item.nextTerminal_iff.1 hn
        obtain ⟨n, hn⟩ := Option.isSome_iff_exists.1 (hgo t ht)
        simp only [hn]
        by_cases hc : c = some t
        · subst hc
          rw [if_pos ⟨t, ht, rfl⟩]
          simp [keyed, LRAction.erase]
        · rw [if_neg]
          · have : ¬ some t = c := fun h => hc h.symm
            simp [keyed, this]
          · rintro ⟨t', ht', rfl⟩
            rw [ht] at ht'; cases ht'
            exact hc rfl
    · unfold reduceOps
      cases hn : it.nextSymbol g with
      | some X => simp [keyed]
      | none =>
        cases hp : g.getProduction? it.nt it.prod with
        | none => simp [keyed]
        | some p =>
          rw [keyed_append]
          have hnd' := ((h.perm _).nodup_iff).2 (hnd it.nt)
          cases c with
          | none =>
            have h1 : keyed none ((h.iter (fol.get it.nt).terminals).map
                fun c => ((some c, .reduce it.nt it.prod p.action) : Op A)) = [] := by
              simp [keyed, List.filterMap_map]
            rw [h1]
            by_cases he : (fol.get it.nt).end_ = true
            · have he' : fol.Has it.nt none := he
              rw [if_pos he, if_pos ⟨rfl, he'⟩]
              simp [keyed, LRAction.erase]
            · have he' : ¬ fol.Has it.nt none := he
              rw [if_neg he, if_neg (fun h => he' h.2)]
              simp [keyed]
          | some t =>
            have h1 : keyed (some t) ((h.iter (fol.get it.nt).terminals).map
                fun c => ((some c, .reduce it.nt it.prod p.action) : Op A)) =
                if t ∈ (fol.get it.nt).terminals then [.reduce it.nt it.prod p.action] else [] := by
              have := filterMap_nodup (b := (.reduce it.nt it.prod p.action : LRAction A)) (t := t) hnd'
              simp only [HashOrder.mem_iter] at this
              rw [← this]
              simp only [keyed, List.filterMap_map, Function.comp_def]
            rw [h1]
            have h2 : keyed (some t) (if (fol.get it.nt).end_ = true then
                [((none, .reduce it.nt it.prod p.action) : Op A)] else []) = [] := by
              split <;> simp [keyed]
            rw [h2, List.append_nil]
            by_cases he : t ∈ (fol.get it.nt).terminals
            · have he' : fol.Has it.nt (some t) := he
              rw [if_pos he, if_pos ⟨rfl, he'⟩]
              rfl
            · have he' : ¬ fol.Has it.nt (some t) := he
              rw [if_neg he, if_neg (fun h => he' h.2)]
              rfl
  · unfold acceptOps
    by_cases hz : it.nt = 0 ∧ it.prod = 0 ∧ it.cursor = 1
    · rw [if_pos hz]
      by_cases hc : c = none
      · subst hc
        rw [if_pos ⟨hz, rfl⟩]
        simp [keyed, LRAction.erase]
      · rw [if_neg (fun h => hc h.2)]
        have : ¬ none = c := fun h => hc h.symm
        simp [keyed, this]
    · rw [if_neg hz, if_neg (fun h => hz h.1)]
      rfl

theorem wantK_congr {fol fol' : FollowTable} (he : ∀ a c, fol.Has a c ↔ fol'.Has a c) (it : Item)
    (c : Option Nat) : wantK g fol it c = wantK g fol' it c := by
  unfold wantK
  have : fol.Has it.nt c = fol'.Has it.nt c := propext (he _ _)
  rw [this]

theorem keyed_stateOps {h : HashOrder} {fol : FollowTable} {st : LR1State}
    (hnd : ∀ b, (fol.get b).terminals.Nodup)
    (hgo : ∀ it ∈ st.items, ∀ t, it.nextSymbol g = some (.terminal t) →
      (st.goto.get? (.terminal t)).isSome = true) (c : Option Nat) :
    (keyed c (stateOps h g fol st)).map LRAction.erase = st.items.flatMap fun it => wantK g fol it c := by
  unfold stateOps
  generalize st.items = l at hgo
  induction l with
  | nil => rfl
  | cons it l ih =>
    rw [List.flatMap_cons, keyed_append, List.map_append, List.flatMap_cons,
      keyed_itemOps hnd (hgo it (by simp)), ih fun x hx => hgo x (by simp [hx])]

/-- What a finished cell must contain. -/
theorem state_cell (hwf : g.WF) (h0 : g.isPublic 0 = true) {h : HashOrder} {q : Nat} {st : LR1State}
    (hst : (lr0Automaton h g)[q]? = some st) (c : Option Nat) :
    cellFold none (st.items.flatMap fun it => wantK g (slrFollow h g) it c) =
      (cellFold none (keyed c (stateOps h g (slrFollow h g) st))).map (Option.map LRAction.erase) := by
  have hi := (lr0Run_spec hwf h0 h).2
  rw [← keyed_stateOps (slrFollow_nodup hwf h0 h)]
  · have hsh : ∃ n, ∀ m, .shift m ∈ keyed c (stateOps h g (slrFollow h g) st) → m = n := by
      by_cases hx : ∃ m, .shift m ∈ keyed c (stateOps h g (slrFollow h g) st)
      · obtain ⟨n, hn⟩ := hx
        refine ⟨n, fun m hm => ?_⟩
        have mem : ∀ m, .shift m ∈ keyed c (stateOps h g (slrFollow h g) st) →
            (c, .shift m) ∈ stateOps h g (slrFollow h g) st := by
          intro m hm
          obtain ⟨⟨d, a⟩, ho, he⟩ := List.mem_filterMap.1 hm
          simp only at he
          split at he
          · next hd => cases he; subst hd; exact ho
          · cases he
        obtain ⟨_, _, hn⟩ := mem_stateOps.1 (mem n hn)
        obtain ⟨_, _, hm⟩ := mem_stateOps.1 (mem m hm)
        obtain ⟨t, rfl, _, e1⟩ := mem_itemOps_shift.1 hn
        obtain ⟨t', e2, _, e3⟩ := mem_itemOps_shift.1 hm
        cases e2
        exact Option.some.inj (e3.symm.trans e1)
      · exact ⟨0, fun m hm => absurd ⟨m, hm⟩ hx⟩
    obtain ⟨n, hn⟩ := hsh
    exact cellFold_erase _ none hn (fun m hm => by cases hm)
  · intro it hit t ht
    rcases hi.compl q st it _ hst hit ht with h3 | h3 | h3
    · exact h3
    · simp at h3
    · simp at h3

/-- The content of a cell depends only on the string read. -/
noncomputable def cellOf (g : Grammar A Ty) (fol : FollowTable) (items : List Item) (c : Option Nat) :
    Option (Option (LRAction A)) := cellFold none (items.flatMap fun it => wantK g fol it c)

theorem slrRow_cells {h : HashOrder} {fol : FollowTable} {i : Nat} {st : LR1State} {T T' : LRTable A}
    (hok : ∀ it ∈ st.items, it.prod < g.nProductions it.nt) (h0 : ∀ c, T.getAction i c = none)
    (hT : slrState h g fol T (st, i) = .ok T') (c : Option Nat) :
    cellFold none (keyed c (stateOps h g fol st)) = some (T'.getAction i c) := by
  rw [slrState_eq hok] at hT
  obtain ⟨T1, h1, h2⟩ := Except.bind_eq_ok.1 hT
  cases h2
  have := (run_cells _ T stateOps_ok).1 T1 h1 c
  rw [h0] at this
  rw [this]
  unfold LRTable.getAction
  rw [(ruleGotos_spec h i st T1).1]

theorem slrState_succ {h : HashOrder} {fol : FollowTable} {i : Nat} {st : LR1State} {T : LRTable A}
    (hok : ∀ it ∈ st.items, it.prod < g.nProductions it.nt) (h0 : ∀ c, T.getAction i c = none)
    (hc : ∀ c, (cellFold none (keyed c (stateOps h g fol st))).isSome = true) :
    ∃ T', slrState h g fol T (st, i) = .ok T' := by
  rw [slrState_eq hok]
  obtain ⟨T1, h1⟩ := (run_cells (stateOps h g fol st) T stateOps_ok).2 fun c => by rw [h0]; exact hc c
  exact ⟨_, by rw [h1]; rfl⟩

theorem slrTable_cells (hwf : g.WF) (h0 : g.isPublic 0 = true) (h : HashOrder) :
    ((∃ T, slrTable h g = .ok T) ↔ ∀ st ∈ lr0Automaton h g, ∀ c,
      (cellOf g (slrFollow h g) st.items c).isSome = true) ∧
    ∀ T, slrTable h g = .ok T → ∀ (i : Nat) (st : LR1State), (lr0Automaton h g)[i]? = some st →
      ∀ c, cellOf g (slrFollow h g) st.items c = some ((T.getAction i c).map LRAction.erase) := by
  have hi := (lr0Run_spec hwf h0 h).2
  have hok : ∀ (i : Nat) (st : LR1State), (lr0Automaton h g)[i]? = some st →
      (∀ it ∈ st.items, it.prod < g.nProductions it.nt) := by
    refine fun i st hst it hit => ?_
    obtain ⟨γ, hγ⟩ := hi.at_ i st hst
    exact (((hγ it).1 hit).itemOk hwf h0).1.1
  have key : ∀ (l : List LR1State) (k : Nat) (T : LRTable A),
      (∀ (i : Nat) (st : LR1State), l[i]? = some st → (lr0Automaton h g)[k + i]? = some st) →
      (∀ i, k ≤ i → (∀ c, T.getAction i c = none) ∧ ∀ b, T.getGoto i b = none) →
      (∀ (i : Nat) (st : LR1State), i < k → (lr0Automaton h g)[i]? = some st →
        ∀ c, cellOf g (slrFollow h g) st.items c = some ((T.getAction i c).map LRAction.erase)) →
      ((∀ st ∈ l, ∀ c, (cellOf g (slrFollow h g) st.items c).isSome = true) →
        ∃ T', (l.zipIdx k).foldlM (slrState h g (slrFollow h g)) T = .ok T') ∧
      ∀ T', (l.zipIdx k).foldlM (slrState h g (slrFollow h g)) T = .ok T' →
        (∀ st ∈ l, ∀ c, (cellOf g (slrFollow h g) st.items c).isSome = true) ∧
        ∀ (i : Nat) (st : LR1State), i < k + l.length → (lr0Automaton h g)[i]? = some st →
          ∀ c, cellOf g (slrFollow h g) st.items c = some ((T'.getAction i c).map LRAction.erase) := by
    intro l
    induction l with
    | nil =>
      intro k T _ _ h2
      refine ⟨fun _ => ⟨T, rfl⟩, fun T' hT' => ?_⟩
      cases hT'
      exact ⟨by simp, by simpa using h2⟩
    | cons st l ih =>
      intro k T h1 h3 h2
      have hk : (lr0Automaton h g)[k]? = some st := by simpa using h1 0 st rfl
      have o1 := hok k st hk
      have h3k := h3 k (Nat.le_refl _)
      have hcell : ∀ c, cellOf g (slrFollow h g) st.items c =
          (cellFold none (keyed c (stateOps h g (slrFollow h g) st))).map (Option.map LRAction.erase) :=
        fun c => state_cell hwf h0 hk c
      obtain ⟨_, s2⟩ := slrState_step (h := h) (fol := slrFollow h g) o1 (hi.nodup k st hk) h3k.1 h3k.2
      have h1' : ∀ (i : Nat) (st' : LR1State), l[i]? = some st' →
          (lr0Automaton h g)[k + 1 + i]? = some st' := by
        intro i st' hi
        have := h1 (i + 1) st' (by simpa using hi)
        rw [← this]; congr 1; omega
      have hnext : ∀ T2, slrState h g (slrFollow h g) T (st, k) = .ok T2 →
          (∀ i, k + 1 ≤ i → (∀ c, T2.getAction i c = none) ∧ ∀ b, T2.getGoto i b = none) ∧
          (∀ (i : Nat) (st : LR1State), i < k + 1 → (lr0Automaton h g)[i]? = some st →
            ∀ c, cellOf g (slrFollow h g) st.items c = some ((T2.getAction i c).map LRAction.erase)) := by
        intro T2 hT2
        obtain ⟨_, h6⟩ := s2 T2 hT2
        constructor
        · intro i hi
          have hne : i ≠ k := by omega
          have := h3 i (by omega)
          exact ⟨fun c => by rw [h6.action i c hne]; exact this.1 c,
            fun b => by rw [h6.goto i b hne]; exact this.2 b⟩
        · intro i st' hi' hst' c
          by_cases he : i = k
          · subst he
            rw [hk] at hst'; cases hst'
            rw [hcell, slrRow_cells o1 h3k.1 hT2]
            rfl
          · rw [h6.action i c he]
            exact h2 i st' (by omega) hst' c
      rw [List.zipIdx_cons]
      have hlen : k + (st :: l).length = k + 1 + l.length := by simp; omega
      rw [hlen]
      constructor
      · intro hf
        obtain ⟨T2, hT2⟩ := slrState_succ (h := h) (fol := slrFollow h g) (i := k) o1 h3k.1 (fun c => by
          have := hf st (by simp) c
          rw [hcell, Option.isSome_map] at this
          exact this)
        obtain ⟨n1, n2⟩ := hnext T2 hT2
        obtain ⟨T3, hT3⟩ := (ih (k + 1) T2 h1' n1 n2).1 (fun x hx => hf x (by simp [hx]))
        exact ⟨T3, by rw [List.foldlM_cons, hT2]; exact hT3⟩
      · intro T' hT'
        rw [List.foldlM_cons] at hT'
        obtain ⟨T2, hT2, hT3⟩ := Except.bind_eq_ok.1 hT'
        obtain ⟨n1, n2⟩ := hnext T2 hT2
        obtain ⟨i1, i2⟩ := (ih (k + 1) T2 h1' n1 n2).2 T' hT3
        refine ⟨fun x hx c => ?_, i2⟩
        rcases List.mem_cons.1 hx with rfl | hx
        · rw [hcell, slrRow_cells o1 h3k.1 hT2]; rfl
        · exact i1 x hx c
  obtain ⟨k1, k2⟩ := key (lr0Automaton h g) 0 (LRTable.new _) (by simp)
    (fun i _ => ⟨fun c => rfl, fun b => rfl⟩) (by simp)
  refine ⟨⟨fun ⟨T, hT⟩ => (k2 T hT).1, k1⟩, fun T hT i st hst c => (k2 T hT).2 i st ?_ hst c⟩
  have := (List.getElem?_eq_some_iff.1 hst).1
  omega

theorem cellOf_congr (hwf : g.WF) (h0 : g.isPublic 0 = true) (h h' : HashOrder) (items : List Item)
    (c : Option Nat) : cellOf g (slrFollow h g) items c = cellOf g (slrFollow h' g) items c := by
  unfold cellOf
  congr 2
  funext it
  exact wantK_congr (fun a c => c69_order hwf h h' h h' (pub_lt hwf h0) a c) it c

/-- **C71.** Whether a table is built does not depend on hash iteration orders. -/
theorem c71_order_table (hwf : g.WF) (h0 : g.isPublic 0 = true) (h h' : HashOrder) :
    (∃ T, slrTable h g = .ok T) ↔ ∃ T, slrTable h' g = .ok T := by
  have one : ∀ h h', (∃ T, slrTable h g = .ok T) → ∃ T, slrTable h' g = .ok T := by
    intro h h' hT
    refine (slrTable_cells hwf h0 h').1.2 fun st hst c => ?_
    have hmem : st.items ∈ (lr0Automaton h' g).map (·.items) := List.mem_map_of_mem hst
    obtain ⟨st', hst', he⟩ := List.mem_map.1 (((c70_order hwf h0 h h').1.mem_iff).2 hmem)
    have := (slrTable_cells hwf h0 h).1.1 hT st' hst' c
    rw [he, cellOf_congr hwf h0 h h'] at this
    exact this
  exact ⟨one h h', one h' h⟩

theorem slr_cells_eq (hwf : g.WF) (h0 : g.isPublic 0 = true) {h h' : HashOrder} {T T' : LRTable A}
    (hT : slrTable h g = .ok T) (hT' : slrTable h' g = .ok T') {γ : List Symbol} {q q' : Nat}
    (hq : Path0 (lr0Automaton h g) γ q) (hq' : Path0 (lr0Automaton h' g) γ q') (c : Option Nat) :
    (T.getAction q c).map LRAction.erase = (T'.getAction q' c).map LRAction.erase := by
  obtain ⟨st, hst, _⟩ := hq.state hwf h0
  obtain ⟨st', hst', _⟩ := hq'.state hwf h0
  have he := (c70_order hwf h0 h h').2 γ q q' hq hq'
  rw [hst, hst'] at he
  simp only [Option.map_some, Option.some.injEq] at he
  have a1 := (slrTable_cells hwf h0 h).2 T hT q st hst c
  have a2 := (slrTable_cells hwf h0 h').2 T' hT' q' st' hst' c
  rw [he, cellOf_congr hwf h0 h h'] at a1
  exact Option.some.inj (a1.symm.trans a2)

/-- Two parsers in the same situation. -/
def SlrBisim (h h' : HashOrder) (g : Grammar A Ty) (s s' : SimState) : Prop :=
  (∃ γ, Stk0 (lr0Automaton h g) γ s.stack ∧ Stk0 (lr0Automaton h' g) γ s'.stack) ∧ s.a = s'.a ∧
    s.calls = s'.calls

theorem SlrBisim.step (hwf : g.WF) (h0 : g.isPublic 0 = true) {h h' : HashOrder} {T T' : LRTable A}
    (hT : slrTable h g = .ok T) (hT' : slrTable h' g = .ok T') {input : Nat → Option Nat} {s s' : SimState}
    (hb : SlrBisim h h' g s s') :
    (∃ s1 s1', simStep T g input s = .next s1 ∧ simStep T' g input s' = .next s1' ∧
      SlrBisim h h' g s1 s1') ∨
    ∃ e, simStep T g input s = .done e s ∧ simStep T' g input s' = .done e s' := by
  obtain ⟨⟨γ, hs, hs'⟩, ha, hc⟩ := hb
  obtain ⟨q, r, hq, hp⟩ := hs.shape
  obtain ⟨q', r', hq', hp'⟩ := hs'.shape
  have hcell := slr_cells_eq hwf h0 hT hT' hp hp' s.a
  unfold simStep
  rw [hq, hq', ← ha]
  simp only
  cases hact : T.getAction q s.a with
  | none =>
    rw [hact] at hcell
    have : T'.getAction q' s.a = none := by simpa using hcell.symm
    rw [this]
    exact .inr ⟨_, rfl, rfl⟩
  | some act =>
    rw [hact] at hcell
    cases hact' : T'.getAction q' s.a with
    | none => rw [hact'] at hcell; simp at hcell
    | some act' =>
      rw [hact'] at hcell
      simp only [Option.map_some, Option.some.injEq] at hcell
      cases act with
      | shift n =>
        obtain ⟨n', rfl⟩ : ∃ n', act' = .shift n' := by
          cases act' with
          | shift n' => exact ⟨n', rfl⟩
          | reduce => cases hcell
          | accept => cases hcell
        obtain ⟨t, hat, st, hst, hg⟩ := slr_shift hwf h0 hT hp hact
        obtain ⟨t', hat', st', hst', hg'⟩ := slr_shift hwf h0 hT' hp' hact'
        rw [hat] at hat'; cases hat'
        refine .inl ⟨_, _, rfl, rfl, ⟨γ ++ [.terminal t], .snoc (hq ▸ hs) hst hg,
          .snoc (hq' ▸ hs') hst' hg'⟩, by simp [hc], by simp [hc]⟩
      | reduce b p a =>
        obtain rfl : act' = .reduce b p a := by
          cases act' with
          | shift n' => cases hcell
          | reduce => exact hcell.symm
          | accept => cases hcell
        obtain ⟨hb, _, ⟨δ, α, rfl, hpr, hex⟩, pr, hpr', _⟩ := slr_reduce hwf h0 hT hp hact
        simp only [hpr', slr_production hpr hpr']
        have hs2 := hs.drop
        have hs2' := hs'.drop
        rw [hq] at hs2
        rw [hq'] at hs2'
        obtain ⟨q2, s2, hq2, hp2⟩ := hs2.shape
        obtain ⟨q2', s2', hq2', hp2'⟩ := hs2'.shape
        rw [hq2] at hs2 ⊢
        rw [hq2'] at hs2' ⊢
        obtain ⟨r1, hr1, st, hst, hg⟩ := slr_goto hwf h0 hT hp2 hb hex
        obtain ⟨r1', hr1', st', hst', hg'⟩ := slr_goto hwf h0 hT' hp2' hb hex
        simp only [hr1, hr1']
        exact .inl ⟨_, _, rfl, rfl, ⟨δ ++ [.nonTerminal b], .snoc hs2 hst hg, .snoc hs2' hst' hg'⟩, rfl, hc⟩
      | accept =>
        obtain rfl : act' = .accept := by
          cases act' with
          | shift n' => cases hcell
          | reduce => cases hcell
          | accept => rfl
        exact .inr ⟨_, rfl, rfl⟩

theorem SlrBisim.loop (hwf : g.WF) (h0 : g.isPublic 0 = true) {h h' : HashOrder} {T T' : LRTable A}
    (hT : slrTable h g = .ok T) (hT' : slrTable h' g = .ok T') {input : Nat → Option Nat} :
    ∀ (fuel : Nat) (s s' : SimState), SlrBisim h h' g s s' →
      (simLoop T g input fuel s).map (fun r => (r.1, r.2.calls)) =
        (simLoop T' g input fuel s').map (fun r => (r.1, r.2.calls))
  | 0, s, s', _ => rfl
  | fuel + 1, s, s', hb => by
    rw [simLoop, simLoop]
    rcases hb.step hwf h0 hT hT' (input := input) with ⟨s1, s1', e1, e2, hb'⟩ | ⟨e, e1, e2⟩
    · rw [e1, e2]
      exact SlrBisim.loop hwf h0 hT hT' fuel s1 s1' hb'
    · rw [e1, e2]
      simp [hb.2.2]

/-- **C71.** Hash iteration orders never matter: a table is built for all of them or for none, and the
parsers end in the same way after the same number of calls of `next()`. -/
theorem c71_order (hwf : g.WF) (h0 : g.isPublic 0 = true) (h h' : HashOrder) :
    ((∃ T, slrTable h g = .ok T) ↔ ∃ T, slrTable h' g = .ok T) ∧
    ∀ T T', slrTable h g = .ok T → slrTable h' g = .ok T' → ∀ input e n,
      (Simulates T g input e n ↔ Simulates T' g input e n) := by
  refine ⟨c71_order_table hwf h0 h h', ?_⟩
  have one : ∀ h h' T T', slrTable h g = .ok T → slrTable h' g = .ok T' → ∀ input e n,
      Simulates T g input e n → Simulates T' g input e n := by
    intro h h' T T' hT hT' input e n ⟨fuel, s, hs, hn⟩
    have := SlrBisim.loop hwf h0 hT hT' (input := input) fuel ⟨[0], input 0, 1⟩ ⟨[0], input 0, 1⟩
      ⟨⟨[], .nil, .nil⟩, rfl, rfl⟩
    unfold simulate at hs
    rw [hs] at this
    obtain ⟨r, hr, he⟩ := Option.map_eq_some_iff.1 this.symm
    simp only [Prod.mk.injEq] at he
    exact ⟨fuel, r.2, by unfold simulate; rw [hr, ← he.1], he.2.trans hn⟩
  exact fun T T' hT hT' input e n => ⟨one h h' T T' hT hT' input e n, one h' h T' T hT' hT input e n⟩

end Parsegen
