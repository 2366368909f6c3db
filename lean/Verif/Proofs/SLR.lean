import Verif.Proofs.LR0Valid
import Verif.Proofs.Table
import Verif.Model.LR0
import Verif.Spec.FollowSets

/-! # The SLR(1) table, row by row -/

namespace Parsegen

variable {A Ty : Type} {g : Grammar A Ty}

/-- An attempt to fill a cell of a row: the lookahead and the action. -/
abbrev Op (A : Type) := Option Nat × LRAction A

/-- What the builder does with it. -/
def Op.run (i : Nat) (T : LRTable A) : Op A → Except Fault (LRTable A)
  | (some t, .shift n) => T.addShift i t n
  | (none, .shift _) => .ok T
  | (c, .reduce b p a) => T.addReduce i c b p a
  | (_, .accept) => .ok (T.addAccept i)

/-- The attempts of rule 2.a. -/
def shiftOps (g : Grammar A Ty) (st : LR1State) (it : Item) : List (Op A) :=
  match it.nextTerminal g with
  | none => []
  | some t => match st.goto.get? (.terminal t) with
    | none => []
    | some n => [(some t, .shift n)]

/-- The attempts of rule 2.b. -/
def reduceOps (h : HashOrder) (g : Grammar A Ty) (fol : FollowTable) (it : Item) : List (Op A) :=
  match it.nextSymbol g with
  | some _ => []
  | none => match g.getProduction? it.nt it.prod with
    | none => []
    | some p => (h.iter (fol.get it.nt).terminals).map (fun c => (some c, .reduce it.nt it.prod p.action)) ++
        if (fol.get it.nt).end_ then [(none, .reduce it.nt it.prod p.action)] else []

/-- The attempts of rule 2.c. -/
def acceptOps (it : Item) : List (Op A) :=
  if it.nt = 0 ∧ it.prod = 0 ∧ it.cursor = 1 then [(none, .accept)] else []

/-- The attempts made for an item. -/
def itemOps (h : HashOrder) (g : Grammar A Ty) (fol : FollowTable) (st : LR1State) (it : Item) :
    List (Op A) :=
  shiftOps g st it ++ reduceOps h g fol it ++ acceptOps it

theorem getProduction?_of_lt {nt p : Nat} (h : p < g.nProductions nt) :
    ∃ pr, g.getProduction? nt p = some pr := by
  unfold Grammar.nProductions at h
  unfold Grammar.getProduction?
  split at h
  · next n hn => rw [hn]; exact ⟨_, List.getElem?_eq_getElem h⟩
  · omega

theorem foldlM_map_op {i b p : Nat} {a : A} : ∀ (l : List Nat) (T : LRTable A),
    (l.map fun c => ((some c, .reduce b p a) : Op A)).foldlM (Op.run i) T =
      l.foldlM (fun T c => T.addReduce i (some c) b p a) T
  | [], T => rfl
  | c :: l, T => by
    simp only [List.map_cons, List.foldlM_cons]
    show (T.addReduce i (some c) b p a >>= _) = _
    congr 1
    funext T'
    exact foldlM_map_op l T'

theorem slrItem_eq {h : HashOrder} {fol : FollowTable} {i : Nat} {st : LR1State} {it : Item}
    (hp : it.prod < g.nProductions it.nt) (T : LRTable A) :
    slrItem h g fol i st T it = (itemOps h g fol st it).foldlM (Op.run i) T := by
  obtain ⟨pr, hpr⟩ := getProduction?_of_lt hp
  have h1 : slrShift g i st it T = (shiftOps g st it).foldlM (Op.run i) T := by
    unfold slrShift shiftOps
    cases it.nextTerminal g with
    | none => rfl
    | some t =>
      cases hg : st.goto.get? (.terminal t) with
      | none => simp only [hg]; rfl
      | some n => simp [Op.run, hg]
  have h2 : ∀ T, slrReduce h g fol i it T = (reduceOps h g fol it).foldlM (Op.run i) T := by
    intro T
    unfold slrReduce reduceOps
    cases it.nextSymbol g with
    | some X => rfl
    | none =>
      rw [hpr]
      simp only [List.foldlM_append]
      rw [foldlM_map_op]
      congr 1
      funext T'
      by_cases he : (fol.get it.nt).end_ = true
      · simp [he, Op.run]
      · simp only [Bool.not_eq_true] at he
        simp [he, pure, Except.pure]
  have h3 : ∀ T, (Except.ok (slrAccept i it T) : Except Fault (LRTable A)) =
      (acceptOps it).foldlM (Op.run i) T := by
    intro T
    unfold slrAccept acceptOps
    split
    · simp [Op.run]
    · rfl
  unfold slrItem itemOps
  simp only [List.foldlM_append, bind_assoc]
  rw [h1]
  congr 1
  funext T1
  rw [h2]
  congr 1
  funext T2
  exact h3 T2

/-- The attempts made for a state. -/
def stateOps (h : HashOrder) (g : Grammar A Ty) (fol : FollowTable) (st : LR1State) : List (Op A) :=
  st.items.flatMap (itemOps h g fol st)

theorem foldlM_flatMap_op {B : Type} {i : Nat} {f : LRTable A → B → Except Fault (LRTable A)}
    {ops : B → List (Op A)} : ∀ (l : List B) (T : LRTable A),
    (∀ x ∈ l, ∀ T, f T x = (ops x).foldlM (Op.run i) T) →
    l.foldlM f T = (l.flatMap ops).foldlM (Op.run i) T
  | [], T, _ => rfl
  | x :: l, T, hf => by
    simp only [List.foldlM_cons, List.flatMap_cons, List.foldlM_append]
    rw [hf x (by simp)]
    congr 1
    funext T'
    exact foldlM_flatMap_op l T' fun y hy => hf y (by simp [hy])

theorem slrState_eq {h : HashOrder} {fol : FollowTable} {i : Nat} {st : LR1State}
    (hok : ∀ it ∈ st.items, it.prod < g.nProductions it.nt) (T : LRTable A) :
    slrState h g fol T (st, i) =
      (stateOps h g fol st).foldlM (Op.run i) T >>= fun T => .ok (ruleGotos h i st T) := by
  unfold slrState
  simp only
  rw [foldlM_flatMap_op st.items T fun x hx T => slrItem_eq (hok x hx) T]
  rfl

/-! ## Members -/

theorem mem_stateOps {h : HashOrder} {fol : FollowTable} {st : LR1State} {o : Op A} :
    o ∈ stateOps h g fol st ↔ ∃ it ∈ st.items, o ∈ itemOps h g fol st it := by
  simp [stateOps, List.mem_flatMap]

theorem mem_itemOps_shift {h : HashOrder} {fol : FollowTable} {st : LR1State} {it : Item} {c : Option Nat}
    {n : Nat} : (c, .shift n) ∈ itemOps h g fol st it ↔
      ∃ t, c = some t ∧ it.nextSymbol g = some (.terminal t) ∧ st.goto.get? (.terminal t) = some n := by
  unfold itemOps shiftOps reduceOps acceptOps
  simp only [List.mem_append]
  constructor
  · rintro ((h1 | h1) | h1)
    · split at h1
      · simp at h1
      · next t ht =>
        split at h1
        · simp at h1
        · next n' hn =>
          simp at h1
          obtain ⟨rfl, rfl⟩ := h1
          exact ⟨t, rfl, Item.nextTerminal_iff.1 ht, hn⟩
    · split at h1
      · simp at h1
      · split at h1
        · simp at h1
        · simp only [List.mem_append, List.mem_map] at h1
          rcases h1 with ⟨_, _, h1⟩ | h1
          · simp at h1
          · split at h1 <;> simp at h1
    · split at h1 <;> simp at h1
  · rintro ⟨t, rfl, h1, h2⟩
    rw [Item.nextTerminal_iff.2 h1]
    simp only [h2]
    simp

theorem mem_itemOps_reduce {h : HashOrder} {fol : FollowTable} {st : LR1State} {it : Item} {c : Option Nat}
    {b p : Nat} {a : A} : (c, .reduce b p a) ∈ itemOps h g fol st it ↔
      it.nextSymbol g = none ∧ it.nt = b ∧ it.prod = p ∧ fol.Has b c ∧
        ∃ pr, g.getProduction? b p = some pr ∧ pr.action = a := by
  unfold itemOps shiftOps reduceOps acceptOps
  simp only [List.mem_append]
  constructor
  · rintro ((h1 | h1) | h1)
    · split at h1
      · simp at h1
      · split at h1 <;> simp at h1
    · split at h1
      · simp at h1
      · next hn =>
        split at h1
        · simp at h1
        · next pr hpr =>
          simp only [List.mem_append, List.mem_map] at h1
          rcases h1 with ⟨t, ht, h1⟩ | h1
          · simp only [Prod.mk.injEq, LRAction.reduce.injEq] at h1
            obtain ⟨rfl, rfl, rfl, rfl⟩ := h1
            exact ⟨hn, rfl, rfl, by simpa [FollowTable.Has] using ht, pr, hpr, rfl⟩
          · split at h1
            · next he =>
              simp only [List.mem_singleton, Prod.mk.injEq, LRAction.reduce.injEq] at h1
              obtain ⟨rfl, rfl, rfl, rfl⟩ := h1
              exact ⟨hn, rfl, rfl, he, pr, hpr, rfl⟩
            · simp at h1
    · split at h1 <;> simp at h1
  · rintro ⟨h1, rfl, rfl, h2, pr, hpr, rfl⟩
    rw [h1, hpr]
    refine .inl (.inr ?_)
    simp only [List.mem_append, List.mem_map]
    cases c with
    | some t => exact .inl ⟨t, by simpa [FollowTable.Has] using h2, rfl⟩
    | none =>
      have h2' : (fol.get it.nt).end_ = true := h2
      exact .inr (by simp [h2'])

theorem mem_itemOps_accept {h : HashOrder} {fol : FollowTable} {st : LR1State} {it : Item} {c : Option Nat} :
    (c, .accept) ∈ itemOps h g fol st it ↔ c = none ∧ it.nt = 0 ∧ it.prod = 0 ∧ it.cursor = 1 := by
  unfold itemOps shiftOps reduceOps acceptOps
  simp only [List.mem_append]
  constructor
  · rintro ((h1 | h1) | h1)
    · split at h1
      · simp at h1
      · split at h1 <;> simp at h1
    · split at h1
      · simp at h1
      · split at h1
        · simp at h1
        · simp only [List.mem_append, List.mem_map] at h1
          rcases h1 with ⟨_, _, h1⟩ | h1
          · simp at h1
          · split at h1 <;> simp at h1
    · split at h1
      · next hc => simp at h1; exact ⟨h1, hc⟩
      · simp at h1
  · rintro ⟨rfl, hc⟩
    right
    simp [hc]

/-! ## Running the attempts -/

/-- A successful attempt fills its cell and nothing else. -/
theorem Op.run_ok {i : Nat} {T T' : LRTable A} {c : Option Nat} {act : LRAction A}
    (hs : c = none → ∀ n, act ≠ .shift n) (ha : act = .accept → c = none)
    (h : Op.run i T (c, act) = .ok T') :
    T' = { T with action := T.action.insert (i, c) act } ∧
    (T.getAction i c = some .accept → act = .accept) := by
  cases act with
  | shift n =>
    cases c with
    | none => exact absurd rfl (hs rfl n)
    | some t =>
      simp only [Op.run, LRTable.addShift] at h
      unfold LRTable.getAction
      split at h
      · next he => cases h; exact ⟨rfl, by rw [he]; simp⟩
      · next s he =>
        split at h
        · cases h
        · cases h; exact ⟨rfl, by rw [he]; simp⟩
      · next he => cases h; exact ⟨rfl, by rw [he]; simp⟩
      · cases h
  | reduce b p a =>
    simp only [Op.run, LRTable.addReduce] at h
    unfold LRTable.getAction
    split at h
    · next he => cases h; exact ⟨rfl, by rw [he]; simp⟩
    all_goals cases h
  | accept =>
    obtain rfl := ha rfl
    simp only [Op.run, LRTable.addAccept] at h
    cases h
    exact ⟨rfl, fun _ => rfl⟩

/-- When an attempt succeeds. -/
theorem Op.run_succ {i : Nat} {T : LRTable A} {c : Option Nat} {act : LRAction A}
    (h : act = .accept ∨ T.getAction i c = none ∨
      ∃ n, act = .shift n ∧ T.getAction i c = some (.shift n)) :
    ∃ T', Op.run i T (c, act) = .ok T' := by
  unfold LRTable.getAction at h
  cases act with
  | accept => cases c <;> exact ⟨_, rfl⟩
  | shift n =>
    cases c with
    | none => exact ⟨_, rfl⟩
    | some t =>
      rcases h with h | h | ⟨n', h1, h⟩
      · cases h
      · simp [Op.run, LRTable.addShift, h]
      · cases h1
        simp [Op.run, LRTable.addShift, h]
  | reduce b p a =>
    rcases h with h | h | ⟨n', h1, h⟩
    · cases h
    · simp [Op.run, LRTable.addReduce, h]
    · cases h1

/-- Keys fit actions. -/
def OpsOk (ops : List (Op A)) : Prop :=
  ∀ c act, (c, act) ∈ ops → (c = none → ∀ n, act ≠ .shift n) ∧ (act = .accept → c = none)

/-- No attempt will meet a conflicting one. -/
def OpsFine (ops : List (Op A)) : Prop :=
  ops.Pairwise fun o o' => o.1 = o'.1 → o'.2 = .accept ∨ ∃ n, o.2 = .shift n ∧ o'.2 = .shift n

structure RowInv (i : Nat) (D : List (Op A)) (T : LRTable A) : Prop where
  of : ∀ c act, T.getAction i c = some act → (c, act) ∈ D
  acc : (none, .accept) ∈ D → T.getAction i none = some .accept

def RowFull (i : Nat) (D : List (Op A)) (T : LRTable A) : Prop :=
  ∀ c act, (c, act) ∈ D → T.getAction i c = some act ∨ T.getAction i c = some .accept

structure SameElse (i : Nat) (T T' : LRTable A) : Prop where
  action : ∀ j c, j ≠ i → T'.getAction j c = T.getAction j c
  goto : T'.goto = T.goto
  n : T'.nStates = T.nStates

theorem ops_run {i : Nat} : ∀ (ops D : List (Op A)) (T : LRTable A), OpsOk ops → RowInv i D T →
    (∀ T', ops.foldlM (Op.run i) T = .ok T' → RowInv i (D ++ ops) T' ∧ SameElse i T T') ∧
    (OpsFine (D ++ ops) → RowFull i D T → ∃ T', ops.foldlM (Op.run i) T = .ok T' ∧
      RowFull i (D ++ ops) T')
  | [], D, T, _, hi => by
    refine ⟨?_, fun _ hf => ⟨T, rfl, by simpa using hf⟩⟩
    intro T' h
    cases h
    exact ⟨by simpa using hi, fun _ _ _ => rfl, rfl, rfl⟩
  | (c, act) :: ops, D, T, hok, hi => by
    have hk := hok c act (by simp)
    have hok' : OpsOk ops := fun c a hm => hok c a (by simp [hm])
    have hstep : ∀ T1, Op.run i T (c, act) = .ok T1 →
        RowInv i (D ++ [(c, act)]) T1 ∧ SameElse i T T1 ∧
        ∀ d, T1.getAction i d = if c = d then some act else T.getAction i d := by
      intro T1 h1
      obtain ⟨rfl, h2⟩ := Op.run_ok hk.1 hk.2 h1
      have hg : ∀ d, LRTable.getAction { T with action := T.action.insert (i, c) act } i d =
          if c = d then some act else T.getAction i d := by
        intro d; rw [getAction_insert]; simp
      refine ⟨⟨?_, ?_⟩, ⟨?_, rfl, rfl⟩, hg⟩
      · intro d a ha
        rw [hg] at ha
        split at ha
        · next he => cases ha; subst he; simp
        · simp [hi.of d a ha]
      · intro hm
        rw [hg]
        split
        · next he =>
          subst he
          simp only [List.mem_append, List.mem_singleton, Prod.mk.injEq, true_and] at hm
          rcases hm with hm | hm
          · rw [h2 (hi.acc hm)]
          · rw [hm]
        · next he =>
          simp only [List.mem_append, List.mem_singleton, Prod.mk.injEq] at hm
          rcases hm with hm | ⟨hm, _⟩
          · exact hi.acc hm
          · exact absurd hm.symm he
      · intro j d hj
        rw [getAction_insert, if_neg (fun hc => hj hc.1.symm)]
    constructor
    · intro T' h
      rw [List.foldlM_cons] at h
      obtain ⟨T1, h1, h2⟩ := Except.bind_eq_ok.1 h
      obtain ⟨s1, s2, _⟩ := hstep T1 h1
      obtain ⟨r1, r2⟩ := (ops_run ops (D ++ [(c, act)]) T1 hok' s1).1 T' h2
      exact ⟨by simpa using r1, ⟨fun j d hj => (r2.action j d hj).trans (s2.action j d hj),
        r2.goto.trans s2.goto, r2.n.trans s2.n⟩⟩
    · intro hf hfull
      have hD : ∀ a, (c, a) ∈ D → act = .accept ∨ ∃ n, a = .shift n ∧ act = .shift n := by
        intro a ha
        exact (List.pairwise_append.1 hf).2.2 _ ha (c, act) (by simp) rfl
      obtain ⟨T1, h1⟩ : ∃ T1, Op.run i T (c, act) = .ok T1 := by
        apply Op.run_succ
        by_cases hacc : act = .accept
        · exact .inl hacc
        · right
          cases he : T.getAction i c with
          | none => exact .inl rfl
          | some a =>
            right
            rcases hD a (hi.of c a he) with h | ⟨n, rfl, h⟩
            · exact absurd h hacc
            · exact ⟨n, h, rfl⟩
      obtain ⟨s1, s2, hg⟩ := hstep T1 h1
      have hfull' : RowFull i (D ++ [(c, act)]) T1 := by
        intro d a hm
        rw [hg]
        simp only [List.mem_append, List.mem_singleton, Prod.mk.injEq] at hm
        split
        · next he =>
          subst he
          rcases hm with hm | ⟨_, rfl⟩
          · rcases hD a hm with h | ⟨n, rfl, h⟩
            · rw [h]; exact .inr rfl
            · rw [h]; exact .inl rfl
          · exact .inl rfl
        · next he =>
          rcases hm with hm | ⟨h, _⟩
          · exact hfull d a hm
          · exact absurd h.symm he
      obtain ⟨T', h2, h3⟩ := (ops_run ops (D ++ [(c, act)]) T1 hok' s1).2 (by simpa using hf) hfull'
      refine ⟨T', ?_, by simpa using h3⟩
      rw [List.foldlM_cons, h1]
      exact h2

theorem stateOps_ok {h : HashOrder} {fol : FollowTable} {st : LR1State} :
    OpsOk (stateOps h g fol st) := by
  intro c act hm
  obtain ⟨it, _, hm⟩ := mem_stateOps.1 hm
  constructor
  · rintro rfl n rfl
    obtain ⟨t, ht, _⟩ := mem_itemOps_shift.1 hm
    cases ht
  · rintro rfl
    exact (mem_itemOps_accept.1 hm).1

/-- Row `i` of the table as it has to be for state `st`. -/
structure SlrRow (h : HashOrder) (g : Grammar A Ty) (fol : FollowTable) (i : Nat) (st : LR1State)
    (T : LRTable A) : Prop where
  row : RowInv i (stateOps h g fol st) T
  goto : ∀ b, T.getGoto i b = st.goto.get? (.nonTerminal b)
  full : OpsFine (stateOps h g fol st) → RowFull i (stateOps h g fol st) T

theorem SlrRow.same {h : HashOrder} {fol : FollowTable} {i j : Nat} {st : LR1State} {T T' : LRTable A}
    (hr : SlrRow h g fol i st T) (hs : SameRows j T T') (hij : i ≠ j) : SlrRow h g fol i st T' where
  row := ⟨fun c act hc => hr.row.of c act (by rw [← hs.action i c hij]; exact hc),
    fun hm => by rw [hs.action i none hij]; exact hr.row.acc hm⟩
  goto b := by rw [hs.goto i b hij]; exact hr.goto b
  full hf c act hm := by rw [hs.action i c hij]; exact hr.full hf c act hm

theorem slrState_step {h : HashOrder} {fol : FollowTable} {i : Nat} {st : LR1State} {T : LRTable A}
    (hok : ∀ it ∈ st.items, it.prod < g.nProductions it.nt) (hn : (st.goto.map (·.1)).Nodup)
    (h0 : ∀ c, T.getAction i c = none) (h0' : ∀ b, T.getGoto i b = none) :
    (OpsFine (stateOps h g fol st) → ∃ T', slrState h g fol T (st, i) = .ok T') ∧
    ∀ T', slrState h g fol T (st, i) = .ok T' → SlrRow h g fol i st T' ∧ SameRows i T T' := by
  have hi0 : RowInv i ([] : List (Op A)) T :=
    ⟨fun c act hc => absurd ((h0 c).symm.trans hc) (by simp), fun hm => by simp at hm⟩
  obtain ⟨r1, r2⟩ := ops_run (stateOps h g fol st) [] T stateOps_ok hi0
  simp only [List.nil_append] at r1 r2
  rw [slrState_eq hok]
  constructor
  · intro hf
    obtain ⟨T1, h1, _⟩ := r2 hf (fun c act hm => by simp at hm)
    exact ⟨ruleGotos h i st T1, by rw [h1]; rfl⟩
  · intro T' hT'
    obtain ⟨T1, h1, h2⟩ := Except.bind_eq_ok.1 hT'
    obtain ⟨a1, a2⟩ := r1 T1 h1
    cases h2
    have g1 := ruleGotos_spec h i st T1
    have hact : ∀ j c, (ruleGotos h i st T1).getAction j c = T1.getAction j c := by
      intro j c; unfold LRTable.getAction; rw [g1.1]
    have hT1 : ∀ b, T1.getGoto i b = T.getGoto i b := by
      intro b; unfold LRTable.getGoto; rw [a2.goto]
    have hgo0 : GoInv st.goto i T1 [] :=
      ⟨fun b r hr => absurd ((h0' b).symm.trans ((hT1 b).symm.trans hr)) (by simp), fun hne => absurd rfl hne⟩
    have hgo := hgo0.step (h := h) hn [⟨0, 0, 0, none⟩]
    refine ⟨⟨⟨?_, ?_⟩, ?_, ?_⟩, ⟨?_, ?_, ?_⟩⟩
    · intro c act hc; rw [hact] at hc; exact a1.of c act hc
    · intro hm; rw [hact]; exact a1.acc hm
    · intro b
      cases hb : st.goto.get? (.nonTerminal b) with
      | some r => exact hgo.goto_mk (by simp) b r hb
      | none =>
        cases hb' : (ruleGotos h i st T1).getGoto i b with
        | none => rfl
        | some r => rw [hgo.goto_of b r hb'] at hb; cases hb
    · intro hf c act hm
      rw [hact]
      obtain ⟨T2, h3, h4⟩ := r2 hf (fun c act hm => by simp at hm)
      rw [h1] at h3; cases h3
      exact h4 c act hm
    · intro j c hj; rw [hact]; exact a2.action j c hj
    · intro j b hj
      rw [g1.2.2.1 j b hj]; unfold LRTable.getGoto; rw [a2.goto]
    · rw [g1.2.1]; exact a2.n

theorem buildSlrTable_spec (h : HashOrder) {fol : FollowTable} {states : List LR1State}
    (hst : ∀ (i : Nat) (st : LR1State), states[i]? = some st →
      (∀ it ∈ st.items, it.prod < g.nProductions it.nt) ∧ (st.goto.map (·.1)).Nodup) :
    ((∀ st ∈ states, OpsFine (stateOps h g fol st)) → ∃ T, buildSlrTable h g states fol = .ok T) ∧
    ∀ T, buildSlrTable h g states fol = .ok T →
      ∀ (i : Nat) (st : LR1State), states[i]? = some st → SlrRow h g fol i st T := by
  have key : ∀ (l : List LR1State) (k : Nat) (T : LRTable A),
      (∀ (i : Nat) (st : LR1State), l[i]? = some st → states[k + i]? = some st) →
      (∀ (i : Nat) (st : LR1State), i < k → states[i]? = some st → SlrRow h g fol i st T) →
      (∀ i, k ≤ i → (∀ c, T.getAction i c = none) ∧ ∀ b, T.getGoto i b = none) →
      ((∀ st ∈ l, OpsFine (stateOps h g fol st)) →
        ∃ T', (l.zipIdx k).foldlM (slrState h g fol) T = .ok T') ∧
      ∀ T', (l.zipIdx k).foldlM (slrState h g fol) T = .ok T' →
        (∀ (i : Nat) (st : LR1State), i < k + l.length → states[i]? = some st →
          SlrRow h g fol i st T') := by
    intro l
    induction l with
    | nil =>
      intro k T _ h2 h3
      refine ⟨fun _ => ⟨T, rfl⟩, ?_⟩
      intro T' hT'
      cases hT'
      simpa using h2
    | cons st l ih =>
      intro k T h1 h2 h3
      have hk : states[k]? = some st := by simpa using h1 0 st rfl
      obtain ⟨o1, o3⟩ := hst k st hk
      obtain ⟨s1, s2⟩ := slrState_step (h := h) (fol := fol) o1 o3 (h3 k (Nat.le_refl _)).1
        (h3 k (Nat.le_refl _)).2
      have h1' : ∀ (i : Nat) (st' : LR1State), l[i]? = some st' → states[k + 1 + i]? = some st' := by
        intro i st' hi
        have := h1 (i + 1) st' (by simpa using hi)
        rw [← this]; congr 1; omega
      have hnext : ∀ T2, slrState h g fol T (st, k) = .ok T2 →
          (∀ (i : Nat) (st : LR1State), i < k + 1 → states[i]? = some st → SlrRow h g fol i st T2) ∧
          (∀ i, k + 1 ≤ i → (∀ c, T2.getAction i c = none) ∧ ∀ b, T2.getGoto i b = none) := by
        intro T2 hT2
        obtain ⟨h5, h6⟩ := s2 T2 hT2
        constructor
        · intro i st' hi hst'
          by_cases he : i = k
          · subst he; rw [hk] at hst'; cases hst'; exact h5
          · exact (h2 i st' (by omega) hst').same h6 he
        · intro i hi
          have hne : i ≠ k := by omega
          have := h3 i (by omega)
          exact ⟨fun c => by rw [h6.action i c hne]; exact this.1 c,
            fun b => by rw [h6.goto i b hne]; exact this.2 b⟩
      rw [List.zipIdx_cons]
      have hlen : k + (st :: l).length = k + 1 + l.length := by simp; omega
      rw [hlen]
      constructor
      · intro hf
        obtain ⟨T2, hT2⟩ := s1 (hf st (by simp))
        obtain ⟨n1, n2⟩ := hnext T2 hT2
        obtain ⟨T3, hT3⟩ := (ih (k + 1) T2 h1' n1 n2).1 (fun x hx => hf x (by simp [hx]))
        exact ⟨T3, by rw [List.foldlM_cons, hT2]; exact hT3⟩
      · intro T' hT'
        rw [List.foldlM_cons] at hT'
        obtain ⟨T2, hT2, hT3⟩ := Except.bind_eq_ok.1 hT'
        obtain ⟨n1, n2⟩ := hnext T2 hT2
        exact (ih (k + 1) T2 h1' n1 n2).2 T' hT3
  obtain ⟨h1, h2⟩ := key states 0 (LRTable.new states.length) (by simp) (by simp)
    (fun i _ => ⟨fun c => rfl, fun b => rfl⟩)
  refine ⟨h1, fun T hT i st hi => h2 T hT i st ?_ hi⟩
  have := (List.getElem?_eq_some_iff.1 hi).1
  omega

end Parsegen
