import Verif.Proofs.Table
import Verif.Model.Codegen

/-! # The emitted arrays and semantic action table -/

namespace Parsegen

variable {A X Ty : Type}

theorem mapM_ok_iff {α β : Type} {f : α → Except Fault β} {l : List α} {r : List β} :
    l.mapM f = .ok r ↔ List.Forall₂ (fun x y => f x = .ok y) l r := by
  induction l generalizing r with
  | nil =>
    simp only [List.mapM_nil, List.forall₂_nil_left_iff]
    constructor
    · intro h; cases h; rfl
    · intro h; subst h; rfl
  | cons x l ih =>
    rw [List.mapM_cons]
    constructor
    · intro h
      obtain ⟨y, hy, h⟩ := Except.bind_eq_ok.1 h
      obtain ⟨ys, hys, h⟩ := Except.bind_eq_ok.1 h
      cases h
      exact .cons hy (ih.1 hys)
    · intro h
      cases h with
      | cons hy hys =>
        rw [hy, Except.bind_ok, ih.2 hys]; rfl

theorem forall₂_getElem? {α β : Type} {R : α → β → Prop} {l : List α} {r : List β}
    (h : List.Forall₂ R l r) {i : Nat} {x : α} (hx : l[i]? = some x) :
    ∃ y, r[i]? = some y ∧ R x y := by
  induction h generalizing i with
  | nil => simp at hx
  | cons h1 h2 ih =>
    cases i with
    | zero => simp at hx; subst hx; exact ⟨_, rfl, h1⟩
    | succ i => exact ih (by simpa using hx)

theorem forall₂_getElem?' {α β : Type} {R : α → β → Prop} {l : List α} {r : List β}
    (h : List.Forall₂ R l r) {i : Nat} {y : β} (hy : r[i]? = some y) :
    ∃ x, l[i]? = some x ∧ R x y := by
  induction h generalizing i with
  | nil => simp at hy
  | cons h1 h2 ih =>
    cases i with
    | zero => simp at hy; subst hy; exact ⟨_, rfl, h1⟩
    | succ i => exact ih (by simpa using hy)

theorem tryU32_ok {n m : Nat} : tryU32 n = .ok m ↔ m = n ∧ n < 4294967296 := by
  unfold tryU32; split
  · next h => simp [h, eq_comm]
  · next h => simp [h]

theorem tryU16_ok {n m : Nat} : tryU16 n = .ok m ↔ m = n ∧ n < 65536 := by
  unfold tryU16; split
  · next h => simp [h, eq_comm]
  · next h => simp [h]

/-! ## Grammars with the same productions -/

structure SameShape {A B Ty : Type} (g : Grammar A Ty) (g' : Grammar B Ty) : Prop where
  len : g'.nonTerminals.length = g.nonTerminals.length
  terms : g'.terminals = g.terminals
  nt : ∀ (i : Nat) n, g.nonTerminals[i]? = some n → ∃ n', g'.nonTerminals[i]? = some n' ∧
    n'.name = n.name ∧ n'.returnTy = n.returnTy ∧ n'.isPublic = n.isPublic ∧
    n'.productions.map (·.symbols) = n.productions.map (·.symbols)

section shape
variable {B : Type} {g : Grammar A Ty} {g' : Grammar B Ty}

theorem SameShape.nt' (h : SameShape g g') {i : Nat} {n'} (hn : g'.nonTerminals[i]? = some n') :
    ∃ n, g.nonTerminals[i]? = some n ∧
    n'.name = n.name ∧ n'.returnTy = n.returnTy ∧ n'.isPublic = n.isPublic ∧
    n'.productions.map (·.symbols) = n.productions.map (·.symbols) := by
  have hi := (List.getElem?_eq_some_iff.1 hn).1
  rw [h.len] at hi
  obtain ⟨n'', h1, h2⟩ := h.nt i _ (List.getElem?_eq_getElem hi)
  rw [hn] at h1; cases h1
  exact ⟨_, List.getElem?_eq_getElem hi, h2⟩

theorem SameShape.symm (h : SameShape g g') : SameShape g' g := by
  refine ⟨h.len.symm, h.terms.symm, ?_⟩
  intro i n' hn
  obtain ⟨n, h1, h2, h3, h4, h5⟩ := h.nt' hn
  exact ⟨n, h1, h2.symm, h3.symm, h4.symm, h5.symm⟩

theorem SameShape.nTerminals (h : SameShape g g') : g'.nTerminals = g.nTerminals := by
  unfold Grammar.nTerminals; rw [h.terms]

theorem SameShape.nNonTerminals (h : SameShape g g') : g'.nNonTerminals = g.nNonTerminals := h.len

theorem SameShape.isPublic (h : SameShape g g') (nt : Nat) : g'.isPublic nt = g.isPublic nt := by
  unfold Grammar.isPublic
  cases hn : g.nonTerminals[nt]? with
  | some n =>
    obtain ⟨n', h1, _, _, h4, _⟩ := h.nt nt n hn
    rw [h1]; exact h4
  | none =>
    have : g'.nonTerminals[nt]? = none := by
      rw [List.getElem?_eq_none_iff] at hn ⊢; rw [h.len]; exact hn
    rw [this]

theorem SameShape.nProductions (h : SameShape g g') (nt : Nat) :
    g'.nProductions nt = g.nProductions nt := by
  unfold Grammar.nProductions
  cases hn : g.nonTerminals[nt]? with
  | some n =>
    obtain ⟨n', h1, _, _, _, h4⟩ := h.nt nt n hn
    rw [h1]
    have := congrArg List.length h4
    simpa using this
  | none =>
    have : g'.nonTerminals[nt]? = none := by
      rw [List.getElem?_eq_none_iff] at hn ⊢; rw [h.len]; exact hn
    rw [this]

theorem SameShape.getProduction (h : SameShape g g') (nt p : Nat) :
    (g'.getProduction? nt p).map (·.symbols) = (g.getProduction? nt p).map (·.symbols) := by
  unfold Grammar.getProduction?
  cases hn : g.nonTerminals[nt]? with
  | some n =>
    obtain ⟨n', h1, _, _, _, h4⟩ := h.nt nt n hn
    rw [h1]
    have := congrArg (fun l => l[p]?) h4
    simpa using this
  | none =>
    have : g'.nonTerminals[nt]? = none := by
      rw [List.getElem?_eq_none_iff] at hn ⊢; rw [h.len]; exact hn
    rw [this]; rfl

theorem SameShape.rhs (h : SameShape g g') (nt p : Nat) : g'.rhs nt p = g.rhs nt p := by
  have := h.getProduction nt p
  unfold Grammar.rhs
  cases h1 : g.getProduction? nt p <;> cases h2 : g'.getProduction? nt p <;>
    rw [h1, h2] at this <;> simp at this
  simp [Production.syms, this]

theorem SameShape.hasProd (h : SameShape g g') {nt p : Nat} {α : List Symbol} :
    g'.HasProd nt p α ↔ g.HasProd nt p α := by
  rw [Grammar.hasProd_iff, Grammar.hasProd_iff, h.rhs, h.nProductions]

theorem SameShape.wf (h : SameShape g g') (hwf : g.WF) : g'.WF := by
  refine ⟨?_, ?_, ?_, ?_⟩
  · intro nt p α b hp hb
    rw [h.nNonTerminals]; exact hwf.nt_lt (h.hasProd.1 hp) hb
  · intro nt p α b hp hb
    rw [h.isPublic]; exact hwf.nt_priv (h.hasProd.1 hp) hb
  · intro nt p α b hp hb
    rw [h.nTerminals]; exact hwf.term_lt (h.hasProd.1 hp) hb
  · intro nt hp
    rw [h.isPublic] at hp
    obtain ⟨h1, b, hb⟩ := hwf.pub hp
    exact ⟨by rw [h.nProductions]; exact h1, b, h.hasProd.2 hb⟩

theorem SameShape.itemOk (h : SameShape g g') (it : Item) : ItemOk g' it ↔ ItemOk g it := by
  unfold ItemOk; rw [h.nProductions, h.rhs, h.nTerminals]

theorem SameShape.nextSymbol (h : SameShape g g') (it : Item) :
    it.nextSymbol g' = it.nextSymbol g := by
  unfold Item.nextSymbol; rw [h.rhs]

theorem SameShape.wantsShift (h : SameShape g g') (G : AMap Symbol Nat) (it : Item)
    (c : Option Nat) : WantsShift g' G it c ↔ WantsShift g G it c := by
  unfold WantsShift; simp only [h.nextSymbol]

theorem SameShape.wantsReduce (h : SameShape g g') (it : Item)
    (c : Option Nat) : WantsReduce g' it c ↔ WantsReduce g it c := by
  unfold WantsReduce; simp only [h.rhs, h.isPublic]

theorem SameShape.wantsAccept (h : SameShape g g') (it : Item)
    (c : Option Nat) : WantsAccept g' it c ↔ WantsAccept g it c := by
  unfold WantsAccept; simp only [h.isPublic]

end shape

/-! ## Semantic actions -/

/-- `f` is the function emitted for production `pr` of non-terminal `nt`. -/
structure SemFor (variants : List Nat) (nt : Nat) (pr : Production X) (f : SemFn X) : Prop where
  pops : popStmts variants pr.symbols.reverse = .ok f.pops
  variant : variants[nt]? = some f.variant
  action : f.action = pr.action

theorem semProduction_ok {variants : List Nat} {nt : Nat} {p : Production X} {fns : List (SemFn X)}
    {r} (h : semProduction variants nt p fns = .ok r) :
    ∃ f, SemFor variants nt p f ∧ fns.length < 65536 ∧ r = (⟨p.symbols, fns.length⟩, fns ++ [f]) := by
  unfold semProduction at h
  obtain ⟨pops, h1, h⟩ := Except.bind_eq_ok.1 h
  split at h
  · cases h
  · next v hv =>
    obtain ⟨idx, h2, h⟩ := Except.bind_eq_ok.1 h
    obtain ⟨rfl, h3⟩ := tryU16_ok.1 h2
    cases h
    exact ⟨⟨pops, v, p.action⟩, ⟨h1, hv, rfl⟩, h3, rfl⟩

theorem semProductions_ok {variants : List Nat} {nt : Nat} {ps : List (Production X)}
    {fns : List (SemFn X)} {r} (h : semProductions variants nt ps fns = .ok r) :
    ∃ ext, r.2 = fns ++ ext ∧ List.Forall₂ (SemFor variants nt) ps ext ∧
      r.1 = ps.zipIdx.map (fun e => ⟨e.1.symbols, fns.length + e.2⟩) ∧
      (fns.length ≤ 65536 → r.2.length ≤ 65536) := by
  induction ps generalizing fns r with
  | nil => cases h; exact ⟨[], by simp, .nil, rfl, fun h => h⟩
  | cons p ps ih =>
    unfold semProductions at h
    obtain ⟨⟨p', fns'⟩, h1, h⟩ := Except.bind_eq_ok.1 h
    obtain ⟨⟨ps', fns''⟩, h2, h⟩ := Except.bind_eq_ok.1 h
    cases h
    obtain ⟨f, hf, hlt, he⟩ := semProduction_ok h1
    cases he
    obtain ⟨ext, h3, h4, h5, h6⟩ := ih h2
    simp only at h3 h5 h6 ⊢
    refine ⟨f :: ext, by simp [h3], .cons hf h4, ?_, ?_⟩
    · rw [List.zipIdx_cons, List.map_cons, h5]
      simp only [Nat.add_zero, List.length_append, List.length_singleton, Nat.zero_add]
      congr 1
      rw [List.zipIdx_succ]
      simp only [List.map_map]
      apply List.map_congr_left
      rintro ⟨a, b⟩ _
      simp only [Function.comp]
      congr 1; omega
    · intro _; apply h6; simp; omega

/-- Number of productions of the non-terminals below `i`. -/
def prodBase {A Ty : Type} (l : List (NonTerminal A Ty)) (i : Nat) : Nat :=
  ((l.take i).map fun n => n.productions.length).sum

theorem semNonTerminals_ok {variants : List Nat} {nt : Nat} {l : List (NonTerminal X Ty)}
    {fns : List (SemFn X)} {r} (h : semNonTerminals variants nt l fns = .ok r) :
    r.1.length = l.length ∧ (∃ ext, r.2 = fns ++ ext) ∧
    (fns.length ≤ 65536 → r.2.length ≤ 65536) ∧
    r.2.length = fns.length + prodBase l l.length ∧
    ∀ (i : Nat) n, l[i]? = some n → ∃ n', r.1[i]? = some n' ∧ n'.name = n.name ∧
      n'.returnTy = n.returnTy ∧ n'.isPublic = n.isPublic ∧
      n'.productions = n.productions.zipIdx.map
        (fun e => ⟨e.1.symbols, fns.length + prodBase l i + e.2⟩) ∧
      ∀ (p : Nat) pr, n.productions[p]? = some pr →
        ∃ f, r.2[fns.length + prodBase l i + p]? = some f ∧ SemFor variants (nt + i) pr f := by
  induction l generalizing nt fns r with
  | nil => cases h; exact ⟨rfl, ⟨[], by simp⟩, fun h => h, by simp [prodBase], by simp⟩
  | cons n l ih =>
    unfold semNonTerminals at h
    obtain ⟨⟨ps', fns'⟩, h1, h⟩ := Except.bind_eq_ok.1 h
    obtain ⟨⟨ns', fns''⟩, h2, h⟩ := Except.bind_eq_ok.1 h
    cases h
    obtain ⟨ext, e1, e2, e3, e4⟩ := semProductions_ok h1
    obtain ⟨i1, ⟨ext', i2⟩, i3, i4, i5⟩ := ih h2
    simp only at e1 e3 e4 i1 i2 i3 i4 i5 ⊢
    have hlen : fns'.length = fns.length + n.productions.length := by
      rw [e1, List.length_append, e2.length_eq]
    refine ⟨by simp [i1], ⟨ext ++ ext', by rw [i2, e1, List.append_assoc]⟩,
      fun h => i3 (e4 h), ?_, ?_⟩
    · rw [i4, hlen]
      unfold prodBase
      simp only [List.take_length, List.map_cons, List.sum_cons]
      omega
    · intro i m hm
      cases i with
      | zero =>
        simp only [List.getElem?_cons_zero, Option.some.injEq] at hm
        subst hm
        refine ⟨_, rfl, rfl, rfl, rfl, by simp only [prodBase, List.take_zero, List.map_nil, List.sum_nil, Nat.add_zero]; exact e3, ?_⟩
        intro p pr hpr
        obtain ⟨f, hf, hs⟩ := forall₂_getElem? e2 hpr
        refine ⟨f, ?_, hs⟩
        have hp : p < ext.length := (List.getElem?_eq_some_iff.1 hf).1
        rw [i2, e1, List.append_assoc, List.getElem?_append_right (by simp [prodBase])]
        rw [List.getElem?_append_left (by simp [prodBase]; omega)]
        simpa [prodBase] using hf
      | succ i =>
        simp only [List.getElem?_cons_succ] at hm ⊢
        obtain ⟨n', j1, j2, j3, j4, j5, j6⟩ := i5 i m hm
        have hb : prodBase (n :: l) (i + 1) = n.productions.length + prodBase l i := by
          simp [prodBase]
        rw [hb]
        have harith : fns'.length + prodBase l i = fns.length + (n.productions.length + prodBase l i) := by
          omega
        rw [harith] at j5 j6
        refine ⟨n', j1, j2, j3, j4, j5, ?_⟩
        intro p pr hpr
        obtain ⟨f, hf, hs⟩ := j6 p pr hpr
        refine ⟨f, hf, ?_⟩
        have : nt + (i + 1) = nt + 1 + i := by omega
        rw [this]; exact hs

/-- What the semantic action table looks like. -/
theorem generateSemanticActionTable_ok {g : Grammar X Ty} {variants : List Nat}
    {fns : List (SemFn X)} {g' : Grammar Nat Ty}
    (h : generateSemanticActionTable g variants = .ok (fns, g')) :
    SameShape g g' ∧ fns.length ≤ 65536 ∧ fns.length = prodBase g.nonTerminals g.nNonTerminals ∧
    (∀ nt p pr, g.getProduction? nt p = some pr →
      g'.getProduction? nt p = some ⟨pr.symbols, prodBase g.nonTerminals nt + p⟩ ∧
      ∃ f, fns[prodBase g.nonTerminals nt + p]? = some f ∧ SemFor variants nt pr f) := by
  unfold generateSemanticActionTable at h
  obtain ⟨⟨ns, fns'⟩, h1, h⟩ := Except.bind_eq_ok.1 h
  cases h
  obtain ⟨h2, _, h4, h5, h6⟩ := semNonTerminals_ok h1
  simp only [List.length_nil, Nat.zero_add] at h2 h4 h5 h6
  refine ⟨⟨h2, rfl, ?_⟩, h4 (by simp), h5, ?_⟩
  · intro i n hn
    obtain ⟨n', j1, j2, j3, j4, j5, _⟩ := h6 i n hn
    refine ⟨n', j1, j2, j3, j4, ?_⟩
    rw [j5, List.map_map]
    have : ((fun x : Production Nat => x.symbols) ∘ fun e : Production X × Nat =>
        (⟨e.1.symbols, prodBase g.nonTerminals i + e.2⟩ : Production Nat)) =
        (fun p : Production X => p.symbols) ∘ Prod.fst := rfl
    rw [this, ← List.map_map, List.zipIdx_map_fst]
  · intro nt p pr hpr
    unfold Grammar.getProduction? at hpr ⊢
    cases hn : g.nonTerminals[nt]? with
    | none => rw [hn] at hpr; cases hpr
    | some n =>
      rw [hn] at hpr
      simp only [Option.bind_some] at hpr
      obtain ⟨n', j1, j2, j3, j4, j5, j6⟩ := h6 nt n hn
      refine ⟨?_, j6 p pr hpr⟩
      simp only [j1, Option.bind_some, j5]
      rw [List.getElem?_map, List.getElem?_zipIdx, hpr]
      simp

/-! ## Arrays -/

/-- Column of a lookahead in the action array: end of input comes last. -/
def laCol (nT : Nat) : Option Nat → Nat
  | none => nT
  | some t => t

theorem actionTableVec_row (g : Grammar A Ty) (t : LRTable A) {n q : Nat} (hq : q < n) :
    ∃ row, (actionTableVec g t n)[q]? = some row ∧ row.length = g.nTerminals + 1 ∧
      ∀ c, LaOk g.nTerminals c → row[laCol g.nTerminals c]? = some (t.getAction q c) := by
  unfold actionTableVec
  rw [List.getElem?_map, List.getElem?_range hq]
  refine ⟨_, rfl, by simp, ?_⟩
  intro c hc
  cases c with
  | none =>
    simp only [laCol]
    rw [List.getElem?_append_right (by simp)]
    simp [LRTable.getAction]
  | some x =>
    have hx := hc x rfl
    simp only [laCol]
    rw [List.getElem?_append_left (by simpa using hx), List.getElem?_map, List.getElem?_range hx]
    rfl

/-- The emitted `ACTION` array. -/
structure ActionArray (g : Grammar Nat Ty) (T : LRTable Nat) (nT : Nat)
    (arr : List (List (Option RtAction))) : Prop where
  len : arr.length = T.nStates
  row : ∀ q, q < T.nStates → ∃ row, arr[q]? = some row ∧ row.length = nT + 1 ∧
    ∀ c, LaOk nT c → ∃ o, row[laCol nT c]? = some o ∧ encodeCell g (T.getAction q c) = .ok o

theorem generateActionArray_ok {g : Grammar Nat Ty} {T : LRTable Nat}
    {arr : List (List (Option RtAction))} {nT : Nat} (hnT : nT = g.nTerminals)
    (h : generateActionArray g (actionTableVec g T T.nStates) T.nStates nT = .ok arr) :
    ActionArray g T nT arr := by
  unfold generateActionArray at h
  split at h
  · next hl =>
    have hf := mapM_ok_iff.1 h
    refine ⟨by rw [← hf.length_eq, hl], ?_⟩
    intro q hq
    obtain ⟨row, h1, h2, h3⟩ := actionTableVec_row g T hq
    obtain ⟨row', h4, h5⟩ := forall₂_getElem? hf h1
    rw [hnT, if_pos h2] at h5
    have hf' := mapM_ok_iff.1 h5
    refine ⟨row', h4, by rw [← hf'.length_eq, h2, hnT], ?_⟩
    intro c hc
    rw [hnT] at hc ⊢
    obtain ⟨o, h6, h7⟩ := forall₂_getElem? hf' (h3 c hc)
    exact ⟨o, h6, h7⟩
  · cases h

/-- The emitted `GOTO` array. -/
structure GotoArray (T : LRTable A) (nNT : Nat) (arr : List (List (Option Nat))) : Prop where
  len : arr.length = T.nStates
  row : ∀ q, q < T.nStates → ∃ row, arr[q]? = some row ∧ row.length = nNT ∧
    ∀ b, b < nNT → row[b]? = some (T.getGoto q b) ∧ ∀ r, T.getGoto q b = some r → r < 4294967296

theorem generateGoto_ok {T : LRTable A} {nNT : Nat} {vec arr : List (List (Option Nat))}
    (h1 : generateGotoVec T T.nStates nNT = .ok vec) (h2 : generateGotoArray vec = .ok arr) :
    GotoArray T nNT arr := by
  have f1 := mapM_ok_iff.1 h1
  have f2 := mapM_ok_iff.1 h2
  refine ⟨by rw [← f2.length_eq, ← f1.length_eq]; simp, ?_⟩
  intro q hq
  obtain ⟨v, a1, a2⟩ := forall₂_getElem? f1 (List.getElem?_range hq)
  obtain ⟨row, b1, b2⟩ := forall₂_getElem? f2 a1
  have f3 := mapM_ok_iff.1 a2
  have f4 := mapM_ok_iff.1 b2
  refine ⟨row, b1, by rw [← f4.length_eq, ← f3.length_eq]; simp, ?_⟩
  intro b hb
  obtain ⟨x, c1, c2⟩ := forall₂_getElem? f3 (List.getElem?_range hb)
  obtain ⟨y, d1, d2⟩ := forall₂_getElem? f4 c1
  obtain ⟨n', e1, e2⟩ := Except.bind_eq_ok.1 c2
  obtain ⟨rfl, _⟩ := tryU32_ok.1 e1
  cases e2
  have hg : T.goto.get? (q, n') = T.getGoto q n' := rfl
  rw [hg] at d2
  cases hx : T.getGoto q n' with
  | none =>
    rw [hx] at d2
    cases d2
    exact ⟨d1, by simp⟩
  | some r =>
    rw [hx] at d2
    obtain ⟨r', e1, e2⟩ := Except.bind_eq_ok.1 d2
    obtain ⟨rfl, hlt⟩ := tryU32_ok.1 e1
    cases e2
    exact ⟨d1, by intro r hr; cases hr; exact hlt⟩

/-- The stages of a successful generation. -/
structure GenStages [DecidableEq Ty] (h : HashOrder) (g : Grammar X Ty) (gen : Generated X)
    (a : Automaton) (g' : Grammar Nat Ty) (T : LRTable Nat) : Prop where
  auto : generateAutomaton h g (generateFirstTable h g) = .ok a
  sem : generateSemanticActionTable g (semanticActionVariants g) = .ok (gen.semActions, g')
  table : buildTable h g' a.states = .ok T
  action : ActionArray g' T g.nTerminals gen.action
  goto : GotoArray T g'.nNonTerminals gen.goto
  entries : List.Forall₂ (fun e ep => entryPoint g' (semanticActionVariants g) e = .ok ep)
    (h.iter a.entries) gen.entries
  expected : gen.expected = generateExpected g' T
  strs : gen.terminalStrs = generateTokenText g'
  nT : gen.nTerminals = g.nTerminals

theorem generateParser_ok [DecidableEq Ty] {h : HashOrder} {g : Grammar X Ty} {gen : Generated X}
    (hg : generateParser h g = .ok gen) : ∃ a g' T, GenStages h g gen a g' T := by
  unfold generateParser at hg
  obtain ⟨a, h1, hg⟩ := Except.bind_eq_ok.1 hg
  obtain ⟨⟨fns, g'⟩, h2, hg⟩ := Except.bind_eq_ok.1 hg
  obtain ⟨T, h3, hg⟩ := Except.bind_eq_ok.1 hg
  obtain ⟨act, h4, hg⟩ := Except.bind_eq_ok.1 hg
  obtain ⟨gv, h5, hg⟩ := Except.bind_eq_ok.1 hg
  obtain ⟨go, h6, hg⟩ := Except.bind_eq_ok.1 hg
  obtain ⟨ents, h7, hg⟩ := Except.bind_eq_ok.1 hg
  cases hg
  have hs := (generateSemanticActionTable_ok h2).1
  exact ⟨a, g', T, h1, h2, h3, generateActionArray_ok hs.nTerminals.symm h4, generateGoto_ok h5 h6,
    mapM_ok_iff.1 h7, rfl, rfl, rfl⟩

/-! ## Interface for the run-time proofs -/

/-- The cell of the action array. -/
def Generated.act (gen : Generated X) (q : Nat) (c : Option Nat) : Option (Option RtAction) :=
  (gen.action[q]?).bind fun row => row[laCol gen.nTerminals c]?

/-- The cell of the goto array. -/
def Generated.go (gen : Generated X) (q b : Nat) : Option (Option Nat) :=
  (gen.goto[q]?).bind fun row => row[b]?

/-- Semantic action `k` is the one of production `p` of `nt`. -/
def Generated.IsSem [DecidableEq Ty] (gen : Generated X) (g : Grammar X Ty) (k nt p : Nat) : Prop :=
  ∃ pr f, g.getProduction? nt p = some pr ∧ gen.semActions[k]? = some f ∧
    SemFor (semanticActionVariants g) nt pr f

/-- State `q` represents symbol string `γ` read from entry point `E`. -/
def StateAt (g : Grammar X Ty) (F : FirstTable) (a : Automaton) (E : Nat) (γ : List Symbol)
    (q : Nat) : Prop :=
  ∃ s : LR1State, a.states[q]? = some s ∧ ∀ x, x ∈ s.items ↔ ItemsAt g F E γ x

/-- Everything the run-time proofs need to know about the emitted tables. -/
structure Tables [DecidableEq Ty] (g : Grammar X Ty) (F : FirstTable) (gen : Generated X)
    (At : Nat → List Symbol → Nat → Prop) : Prop where
  cell : ∀ {E γ q c}, g.isPublic E = true → At E γ q → LaOk g.nTerminals c →
    ∃ o, gen.act q c = some o
  shift_of : ∀ {E γ q c r}, g.isPublic E = true → At E γ q → LaOk g.nTerminals c →
    gen.act q c = some (some (.shift r)) →
    ∃ t nt p α β la, c = some t ∧ ItemsAt g F E γ ⟨nt, p, α.length, la⟩ ∧
      g.HasProd nt p (α ++ .terminal t :: β) ∧ At E (γ ++ [.terminal t]) r
  shift_mk : ∀ {E γ q nt p α t β la}, g.isPublic E = true → At E γ q →
    ItemsAt g F E γ ⟨nt, p, α.length, la⟩ → g.HasProd nt p (α ++ .terminal t :: β) →
    ∃ r, gen.act q (some t) = some (some (.shift r)) ∧ At E (γ ++ [.terminal t]) r
  reduce_of : ∀ {E γ q c b n k}, g.isPublic E = true → At E γ q → LaOk g.nTerminals c →
    gen.act q c = some (some (.reduce b n k)) →
    ∃ p α, g.HasProd b p α ∧ n = α.length ∧ ItemsAt g F E γ ⟨b, p, α.length, c⟩ ∧
      g.isPublic b = false ∧ gen.IsSem g k b p
  reduce_mk : ∀ {E γ q c b p α}, g.isPublic E = true → At E γ q →
    ItemsAt g F E γ ⟨b, p, α.length, c⟩ → g.HasProd b p α → g.isPublic b = false →
    (∃ k, gen.act q c = some (some (.reduce b α.length k)) ∧ gen.IsSem g k b p) ∨
    (∃ r, gen.act q c = some (some (.shift r))) ∨ gen.act q c = some (some .accept)
  accept_of : ∀ {E γ q c}, g.isPublic E = true → At E γ q → LaOk g.nTerminals c →
    gen.act q c = some (some .accept) → c = none ∧ ItemsAt g F E γ ⟨E, 0, 1, none⟩
  accept_mk : ∀ {E γ q}, g.isPublic E = true → At E γ q → ItemsAt g F E γ ⟨E, 0, 1, none⟩ →
    gen.act q none = some (some .accept)
  goto_mk : ∀ {E γ q nt p α b β la}, g.isPublic E = true → At E γ q →
    ItemsAt g F E γ ⟨nt, p, α.length, la⟩ → g.HasProd nt p (α ++ .nonTerminal b :: β) →
    ∃ r, gen.go q b = some (some r) ∧ At E (γ ++ [.nonTerminal b]) r
  goto_of : ∀ {E γ q b r}, g.isPublic E = true → At E γ q → b < g.nNonTerminals →
    gen.go q b = some (some r) → At E (γ ++ [.nonTerminal b]) r
  entry : ∀ ep ∈ gen.entries, ∃ E, g.isPublic E = true ∧ At E [] ep.initState ∧
    (g.nonTerminals[E]?).map (·.name) = some ep.name ∧
    (semanticActionVariants g)[E]? = some ep.extract ∧ gen.IsSem g ep.actionIdx E 0
  entry_mk : ∀ E, g.isPublic E = true → ∃ ep ∈ gen.entries, At E [] ep.initState ∧
    (g.nonTerminals[E]?).map (·.name) = some ep.name ∧
    (semanticActionVariants g)[E]? = some ep.extract ∧ gen.IsSem g ep.actionIdx E 0
  nT : gen.nTerminals = g.nTerminals
  strs : gen.terminalStrs = g.terminals ++ ["end-of-input"]
  expected : ∀ {E γ q}, g.isPublic E = true → At E γ q → gen.expected[q]? =
    some (", ".intercalate ((g.terminals.zipIdx.filter fun e =>
      ((gen.act q (some e.2)).join).isSome).map (·.1)))

end Parsegen
