import Verif.Spec.Simulate
import Verif.Proofs.Functor
import Verif.Proofs.Order
import Verif.Proofs.Compiled
import Verif.Proofs.Parse
import Verif.Props.Order

/-! # Proofs about `simulate` -/

namespace Parsegen

variable {A B X Ty V W Tok E : Type}

/-! ## The tables do not depend on the actions -/

/-- Replace the action. -/
def LRAction.mapA (f : A → B) : LRAction A → LRAction B
  | .shift n => .shift n
  | .reduce nt p a => .reduce nt p (f a)
  | .accept => .accept

def LRTable.mapA (f : A → B) (t : LRTable A) : LRTable B :=
  ⟨t.action.map fun e => (e.1, e.2.mapA f), t.goto, t.nStates⟩

theorem AMap.get?_mapV {K V V' : Type} [DecidableEq K] (f : V → V') (m : AMap K V) (k : K) :
    AMap.get? (m.map fun e => (e.1, f e.2)) k = (m.get? k).map f := by
  induction m with
  | nil => rfl
  | cons e m ih =>
    obtain ⟨k', v⟩ := e
    simp only [List.map_cons, AMap.get?]
    split
    · rfl
    · exact ih

theorem AMap.insert_mapV {K V V' : Type} [DecidableEq K] (f : V → V') (m : AMap K V) (k : K) (v : V) :
    AMap.insert (m.map fun e => (e.1, f e.2)) k (f v) =
      (m.insert k v).map fun e => (e.1, f e.2) := by
  induction m with
  | nil => rfl
  | cons e m ih =>
    obtain ⟨k', v'⟩ := e
    simp only [List.map_cons, AMap.insert]
    split
    · rfl
    · simp only [List.map_cons, ih]

theorem LRTable.getAction_mapA (f : A → B) (t : LRTable A) (q : Nat) (c : Option Nat) :
    (t.mapA f).getAction q c = (t.getAction q c).map (·.mapA f) :=
  AMap.get?_mapV _ _ _

theorem LRTable.addShift_mapA (f : A → B) (t : LRTable A) (q tok n : Nat) :
    (t.mapA f).addShift q tok n = (t.addShift q tok n).map (·.mapA f) := by
  have e : (t.mapA f).action.insert (q, some tok) (.shift n) =
      (t.action.insert (q, some tok) (.shift n)).map fun e => (e.1, e.2.mapA f) :=
    AMap.insert_mapV (LRAction.mapA f) t.action _ (.shift n)
  simp only [LRTable.addShift, e]
  rw [show (t.mapA f).action.get? (q, some tok) = _ from AMap.get?_mapV (LRAction.mapA f) t.action _]
  cases t.action.get? (q, some tok) with
  | none => rfl
  | some x =>
    cases x with
    | shift s => simp only [Option.map_some, LRAction.mapA]; split <;> rfl
    | reduce _ _ _ => rfl
    | accept => rfl

theorem LRTable.addReduce_mapA (f : A → B) (t : LRTable A) (q : Nat) (c : Option Nat) (nt p : Nat)
    (a : A) : (t.mapA f).addReduce q c nt p (f a) = (t.addReduce q c nt p a).map (·.mapA f) := by
  have e : (t.mapA f).action.insert (q, c) (.reduce nt p (f a)) =
      (t.action.insert (q, c) (.reduce nt p a)).map fun e => (e.1, e.2.mapA f) :=
    AMap.insert_mapV (LRAction.mapA f) t.action _ (.reduce nt p a)
  simp only [LRTable.addReduce, e]
  rw [show (t.mapA f).action.get? (q, c) = _ from AMap.get?_mapV (LRAction.mapA f) t.action _]
  cases t.action.get? (q, c) with
  | none => rfl
  | some x => cases x <;> rfl

theorem LRTable.addAccept_mapA (f : A → B) (t : LRTable A) (q : Nat) :
    (t.mapA f).addAccept q = (t.addAccept q).mapA f := by
  have e : (t.mapA f).action.insert (q, none) .accept =
      (t.action.insert (q, none) .accept).map fun e => (e.1, e.2.mapA f) :=
    AMap.insert_mapV (LRAction.mapA f) t.action _ .accept
  simp only [LRTable.addAccept, e]
  rfl

section map
variable (f : A → B) (g : Grammar A Ty)

theorem ruleShift_mapA (i : Nat) (st : LR1State) (it : Item) (t : LRTable A) :
    ruleShift (g.mapA f) i st it (t.mapA f) = (ruleShift g i st it t).map (·.mapA f) := by
  unfold ruleShift
  have : it.nextTerminal (g.mapA f) = it.nextTerminal g := by
    simp only [Item.nextTerminal, Item.nextSymbol, Grammar.rhs_mapA]
  rw [this]
  split
  · rfl
  · split
    · rfl
    · exact t.addShift_mapA f _ _ _

theorem Grammar.getProduction?_mapA (nt p : Nat) :
    (g.mapA f).getProduction? nt p = (g.getProduction? nt p).map (·.mapA f) := by
  simp only [Grammar.getProduction?, Grammar.mapA, List.getElem?_map]
  cases g.nonTerminals[nt]? with
  | none => rfl
  | some n => simp only [Option.map_some, Option.bind_some, NonTerminal.mapA, List.getElem?_map]

theorem ruleReduce_mapA (i : Nat) (it : Item) (n : NonTerminal A Ty) (t : LRTable A) :
    ruleReduce (g.mapA f) i it (n.mapA f) (t.mapA f) = (ruleReduce g i it n t).map (·.mapA f) := by
  unfold ruleReduce
  have : it.isComplete (g.mapA f) = it.isComplete g := by simp [Item.isComplete]
  rw [this, show (n.mapA f).isPublic = n.isPublic from rfl]
  split
  · rw [Grammar.getProduction?_mapA]
    cases g.getProduction? it.nt it.prod with
    | none => rfl
    | some p => exact t.addReduce_mapA f _ _ _ _ _
  · rfl

theorem ruleAccept_mapA (i : Nat) (it : Item) (n : NonTerminal A Ty) (t : LRTable A) :
    ruleAccept i it (n.mapA f) (t.mapA f) = (ruleAccept i it n t).map (·.mapA f) := by
  unfold ruleAccept
  rw [show (n.mapA f).isPublic = n.isPublic from rfl,
    show (n.mapA f).productions.length = n.productions.length from List.length_map _]
  split
  · split
    · rw [LRTable.addAccept_mapA]; rfl
    · rfl
  · rfl

theorem ruleGotos_mapA (h : HashOrder) (i : Nat) (st : LR1State) (t : LRTable A) :
    ruleGotos h i st (t.mapA f) = (ruleGotos h i st t).mapA f := by
  unfold ruleGotos
  generalize h.iter st.goto = l
  induction l generalizing t with
  | nil => rfl
  | cons e l ih =>
    simp only [List.foldl_cons]
    cases e.1 with
    | terminal _ => exact ih t
    | nonTerminal b => exact ih (t.addGoto i b e.2)

theorem buildItem_mapA (h : HashOrder) (i : Nat) (st : LR1State) (t : LRTable A) (it : Item) :
    buildItem h (g.mapA f) i st (t.mapA f) it = (buildItem h g i st t it).map (·.mapA f) := by
  simp only [buildItem, ruleShift_mapA, bind, Except.bind]
  cases ruleShift g i st it t with
  | error e => rfl
  | ok t1 =>
    simp only [Except.map, Grammar.getNonTerminal?, Grammar.mapA, List.getElem?_map]
    cases g.nonTerminals[it.nt]? with
    | none => rfl
    | some n =>
      have := ruleReduce_mapA f g i it n t1
      unfold Grammar.mapA at this
      simp only [Option.map_some, this]
      cases ruleReduce g i it n t1 with
      | error e => rfl
      | ok t2 =>
        simp only [Except.map, ruleAccept_mapA]
        cases ruleAccept i it n t2 with
        | error e => rfl
        | ok t3 => simp only [ruleGotos_mapA]

theorem buildTable_mapA (h : HashOrder) (states : List LR1State) :
    buildTable h (g.mapA f) states = (buildTable h g states).map (·.mapA f) := by
  have := foldlM_map_comm (fun e : LR1State × Nat => e) (LRTable.mapA f) (step := buildState h g)
    (step' := buildState h (g.mapA f)) (fun t e => by
      have := foldlM_map_comm (fun it : Item => it) (LRTable.mapA f) (step := buildItem h g e.2 e.1)
        (step' := buildItem h (g.mapA f) e.2 e.1) (fun t it => buildItem_mapA f g h e.2 e.1 t it)
        e.1.items t
      rw [List.map_id'] at this
      exact this) states.zipIdx (LRTable.new states.length)
  rw [List.map_id'] at this
  exact this

end map

theorem Grammar.mapA_mapA {C : Type} (f : A → B) (k : B → C) (g : Grammar A Ty) :
    (g.mapA f).mapA k = g.mapA (fun a => k (f a)) := by
  simp [Grammar.mapA, NonTerminal.mapA, Production.mapA, Function.comp_def]

/-- Grammars of the same shape are equal up to actions. -/
theorem SameShape.mapA_eq {g : Grammar A Ty} {g' : Grammar B Ty} (h : SameShape g g') :
    g'.mapA (fun _ => ()) = g.mapA (fun _ => ()) := by
  have : g'.nonTerminals.map (·.mapA fun _ => ()) = g.nonTerminals.map (·.mapA fun _ => ()) := by
    apply List.ext_getElem?
    intro i
    simp only [List.getElem?_map]
    cases hn : g.nonTerminals[i]? with
    | none =>
      have : g'.nonTerminals[i]? = none := by
        rw [List.getElem?_eq_none_iff] at hn ⊢
        rw [h.len]; exact hn
      rw [this]; rfl
    | some n =>
      obtain ⟨n', h1, h2, h3, h4, h5⟩ := h.nt i n hn
      rw [h1]
      simp only [Option.map_some, Option.some.injEq, NonTerminal.mapA, h2, h3, h4]
      congr 1
      have e : ∀ {C : Type} (l : List (Production C)), l.map (Production.mapA fun _ => ()) =
          (l.map (·.symbols)).map fun ss => (⟨ss, ()⟩ : Production Unit) := by
        intro C l; simp [Production.mapA]
      rw [e, e, h5]
  simp only [Grammar.mapA, this, h.terms]

/-- The table of the tests is the one of the generator, up to the actions in it. -/
theorem GenStages.testTable [DecidableEq Ty] {h : HashOrder} {g : Grammar X Ty} {gen : Generated X}
    {a : Automaton} {g1 : Grammar Nat Ty} {T1 : LRTable Nat} (S : GenStages h g gen a g1 T1)
    (hwf : g.WF) (f : X → B) (h' : HashOrder) :
    ∃ T, testTable h' (g.mapA f) = .ok T ∧
      (∀ q c, (T.getAction q c).map (·.mapA fun _ => ()) =
        (T1.getAction q c).map (·.mapA fun _ => ())) ∧
      ∀ q b, T.getGoto q b = T1.getGoto q b := by
  have hn : ∀ st ∈ a.states, (st.goto.map (·.1)).Nodup := by
    intro st hst
    obtain ⟨q, hq⟩ := List.getElem?_of_mem hst
    exact (S.autoSpec hwf).nodup q st hq
  have h1 := buildTable_mapA (fun _ => ()) g1 h a.states
  rw [S.table, S.shape.mapA_eq, ← Grammar.mapA_mapA f (fun _ => ()), buildTable_mapA] at h1
  obtain ⟨T0, h2, h3⟩ : ∃ T0, buildTable h (g.mapA f) a.states = .ok T0 ∧
      T0.mapA (fun _ => ()) = T1.mapA (fun _ => ()) := by
    cases h2 : buildTable h (g.mapA f) a.states with
    | error e => rw [h2] at h1; cases h1
    | ok T0 => rw [h2] at h1; exact ⟨T0, rfl, Except.ok.inj h1⟩
  have h4 := buildTable_same h h' (g.mapA f) hn
  rw [h2] at h4
  generalize h5 : buildTable h' (g.mapA f) a.states = r at h4
  cases h4 with
  | @ok _ T hs =>
    refine ⟨T, ?_, fun q c => ?_, fun q b => ?_⟩
    · simp only [Parsegen.testTable, generateFirstTable_mapA, generateAutomaton_mapA, bind, Except.bind]
      rw [c19_automaton hwf h' h, S.auto]
      exact h5
    · rw [← LRTable.getAction_mapA, ← LRTable.getAction_mapA, ← h3]
      simp only [LRTable.getAction, LRTable.mapA, hs.action]
    · have := hs.goto (q, b)
      have e : T0.goto = T1.goto := by
        have := congrArg LRTable.goto h3
        exact this
      rw [LRTable.getGoto, ← this, e]
      rfl

/-! ## Lock-step with the emitted parser -/

/-- The table used by `simulate` says the same as the cell of the emitted array. -/
def CellSays (T : LRTable B) (g : Grammar B Ty) (q : Nat) (c : Option Nat) : Option RtAction → Prop
  | none => T.getAction q c = none
  | some (.shift r) => T.getAction q c = some (.shift r)
  | some .accept => T.getAction q c = some .accept
  | some (.reduce b n _) => ∃ p x pr, T.getAction q c = some (.reduce b p x) ∧
      g.getProduction? b p = some pr ∧ pr.symbols.length = n

section
variable [DecidableEq Ty] {h : HashOrder} {g : Grammar X Ty} {gen : Generated X}
    {a : Automaton} {g1 : Grammar Nat Ty} {T1 : LRTable Nat}

theorem GenStages.cellSays (S : GenStages h g gen a g1 T1) (hwf : g.WF) (f : X → B) {T : LRTable B}
    (hT : ∀ q c, (T.getAction q c).map (·.mapA fun _ => ()) =
        (T1.getAction q c).map (·.mapA fun _ => ())) {q : Nat} {s : LR1State}
    (hq : a.states[q]? = some s) {c : Option Nat} (hc : LaOk g.nTerminals c) :
    ∃ o, gen.act q c = some o ∧ CellSays T (g.mapA f) q c o := by
  obtain ⟨o, h1, h2⟩ := S.act_cell hwf hq hc
  refine ⟨o, h1, ?_⟩
  have h3 := hT q c
  cases h4 : T1.getAction q c with
  | none =>
    rw [h4] at h2 h3
    cases h2
    exact Option.map_eq_none_iff.1 h3
  | some x =>
    rw [h4] at h2 h3
    obtain ⟨y, h5, h6⟩ := Option.map_eq_some_iff.1 h3
    simp only [encodeCell] at h2
    obtain ⟨r, h7, h8⟩ := Except.bind_eq_ok.1 h2
    cases h8
    cases x with
    | shift n =>
      obtain ⟨m, h9, h10⟩ := Except.bind_eq_ok.1 h7
      cases h10
      unfold tryU32 at h9
      split at h9
      · cases h9
        cases y <;> cases h6
        exact h5
      · cases h9
    | accept =>
      cases h7
      cases y <;> cases h6
      exact h5
    | reduce b p k =>
      simp only [encodeAction] at h7
      split at h7
      · cases h7
      · next pr hpr =>
        obtain ⟨n, h9, h7⟩ := Except.bind_eq_ok.1 h7
        obtain ⟨b', h10, h7⟩ := Except.bind_eq_ok.1 h7
        cases h7
        have e1 : n = pr.symbols.length := by
          unfold tryU16 at h9; split at h9 <;> cases h9; rfl
        have e2 : b' = b := by
          unfold tryU16 at h10; split at h10 <;> cases h10; rfl
        subst e1 e2
        cases y with
        | shift _ => cases h6
        | accept => cases h6
        | reduce b2 p2 x =>
          injection h6 with e3 e4
          subst e3 e4
          have e := congrArg (fun g => g.getProduction? b2 p2) S.shape.mapA_eq
          rw [← Grammar.mapA_mapA f (fun _ => ())] at e
          simp only [Grammar.getProduction?_mapA (fun _ => ())] at e
          rw [hpr] at e
          obtain ⟨pr', e1, e2⟩ := Option.map_eq_some_iff.1 e.symm
          refine ⟨p2, x, pr', h5, e1, ?_⟩
          exact congrArg (fun p => p.symbols.length) e2

end

/-- `simulate` and the emitted parser are at the same point. -/
structure SimRel (tf : TokenFns Tok V) (s : PState Tok V W E) (t : SimState) : Prop where
  stack : t.stack = s.states
  look : lookahead tf s.token = some t.a
  calls : t.calls = s.calls

theorem reduceStep_reads {gen : Generated X} {u : UserCode X V W} {nt n sem : Nat}
    {s s' : PState Tok V W E} (h : reduceStep gen u nt n sem s = .ok s') :
    ∃ st rest nx, s.states.drop n = st :: rest ∧ gen.go st nt = some (some nx) ∧
      s'.states = nx :: st :: rest ∧ s'.token = s.token ∧ s'.calls = s.calls := by
  unfold reduceStep at h
  split at h
  · cases h
  · simp only [bind, Except.bind] at h
    split at h
    · cases h
    · split at h
      · cases h
      · split at h
        · cases h
        · next st rest hd =>
          split at h
          · cases h
          · next row hrow =>
            split at h
            · cases h
            · cases h
            · next nx hnx =>
              cases h
              exact ⟨st, rest, nx, hd, by simp [Generated.go, hrow, hnx], rfl, rfl, rfl⟩

theorem parseStep_reduce {gen : Generated X} {u : UserCode X V W} {tf : TokenFns Tok V}
    {input : Nat → Option (Except E Tok)} {ep : EntryPoint} {s s' : PState Tok V W E} {c : Option Nat}
    {b n k : Nat} (hl : lookahead tf s.token = some c)
    (ha : gen.act (s.states.headD 0) c = some (some (.reduce b n k)))
    (h : parseStep gen u tf input ep s = .next s') : reduceStep gen u b n k s = .ok s' := by
  unfold parseStep at h
  split at h
  · cases h
  · next q rest hst =>
    rw [hst] at ha
    have hla : lookaheadIdx gen tf s.token = .ok (laCol gen.nTerminals c) := by
      unfold lookahead at hl
      unfold lookaheadIdx
      split at hl <;> cases hl <;> next h => rw [h]; rfl
    rw [hla] at h
    unfold Generated.act at ha
    obtain ⟨row, hrow, hcell⟩ := Option.bind_eq_some_iff.1 ha
    rw [show (q :: rest).headD 0 = q from rfl] at hrow
    simp only [hrow, hcell] at h
    split at h
    · next h1 => cases h; exact h1
    · cases h

section
variable [DecidableEq Ty] {P : Compiled X Ty V W Tok} {g : Grammar X Ty} {nts ts : AMap String Nat}
    {a : Automaton} {g1 : Grammar Nat Ty} {T1 : LRTable Nat} {e : Nat} {ep : EntryPoint}
    {input : Nat → Option Tok} {w0 : W} {f : X → B} {T : LRTable B}

theorem lookahead_okStream (tf : TokenFns Tok V) (i : Nat) :
    lookahead tf (okStream E input i) = some (idxStream tf input i) := by
  unfold okStream idxStream
  cases input i <;> rfl

/-- What one iteration of both does. -/
inductive StepRel (tf : TokenFns Tok V) (I : PState Tok V W E → Prop) (n : Nat) :
    StepResult Tok V W E → SimStep → Prop
  | next {s t} (h : SimRel tf s t) (hI : I s) : StepRel tf I n (.next s) (.next t)
  | done {o s x t} (h : EndRel o x) (hc : t.calls = s.calls) : StepRel tf I n (.done o s) (.done x t)
  | panic {s r} (hc : s.calls = n) : StepRel tf I n (.done (.fault .userPanic) s) r

theorem Setup.sim_step (S : Setup P g nts ts a g1 T1) (hE : g.isPublic e = true)
    (hext : (semanticActionVariants g)[e]? = some ep.extract)
    (hsem : P.gen.IsSem g ep.actionIdx e 0)
    (hact : ∀ q c, (T.getAction q c).map (·.mapA fun _ => ()) =
        (T1.getAction q c).map (·.mapA fun _ => ()))
    (hgo : ∀ q b, T.getGoto q b = T1.getGoto q b) {s : PState Tok V W E} {t : SimState}
    {γ : List Symbol} {toks : List Tok}
    (hi : RunInv g P.code P.tf (StateAt g (generateFirstTable P.order g) a) e (okStream E input) w0 s γ
      toks) (hr : SimRel P.tf s t) :
    StepRel P.tf (fun s' => ∃ γ' toks', RunInv g P.code P.tf
        (StateAt g (generateFirstTable P.order g) a) e (okStream E input) w0 s' γ' toks') t.calls
      (parseStep P.gen P.code P.tf (okStream E input) ep s)
      (simStep T (g.mapA f) (idxStream P.tf input) t) := by
  have hs := parseStep_spec S.wf (S.stages.tables S.wf) S.cons hE hext hsem hi
  obtain ⟨q, rest, hst, st, hq, _⟩ := hi.stk.top
  have hok := laOk_lookahead S.cons hr.look
  obtain ⟨o, h1, h2⟩ := S.stages.cellSays S.wf f hact hq hok
  have hstk : t.stack = q :: rest := by rw [hr.stack, hst]
  have hhd : s.states.headD 0 = q := by rw [hst]; rfl
  unfold simStep
  rw [hstk]
  simp only
  generalize hps : parseStep P.gen P.code P.tf (okStream E input) ep s = r at hs
  have look {c : Option Nat} (hl : lookahead P.tf s.token = some c) : c = t.a := by
    rw [hr.look] at hl; exact (Option.some.inj hl).symm
  cases hs with
  | @shift tk r nt p α β la s' htok hact' hit hp hs' hinv =>
    have hl : some (P.tf.terminalIdx tk) = t.a := look (by rw [htok]; rfl)
    rw [hhd, hl, h1] at hact'
    cases hact'
    rw [show T.getAction q t.a = _ from h2]
    refine .next ⟨?_, ?_, ?_⟩ ⟨_, _, hinv⟩
    · rw [hs']; simp [shiftStep, hst]
    · rw [hs']
      simp only [shiftStep, hr.calls]
      exact lookahead_okStream P.tf _
    · rw [hs']; simp [shiftStep, hr.calls]
  | @reduce c b p α γ' k s' hla hact' hγ hp hit hpriv htok hval hinv =>
    have hred := parseStep_reduce hla hact' hps
    obtain rfl := look hla
    rw [hhd, h1] at hact'
    cases hact'
    obtain ⟨p', x, pr, h3, h4, h5⟩ := h2
    obtain ⟨st', rest', nx, h6, h7, h8, h9, h10⟩ := reduceStep_reads hred
    rw [h3]
    simp only [h4, h5]
    rw [hst] at h6
    rw [h6]
    simp only
    have hnx : T.getGoto st' b = some nx := by
      subst hγ
      obtain ⟨q0, r0, e0, sx, hq0, _⟩ := hi.stk.drop.top
      have hb : b < g.nNonTerminals := by
        obtain ⟨n, pr, hn, _⟩ := hp
        exact (List.getElem?_eq_some_iff.1 hn).1
      rw [hst, h6] at e0
      cases e0
      have := S.stages.go_cell S.wf hq0 hb
      rw [h7] at this
      rw [hgo, ← Option.some.inj this]
    rw [hnx]
    refine .next ⟨?_, ?_, ?_⟩ ⟨_, _, hinv⟩
    · rw [h8]
    · rw [h9]; exact hr.look
    · rw [h10]; exact hr.calls
  | panic => exact .panic hr.calls.symm
  | acceptPanic => exact .panic hr.calls.symm
  | lexer htok =>
    have := hr.look
    rw [htok] at this; cases this
  | @«syntax» c f' e' hla hact' =>
    obtain rfl := look hla
    rw [hhd, h1] at hact'
    cases hact'
    rw [show T.getAction q t.a = none from h2]
    exact .done (.stuck _ _) hr.calls
  | @accept b v w' s' htok hγ hact' hp heval hs' =>
    have hl : (none : Option Nat) = t.a := look (by rw [htok]; rfl)
    rw [hhd, hl, h1] at hact'
    cases hact'
    rw [show T.getAction q t.a = _ from h2]
    exact .done (.ok _) (by rw [hs']; exact hr.calls)

omit [DecidableEq Ty] in
theorem simStep_calls {T : LRTable B} {g : Grammar B Ty} {input : Nat → Option Nat} {t : SimState} :
    (∀ t', simStep T g input t = .next t' → t.calls ≤ t'.calls) ∧
    ∀ x t', simStep T g input t = .done x t' → t'.calls = t.calls := by
  unfold simStep
  constructor
  · intro t' h
    repeat' split at h
    all_goals first | (cases h; done) | (cases h; simp)
  · intro x t' h
    repeat' split at h
    all_goals first | (cases h; done) | (cases h; rfl)

omit [DecidableEq Ty] in
theorem simLoop_calls {T : LRTable B} {g : Grammar B Ty} {input : Nat → Option Nat} {fuel : Nat}
    {t : SimState} {x : SimEnd} {t' : SimState} (h : simLoop T g input fuel t = some (x, t')) :
    t.calls ≤ t'.calls := by
  induction fuel generalizing t with
  | zero => cases h
  | succ fuel ih =>
    unfold simLoop at h
    cases hs : simStep T g input t with
    | done y t1 => rw [hs] at h; cases h; exact (simStep_calls.2 _ _ hs).ge
    | next t1 => rw [hs] at h; exact (simStep_calls.1 _ hs).trans (ih h)

theorem Setup.sim_loop (S : Setup P g nts ts a g1 T1) (hE : g.isPublic e = true)
    (hext : (semanticActionVariants g)[e]? = some ep.extract)
    (hsem : P.gen.IsSem g ep.actionIdx e 0)
    (hact : ∀ q c, (T.getAction q c).map (·.mapA fun _ => ()) =
        (T1.getAction q c).map (·.mapA fun _ => ()))
    (hgo : ∀ q b, T.getGoto q b = T1.getGoto q b) (fuel : Nat) {s : PState Tok V W E} {t : SimState}
    {γ : List Symbol} {toks : List Tok}
    (hi : RunInv g P.code P.tf (StateAt g (generateFirstTable P.order g) a) e (okStream E input) w0 s γ
      toks) (hr : SimRel P.tf s t) :
    (parseLoop P.gen P.code P.tf (okStream E input) ep fuel s = none ∧
      simLoop T (g.mapA f) (idxStream P.tf input) fuel t = none) ∨
    (∃ o s' x t', parseLoop P.gen P.code P.tf (okStream E input) ep fuel s = some (o, s') ∧
      simLoop T (g.mapA f) (idxStream P.tf input) fuel t = some (x, t') ∧ EndRel o x ∧
      t'.calls = s'.calls) ∨
    ∃ s', parseLoop P.gen P.code P.tf (okStream E input) ep fuel s = some (.fault .userPanic, s') ∧
      ∀ x t', simLoop T (g.mapA f) (idxStream P.tf input) fuel t = some (x, t') →
        s'.calls ≤ t'.calls := by
  induction fuel generalizing s t γ toks with
  | zero => exact .inl ⟨rfl, rfl⟩
  | succ fuel ih =>
    have h1 := S.sim_step (f := f) hE hext hsem hact hgo hi hr
    unfold parseLoop simLoop
    generalize h2 : parseStep P.gen P.code P.tf (okStream E input) ep s = r1 at h1
    generalize h3 : simStep T (g.mapA f) (idxStream P.tf input) t = r2 at h1
    cases h1 with
    | next hr' hI =>
      obtain ⟨γ', toks', hi'⟩ := hI
      exact ih hi' hr'
    | done hx hc => exact .inr (.inl ⟨_, _, _, _, rfl, rfl, hx, hc⟩)
    | panic hc =>
      refine .inr (.inr ⟨_, rfl, ?_⟩)
      intro x t' h4
      rw [hc]
      cases r2 with
      | done y t1 => cases h4; exact (simStep_calls.2 _ _ h3).ge
      | next t1 => exact (simStep_calls.1 _ h3).trans (simLoop_calls h4)

end

/-! ## The states of the entry points -/

theorem initStates_entries {h : HashOrder} {g : Grammar A Ty} {tbl : FirstTable} :
    ∀ (l : List (NonTerminal A Ty × Nat)) {st st' : AutoState} {en en' : AMap Nat Nat},
      initStates h g tbl l (st, en) = .ok (st', en') → (∀ e ∈ l, e.2 ∉ en.map (·.1)) →
      (l.map (·.2)).Nodup →
      en' = en ++ ((l.filter (·.1.isPublic)).map (·.2)).zipIdx st.states.length
  | [], st, st', en, en', h1, _, _ => by cases h1; simp
  | (n, nt) :: l, st, st', en, en', h1, h2, h3 => by
    unfold initStates at h1
    simp only [List.map_cons, List.nodup_cons] at h3
    split at h1
    · next hp =>
      split at h1
      · have hfresh : AMap.insert en nt st.states.length = en ++ [(nt, st.states.length)] := by
          have hn : nt ∉ en.map (·.1) := h2 (n, nt) (by simp)
          clear * - hn
          induction en with
          | nil => rfl
          | cons e en ih =>
            simp only [List.map_cons, List.mem_cons, not_or] at hn
            obtain ⟨k, v⟩ := e
            simp only [AMap.insert]
            rw [if_neg (fun h => hn.1 h.symm), ih hn.2, List.cons_append]
        have := initStates_entries l h1 (by
          intro e he hm
          rw [hfresh, List.map_append, List.mem_append] at hm
          rcases hm with hm | hm
          · exact h2 e (by simp [he]) hm
          · simp only [List.map_cons, List.map_nil, List.mem_singleton] at hm
            exact h3.1 (List.mem_map.2 ⟨e, he, hm⟩)) h3.2
        rw [this, hfresh]
        simp [hp]
      · cases h1
    · next hp =>
      have := initStates_entries l h1 (fun e he => h2 e (by simp [he])) h3.2
      rw [this]
      simp [hp]

end Parsegen
