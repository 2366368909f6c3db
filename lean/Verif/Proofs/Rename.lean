import Verif.Proofs.Functor
import Verif.Proofs.Compiled
import Verif.Proofs.Reject
import Verif.Spec.Rename

/-! # The generator looks at names only to compare them -/

namespace Parsegen

variable {A X Ty V W Tok E : Type}

/-! ## Grammars without names -/

def NonTerminal.anon (n : NonTerminal A Ty) : NonTerminal A Ty := { n with name := "" }

/-- The grammar with all names removed. -/
def Grammar.anon (g : Grammar A Ty) : Grammar A Ty :=
  ⟨g.nonTerminals.map (·.anon), g.terminals.map fun _ => ""⟩

section
variable (g : Grammar A Ty)

@[simp] theorem Grammar.nNonTerminals_anon : g.anon.nNonTerminals = g.nNonTerminals := by
  simp [Grammar.nNonTerminals, Grammar.anon]

@[simp] theorem Grammar.nTerminals_anon : g.anon.nTerminals = g.nTerminals := by
  simp [Grammar.nTerminals, Grammar.anon]

@[simp] theorem Grammar.getProduction?_anon (nt p : Nat) :
    g.anon.getProduction? nt p = g.getProduction? nt p := by
  simp only [Grammar.getProduction?, Grammar.anon, List.getElem?_map]
  cases g.nonTerminals[nt]? <;> rfl

@[simp] theorem Grammar.rhs_anon (nt p : Nat) : g.anon.rhs nt p = g.rhs nt p := by
  simp [Grammar.rhs]

@[simp] theorem Grammar.nProductions_anon (nt : Nat) : g.anon.nProductions nt = g.nProductions nt := by
  simp only [Grammar.nProductions, Grammar.anon, List.getElem?_map]
  cases g.nonTerminals[nt]? <;> simp [NonTerminal.anon]

theorem firstPass_anon (h : HashOrder) (tbl : FirstTable) :
    firstPass h g.anon tbl = firstPass h g tbl := by
  simp only [firstPass, Grammar.anon, List.zipIdx_map, List.foldl_map]
  congr 1

theorem generateFirstTable_anon (h : HashOrder) :
    generateFirstTable h g.anon = generateFirstTable h g := by
  have : firstPass h g.anon = firstPass h g := funext (firstPass_anon g h)
  simp [generateFirstTable, firstLoop, firstFuel, this]

@[simp] theorem Item.nextSymbol_anon (it : Item) : it.nextSymbol g.anon = it.nextSymbol g := by
  simp [Item.nextSymbol]

@[simp] theorem Item.nextNonTerminal_anon (it : Item) :
    it.nextNonTerminal g.anon = it.nextNonTerminal g := by
  simp [Item.nextNonTerminal]

@[simp] theorem Item.nextTerminal_anon (it : Item) :
    it.nextTerminal g.anon = it.nextTerminal g := by
  simp [Item.nextTerminal]

@[simp] theorem Item.isComplete_anon (it : Item) : it.isComplete g.anon = it.isComplete g := by
  simp [Item.isComplete]

theorem closureProcess_anon (h : HashOrder) (tbl : FirstTable) (it : Item)
    (s : List Item × List Item) :
    closureProcess h g.anon tbl it s = closureProcess h g tbl it s := by
  simp [closureProcess, predicted]

theorem closureLoop_anon (h : HashOrder) (tbl : FirstTable) : ∀ (n : Nat) (s : List Item × List Item),
    closureLoop h g.anon tbl n s = closureLoop h g tbl n s
  | 0, s => rfl
  | n + 1, (cl, []) => rfl
  | n + 1, (cl, it :: wl) => by
    simp only [closureLoop, closureProcess_anon]
    exact closureLoop_anon h tbl n _

@[simp] theorem Grammar.totalProductions_anon : g.anon.totalProductions = g.totalProductions := by
  simp [Grammar.totalProductions, Grammar.anon, NonTerminal.anon, Function.comp_def]

theorem computeClosure_anon (h : HashOrder) (tbl : FirstTable) (items : List Item) :
    computeClosure h g.anon tbl items = computeClosure h g tbl items := by
  simp [computeClosure, closureRun, closureLoop_anon, closureFuel]

theorem computeGoto_anon (h : HashOrder) (tbl : FirstTable) (items : List Item) (sym : Symbol) :
    computeGoto h g.anon tbl items sym = computeGoto h g tbl items sym := by
  simp [computeGoto, computeClosure_anon, gotoKernel]

theorem initStates_anon (h : HashOrder) (tbl : FirstTable) :
    ∀ (l : List (NonTerminal A Ty × Nat)) (s : AutoState × AMap Nat Nat),
      initStates h g.anon tbl (l.map fun e => (e.1.anon, e.2)) s = initStates h g tbl l s
  | [], s => rfl
  | (n, nt) :: l, (st, en) => by
    simp only [List.map_cons, initStates, computeClosure_anon]
    have e1 : n.anon.isPublic = n.isPublic := rfl
    have e2 : n.anon.productions.length = n.productions.length := rfl
    rw [e1, e2]
    split
    · split
      · exact initStates_anon h tbl l _
      · rfl
    · exact initStates_anon h tbl l _

theorem autoPass_anon (h : HashOrder) (tbl : FirstTable) (st : AutoState) :
    autoPass h g.anon tbl st = autoPass h g tbl st := by
  have e2 : g.anon.allSymbols = g.allSymbols := by simp [Grammar.allSymbols]
  have e3 : ∀ base s i, passSymbol h g.anon tbl base s i = passSymbol h g tbl base s i :=
    fun base s i => funext fun ps => funext fun sym => by simp [passSymbol, computeGoto_anon]
  simp [autoPass, passAll, e2, e3]

@[simp] theorem Grammar.nItems_anon : g.anon.nItems = g.nItems := by
  simp [Grammar.nItems, Grammar.anon, NonTerminal.anon, Function.comp_def, Grammar.nTerminals]

theorem generateAutomaton_anon (h : HashOrder) (tbl : FirstTable) :
    generateAutomaton h g.anon tbl = generateAutomaton h g tbl := by
  have e1 : g.anon.nonTerminals.zipIdx = g.nonTerminals.zipIdx.map fun e => (e.1.anon, e.2) := by
    simp [Grammar.anon, List.zipIdx_map, Prod.map]
  have e2 : autoPass h g.anon tbl = autoPass h g tbl := funext (autoPass_anon g h tbl)
  simp only [generateAutomaton, e1, initStates_anon, e2, autoFuel, Grammar.nNonTerminals_anon,
    Grammar.nItems_anon]
  rfl

theorem semanticActionVariants_anon [DecidableEq Ty] :
    semanticActionVariants g.anon = semanticActionVariants g := by
  simp [semanticActionVariants, Grammar.anon, Function.comp_def, NonTerminal.anon]

theorem buildItem_anon (h : HashOrder) (i : Nat) (st : LR1State) (t : LRTable A) (it : Item) :
    buildItem h g.anon i st t it = buildItem h g i st t it := by
  have e : g.anon.getNonTerminal? it.nt = (g.getNonTerminal? it.nt).map (·.anon) := by
    simp [Grammar.getNonTerminal?, Grammar.anon]
  simp only [buildItem, ruleShift, Item.nextTerminal_anon, e]
  cases g.getNonTerminal? it.nt with
  | none => rfl
  | some n =>
    simp only [Option.map_some, ruleReduce, ruleAccept, Item.isComplete_anon,
      Grammar.getProduction?_anon]
    rfl

theorem buildTable_anon (h : HashOrder) (states : List LR1State) :
    buildTable h g.anon states = buildTable h g states := by
  have : buildState h g.anon = buildState h g := by
    funext t s
    have : buildItem h g.anon s.2 s.1 = buildItem h g s.2 s.1 :=
      funext fun t => funext fun it => buildItem_anon g h _ _ t it
    simp [buildState, this]
  simp [buildTable, this]

theorem actionTableVec_anon (t : LRTable A) (n : Nat) :
    actionTableVec g.anon t n = actionTableVec g t n := by simp [actionTableVec]

theorem generateActionArray_anon (tab : List (List (Option (LRAction Nat)))) (n m : Nat) :
    generateActionArray g.anon tab n m = generateActionArray g tab n m := by
  have : encodeCell g.anon = encodeCell g := by
    funext c
    cases c with
    | none => rfl
    | some a => cases a <;> simp [encodeCell, encodeAction]
  simp [generateActionArray, this]

end

/-! ## Grammars that differ in their names -/

/-- Non-terminals that differ in the name; the name of an entry point is renamed by `ρ`. -/
structure RenNT (ρ : String → String) (n n' : NonTerminal A Ty) : Prop where
  productions : n'.productions = n.productions
  returnTy : n'.returnTy = n.returnTy
  isPublic : n'.isPublic = n.isPublic
  name : n.isPublic = true → n'.name = ρ n.name

structure RenGrammar (ρ σ : String → String) (g g' : Grammar A Ty) : Prop where
  nts : List.Forall₂ (RenNT ρ) g.nonTerminals g'.nonTerminals
  terms : g'.terminals = g.terminals.map σ

theorem RenGrammar.anon {ρ σ : String → String} {g g' : Grammar A Ty} (h : RenGrammar ρ σ g g') :
    g'.anon = g.anon := by
  simp only [Grammar.anon, h.terms, List.map_map]
  have : ∀ {l l' : List (NonTerminal A Ty)}, List.Forall₂ (RenNT ρ) l l' →
      l'.map (·.anon) = l.map (·.anon) := by
    intro l l' hl
    induction hl with
    | nil => rfl
    | @cons n n' l l' hn _ ih =>
      simp only [List.map_cons, ih]
      congr 1
      cases n; cases n'
      simp only [NonTerminal.anon]
      obtain ⟨h1, h2, h3, _⟩ := hn
      simp_all
  rw [this h.nts]
  rfl

theorem RenGrammar.eq_of_anon {ρ σ : String → String} {g g' : Grammar A Ty} (h : RenGrammar ρ σ g g')
    {B : Type} {F : Grammar A Ty → B} (hF : ∀ g : Grammar A Ty, F g.anon = F g) : F g' = F g := by
  rw [← hF g', h.anon, hF g]

/-! ## Code generation -/

variable {ρ σ : String → String}

theorem semNonTerminals_ren (vs : List Nat) {ns ns' : List (NonTerminal X Ty)}
    (h : List.Forall₂ (RenNT ρ) ns ns') : ∀ (nt : Nat) (fns : List (SemFn X)),
    (∃ f, semNonTerminals vs nt ns fns = .error f ∧ semNonTerminals vs nt ns' fns = .error f) ∨
    ∃ l l' fns', semNonTerminals vs nt ns fns = .ok (l, fns') ∧
      semNonTerminals vs nt ns' fns = .ok (l', fns') ∧ List.Forall₂ (RenNT ρ) l l' := by
  induction h with
  | nil => intro nt fns; exact .inr ⟨[], [], fns, rfl, rfl, .nil⟩
  | @cons n n' ns ns' hn _ ih =>
    intro nt fns
    simp only [semNonTerminals, hn.productions, bind, Except.bind]
    cases semProductions vs nt n.productions fns with
    | error e => exact .inl ⟨e, rfl, rfl⟩
    | ok r =>
      dsimp only
      rcases ih (nt + 1) r.2 with ⟨f, e1, e2⟩ | ⟨l, l', fns', e1, e2, h3⟩
      · rw [e1, e2]; exact .inl ⟨f, rfl, rfl⟩
      · rw [e1, e2]
        exact .inr ⟨_, _, fns', rfl, rfl, .cons ⟨rfl, hn.returnTy, hn.isPublic, hn.name⟩ h3⟩

theorem generateSemanticActionTable_ren (vs : List Nat) {g g' : Grammar X Ty}
    (h : RenGrammar ρ σ g g') :
    (∃ f, generateSemanticActionTable g vs = .error f ∧ generateSemanticActionTable g' vs = .error f) ∨
    ∃ fns g1 g1', generateSemanticActionTable g vs = .ok (fns, g1) ∧
      generateSemanticActionTable g' vs = .ok (fns, g1') ∧ RenGrammar ρ σ g1 g1' ∧
      g1.terminals = g.terminals := by
  simp only [generateSemanticActionTable, bind, Except.bind]
  rcases semNonTerminals_ren vs h.nts 0 [] with ⟨f, e1, e2⟩ | ⟨l, l', fns', e1, e2, h3⟩
  · rw [e1, e2]; exact .inl ⟨f, rfl, rfl⟩
  · rw [e1, e2]; exact .inr ⟨_, _, _, rfl, rfl, ⟨h3, h.terms⟩, rfl⟩

theorem initStates_public (h : HashOrder) (g : Grammar A Ty) (tbl : FirstTable)
    (pub : Nat → Prop) : ∀ (l : List (NonTerminal A Ty × Nat)) (s r : AutoState × AMap Nat Nat),
      (∀ e ∈ l, e.1.isPublic = true → pub e.2) → (∀ e ∈ s.2, pub e.1) →
      initStates h g tbl l s = .ok r → ∀ e ∈ r.2, pub e.1
  | [], s, r, _, hs, he => by cases he; exact hs
  | (n, nt) :: l, (st, en), r, hl, hs, he => by
    simp only [initStates] at he
    have hl' : ∀ e ∈ l, e.1.isPublic = true → pub e.2 := fun e he => hl e (List.mem_cons_of_mem _ he)
    split at he
    · rename_i hp
      split at he
      · refine initStates_public h g tbl pub l _ r hl' ?_ he
        intro e he'
        have : ∀ m : AMap Nat Nat, (∀ e ∈ m, pub e.1) → ∀ v, ∀ e ∈ m.insert nt v, pub e.1 := by
          intro m
          induction m with
          | nil =>
            intro _ v e he
            cases List.mem_singleton.1 he
            exact hl _ List.mem_cons_self hp
          | cons x m ih =>
            intro hm v e he
            simp only [AMap.insert] at he
            split at he
            · rcases List.mem_cons.1 he with rfl | he
              · exact hm x List.mem_cons_self
              · exact hm e (List.mem_cons_of_mem _ he)
            · rcases List.mem_cons.1 he with rfl | he
              · exact hm _ List.mem_cons_self
              · exact ih (fun e he => hm e (List.mem_cons_of_mem _ he)) v e he
        exact this en hs _ e he'
      · cases he
    · exact initStates_public h g tbl pub l _ r hl' hs he

theorem generateAutomaton_public {h : HashOrder} {g : Grammar A Ty} {tbl : FirstTable} {a : Automaton}
    (he : generateAutomaton h g tbl = .ok a) : ∀ e ∈ a.entries, g.isPublic e.1 = true := by
  simp only [generateAutomaton, bind, Except.bind] at he
  cases hi : initStates h g tbl g.nonTerminals.zipIdx (⟨[], []⟩, []) with
  | error f => rw [hi] at he; cases he
  | ok r =>
    rw [hi] at he
    dsimp only at he
    split at he
    · cases he
    · cases he
      refine initStates_public h g tbl (fun i => g.isPublic i = true) _ _ r ?_ (fun _ he => by cases he) hi
      intro e he hp
      have := List.mk_mem_zipIdx_iff_getElem?.1 he
      simp [Grammar.isPublic, this, hp]

/-- Entry points that differ in the name. -/
structure RenEntry (ρ : String → String) (e e' : EntryPoint) : Prop where
  name : e'.name = ρ e.name
  extract : e'.extract = e.extract
  initState : e'.initState = e.initState
  actionIdx : e'.actionIdx = e.actionIdx

theorem RenGrammar.get {g g' : Grammar A Ty} (h : RenGrammar ρ σ g g') (i : Nat) :
    (g.nonTerminals[i]? = none ∧ g'.nonTerminals[i]? = none) ∨
    ∃ n n', g.nonTerminals[i]? = some n ∧ g'.nonTerminals[i]? = some n' ∧ RenNT ρ n n' := by
  have : ∀ {l l' : List (NonTerminal A Ty)}, List.Forall₂ (RenNT ρ) l l' → ∀ i : Nat,
      (l[i]? = none ∧ l'[i]? = none) ∨ ∃ n n', l[i]? = some n ∧ l'[i]? = some n' ∧ RenNT ρ n n' := by
    intro l l' hl
    induction hl with
    | nil => intro i; exact .inl ⟨rfl, rfl⟩
    | cons hn _ ih =>
      intro i
      cases i with
      | zero => exact .inr ⟨_, _, rfl, rfl, hn⟩
      | succ i => simpa using ih i
  exact this h.nts i

theorem entryPoint_ren {g g' : Grammar Nat Ty} (h : RenGrammar ρ σ g g') (vs : List Nat)
    (e : Nat × Nat) (hp : g.isPublic e.1 = true) :
    (∃ f, entryPoint g vs e = .error f ∧ entryPoint g' vs e = .error f) ∨
    ∃ x x', entryPoint g vs e = .ok x ∧ entryPoint g' vs e = .ok x' ∧ RenEntry ρ x x' := by
  have hpr : g'.getProduction? e.1 0 = g.getProduction? e.1 0 :=
    h.eq_of_anon (F := fun g => g.getProduction? e.1 0) (fun g => g.getProduction?_anon _ _)
  simp only [entryPoint, bind, Except.bind, hpr, Grammar.getNonTerminal?]
  cases tryU32 e.2 with
  | error f => exact .inl ⟨f, rfl, rfl⟩
  | ok st =>
    dsimp only
    rcases h.get e.1 with ⟨e1, e2⟩ | ⟨n, n', e1, e2, hn⟩
    · rw [e1, e2]; exact .inl ⟨_, rfl, rfl⟩
    · rw [e1, e2]
      cases g.getProduction? e.1 0 with
      | none => exact .inl ⟨_, rfl, rfl⟩
      | some p =>
        cases vs[e.1]? with
        | none => exact .inl ⟨_, rfl, rfl⟩
        | some k =>
          refine .inr ⟨_, _, rfl, rfl, hn.name ?_, rfl, rfl, rfl⟩
          simpa [Grammar.isPublic, e1] using hp

theorem mapM_ren {α β : Type} {R : β → β → Prop} {f f' : α → Except Fault β} :
    ∀ (l : List α), (∀ x ∈ l, (∃ e, f x = .error e ∧ f' x = .error e) ∨
        ∃ y y', f x = .ok y ∧ f' x = .ok y' ∧ R y y') →
      (∃ e, l.mapM f = .error e ∧ l.mapM f' = .error e) ∨
      ∃ ys ys', l.mapM f = .ok ys ∧ l.mapM f' = .ok ys' ∧ List.Forall₂ R ys ys'
  | [], _ => .inr ⟨[], [], rfl, rfl, .nil⟩
  | x :: l, h => by
    simp only [List.mapM_cons, bind, Except.bind]
    rcases h x List.mem_cons_self with ⟨e, e1, e2⟩ | ⟨y, y', e1, e2, hy⟩
    · rw [e1, e2]; exact .inl ⟨e, rfl, rfl⟩
    · rw [e1, e2]
      rcases mapM_ren l (fun x hx => h x (List.mem_cons_of_mem _ hx)) with
        ⟨e, e3, e4⟩ | ⟨ys, ys', e3, e4, hys⟩
      · simp only [e3, e4]; exact .inl ⟨e, rfl, rfl⟩
      · simp only [e3, e4]; exact .inr ⟨_, _, rfl, rfl, .cons hy hys⟩

/-- The emitted parsers differ in the names of terminals and entry points only. -/
structure RenGenerated (ρ σ : String → String) (terms : List String) (gen gen' : Generated X) :
    Prop where
  action : gen'.action = gen.action
  goto : gen'.goto = gen.goto
  semActions : gen'.semActions = gen.semActions
  nTerminals : gen'.nTerminals = gen.nTerminals
  strs : gen.terminalStrs = terms ++ ["end-of-input"]
  strs' : gen'.terminalStrs = terms.map σ ++ ["end-of-input"]
  expected : ∃ L : List (List String), (∀ l ∈ L, l.Sublist terms) ∧
    gen.expected = L.map (", ".intercalate ·) ∧ gen'.expected = L.map fun l => ", ".intercalate (l.map σ)
  entries : List.Forall₂ (RenEntry ρ) gen.entries gen'.entries

theorem expectedTerminals_map {g g' : Grammar A Ty} (h : g'.terminals = g.terminals.map σ)
    (t : LRTable A) (s : Nat) : expectedTerminals g' t s = (expectedTerminals g t s).map σ := by
  simp only [expectedTerminals, h, List.zipIdx_map, List.filter_map, List.map_map]
  rfl

theorem generateParser_ren [DecidableEq Ty] (h : HashOrder) {g g' : Grammar X Ty}
    (hr : RenGrammar ρ σ g g') :
    (∃ f, generateParser h g = .error f ∧ generateParser h g' = .error f) ∨
    ∃ gen gen', generateParser h g = .ok gen ∧ generateParser h g' = .ok gen' ∧
      RenGenerated ρ σ g.terminals gen gen' := by
  have e1 : generateFirstTable h g' = generateFirstTable h g :=
    hr.eq_of_anon (fun g => generateFirstTable_anon g h)
  have e2 : ∀ tbl, generateAutomaton h g' tbl = generateAutomaton h g tbl := fun tbl =>
    hr.eq_of_anon (F := fun g => generateAutomaton h g tbl) (fun g => generateAutomaton_anon g h tbl)
  have e3 : semanticActionVariants g' = semanticActionVariants g :=
    hr.eq_of_anon (fun g => semanticActionVariants_anon g)
  have e4 : g'.nTerminals = g.nTerminals :=
    hr.eq_of_anon (fun g => g.nTerminals_anon)
  simp only [generateParser, e1, e2, e3, e4, bind, Except.bind]
  cases ha : generateAutomaton h g (generateFirstTable h g) with
  | error f => exact .inl ⟨f, rfl, rfl⟩
  | ok a =>
  dsimp only
  rcases generateSemanticActionTable_ren (semanticActionVariants g) hr with
    ⟨f, s1, s2⟩ | ⟨fns, g1, g1', s1, s2, hr1, ht⟩
  · rw [s1, s2]; exact .inl ⟨f, rfl, rfl⟩
  rw [s1, s2]
  dsimp only
  have f1 : buildTable h g1' a.states = buildTable h g1 a.states :=
    hr1.eq_of_anon (F := fun g => buildTable h g a.states) (fun g => buildTable_anon g h _)
  have f2 : ∀ t n, actionTableVec g1' t n = actionTableVec g1 t n := fun t n =>
    hr1.eq_of_anon (F := fun g => actionTableVec g t n) (fun g => actionTableVec_anon g t n)
  have f3 : ∀ t n m, generateActionArray g1' t n m = generateActionArray g1 t n m := fun t n m =>
    hr1.eq_of_anon (F := fun g => generateActionArray g t n m)
      (fun g => generateActionArray_anon g t n m)
  have f4 : g1'.nNonTerminals = g1.nNonTerminals := hr1.eq_of_anon (fun g => g.nNonTerminals_anon)
  simp only [f1, f2, f3, f4]
  cases buildTable h g1 a.states with
  | error f => exact .inl ⟨f, rfl, rfl⟩
  | ok t =>
  dsimp only
  cases generateActionArray g1 (actionTableVec g1 t t.nStates) t.nStates g.nTerminals with
  | error f => exact .inl ⟨f, rfl, rfl⟩
  | ok ac =>
  dsimp only
  cases generateGotoVec t t.nStates g1.nNonTerminals with
  | error f => exact .inl ⟨f, rfl, rfl⟩
  | ok gv =>
  dsimp only
  cases generateGotoArray gv with
  | error f => exact .inl ⟨f, rfl, rfl⟩
  | ok go =>
  dsimp only
  have hpub : ∀ e ∈ h.iter a.entries, g1.isPublic e.1 = true := by
    intro e he
    have := generateAutomaton_public ha e ((h.mem_iter).1 he)
    rw [← this]
    exact (generateSemanticActionTable_ok s1).1.isPublic e.1
  rcases mapM_ren (R := RenEntry ρ) (h.iter a.entries)
      (fun e he => entryPoint_ren hr1 (semanticActionVariants g) e (hpub e he)) with
    ⟨f, x1, x2⟩ | ⟨ys, ys', x1, x2, hy⟩
  · simp only [x1, x2]; exact .inl ⟨f, rfl, rfl⟩
  · simp only [x1, x2]
    refine .inr ⟨_, _, rfl, rfl, rfl, rfl, rfl, rfl, ?_, ?_, ?_, hy⟩
    · simp [generateTokenText, ht]
    · simp [generateTokenText, hr1.terms, ht]
    · refine ⟨(List.range t.nStates).map (expectedTerminals g1 t), ?_, ?_, ?_⟩
      · intro l hl
        obtain ⟨s, _, rfl⟩ := List.mem_map.1 hl
        simp only [expectedTerminals, ← ht]
        have := (List.filter_sublist (p := fun e => (t.getAction s (some e.2)).isSome)
          (l := g1.terminals.zipIdx)).map (·.1)
        simpa using this
      · simp [generateExpected]
      · simp [generateExpected, expectedTerminals_map hr1.terms]

/-! ## Lowering -/

/-- Two computations that fail alike, with the names in the panic renamed, or succeed alike. -/
def ExRen (ρ σ : String → String) {α : Type} (R : α → α → Prop) (x x' : Except Fault α) : Prop :=
  (∃ f, x = .error f ∧ x' = .error (f.rename ρ σ)) ∨ ∃ a a', x = .ok a ∧ x' = .ok a' ∧ R a a'

theorem ExRen.bind {α β : Type} {R : α → α → Prop} {S : β → β → Prop} {x x' : Except Fault α}
    {k k' : α → Except Fault β} (h : ExRen ρ σ R x x')
    (hk : ∀ a a', R a a' → ExRen ρ σ S (k a) (k' a')) : ExRen ρ σ S (x >>= k) (x' >>= k') := by
  rcases h with ⟨f, rfl, rfl⟩ | ⟨a, a', rfl, rfl, hR⟩
  · exact .inl ⟨f, rfl, rfl⟩
  · exact hk a a' hR

theorem ExRen.foldlM {α τ : Type} {R : τ → τ → Prop} (φ : α → α) {step step' : τ → α → Except Fault τ}
    (h : ∀ s s' a, R s s' → ExRen ρ σ R (step s a) (step' s' (φ a))) : ∀ (l : List α) (s s' : τ),
      R s s' → ExRen ρ σ R (l.foldlM step s) ((l.map φ).foldlM step' s')
  | [], s, s', hs => .inr ⟨s, s', rfl, rfl, hs⟩
  | a :: l, s, s', hs => by
    simp only [List.map_cons, List.foldlM_cons]
    exact (h s s' a hs).bind fun t t' ht => ExRen.foldlM φ h l t t' ht

/-- A map with renamed keys. -/
def renKeys (τ : String → String) (m : AMap String Nat) : AMap String Nat := m.map fun e => (τ e.1, e.2)

theorem renKeys_get {τ : String → String} (hτ : Function.Injective τ) :
    ∀ (m : AMap String Nat) (k : String), (renKeys τ m).get? (τ k) = m.get? k
  | [], k => rfl
  | (k', v) :: m, k => by
    have := renKeys_get hτ m k
    simp only [renKeys] at this
    simp only [renKeys, List.map_cons, AMap.get?, hτ.eq_iff, this]

theorem renKeys_insert {τ : String → String} (hτ : Function.Injective τ) :
    ∀ (m : AMap String Nat) (k : String) (v : Nat),
      (renKeys τ m).insert (τ k) v = renKeys τ (m.insert k v)
  | [], k, v => rfl
  | (k', v') :: m, k, v => by
    have := renKeys_insert hτ m k v
    simp only [renKeys] at this
    simp only [renKeys, List.map_cons, AMap.insert, hτ.eq_iff, this]
    split <;> rfl

variable (ρ σ) in
/-- Related states of the lowering: grammar and map. -/
def RenState (τ : String → String) (s s' : Grammar X Ty × AMap String Nat) : Prop :=
  RenGrammar ρ σ s.1 s'.1 ∧ s'.2 = renKeys τ s.2

theorem RenGrammar.length {g g' : Grammar A Ty} (h : RenGrammar ρ σ g g') :
    g'.nonTerminals.length = g.nonTerminals.length := h.nts.length_eq.symm

theorem RenGrammar.addNonTerminal {g g' : Grammar A Ty} (h : RenGrammar ρ σ g g') (name name' : String)
    (ty : Ty) (b : Bool) (hn : b = true → name' = ρ name) :
    RenGrammar ρ σ (g.addNonTerminal name ty b).1 (g'.addNonTerminal name' ty b).1 ∧
      (g'.addNonTerminal name' ty b).2 = (g.addNonTerminal name ty b).2 := by
  refine ⟨⟨?_, h.terms⟩, ?_⟩
  · simp only [Grammar.addNonTerminal]
    exact List.rel_append h.nts (.cons ⟨rfl, rfl, rfl, hn⟩ .nil)
  · simp only [Grammar.addNonTerminal, h.length]

theorem RenGrammar.addProduction {g g' : Grammar A Ty} (h : RenGrammar ρ σ g g') (nt : Nat)
    (syms : List BoundSymbol) (a : A) :
    ExRen ρ σ (RenGrammar ρ σ) (g.addProduction nt syms a) (g'.addProduction nt syms a) := by
  simp only [Grammar.addProduction]
  rcases h.get nt with ⟨e1, e2⟩ | ⟨n, n', e1, e2, hn⟩
  · rw [e1, e2]; exact .inl ⟨_, rfl, rfl⟩
  · rw [e1, e2]
    refine .inr ⟨_, _, rfl, rfl, ?_, h.terms⟩
    have : ∀ {l l' : List (NonTerminal A Ty)}, List.Forall₂ (RenNT ρ) l l' →
        ∀ (i : Nat) {m m' : NonTerminal A Ty}, RenNT ρ m m' →
          List.Forall₂ (RenNT ρ) (l.set i m) (l'.set i m') := by
      intro l l' hl
      induction hl with
      | nil => intro i m m' _; exact .nil
      | cons hx hl ih =>
        intro i m m' hm
        cases i with
        | zero => exact .cons hm hl
        | succ i => exact .cons hx (ih i hm)
    exact this h.nts nt ⟨by simp [hn.productions], hn.returnTy, hn.isPublic, hn.name⟩

section lowering
variable (hρ : Function.Injective ρ) (hσ : Function.Injective σ)
include hσ

theorem lowerTerminals_ren : ∀ (cs : List (Conversion Ty)) (s s' : Grammar X Ty × AMap String Nat),
    RenState ρ σ σ s s' → ExRen ρ σ (RenState ρ σ σ) (lowerTerminals cs s)
      (lowerTerminals (cs.map (·.rename σ)) s')
  | [], s, s', hs => .inr ⟨_, _, rfl, rfl, hs⟩
  | c :: cs, (g, ts), (g', ts'), ⟨hg, hts⟩ => by
    dsimp only at hg hts
    subst hts
    simp only [List.map_cons, lowerTerminals, Conversion.rename]
    refine ExRen.bind (R := fun r r' => RenGrammar ρ σ r.1 r'.1 ∧ r'.2 = r.2) ?_ ?_
    · have : g'.terminals.length = g.terminals.length := by rw [hg.terms, List.length_map]
      simp only [Grammar.newTerminal, this]
      refine ExRen.bind (R := fun i i' => i' = i) ?_ ?_
      · unfold tryU32
        split
        · exact .inr ⟨_, _, rfl, rfl, rfl⟩
        · exact .inl ⟨_, rfl, rfl⟩
      · rintro i _ rfl
        refine .inr ⟨_, _, rfl, rfl, ⟨hg.nts, ?_⟩, rfl⟩
        simp [hg.terms]
    · rintro ⟨g1, i⟩ ⟨g1', i'⟩ ⟨h1, h2⟩
      dsimp only at h1 h2 ⊢
      subst h2
      rw [renKeys_get hσ]
      split
      · exact .inl ⟨_, rfl, rfl⟩
      · exact lowerTerminals_ren cs _ _ ⟨h1, renKeys_insert hσ _ _ _⟩

omit hσ in
include hρ in
theorem lowerDeclare_ren (mkPath : String → X) (d : AstNonTerminal X Ty)
    (s s' : Grammar X Ty × AMap String Nat) (hs : RenState ρ σ ρ s s') :
    ExRen ρ σ (RenState ρ σ ρ) (lowerDeclare mkPath d s) (lowerDeclare mkPath (d.rename ρ σ) s') := by
  obtain ⟨g, nts⟩ := s
  obtain ⟨g', nts'⟩ := s'
  obtain ⟨hg, hn⟩ := hs
  dsimp only at hg hn
  subst hn
  simp only [lowerDeclare, AstNonTerminal.rename]
  by_cases hp : d.isPub = true
  · simp only [hp, if_true]
    obtain ⟨h1, h2⟩ := hg.addNonTerminal (d.name ++ "1") (ρ d.name ++ "1") d.typeDecl false nofun
    obtain ⟨h3, h4⟩ := h1.addNonTerminal d.name (ρ d.name) d.typeDecl true fun _ => rfl
    simp only [h2, h4]
    refine (h3.addProduction _ _ _).bind fun a a' ha => ?_
    exact .inr ⟨_, _, rfl, rfl, ha, renKeys_insert hρ _ _ _⟩
  · simp only [hp]
    obtain ⟨h1, h2⟩ := hg.addNonTerminal d.name (ρ d.name) d.typeDecl false nofun
    simp only [h2]
    exact .inr ⟨_, _, rfl, rfl, h1, renKeys_insert hρ _ _ _⟩

omit hσ in
include hρ in
theorem lowerDeclareAll_ren (mkPath : String → X) : ∀ (l : List (AstNonTerminal X Ty))
    (s s' : Grammar X Ty × AMap String Nat), RenState ρ σ ρ s s' →
      ExRen ρ σ (RenState ρ σ ρ) (lowerDeclareAll mkPath l s)
        (lowerDeclareAll mkPath (l.map (·.rename ρ σ)) s')
  | [], s, s', hs => .inr ⟨_, _, rfl, rfl, hs⟩
  | d :: l, s, s', hs => by
    simp only [List.map_cons, lowerDeclareAll]
    exact (lowerDeclare_ren hρ mkPath d s s' hs).bind fun a a' ha =>
      lowerDeclareAll_ren mkPath l a a' ha

include hρ

theorem addSymbol_ren (nts ts : AMap String Nat) : ∀ (s : AstSymbol) (b : Option Name),
    ExRen ρ σ Eq (addSymbol nts ts b s) (addSymbol (renKeys ρ nts) (renKeys σ ts) b (s.rename ρ σ))
  | .terminal t, b => by
    simp only [AstSymbol.rename, addSymbol, renKeys_get hσ]
    cases ts.get? t with
    | none => exact .inl ⟨_, rfl, rfl⟩
    | some i => exact .inr ⟨_, _, rfl, rfl, rfl⟩
  | .nonTerminal n, b => by
    simp only [AstSymbol.rename, addSymbol, renKeys_get hρ]
    cases nts.get? n with
    | none => exact .inl ⟨_, rfl, rfl⟩
    | some i => exact .inr ⟨_, _, rfl, rfl, rfl⟩
  | .repeat_ _ _, b => .inl ⟨_, rfl, rfl⟩
  | .named m s, b => by
    simp only [AstSymbol.rename, addSymbol]
    exact addSymbol_ren nts ts s _

theorem lowerSymbols_ren (nts ts : AMap String Nat) : ∀ (l : List AstSymbol),
    ExRen ρ σ Eq (lowerSymbols nts ts l)
      (lowerSymbols (renKeys ρ nts) (renKeys σ ts) (l.map (·.rename ρ σ)))
  | [] => .inr ⟨_, _, rfl, rfl, rfl⟩
  | s :: l => by
    simp only [List.map_cons, lowerSymbols]
    refine (addSymbol_ren hρ hσ nts ts s none).bind ?_
    rintro b _ rfl
    refine (lowerSymbols_ren nts ts l).bind ?_
    rintro bs _ rfl
    exact .inr ⟨_, _, rfl, rfl, rfl⟩

theorem lowerProduction_ren (nts ts : AMap String Nat) (name : String) (g g' : Grammar X Ty)
    (p : AstProduction X) (hg : RenGrammar ρ σ g g') :
    ExRen ρ σ (RenGrammar ρ σ) (lowerProduction nts ts name g p)
      (lowerProduction (renKeys ρ nts) (renKeys σ ts) (ρ name) g' (p.rename ρ σ)) := by
  simp only [lowerProduction, AstProduction.rename, renKeys_get hρ]
  refine (lowerSymbols_ren hρ hσ nts ts p.symbols).bind ?_
  rintro bs _ rfl
  cases nts.get? name with
  | none => exact .inl ⟨_, rfl, rfl⟩
  | some i =>
    cases p.action with
    | infallible e => exact hg.addProduction i bs e
    | fallible e => exact .inl ⟨_, rfl, rfl⟩

theorem lower_ren (mkPath : String → X) (asts : List (AstNonTerminal X Ty))
    (convs : List (Conversion Ty)) :
    ExRen ρ σ (RenGrammar ρ σ) (lower mkPath asts convs)
      (lower mkPath (asts.map (·.rename ρ σ)) (convs.map (·.rename σ))) := by
  simp only [lower]
  refine (lowerTerminals_ren hσ convs _ _ ⟨⟨.nil, rfl⟩, rfl⟩).bind ?_
  rintro ⟨g0, ts⟩ ⟨g0', ts'⟩ ⟨h0, h0'⟩
  dsimp only at h0 h0' ⊢
  subst h0'
  refine (lowerDeclareAll_ren hρ mkPath asts _ _ ⟨h0, rfl⟩).bind ?_
  rintro ⟨g1, nts⟩ ⟨g1', nts'⟩ ⟨h1, h1'⟩
  dsimp only at h1 h1' ⊢
  subst h1'
  refine ExRen.foldlM _ (fun s s' d hs => ?_) asts g1 g1' h1
  exact ExRen.foldlM _ (fun s s' p hs => lowerProduction_ren hρ hσ nts ts d.name s s' p hs)
    d.productions s s' hs

end lowering

theorem Grammar.addProduction_terminals {g g' : Grammar A Ty} {nt : Nat} {syms : List BoundSymbol}
    {a : A} (h : g.addProduction nt syms a = .ok g') : g'.terminals = g.terminals := by
  unfold Grammar.addProduction at h
  split at h
  · cases h
  · cases h; rfl

theorem lower_terminals {mkPath : String → X} {asts : List (AstNonTerminal X Ty)}
    {convs : List (Conversion Ty)} {g : Grammar X Ty} (h : lower mkPath asts convs = .ok g) :
    g.terminals = convs.map (·.from_) := by
  have h1 : ∀ (cs : List (Conversion Ty)) (s r : Grammar X Ty × AMap String Nat),
      lowerTerminals cs s = .ok r → r.1.terminals = s.1.terminals ++ cs.map (·.from_) := by
    intro cs
    induction cs with
    | nil => intro s r h; cases h; simp
    | cons c cs ih =>
      rintro ⟨g, ts⟩ r h
      simp only [lowerTerminals] at h
      obtain ⟨⟨g1, i⟩, e1, h⟩ := Except.bind_eq_ok.1 h
      dsimp only at h
      split at h
      · cases h
      · have := ih _ _ h
        simp only [Grammar.newTerminal] at e1
        obtain ⟨j, _, e1⟩ := Except.bind_eq_ok.1 e1
        cases e1
        simpa using this
  have h2 : ∀ (l : List (AstNonTerminal X Ty)) (s r : Grammar X Ty × AMap String Nat),
      lowerDeclareAll mkPath l s = .ok r → r.1.terminals = s.1.terminals := by
    intro l
    induction l with
    | nil => intro s r h; cases h; rfl
    | cons d l ih =>
      intro s r h
      simp only [lowerDeclareAll] at h
      obtain ⟨s1, e1, h⟩ := Except.bind_eq_ok.1 h
      rw [ih _ _ h]
      simp only [lowerDeclare] at e1
      split at e1
      · obtain ⟨g3, e3, e1⟩ := Except.bind_eq_ok.1 e1
        cases e1
        have := Grammar.addProduction_terminals e3
        simpa [Grammar.addNonTerminal] using this
      · cases e1; rfl
  have h3 : ∀ {α : Type} (step : Grammar X Ty → α → Except Fault (Grammar X Ty)),
      (∀ g a g', step g a = .ok g' → g'.terminals = g.terminals) → ∀ (l : List α) (g g' : Grammar X Ty),
      l.foldlM step g = .ok g' → g'.terminals = g.terminals := by
    intro α step hs l
    induction l with
    | nil => intro g g' h; cases h; rfl
    | cons a l ih =>
      intro g g' h
      rw [List.foldlM_cons] at h
      obtain ⟨g1, e1, h⟩ := Except.bind_eq_ok.1 h
      rw [ih _ _ h, hs _ _ _ e1]
  simp only [lower] at h
  obtain ⟨⟨g0, ts⟩, e0, h⟩ := Except.bind_eq_ok.1 h
  obtain ⟨⟨g1, nts⟩, e1, h⟩ := Except.bind_eq_ok.1 h
  have e2 := h3 _ (fun g d g' he => h3 _ (fun g p g' he => by
    simp only [lowerProduction] at he
    obtain ⟨bs, _, he⟩ := Except.bind_eq_ok.1 he
    split at he
    · cases he
    · split at he
      · cases he
      · exact Grammar.addProduction_terminals he) _ _ _ he) _ _ _ h
  rw [e2, h2 _ _ _ e1, h1 _ _ _ e0]
  rfl

/-! ## The macro -/

theorem itemNonTerminals_ren (items : List (GrammarItem X Ty)) :
    itemNonTerminals (items.map (·.rename ρ σ)) = (itemNonTerminals items).map (·.rename ρ σ) := by
  unfold itemNonTerminals
  rw [List.filterMap_map, List.map_filterMap]
  congr 1
  funext i
  cases i <;> rfl

def MacroState.rename (ρ σ : String → String) (s : MacroState X Ty) : MacroState X Ty :=
  ⟨s.nonTerminals.map (·.rename ρ σ), s.tokenEnum.map (·.rename σ), s.stateType⟩

theorem macroItems_ren (items : List (GrammarItem X Ty)) :
    ExRen ρ σ (fun r r' => r' = (r.1.map (·.rename ρ σ), r.2.rename σ)) (macroItems items)
      (macroItems (items.map (·.rename ρ σ))) := by
  simp only [macroItems]
  refine (ExRen.foldlM (R := fun (s s' : MacroState X Ty) => s' = s.rename ρ σ) (GrammarItem.rename ρ σ)
    (fun s s' i hs => ?_) items {} {} rfl).bind ?_
  · subst hs
    cases i with
    | typeDef ty =>
      by_cases hs : s.stateType.isSome = true
      · simp only [macroItem, GrammarItem.rename, MacroState.rename, hs, if_true]
        exact .inl ⟨_, rfl, rfl⟩
      · simp only [macroItem, GrammarItem.rename, MacroState.rename, hs]
        exact .inr ⟨_, _, rfl, rfl, rfl⟩
    | tokenEnum t =>
      by_cases hs : s.tokenEnum.isSome = true
      · simp only [macroItem, GrammarItem.rename, MacroState.rename, Option.isSome_map, hs, if_true]
        exact .inl ⟨_, rfl, rfl⟩
      · simp only [macroItem, GrammarItem.rename, MacroState.rename, Option.isSome_map, hs]
        exact .inr ⟨_, _, rfl, rfl, rfl⟩
    | nonTerminal d =>
      exact .inr ⟨_, _, rfl, rfl, by simp [MacroState.rename]⟩
  · rintro s _ rfl
    simp only [MacroState.rename]
    cases s.tokenEnum with
    | none => exact .inl ⟨_, rfl, rfl⟩
    | some t => exact .inr ⟨_, _, rfl, rfl, rfl⟩

/-- The macro on renamed items. -/
theorem parserMacro_ren [DecidableEq Ty] (hρ : Function.Injective ρ) (hσ : Function.Injective σ)
    (h : HashOrder) (mkPath : String → X) (items : List (GrammarItem X Ty)) :
    (∃ f f', parserMacro h mkPath items = .error f ∧
      parserMacro h mkPath (items.map (·.rename ρ σ)) = .error f' ∧
      (f' = f ∨ f' = f.rename ρ σ) ∧
      (f' ≠ f.rename ρ σ → ∃ nts t g, macroItems items = .ok (nts, t) ∧
        lower mkPath nts t.conversions = .ok g ∧ generateParser h g = .error f)) ∨
    ∃ gen gen' t, parserMacro h mkPath items = .ok (gen, t) ∧
      parserMacro h mkPath (items.map (·.rename ρ σ)) = .ok (gen', t.rename σ) ∧
      RenGenerated ρ σ (t.conversions.map (·.from_)) gen gen' := by
  simp only [parserMacro, bind, Except.bind]
  rcases macroItems_ren (ρ := ρ) (σ := σ) items with ⟨f, e1, e2⟩ | ⟨⟨nts, t⟩, _, e1, e2, rfl⟩
  · rw [e1, e2]; exact .inl ⟨_, _, rfl, rfl, .inr rfl, fun h => absurd rfl h⟩
  rw [e1, e2]
  dsimp only
  rcases lower_ren hρ hσ mkPath nts t.conversions with ⟨f, e3, e4⟩ | ⟨g, g', e3, e4, hg⟩
  · simp only [TokenEnum.rename, e3, e4]
    exact .inl ⟨_, _, rfl, rfl, .inr rfl, fun h => absurd rfl h⟩
  have e4' : lower mkPath (nts.map (·.rename ρ σ)) (t.rename σ).conversions = .ok g' := e4
  simp only [e3, e4']
  rcases generateParser_ren h hg with ⟨f, e5, e6⟩ | ⟨gen, gen', e5, e6, hr⟩
  · simp only [e5, e6]
    exact .inl ⟨_, _, rfl, rfl, .inl rfl, fun _ => ⟨_, _, _, rfl, e3, e5⟩⟩
  · simp only [e5, e6]
    refine .inr ⟨gen, gen', t, rfl, rfl, ?_⟩
    rw [← lower_terminals e3]
    exact hr

end Parsegen
