import Verif.Proofs.Functor

/-! # The generator does not look at types and binders -/

namespace Parsegen

variable {A X Ty V W Tok E : Type}

def Production.strip (p : Production A) : Production A := ⟨p.symbols.map fun s => ⟨none, s.symbol⟩, p.action⟩

def NonTerminal.strip (n : NonTerminal A Ty) : NonTerminal A Unit :=
  ⟨n.name, n.productions.map (·.strip), (), n.isPublic⟩

/-- The grammar with all types and binders removed. -/
def Grammar.strip (g : Grammar A Ty) : Grammar A Unit := ⟨g.nonTerminals.map (·.strip), g.terminals⟩

section
variable (g : Grammar A Ty)

@[simp] theorem Production.syms_strip (p : Production A) : p.strip.syms = p.syms := by
  simp [Production.syms, Production.strip, Function.comp_def]

@[simp] theorem Grammar.nNonTerminals_strip : g.strip.nNonTerminals = g.nNonTerminals := by
  simp [Grammar.nNonTerminals, Grammar.strip]

@[simp] theorem Grammar.nTerminals_strip : g.strip.nTerminals = g.nTerminals := rfl

@[simp] theorem Grammar.getProduction?_strip (nt p : Nat) :
    g.strip.getProduction? nt p = (g.getProduction? nt p).map (·.strip) := by
  simp only [Grammar.getProduction?, Grammar.strip, List.getElem?_map]
  cases g.nonTerminals[nt]? with
  | none => rfl
  | some n => simp [NonTerminal.strip]

@[simp] theorem Grammar.rhs_strip (nt p : Nat) : g.strip.rhs nt p = g.rhs nt p := by
  simp only [Grammar.rhs, Grammar.getProduction?_strip]
  cases g.getProduction? nt p with
  | none => rfl
  | some pr => simp

@[simp] theorem Grammar.nProductions_strip (nt : Nat) : g.strip.nProductions nt = g.nProductions nt := by
  simp only [Grammar.nProductions, Grammar.strip, List.getElem?_map]
  cases g.nonTerminals[nt]? <;> simp [NonTerminal.strip]

theorem firstPass_strip (h : HashOrder) (tbl : FirstTable) :
    firstPass h g.strip tbl = firstPass h g tbl := by
  simp only [firstPass, Grammar.strip, List.zipIdx_map, List.foldl_map]
  congr 1
  funext a b
  simp [NonTerminal.strip, List.foldl_map, Prod.map]

theorem generateFirstTable_strip (h : HashOrder) :
    generateFirstTable h g.strip = generateFirstTable h g := by
  have : firstPass h g.strip = firstPass h g := funext (firstPass_strip g h)
  simp [generateFirstTable, firstLoop, firstFuel, this]

@[simp] theorem Item.nextSymbol_strip (it : Item) : it.nextSymbol g.strip = it.nextSymbol g := by
  simp [Item.nextSymbol]

@[simp] theorem Item.nextNonTerminal_strip (it : Item) :
    it.nextNonTerminal g.strip = it.nextNonTerminal g := by
  simp [Item.nextNonTerminal]

@[simp] theorem Item.nextTerminal_strip (it : Item) :
    it.nextTerminal g.strip = it.nextTerminal g := by
  simp [Item.nextTerminal]

@[simp] theorem Item.isComplete_strip (it : Item) : it.isComplete g.strip = it.isComplete g := by
  simp [Item.isComplete]

theorem closureProcess_strip (h : HashOrder) (tbl : FirstTable) (it : Item)
    (s : List Item × List Item) :
    closureProcess h g.strip tbl it s = closureProcess h g tbl it s := by
  simp [closureProcess, predicted]

theorem closureLoop_strip (h : HashOrder) (tbl : FirstTable) : ∀ (n : Nat) (s : List Item × List Item),
    closureLoop h g.strip tbl n s = closureLoop h g tbl n s
  | 0, s => rfl
  | n + 1, (cl, []) => rfl
  | n + 1, (cl, it :: wl) => by
    simp only [closureLoop, closureProcess_strip]
    exact closureLoop_strip h tbl n _

@[simp] theorem Grammar.totalProductions_strip : g.strip.totalProductions = g.totalProductions := by
  simp [Grammar.totalProductions, Grammar.strip, NonTerminal.strip, Function.comp_def]

theorem computeClosure_strip (h : HashOrder) (tbl : FirstTable) (items : List Item) :
    computeClosure h g.strip tbl items = computeClosure h g tbl items := by
  simp [computeClosure, closureRun, closureLoop_strip, closureFuel]

theorem computeGoto_strip (h : HashOrder) (tbl : FirstTable) (items : List Item) (sym : Symbol) :
    computeGoto h g.strip tbl items sym = computeGoto h g tbl items sym := by
  simp [computeGoto, computeClosure_strip, gotoKernel]

theorem initStates_strip (h : HashOrder) (tbl : FirstTable) :
    ∀ (l : List (NonTerminal A Ty × Nat)) (s : AutoState × AMap Nat Nat),
      initStates h g.strip tbl (l.map fun e => (e.1.strip, e.2)) s = initStates h g tbl l s
  | [], s => rfl
  | (n, nt) :: l, (st, en) => by
    simp only [List.map_cons, initStates, computeClosure_strip]
    have e1 : n.strip.isPublic = n.isPublic := rfl
    have e2 : n.strip.productions.length = n.productions.length := by simp [NonTerminal.strip]
    rw [e1, e2]
    split
    · split
      · exact initStates_strip h tbl l _
      · rfl
    · exact initStates_strip h tbl l _

theorem autoPass_strip (h : HashOrder) (tbl : FirstTable) (st : AutoState) :
    autoPass h g.strip tbl st = autoPass h g tbl st := by
  have e2 : g.strip.allSymbols = g.allSymbols := by simp [Grammar.allSymbols]
  have e3 : ∀ base s i, passSymbol h g.strip tbl base s i = passSymbol h g tbl base s i :=
    fun base s i => funext fun ps => funext fun sym => by simp [passSymbol, computeGoto_strip]
  simp [autoPass, passAll, e2, e3]

@[simp] theorem Grammar.nItems_strip : g.strip.nItems = g.nItems := by
  simp [Grammar.nItems, Grammar.strip, NonTerminal.strip, Function.comp_def, Grammar.nTerminals,
    Production.strip]

theorem generateAutomaton_strip (h : HashOrder) (tbl : FirstTable) :
    generateAutomaton h g.strip tbl = generateAutomaton h g tbl := by
  have e1 : g.strip.nonTerminals.zipIdx = g.nonTerminals.zipIdx.map fun e => (e.1.strip, e.2) := by
    simp [Grammar.strip, List.zipIdx_map, Prod.map]
  have e2 : autoPass h g.strip tbl = autoPass h g tbl := funext (autoPass_strip g h tbl)
  simp only [generateAutomaton, e1, initStates_strip, e2, autoFuel, Grammar.nNonTerminals_strip,
    Grammar.nItems_strip]
  rfl

theorem buildItem_strip (h : HashOrder) (i : Nat) (st : LR1State) (t : LRTable A) (it : Item) :
    buildItem h g.strip i st t it = buildItem h g i st t it := by
  have e : g.strip.getNonTerminal? it.nt = (g.getNonTerminal? it.nt).map (·.strip) := by
    simp [Grammar.getNonTerminal?, Grammar.strip]
  simp only [buildItem, ruleShift, Item.nextTerminal_strip, e]
  cases g.getNonTerminal? it.nt with
  | none => rfl
  | some n =>
    simp only [Option.map_some, ruleReduce, ruleAccept, Item.isComplete_strip,
      Grammar.getProduction?_strip]
    have e1 : n.strip.isPublic = n.isPublic := rfl
    have e2 : n.strip.productions.length = n.productions.length := by simp [NonTerminal.strip]
    rw [e1, e2]
    cases g.getProduction? it.nt it.prod <;> rfl

theorem buildTable_strip (h : HashOrder) (states : List LR1State) :
    buildTable h g.strip states = buildTable h g states := by
  have : buildState h g.strip = buildState h g := by
    funext t s
    have : buildItem h g.strip s.2 s.1 = buildItem h g s.2 s.1 :=
      funext fun t => funext fun it => buildItem_strip g h _ _ t it
    simp [buildState, this]
  simp [buildTable, this]

theorem actionTableVec_strip (t : LRTable A) (n : Nat) :
    actionTableVec g.strip t n = actionTableVec g t n := by simp [actionTableVec]

theorem generateActionArray_strip (tab : List (List (Option (LRAction Nat)))) (n m : Nat) :
    generateActionArray g.strip tab n m = generateActionArray g tab n m := by
  have : encodeCell g.strip = encodeCell g := by
    funext c
    cases c with
    | none => rfl
    | some a =>
      cases a with
      | shift _ => rfl
      | accept => rfl
      | reduce nt p a =>
        simp only [encodeCell, encodeAction, Grammar.getProduction?_strip]
        cases g.getProduction? nt p with
        | none => rfl
        | some pr => simp [Production.strip]
  simp [generateActionArray, this]

@[simp] theorem Grammar.isPublic_strip (nt : Nat) : g.strip.isPublic nt = g.isPublic nt := by
  simp only [Grammar.isPublic, Grammar.strip, List.getElem?_map]
  cases g.nonTerminals[nt]? <;> rfl

end

end Parsegen
