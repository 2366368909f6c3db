import Verif.Proofs.Interactive
import Verif.Spec.Actions

/-! # The generator does not look at the actions -/

namespace Parsegen

variable {X Y Ty : Type} (f : X → Y)

/-! ## Replacing actions -/

def AstAction.mapA : AstAction X → AstAction Y
  | .infallible e => .infallible (f e)
  | .fallible e => .fallible (f e)

def AstProduction.mapA (p : AstProduction X) : AstProduction Y := ⟨p.symbols, p.action.mapA f⟩

def AstNonTerminal.mapA (d : AstNonTerminal X Ty) : AstNonTerminal Y Ty :=
  ⟨d.isPub, d.name, d.typeDecl, d.productions.map (·.mapA f)⟩

def GrammarItem.mapA : GrammarItem X Ty → GrammarItem Y Ty
  | .typeDef ty => .typeDef ty
  | .tokenEnum t => .tokenEnum t
  | .nonTerminal d => .nonTerminal (d.mapA f)

def Production.mapA (p : Production X) : Production Y := ⟨p.symbols, f p.action⟩

def NonTerminal.mapA (n : NonTerminal X Ty) : NonTerminal Y Ty :=
  ⟨n.name, n.productions.map (·.mapA f), n.returnTy, n.isPublic⟩

def Grammar.mapA (g : Grammar X Ty) : Grammar Y Ty := ⟨g.nonTerminals.map (·.mapA f), g.terminals⟩

def SemFn.mapA (s : SemFn X) : SemFn Y := ⟨s.pops, s.variant, f s.action⟩

def Generated.mapA (gen : Generated X) : Generated Y :=
  { gen with semActions := gen.semActions.map (·.mapA f) }

/-! ## Lowering -/

theorem Grammar.addNonTerminal_mapA (g : Grammar X Ty) (name : String) (ty : Ty) (b : Bool) :
    (g.mapA f).addNonTerminal name ty b = ((g.addNonTerminal name ty b).1.mapA f,
      (g.addNonTerminal name ty b).2) := by
  simp [Grammar.addNonTerminal, Grammar.mapA, NonTerminal.mapA]

theorem Grammar.newTerminal_mapA (g : Grammar X Ty) (s : String) :
    (g.mapA f).newTerminal s = (g.newTerminal s).map fun r => (r.1.mapA f, r.2) := by
  simp only [Grammar.newTerminal, Grammar.mapA, bind, Except.bind]
  cases tryU32 g.terminals.length <;> rfl

theorem Grammar.addProduction_mapA (g : Grammar X Ty) (nt : Nat) (syms : List BoundSymbol) (a : X) :
    (g.mapA f).addProduction nt syms (f a) = (g.addProduction nt syms a).map (·.mapA f) := by
  simp only [Grammar.addProduction, Grammar.mapA, List.getElem?_map]
  cases hn : g.nonTerminals[nt]? with
  | none => rfl
  | some n =>
    simp [Except.map, NonTerminal.mapA, Production.mapA, List.map_set]

theorem lowerTerminals_mapA : ∀ (cs : List (Conversion Ty)) (g : Grammar X Ty) (ts : AMap String Nat),
    lowerTerminals cs (g.mapA f, ts) = (lowerTerminals cs (g, ts)).map fun r => (r.1.mapA f, r.2)
  | [], g, ts => rfl
  | c :: cs, g, ts => by
    simp only [lowerTerminals, Grammar.newTerminal_mapA, bind, Except.bind]
    cases hg : g.newTerminal c.from_ with
    | error e => rfl
    | ok r =>
      simp only [Except.map]
      split
      · rfl
      · exact lowerTerminals_mapA cs r.1 _

theorem lowerDeclare_mapA (mkPath : String → X) (nt : AstNonTerminal X Ty) (g : Grammar X Ty)
    (nts : AMap String Nat) :
    lowerDeclare (fun n => f (mkPath n)) (nt.mapA f) (g.mapA f, nts) =
      (lowerDeclare mkPath nt (g, nts)).map fun r => (r.1.mapA f, r.2) := by
  simp only [lowerDeclare, AstNonTerminal.mapA, Grammar.addNonTerminal_mapA,
    Grammar.addProduction_mapA, bind, Except.bind]
  split
  · generalize ((g.addNonTerminal (nt.name ++ "1") nt.typeDecl false).1.addNonTerminal nt.name
        nt.typeDecl true).1.addProduction _ _ (mkPath "x") = r
    cases r <;> rfl
  · rfl

theorem lowerDeclareAll_mapA (mkPath : String → X) : ∀ (l : List (AstNonTerminal X Ty))
    (g : Grammar X Ty) (nts : AMap String Nat),
    lowerDeclareAll (fun n => f (mkPath n)) (l.map (·.mapA f)) (g.mapA f, nts) =
      (lowerDeclareAll mkPath l (g, nts)).map fun r => (r.1.mapA f, r.2)
  | [], g, nts => rfl
  | d :: l, g, nts => by
    simp only [List.map_cons, lowerDeclareAll, lowerDeclare_mapA, bind, Except.bind]
    cases lowerDeclare mkPath d (g, nts) with
    | error e => rfl
    | ok r => exact lowerDeclareAll_mapA mkPath l r.1 r.2

theorem lowerProduction_mapA (nts ts : AMap String Nat) (name : String) (g : Grammar X Ty)
    (p : AstProduction X) : lowerProduction nts ts name (g.mapA f) (p.mapA f) =
      (lowerProduction nts ts name g p).map (·.mapA f) := by
  simp only [lowerProduction, AstProduction.mapA, bind, Except.bind]
  cases lowerSymbols nts ts p.symbols with
  | error e => rfl
  | ok syms =>
    cases hn : AMap.get? nts name with
    | none => simp [Except.map]
    | some i =>
      cases p.action with
      | infallible e => simp [AstAction.mapA, Grammar.addProduction_mapA]
      | fallible e => simp [AstAction.mapA, Except.map]

theorem foldlM_map_comm {α α' σ σ' ε : Type} (φ : α → α') (ψ : σ → σ') {step : σ → α → Except ε σ}
    {step' : σ' → α' → Except ε σ'} (h : ∀ s a, step' (ψ s) (φ a) = (step s a).map ψ) :
    ∀ (l : List α) (s : σ), (l.map φ).foldlM step' (ψ s) = (l.foldlM step s).map ψ
  | [], s => rfl
  | a :: l, s => by
    simp only [List.map_cons, List.foldlM_cons, h, bind, Except.bind]
    cases step s a with
    | error e => rfl
    | ok s' => exact foldlM_map_comm φ ψ h l s'

theorem lowerProductions_mapA (nts ts : AMap String Nat) (asts : List (AstNonTerminal X Ty))
    (g : Grammar X Ty) : lowerProductions nts ts (asts.map (·.mapA f)) (g.mapA f) =
      (lowerProductions nts ts asts g).map (·.mapA f) := by
  unfold lowerProductions
  refine foldlM_map_comm _ _ (fun s a => ?_) asts g
  exact foldlM_map_comm (AstProduction.mapA f) _ (fun s p => lowerProduction_mapA f nts ts a.name s p)
    a.productions s

theorem lower_mapA (mkPath : String → X) (asts : List (AstNonTerminal X Ty))
    (convs : List (Conversion Ty)) :
    lower (fun n => f (mkPath n)) (asts.map (·.mapA f)) convs =
      (lower mkPath asts convs).map (·.mapA f) := by
  have e0 : (Grammar.new : Grammar Y Ty) = (Grammar.new : Grammar X Ty).mapA f := rfl
  simp only [lower, e0, lowerTerminals_mapA, bind, Except.bind]
  cases lowerTerminals convs ((Grammar.new : Grammar X Ty), []) with
  | error e => rfl
  | ok r =>
    simp only [Except.map, lowerDeclareAll_mapA]
    cases lowerDeclareAll mkPath asts (r.1, []) with
    | error e => rfl
    | ok r' => exact lowerProductions_mapA f _ _ _ _

/-! ## FIRST, automaton -/

section
variable (g : Grammar X Ty)

@[simp] theorem Grammar.nNonTerminals_mapA : (g.mapA f).nNonTerminals = g.nNonTerminals := by
  simp [Grammar.nNonTerminals, Grammar.mapA]

@[simp] theorem Grammar.nTerminals_mapA : (g.mapA f).nTerminals = g.nTerminals := rfl

@[simp] theorem Production.syms_mapA (p : Production X) : (p.mapA f).syms = p.syms := rfl

@[simp] theorem Grammar.rhs_mapA (nt p : Nat) : (g.mapA f).rhs nt p = g.rhs nt p := by
  simp only [Grammar.rhs, Grammar.getProduction?, Grammar.mapA, List.getElem?_map]
  cases g.nonTerminals[nt]? with
  | none => rfl
  | some n =>
    simp only [Option.map_some, Option.bind_some, NonTerminal.mapA, List.getElem?_map]
    cases n.productions[p]? <;> rfl

@[simp] theorem Grammar.nProductions_mapA (nt : Nat) : (g.mapA f).nProductions nt = g.nProductions nt := by
  simp only [Grammar.nProductions, Grammar.mapA, List.getElem?_map]
  cases g.nonTerminals[nt]? <;> simp [NonTerminal.mapA]

theorem firstPass_mapA (h : HashOrder) (tbl : FirstTable) :
    firstPass h (g.mapA f) tbl = firstPass h g tbl := by
  simp only [firstPass, Grammar.mapA, List.zipIdx_map, List.foldl_map]
  congr 1
  funext s x
  obtain ⟨n, i⟩ := x
  simp [NonTerminal.mapA, List.foldl_map, Prod.map]

theorem generateFirstTable_mapA (h : HashOrder) :
    generateFirstTable h (g.mapA f) = generateFirstTable h g := by
  have : firstPass h (g.mapA f) = firstPass h g := funext (firstPass_mapA f g h)
  simp [generateFirstTable, firstLoop, firstFuel, this]

@[simp] theorem Item.nextSymbol_mapA (it : Item) : it.nextSymbol (g.mapA f) = it.nextSymbol g := by
  simp [Item.nextSymbol]

@[simp] theorem Item.nextNonTerminal_mapA (it : Item) :
    it.nextNonTerminal (g.mapA f) = it.nextNonTerminal g := by
  simp [Item.nextNonTerminal]

theorem closureProcess_mapA (h : HashOrder) (tbl : FirstTable) (it : Item)
    (s : List Item × List Item) :
    closureProcess h (g.mapA f) tbl it s = closureProcess h g tbl it s := by
  simp [closureProcess, predicted]

theorem closureLoop_mapA (h : HashOrder) (tbl : FirstTable) : ∀ (n : Nat) (s : List Item × List Item),
    closureLoop h (g.mapA f) tbl n s = closureLoop h g tbl n s
  | 0, s => rfl
  | n + 1, (cl, []) => rfl
  | n + 1, (cl, it :: wl) => by
    simp only [closureLoop, closureProcess_mapA]
    exact closureLoop_mapA h tbl n _

@[simp] theorem Grammar.totalProductions_mapA : (g.mapA f).totalProductions = g.totalProductions := by
  simp [Grammar.totalProductions, Grammar.mapA, NonTerminal.mapA, Function.comp_def]

theorem computeClosure_mapA (h : HashOrder) (tbl : FirstTable) (items : List Item) :
    computeClosure h (g.mapA f) tbl items = computeClosure h g tbl items := by
  simp [computeClosure, closureRun, closureLoop_mapA, closureFuel]

theorem computeGoto_mapA (h : HashOrder) (tbl : FirstTable) (items : List Item) (sym : Symbol) :
    computeGoto h (g.mapA f) tbl items sym = computeGoto h g tbl items sym := by
  simp [computeGoto, computeClosure_mapA, gotoKernel]

theorem initStates_mapA (h : HashOrder) (tbl : FirstTable) :
    ∀ (l : List (NonTerminal X Ty × Nat)) (s : AutoState × AMap Nat Nat),
      initStates h (g.mapA f) tbl (l.map fun e => (e.1.mapA f, e.2)) s = initStates h g tbl l s
  | [], s => rfl
  | (n, nt) :: l, (st, en) => by
    simp only [List.map_cons, initStates, computeClosure_mapA]
    have e1 : (n.mapA f).isPublic = n.isPublic := rfl
    have e2 : (n.mapA f).productions.length = n.productions.length := by simp [NonTerminal.mapA]
    rw [e1, e2]
    split
    · split
      · exact initStates_mapA h tbl l _
      · rfl
    · exact initStates_mapA h tbl l _

theorem autoPass_mapA (h : HashOrder) (tbl : FirstTable) (st : AutoState) :
    autoPass h (g.mapA f) tbl st = autoPass h g tbl st := by
  have e1 : ∀ base s i ps sym, passSymbol h (g.mapA f) tbl base s i ps sym =
      passSymbol h g tbl base s i ps sym := by
    intro base s i ps sym
    simp [passSymbol, computeGoto_mapA]
  have e2 : (g.mapA f).allSymbols = g.allSymbols := by simp [Grammar.allSymbols]
  have e3 : ∀ base s i, passSymbol h (g.mapA f) tbl base s i = passSymbol h g tbl base s i :=
    fun base s i => funext fun ps => funext fun sym => e1 base s i ps sym
  simp [autoPass, passAll, e2, e3]

@[simp] theorem Grammar.nItems_mapA : (g.mapA f).nItems = g.nItems := by
  simp [Grammar.nItems, Grammar.mapA, NonTerminal.mapA, Function.comp_def, Production.mapA,
    Grammar.nTerminals]

theorem generateAutomaton_mapA (h : HashOrder) (tbl : FirstTable) :
    generateAutomaton h (g.mapA f) tbl = generateAutomaton h g tbl := by
  have e1 : (g.mapA f).nonTerminals.zipIdx = g.nonTerminals.zipIdx.map fun e => (e.1.mapA f, e.2) := by
    simp [Grammar.mapA, List.zipIdx_map, Prod.map]
  have e2 : autoPass h (g.mapA f) tbl = autoPass h g tbl := funext (autoPass_mapA f g h tbl)
  simp only [generateAutomaton, e1, initStates_mapA, e2, autoFuel, Grammar.nNonTerminals_mapA,
    Grammar.nItems_mapA]
  rfl

/-! ## Code generation -/

theorem semanticActionVariants_mapA [DecidableEq Ty] :
    semanticActionVariants (g.mapA f) = semanticActionVariants g := by
  simp [semanticActionVariants, Grammar.mapA, Function.comp_def, NonTerminal.mapA]

end

theorem semProduction_mapA (vs : List Nat) (nt : Nat) (p : Production X) (fns : List (SemFn X)) :
    semProduction vs nt (p.mapA f) (fns.map (·.mapA f)) =
      (semProduction vs nt p fns).map fun r => (r.1, r.2.map (·.mapA f)) := by
  simp only [semProduction, Production.mapA, bind, Except.bind, List.length_map]
  cases popStmts vs p.symbols.reverse with
  | error e => rfl
  | ok pops =>
    cases vs[nt]? with
    | none => rfl
    | some v =>
      cases tryU16 fns.length with
      | error e => rfl
      | ok i => simp [Except.map, SemFn.mapA]

theorem semProductions_mapA (vs : List Nat) (nt : Nat) : ∀ (ps : List (Production X))
    (fns : List (SemFn X)),
    semProductions vs nt (ps.map (·.mapA f)) (fns.map (·.mapA f)) =
      (semProductions vs nt ps fns).map fun r => (r.1, r.2.map (·.mapA f))
  | [], fns => rfl
  | p :: ps, fns => by
    simp only [List.map_cons, semProductions, semProduction_mapA, bind, Except.bind]
    cases semProduction vs nt p fns with
    | error e => rfl
    | ok r =>
      simp only [Except.map, semProductions_mapA vs nt ps r.2]
      cases semProductions vs nt ps r.2 <;> rfl

theorem semNonTerminals_mapA (vs : List Nat) : ∀ (ns : List (NonTerminal X Ty)) (nt : Nat)
    (fns : List (SemFn X)),
    semNonTerminals vs nt (ns.map (·.mapA f)) (fns.map (·.mapA f)) =
      (semNonTerminals vs nt ns fns).map fun r => (r.1, r.2.map (·.mapA f))
  | [], nt, fns => rfl
  | n :: ns, nt, fns => by
    have e : (n.mapA f).productions = n.productions.map (·.mapA f) := rfl
    simp only [List.map_cons, semNonTerminals, e, semProductions_mapA, bind, Except.bind]
    cases semProductions vs nt n.productions fns with
    | error e => rfl
    | ok r =>
      simp only [Except.map, semNonTerminals_mapA vs ns (nt + 1) r.2]
      cases semNonTerminals vs (nt + 1) ns r.2 <;> rfl

theorem generateSemanticActionTable_mapA (g : Grammar X Ty) (vs : List Nat) :
    generateSemanticActionTable (g.mapA f) vs =
      (generateSemanticActionTable g vs).map fun r => (r.1.map (·.mapA f), r.2) := by
  have := semNonTerminals_mapA f vs g.nonTerminals 0 []
  simp only [generateSemanticActionTable, Grammar.mapA, bind, Except.bind]
  simp only [List.map_nil] at this
  rw [this]
  cases semNonTerminals vs 0 g.nonTerminals [] <;> rfl

theorem generateParser_mapA [DecidableEq Ty] (h : HashOrder) (g : Grammar X Ty) :
    generateParser h (g.mapA f) = (generateParser h g).map (·.mapA f) := by
  simp only [generateParser, generateFirstTable_mapA, generateAutomaton_mapA,
    semanticActionVariants_mapA, generateSemanticActionTable_mapA, bind, Except.bind,
    Grammar.nTerminals_mapA]
  cases generateAutomaton h g (generateFirstTable h g) with
  | error e => rfl
  | ok a =>
  dsimp only
  cases generateSemanticActionTable g (semanticActionVariants g) with
  | error e => rfl
  | ok r =>
  simp only [Except.map]
  cases buildTable h r.2 a.states with
  | error e => rfl
  | ok t =>
  dsimp only
  cases generateActionArray r.2 (actionTableVec r.2 t t.nStates) t.nStates g.nTerminals with
  | error e => rfl
  | ok ac =>
  dsimp only
  cases generateGotoVec t t.nStates r.2.nNonTerminals with
  | error e => rfl
  | ok gv =>
  dsimp only
  cases generateGotoArray gv with
  | error e => rfl
  | ok go =>
  dsimp only
  cases (h.iter a.entries).mapM (entryPoint r.2 (semanticActionVariants g)) with
  | error e => rfl
  | ok en => rfl

/-! ## The macro -/

def MacroState.mapA (s : MacroState X Ty) : MacroState Y Ty :=
  ⟨s.nonTerminals.map (·.mapA f), s.tokenEnum, s.stateType⟩

theorem macroItem_mapA (s : MacroState X Ty) (i : GrammarItem X Ty) :
    macroItem (s.mapA f) (i.mapA f) = (macroItem s i).map (·.mapA f) := by
  cases i with
  | typeDef ty =>
    by_cases hs : s.stateType.isSome = true
    · simp [macroItem, GrammarItem.mapA, MacroState.mapA, hs, Except.map]
    · simp [macroItem, GrammarItem.mapA, MacroState.mapA, hs, Except.map]
  | tokenEnum t =>
    by_cases hs : s.tokenEnum.isSome = true
    · simp [macroItem, GrammarItem.mapA, MacroState.mapA, hs, Except.map]
    · simp [macroItem, GrammarItem.mapA, MacroState.mapA, hs, Except.map]
  | nonTerminal d => simp [macroItem, GrammarItem.mapA, MacroState.mapA, Except.map]

theorem macroItems_mapA (items : List (GrammarItem X Ty)) :
    macroItems (items.map (·.mapA f)) =
      (macroItems items).map fun r => (r.1.map (·.mapA f), r.2) := by
  have := foldlM_map_comm (GrammarItem.mapA f) (MacroState.mapA f) (step := macroItem)
    (step' := macroItem) (macroItem_mapA (Ty := Ty) f) items {}
  have e : (MacroState.mapA f ({} : MacroState X Ty)) = {} := rfl
  rw [e] at this
  simp only [macroItems, this, bind, Except.bind]
  cases items.foldlM macroItem ({} : MacroState X Ty) with
  | error e => rfl
  | ok s =>
    simp only [Except.map, MacroState.mapA]
    cases s.tokenEnum <;> rfl

/-- The macro treats the actions as opaque: replacing them by `f` replaces them in its output. -/
theorem parserMacro_mapA [DecidableEq Ty] (h : HashOrder) (mkPath : String → X)
    (items : List (GrammarItem X Ty)) :
    parserMacro h (fun n => f (mkPath n)) (items.map (·.mapA f)) =
      (parserMacro h mkPath items).map fun r => (r.1.mapA f, r.2) := by
  simp only [parserMacro, macroItems_mapA, bind, Except.bind]
  cases macroItems items with
  | error e => rfl
  | ok r =>
    simp only [Except.map, lower_mapA]
    cases lower mkPath r.1 r.2.conversions with
    | error e => rfl
    | ok g =>
      simp only [generateParser_mapA, Except.map]
      cases generateParser h g <;> rfl

end Parsegen
