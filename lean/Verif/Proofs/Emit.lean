import Verif.Model.EmitRuntime
import Verif.Proofs.Codegen
import Verif.Spec.Emitted

/-! # The emitted names correspond to the indices of `Model/Codegen.lean` -/

namespace Parsegen

variable {A X Ty : Type}

/-- Both fail with the same fault, or both succeed with related results. -/
inductive FailRel {α β : Type} (R : α → β → Prop) : Except Fault α → Except Fault β → Prop where
  | ok {a : α} {b : β} : R a b → FailRel R (.ok a) (.ok b)
  | error (e : Fault) : FailRel R (.error e) (.error e)

theorem FailRel.bind {α β γ δ : Type} {R : α → β → Prop} {S : γ → δ → Prop}
    {x : Except Fault α} {y : Except Fault β} {f : α → Except Fault γ} {k : β → Except Fault δ}
    (h : FailRel R x y) (hf : ∀ a b, R a b → FailRel S (f a) (k b)) : FailRel S (x >>= f) (y >>= k) := by
  cases h with
  | ok h => exact hf _ _ h
  | error e => exact .error e

theorem FailRel.rfl' {α : Type} (x : Except Fault α) : FailRel (fun a b => a = b) x x := by
  cases x with
  | ok a => exact .ok rfl
  | error e => exact .error e

theorem FailRel.left {α β : Type} {R : α → β → Prop} {x : Except Fault α} {y : Except Fault β}
    (h : FailRel R x y) {a : α} (ha : x = .ok a) : ∃ b, y = .ok b ∧ R a b := by
  subst ha; cases h with
  | ok h => exact ⟨_, rfl, h⟩

theorem FailRel.right {α β : Type} {R : α → β → Prop} {x : Except Fault α} {y : Except Fault β}
    (h : FailRel R x y) {b : β} (hb : y = .ok b) : ∃ a, x = .ok a ∧ R a b := by
  subst hb; cases h with
  | ok h => exact ⟨_, rfl, h⟩

theorem FailRel.mapM {α β γ : Type} {R : β → γ → Prop} {f : α → Except Fault β}
    {k : α → Except Fault γ} {l : List α} (h : ∀ a ∈ l, FailRel R (f a) (k a)) :
    FailRel (List.Forall₂ R) (l.mapM f) (l.mapM k) := by
  induction l with
  | nil => exact .ok .nil
  | cons a l ih =>
    rw [List.mapM_cons, List.mapM_cons]
    refine (h a (by simp)).bind fun b c hbc => ?_
    refine (ih fun a ha => h a (by simp [ha])).bind fun bs cs hbcs => ?_
    exact .ok (.cons hbc hbcs)

/-- The numbers computed while emitting the variants. -/
theorem emitNts_nums [DecidableEq Ty] (tys : List Ty) (seen : AMap Ty Nat) (i : Nat) :
    (emitNts tys seen i).2 = variantNames tys seen i := by
  induction tys generalizing seen i with
  | nil => rfl
  | cons ty tys ih =>
    unfold emitNts variantNames
    cases seen.get? ty with
    | some k => simp [ih]
    | none => simp [ih]

theorem emitResultType_nums [DecidableEq Ty] (g : Grammar A Ty) (convs : List (Conversion Ty)) :
    (emitResultType g convs).2.2 = semanticActionVariants g :=
  emitNts_nums _ _ _

/-- The name of an extraction method. -/
def Extract.method : Extract → String
  | .token i => tokenMethod i
  | .nonTerminal k => ntMethod k

/-- A statement and its index version. -/
inductive StmtRel : EStmt → PopStmt → Prop where
  | pop : StmtRel .pop .drop
  | letPop (m : Bool) (n : String) (ex : Extract) : StmtRel (.letPop m n ex.method) (.bind n ex)

/-- A function and its index version. -/
structure FnRel (e : EActionFn X) (f : SemFn X) : Prop where
  stmts : List.Forall₂ StmtRel e.stmts f.pops
  variant : e.variant = ntVariant f.variant
  action : e.action = f.action

theorem popStmts_mapM (variants : List Nat) (l : List BoundSymbol) :
    popStmts variants l = l.mapM (popStmt variants) := by
  induction l with
  | nil => rfl
  | cons s l ih => rw [List.mapM_cons, popStmts, ih]; rfl

theorem emitStmt_rel (variants : List Nat) (s : BoundSymbol) :
    FailRel StmtRel (emitStmt variants s) (popStmt variants s) := by
  unfold emitStmt popStmt emitExtract
  cases hb : s.binder with
  | none => exact .ok .pop
  | some n =>
    cases hs : s.symbol with
    | terminal t => exact .ok (.letPop n.isMut n.name (.token t))
    | nonTerminal b =>
      cases hv : variants[b]? with
      | none => simp only [hv]; exact .error _
      | some k => simp only [hv]; exact .ok (.letPop n.isMut n.name (.nonTerminal k))

theorem emitProduction_rel (variants : List Nat) (nt p : Nat) (pr : Production X)
    {ds : List (EActionFn X)} {fs : List (SemFn X)} (h : List.Forall₂ FnRel ds fs) :
    FailRel (fun a b => a.1 = b.1 ∧ List.Forall₂ FnRel a.2 b.2)
      (emitProduction variants nt p pr ds) (semProduction variants nt pr fs) := by
  unfold emitProduction semProduction
  rw [popStmts_mapM]
  refine (FailRel.mapM fun s _ => emitStmt_rel variants s).bind fun stmts pops hst => ?_
  cases variants[nt]? with
  | none => exact .error _
  | some k =>
    simp only
    rw [h.length_eq]
    refine (FailRel.rfl' _).bind fun a b hab => ?_
    subst hab
    exact .ok ⟨rfl, List.rel_append h (.cons ⟨hst, rfl, rfl⟩ .nil)⟩

theorem emitProductions_rel (variants : List Nat) (nt p : Nat) (prs : List (Production X))
    {ds : List (EActionFn X)} {fs : List (SemFn X)} (h : List.Forall₂ FnRel ds fs) :
    FailRel (fun a b => a.1 = b.1 ∧ List.Forall₂ FnRel a.2 b.2)
      (emitProductions variants nt p prs ds) (semProductions variants nt prs fs) := by
  induction prs generalizing p ds fs with
  | nil => exact .ok ⟨rfl, h⟩
  | cons pr prs ih =>
    unfold emitProductions semProductions
    refine (emitProduction_rel variants nt p pr h).bind ?_
    rintro ⟨a1, a2⟩ ⟨b1, b2⟩ ⟨hab1, hab2⟩
    refine (ih (p + 1) hab2).bind ?_
    rintro ⟨c1, c2⟩ ⟨d1, d2⟩ ⟨hcd1, hcd2⟩
    exact .ok ⟨by simp only at hab1 hcd1 ⊢; rw [hab1, hcd1], hcd2⟩

theorem emitNonTerminals_rel (variants : List Nat) (nt : Nat) (l : List (NonTerminal X Ty))
    {ds : List (EActionFn X)} {fs : List (SemFn X)} (h : List.Forall₂ FnRel ds fs) :
    FailRel (fun a b => a.1 = b.1 ∧ List.Forall₂ FnRel a.2 b.2)
      (emitNonTerminals variants nt l ds) (semNonTerminals variants nt l fs) := by
  induction l generalizing nt ds fs with
  | nil => exact .ok ⟨rfl, h⟩
  | cons n l ih =>
    unfold emitNonTerminals semNonTerminals
    refine (emitProductions_rel variants nt 0 n.productions h).bind ?_
    rintro ⟨a1, a2⟩ ⟨b1, b2⟩ ⟨hab1, hab2⟩
    refine (ih (nt + 1) hab2).bind ?_
    rintro ⟨c1, c2⟩ ⟨d1, d2⟩ ⟨hcd1, hcd2⟩
    exact .ok ⟨by simp only at hab1 hcd1 ⊢; rw [hab1, hcd1], hcd2⟩

theorem emitSemanticTable_rel (g : Grammar X Ty) (variants : List Nat) :
    FailRel (fun a b => List.Forall₂ FnRel a.1 b.1 ∧ a.2 = b.2)
      (emitSemanticTable g variants) (generateSemanticActionTable g variants) := by
  unfold emitSemanticTable generateSemanticActionTable
  refine (emitNonTerminals_rel variants 0 g.nonTerminals .nil).bind ?_
  rintro ⟨a1, a2⟩ ⟨b1, b2⟩ ⟨hab1, hab2⟩
  exact .ok ⟨hab2, by simp only at hab1 ⊢; rw [hab1]⟩

/-- A parser struct and its index version. -/
structure StructRel (e : EStruct Ty) (ep : EntryPoint) : Prop where
  name : e.name = ep.name
  extract : e.extract = ntMethod ep.extract
  state : e.state = ep.initState
  action : e.action = ep.actionIdx

theorem emitStruct_rel (g : Grammar Nat Ty) (variants : List Nat) (e : Nat × Nat) :
    FailRel StructRel (emitStruct g variants e) (entryPoint g variants e) := by
  unfold emitStruct entryPoint
  refine (FailRel.rfl' _).bind fun a b hab => ?_
  subst hab
  cases g.getNonTerminal? e.1 with
  | none => exact .error _
  | some n =>
    cases g.getProduction? e.1 0 with
    | none => exact .error _
    | some p =>
      cases variants[e.1]? with
      | none => exact .error _
      | some k => exact .ok ⟨rfl, rfl, rfl, rfl⟩

/-- The module and its index version. -/
structure ModRel [DecidableEq Ty] (lc : String → String) (g : Grammar X Ty) (tokens : TokenEnum Ty)
    (m : EModule X Ty) (gen : Generated X) : Prop where
  action : m.action = gen.action
  goto : m.goto = gen.goto
  fns : List.Forall₂ FnRel m.actionFns gen.semActions
  semantic : m.semantic = m.actionFns.map (·.name)
  expected : m.expected = gen.expected
  terminalStrs : m.terminalStrs = gen.terminalStrs
  nTerminals : m.nTerminals = gen.nTerminals
  structs : List.Forall₂ StructRel m.structs gen.entries
  variants : m.variants = (emitResultType g tokens.conversions).1
  methods : m.methods = (emitResultType g tokens.conversions).2.1
  tokenType : m.tokenType = tokens.typeName
  idxName : m.idxName = lc tokens.typeName ++ "_terminal_idx"
  idxCall : m.idxCall = m.idxName
  idxArms : m.idxArms = emitIdxArms tokens.conversions
  valueName : m.valueName = "token_value"
  valueCall : m.valueCall = m.valueName
  valueArms : m.valueArms = emitValueArms tokens.conversions
  lifetimes : m.lifetimes = emitLifetimes tokens.typeLifetimes
  resultDerives : m.resultDerives = ["Debug"]

/-- The two models of the generator fail together and succeed together. -/
theorem emitParser_rel [DecidableEq Ty] (h : HashOrder) (lc : String → String) (g : Grammar X Ty)
    (tokens : TokenEnum Ty) :
    FailRel (ModRel lc g tokens) (emitParser h lc g tokens) (generateParser h g) := by
  unfold emitParser generateParser
  refine (FailRel.rfl' _).bind ?_
  rintro auto _ rfl
  have hn := emitResultType_nums g tokens.conversions
  generalize he : emitResultType g tokens.conversions = r at hn
  obtain ⟨vs, ms, nums⟩ := r
  simp only at hn
  subst hn
  simp only
  refine (emitSemanticTable_rel g _).bind ?_
  rintro ⟨fns, g'⟩ ⟨fns', g''⟩ ⟨hfns, hg⟩
  simp only at hfns hg
  subst hg
  refine (FailRel.rfl' _).bind ?_
  rintro table _ rfl
  refine (FailRel.rfl' _).bind ?_
  rintro action _ rfl
  refine (FailRel.rfl' _).bind ?_
  rintro gotoVec _ rfl
  refine (FailRel.rfl' _).bind ?_
  rintro goto _ rfl
  refine (FailRel.mapM fun e _ => emitStruct_rel g' _ e).bind fun ss es hse => ?_
  refine .ok ?_
  constructor <;> first | rfl | assumption | simp [he]

/-! ## The functions, production by production -/

/-- `e` is the function of production `pr`, number `j` of non-terminal `i`. -/
structure FnFor (variants : List Nat) (x : Nat × Nat × Production X) (e : EActionFn X) : Prop where
  name : e.name = actionFnName x.1 x.2.1
  stmts : List.Forall₂ (fun s t => emitStmt variants s = .ok t) x.2.2.symbols.reverse e.stmts
  variant : ∃ k, variants[x.1]? = some k ∧ e.variant = ntVariant k
  action : e.action = x.2.2.action

theorem emitProductions_fns {variants : List Nat} {nt p : Nat} {prs : List (Production X)}
    {ds : List (EActionFn X)} {r} (h : emitProductions variants nt p prs ds = .ok r) :
    ∃ ext, r.2 = ds ++ ext ∧
      List.Forall₂ (FnFor variants) ((prs.zipIdx p).map fun q => (nt, q.2, q.1)) ext := by
  induction prs generalizing p ds r with
  | nil => cases h; exact ⟨[], by simp, .nil⟩
  | cons pr prs ih =>
    unfold emitProductions at h
    replace h := Except.bind_eq_ok.1 h
    obtain ⟨⟨pr', ds'⟩, h1, h⟩ := h
    replace h := Except.bind_eq_ok.1 h
    obtain ⟨⟨ps, ds''⟩, h2, h⟩ := h
    cases h
    unfold emitProduction at h1
    replace h1 := Except.bind_eq_ok.1 h1
    obtain ⟨stmts, h3, h1⟩ := h1
    cases hk : variants[nt]? with
    | none => rw [hk] at h1; cases h1
    | some k =>
      rw [hk] at h1
      replace h1 := Except.bind_eq_ok.1 h1
      obtain ⟨idx, h4, h1⟩ := h1
      cases h1
      obtain ⟨ext, e1, e2⟩ := ih h2
      refine ⟨_ :: ext, by simp only at e1 ⊢; rw [e1, List.append_assoc]; rfl, ?_⟩
      rw [List.zipIdx_cons, List.map_cons]
      exact .cons ⟨rfl, mapM_ok_iff.1 h3, ⟨k, hk, rfl⟩, rfl⟩ e2

theorem emitNonTerminals_fns {variants : List Nat} {nt : Nat} {l : List (NonTerminal X Ty)}
    {ds : List (EActionFn X)} {r} (h : emitNonTerminals variants nt l ds = .ok r) :
    ∃ ext, r.2 = ds ++ ext ∧ List.Forall₂ (FnFor variants)
      ((l.zipIdx nt).flatMap fun e => e.1.productions.zipIdx.map fun q => (e.2, q.2, q.1)) ext := by
  induction l generalizing nt ds r with
  | nil => cases h; exact ⟨[], by simp, .nil⟩
  | cons n l ih =>
    unfold emitNonTerminals at h
    replace h := Except.bind_eq_ok.1 h
    obtain ⟨⟨ps, ds'⟩, h1, h⟩ := h
    replace h := Except.bind_eq_ok.1 h
    obtain ⟨⟨ns, ds''⟩, h2, h⟩ := h
    cases h
    obtain ⟨ext1, e1, e2⟩ := emitProductions_fns h1
    obtain ⟨ext2, e3, e4⟩ := ih h2
    refine ⟨ext1 ++ ext2, by simp only at e1 e3 ⊢; rw [e3, e1, List.append_assoc], ?_⟩
    rw [List.zipIdx_cons, List.flatMap_cons]
    exact List.rel_append e2 e4

theorem emitSemanticTable_fns {g : Grammar X Ty} {variants : List Nat} {r}
    (h : emitSemanticTable g variants = .ok r) :
    List.Forall₂ (FnFor variants) g.listing r.1 := by
  unfold emitSemanticTable at h
  replace h := Except.bind_eq_ok.1 h
  obtain ⟨⟨ns, ds⟩, h1, h⟩ := h
  cases h
  obtain ⟨ext, e1, e2⟩ := emitNonTerminals_fns h1
  simp only [List.nil_append] at e1
  subst e1
  exact e2

/-- The stages of a successful emission. -/
structure EmitStages [DecidableEq Ty] (h : HashOrder) (lc : String → String) (g : Grammar X Ty)
    (tokens : TokenEnum Ty) (m : EModule X Ty) (a : Automaton) (g' : Grammar Nat Ty)
    (T : LRTable Nat) : Prop where
  auto : generateAutomaton h g (generateFirstTable h g) = .ok a
  sem : emitSemanticTable g (semanticActionVariants g) = .ok (m.actionFns, g')
  table : buildTable h g' a.states = .ok T
  structs : List.Forall₂ (fun e s => emitStruct g' (semanticActionVariants g) e = .ok s)
    (h.iter a.entries) m.structs
  fns : List.Forall₂ (FnFor (semanticActionVariants g)) g.listing m.actionFns
  actionCols : m.actionCols = g.nTerminals + 1
  actionRows : m.actionRows = T.nStates
  gotoCols : m.gotoCols = g'.nNonTerminals
  gotoRows : m.gotoRows = T.nStates
  semanticLen : m.semanticLen = m.actionFns.length
  expectedLen : m.expectedLen = T.nStates
  terminalStrsLen : m.terminalStrsLen = g'.nTerminals + 1

theorem emitParser_stages [DecidableEq Ty] {h : HashOrder} {lc : String → String} {g : Grammar X Ty}
    {tokens : TokenEnum Ty} {m : EModule X Ty} (hm : emitParser h lc g tokens = .ok m) :
    ∃ a g' T, EmitStages h lc g tokens m a g' T := by
  unfold emitParser at hm
  replace hm := Except.bind_eq_ok.1 hm
  obtain ⟨a, h1, hm⟩ := hm
  have hn := emitResultType_nums g tokens.conversions
  generalize he : emitResultType g tokens.conversions = r at hn hm
  obtain ⟨vs, ms, nums⟩ := r
  simp only at hn hm
  subst hn
  replace hm := Except.bind_eq_ok.1 hm
  obtain ⟨⟨fns, g'⟩, h2, hm⟩ := hm
  replace hm := Except.bind_eq_ok.1 hm
  obtain ⟨T, h3, hm⟩ := hm
  replace hm := Except.bind_eq_ok.1 hm
  obtain ⟨act, h4, hm⟩ := hm
  replace hm := Except.bind_eq_ok.1 hm
  obtain ⟨gv, h5, hm⟩ := hm
  replace hm := Except.bind_eq_ok.1 hm
  obtain ⟨go, h6, hm⟩ := hm
  replace hm := Except.bind_eq_ok.1 hm
  obtain ⟨ss, h7, hm⟩ := hm
  cases hm
  exact ⟨a, g', T, h1, h2, h3, mapM_ok_iff.1 h7, emitSemanticTable_fns h2, rfl, rfl, rfl, rfl, rfl,
    rfl, rfl⟩

end Parsegen
