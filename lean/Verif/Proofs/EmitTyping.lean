import Verif.Proofs.EmitCompiled
import Verif.Spec.EmitTyping
import Verif.Proofs.PatternTyping
import Verif.Props.Codegen

/-! # The emitted module is well typed exactly when the user's code is -/

namespace Parsegen

variable {X Ty V W Tok E : Type} [DecidableEq Ty]

/-- The facts about the emitted types used below. -/
structure TyCtx (g : Grammar X Ty) (tokens : TokenEnum Ty) (m : EModule X Ty) (us : List Ty) :
    Prop where
  types : NtTypes g tokens.conversions us
  variants : m.variants = (emitResultType g tokens.conversions).1
  methods : m.methods = (emitResultType g tokens.conversions).2.1

section
variable {g : Grammar X Ty} {tokens : TokenEnum Ty} {m : EModule X Ty} {us : List Ty}

theorem TyCtx.method_token (S : TyCtx g tokens m us) {i : Nat} {c : Conversion Ty}
    (hc : tokens.conversions[i]? = some c) :
    m.methodTy (tokenMethod i) = some (.ofList (patternTypes c.to)) := by
  have hmem : (emitToken i c).2 ∈ (emitResultType g tokens.conversions).2.1 := by
    rw [S.types.methods]
    exact List.mem_append.2 (.inl (List.mem_map.2 ⟨(c, i), List.mem_zipIdx_iff_getElem?.2 hc, rfl⟩))
  have : m.methods.find? (·.name = tokenMethod i) = some (emitToken i c).2 := by
    rw [S.methods]
    exact find?_of_nodup (f := fun x : EMethod Ty => x.name) S.types.methods_nodup hmem
  unfold EModule.methodTy
  rw [this]
  rfl

theorem TyCtx.method_nt (S : TyCtx g tokens m us) {k : Nat} {t : Ty} (hk : us[k]? = some t) :
    m.methodTy (ntMethod k) = some (.one t) := by
  have hmem : (emitNt k t).2 ∈ (emitResultType g tokens.conversions).2.1 := by
    rw [S.types.methods]
    exact List.mem_append.2 (.inr (List.mem_map.2 ⟨(t, k), List.mem_zipIdx_iff_getElem?.2 hk, rfl⟩))
  have : m.methods.find? (·.name = ntMethod k) = some (emitNt k t).2 := by
    rw [S.methods]
    exact find?_of_nodup (f := fun x : EMethod Ty => x.name) S.types.methods_nodup hmem
  unfold EModule.methodTy
  rw [this]
  rfl

theorem TyCtx.variant_token (S : TyCtx g tokens m us) {i : Nat} {c : Conversion Ty}
    (hc : tokens.conversions[i]? = some c) :
    m.variantTys (tokenVariant i) = some (patternTypes c.to) := by
  have hmem : (⟨tokenVariant i, patternTypes c.to⟩ : EVariant Ty) ∈
      (emitResultType g tokens.conversions).1 := by
    rw [S.types.variants]
    exact List.mem_append.2 (.inl (List.mem_map.2 ⟨(c, i), List.mem_zipIdx_iff_getElem?.2 hc, rfl⟩))
  unfold EModule.variantTys
  rw [S.variants, find?_of_nodup (f := fun x : EVariant Ty => x.name)
    (a := ⟨tokenVariant i, patternTypes c.to⟩) S.types.variants_nodup hmem]
  rfl

theorem TyCtx.variant_nt (S : TyCtx g tokens m us) {k : Nat} {t : Ty} (hk : us[k]? = some t) :
    m.variantTys (ntVariant k) = some [t] := by
  have hmem : (⟨ntVariant k, [t]⟩ : EVariant Ty) ∈ (emitResultType g tokens.conversions).1 := by
    rw [S.types.variants]
    exact List.mem_append.2 (.inr (List.mem_map.2 ⟨(t, k), List.mem_zipIdx_iff_getElem?.2 hk, rfl⟩))
  unfold EModule.variantTys
  rw [S.variants, find?_of_nodup (f := fun x : EVariant Ty => x.name)
    (a := ⟨ntVariant k, [t]⟩) S.types.variants_nodup hmem]
  rfl

theorem TyCtx.methods_typed (S : TyCtx g tokens m us) : ∀ f ∈ m.methods, m.MethodTyped f := by
  intro f hf
  rw [S.methods, S.types.methods] at hf
  rcases List.mem_append.1 hf with hf | hf
  · obtain ⟨⟨c, i⟩, h1, rfl⟩ := List.mem_map.1 hf
    have hc := List.mem_zipIdx_iff_getElem?.1 h1
    refine ⟨_, S.variant_token hc, by simp [emitToken], ?_⟩
    simp only [emitToken, EBody.ty, ERet.ty]
    rw [lookup_zip_nodup]
    · rfl
    · exact fieldIdents_nodup _
    · simp
  · obtain ⟨⟨t, k⟩, h1, rfl⟩ := List.mem_map.1 hf
    have hk := List.mem_zipIdx_iff_getElem?.1 h1
    exact ⟨_, S.variant_nt hk, by simp [emitNt], by simp [emitNt, EBody.ty, ERet.ty]⟩

/-- The type of a symbol of the lowered grammar. -/
def Grammar.symTy (g : Grammar X Ty) (tokens : TokenEnum Ty) : Symbol → Option (STy Ty)
  | .terminal t => (tokens.conversions[t]?).map fun c => .ofList (patternTypes c.to)
  | .nonTerminal b => (g.nonTerminals[b]?).map fun n => .one n.returnTy

omit [DecidableEq Ty] in
/-- Bind the name of a symbol. -/
def bindSym (τ : Symbol → Option (STy Ty)) (s : BoundSymbol) (Γ : Scope Ty) : Scope Ty :=
  match s.binder with
  | none => Γ
  | some n => match τ s.symbol with
    | none => Γ
    | some t => Γ.bind n.name n.isMut t

/-- The variables of a production. -/
def gScope (τ : Symbol → Option (STy Ty)) (ss : List BoundSymbol) : Scope Ty := fun n =>
  (ss.find? fun s => s.binder.map (·.name) = some n).bind fun s => s.binder.bind fun b =>
    (τ s.symbol).map fun t => (b.isMut, t)

omit [DecidableEq Ty] in
theorem gScope_eq (τ : Symbol → Option (STy Ty)) (ss : List BoundSymbol)
    (hτ : ∀ s ∈ ss, ∃ t, τ s.symbol = some t) :
    gScope τ ss = ss.foldr (bindSym τ) (fun _ => none) := by
  funext n
  induction ss with
  | nil => rfl
  | cons s ss ih =>
    have ih := ih (fun s' hs' => hτ s' (by simp [hs']))
    obtain ⟨t, ht⟩ := hτ s (by simp)
    rw [List.foldr_cons]
    unfold gScope at ih ⊢
    rw [List.find?_cons]
    generalize ss.foldr (bindSym τ) (fun _ => none) = Γ at ih ⊢
    unfold bindSym
    cases hb : s.binder with
    | none => simpa using ih
    | some b =>
      simp only [ht, Scope.bind, Option.map_some, Option.some.injEq]
      by_cases hn : b.name = n
      · subst hn; simp [hb, ht]
      · have hn' : ¬ n = b.name := fun h => hn h.symm
        simp only [hn, hn', decide_false, if_false]
        exact ih

/-- Typing the statements of a production, in the order of the symbols popped. -/
theorem TyCtx.scope (S : TyCtx g tokens m us) {l : List BoundSymbol} {ts : List EStmt}
    (h : List.Forall₂ (fun s t => emitStmt (semanticActionVariants g) s = .ok t) l ts)
    (hτ : ∀ s ∈ l, ∃ t, g.symTy tokens s.symbol = some t) (Γ0 Γ : Scope Ty) :
    (m.scope ts Γ0 = some Γ ∧ Γ "value_stack" = none) ↔
      Γ0 "value_stack" = none ∧ (∀ s ∈ l, s.binder.map (·.name) ≠ some "value_stack") ∧
        Γ = l.foldl (fun Γ s => bindSym (g.symTy tokens) s Γ) Γ0 := by
  induction h generalizing Γ0 with
  | nil =>
    simp only [EModule.scope, Option.some.injEq, List.not_mem_nil, false_implies, implies_true,
      List.foldl_nil, true_and]
    constructor
    · rintro ⟨rfl, h⟩; exact ⟨h, rfl⟩
    · rintro ⟨h, rfl⟩; exact ⟨rfl, h⟩
  | @cons s t l ts hst _ ih =>
    have ih := ih (fun s' hs' => hτ s' (by simp [hs']))
    obtain ⟨ty, hty⟩ := hτ s (by simp)
    unfold emitStmt at hst
    cases hb : s.binder with
    | none =>
      rw [hb] at hst
      cases hst
      unfold EModule.scope
      rw [List.foldl_cons]
      have : bindSym (g.symTy tokens) s Γ0 = Γ0 := by unfold bindSym; rw [hb]
      rw [this]
      cases h0 : Γ0 "value_stack" with
      | none =>
        simp only [Option.isNone_none, if_true]
        rw [ih, h0]
        simp [hb]
      | some _ => simp
    | some n =>
      rw [hb] at hst
      obtain ⟨meth, h1, h2⟩ := Except.bind_eq_ok.1 hst
      cases h2
      have hmeth : m.methodTy meth = some ty := by
        unfold emitExtract at h1
        cases hsy : s.symbol with
        | terminal t =>
          rw [hsy] at h1 hty
          cases h1
          obtain ⟨c, hc, rfl⟩ := Option.map_eq_some_iff.1 hty
          exact S.method_token hc
        | nonTerminal b =>
          rw [hsy] at h1 hty
          obtain ⟨nt, hnt, rfl⟩ := Option.map_eq_some_iff.1 hty
          cases hv : (semanticActionVariants g)[b]? with
          | none => simp only [hv] at h1; cases h1
          | some k =>
            simp only [hv] at h1
            cases h1
            exact S.method_nt (S.types.num b nt k hnt hv)
      unfold EModule.scope
      rw [List.foldl_cons, hmeth]
      have hbind : bindSym (g.symTy tokens) s Γ0 = Γ0.bind n.name n.isMut ty := by
        unfold bindSym; rw [hb, hty]
      rw [hbind]
      cases h0 : Γ0 "value_stack" with
      | none =>
        simp only [Option.isNone_none, if_true]
        rw [ih]
        simp only [Scope.bind, List.mem_cons, forall_eq_or_imp, hb, Option.map_some,
          Option.some.injEq, ne_eq, h0, true_and]
        by_cases hn : n.name = "value_stack"
        · simp [hn]
        · have hn' : ¬ "value_stack" = n.name := fun h => hn h.symm
          simp [hn, hn']
      | some _ => simp

/-- Typing an action function. -/
theorem TyCtx.action (S : TyCtx g tokens m us) {HasTy : Scope Ty → X → Ty → Prop} {nt p : Nat}
    {pr : Production X} {f : EActionFn X} (hf : FnFor (semanticActionVariants g) (nt, p, pr) f)
    (hτ : ∀ s ∈ pr.symbols, ∃ t, g.symTy tokens s.symbol = some t) {n : NonTerminal X Ty}
    (hn : g.nonTerminals[nt]? = some n) :
    m.ActionTyped HasTy f ↔ "value_stack" ∉ pr.binders ∧
      HasTy (gScope (g.symTy tokens) pr.symbols) pr.action n.returnTy := by
  obtain ⟨k, hk, hv⟩ := hf.variant
  simp only at hk hv
  have hvt : m.variantTys f.variant = some [n.returnTy] := by
    rw [hv]; exact S.variant_nt (S.types.num nt n k hn hk)
  have hb : "value_stack" ∉ pr.binders ↔
      ∀ s ∈ pr.symbols.reverse, s.binder.map (·.name) ≠ some "value_stack" := by
    unfold Production.binders
    rw [List.mem_filterMap]
    simp
  have key := S.scope hf.stmts (by simpa using hτ) (fun _ => none)
  rw [List.foldl_reverse] at key
  have hg : gScope (g.symTy tokens) pr.symbols =
      pr.symbols.foldr (bindSym (g.symTy tokens)) (fun _ => none) := gScope_eq _ _ hτ
  constructor
  · rintro ⟨Γ, ty, h1, h2, h3, h4⟩
    rw [hvt] at h3
    simp only [Option.some.injEq, List.cons.injEq, and_true] at h3
    subst h3
    obtain ⟨_, h5, h6⟩ := (key Γ).1 ⟨h1, h2⟩
    refine ⟨hb.2 h5, ?_⟩
    rw [hg, ← h6, ← hf.action]
    exact h4
  · rintro ⟨h1, h2⟩
    obtain ⟨h3, h4⟩ := (key _).2 ⟨rfl, hb.1 h1, rfl⟩
    refine ⟨_, n.returnTy, h3, h4, hvt, ?_⟩
    rw [hf.action]
    simp only at h2 ⊢
    rw [hg] at h2
    exact h2

omit [DecidableEq Ty] in
/-- Every symbol of a production has a type. -/
theorem symTy_some (hwf : g.WF) (hlen : g.nTerminals = tokens.conversions.length)
    {e : Nat × Nat × Production X} (he : e ∈ g.listing) :
    ∀ s ∈ e.2.2.symbols, ∃ t, g.symTy tokens s.symbol = some t := by
  intro s hs
  have hpr := mem_listing he
  unfold Grammar.getProduction? at hpr
  obtain ⟨n', h1, h2⟩ := Option.bind_eq_some_iff.1 hpr
  have hprod : g.HasProd e.1 e.2.1 (e.2.2.symbols.map (·.symbol)) := ⟨n', _, h1, h2, rfl⟩
  cases hsy : s.symbol with
  | terminal t =>
    have := hwf.term_lt hprod (t := t) (List.mem_map.2 ⟨s, hs, hsy⟩)
    rw [hlen] at this
    exact ⟨_, by rw [Grammar.symTy, List.getElem?_eq_getElem this]; rfl⟩
  | nonTerminal b =>
    have := hwf.nt_lt hprod (b := b) (List.mem_map.2 ⟨s, hs, hsy⟩)
    exact ⟨_, by rw [Grammar.symTy, List.getElem?_eq_getElem this]; rfl⟩

/-- The emitted module is typed iff every action of the grammar is, and the patterns are. -/
theorem wellTyped_iff {h : HashOrder} {lc : String → String} (hwf : g.WF)
    (hlen : g.nTerminals = tokens.conversions.length) (hm : emitParser h lc g tokens = .ok m)
    (hone : ∀ c ∈ tokens.conversions, NoOneTuple c.to)
    (HasTy : Scope Ty → X → Ty → Prop) (S0 : Sig Ty) (tokTy : Ty) :
    m.WellTyped HasTy S0 tokTy ↔
      (∀ e ∈ g.listing, ∀ n, g.nonTerminals[e.1]? = some n → "value_stack" ∉ e.2.2.binders ∧
        HasTy (gScope (g.symTy tokens) e.2.2.symbols) e.2.2.action n.returnTy) ∧
      ∀ c ∈ tokens.conversions, FitsTy S0 c.to tokTy := by
  obtain ⟨gen, hgen, hrel⟩ := (emitParser_rel h lc g tokens).left hm
  obtain ⟨a, g', T, hst⟩ := emitParser_stages hm
  obtain ⟨us, hu⟩ := ntTypes g tokens.conversions
  have S : TyCtx g tokens m us := ⟨hu, hrel.variants, hrel.methods⟩
  obtain ⟨⟨fns, g2⟩, hsem, _, hg2⟩ :=
    (emitSemanticTable_rel g (semanticActionVariants g)).left hst.sem
  simp only at hg2
  subst hg2
  have hs := (generateSemanticActionTable_ok hsem).1
  have hact : (∀ f ∈ m.actionFns, m.ActionTyped HasTy f) ↔
      ∀ e ∈ g.listing, ∀ n, g.nonTerminals[e.1]? = some n → "value_stack" ∉ e.2.2.binders ∧
        HasTy (gScope (g.symTy tokens) e.2.2.symbols) e.2.2.action n.returnTy := by
    constructor
    · intro H e he n hn
      obtain ⟨k, hk⟩ := List.getElem?_of_mem he
      obtain ⟨f, hf, hff⟩ := forall₂_getElem? hst.fns hk
      exact (S.action hff (symTy_some hwf hlen he) hn).1 (H f (List.mem_of_getElem? hf))
    · intro H f hf
      obtain ⟨k, hk⟩ := List.getElem?_of_mem hf
      obtain ⟨e, he, hff⟩ := forall₂_getElem?' hst.fns hk
      have he' := List.mem_of_getElem? he
      have hpr := mem_listing he'
      unfold Grammar.getProduction? at hpr
      obtain ⟨n, h1, _⟩ := Option.bind_eq_some_iff.1 hpr
      exact (S.action hff (symTy_some hwf hlen he') h1).2 (H e he' n h1)
  have harm : (∀ a ∈ m.valueArms, ∃ tys vars, m.variantTys a.variant = some tys ∧
      a.pat.vars S0 tokTy = some vars ∧ (vars.map (·.1)).Nodup ∧
      a.args.mapM (fun x => vars.lookup x) = some tys) ↔
      ∀ c ∈ tokens.conversions, FitsTy S0 c.to tokTy := by
    rw [hrel.valueArms]
    unfold emitValueArms
    constructor
    · intro H c hc
      obtain ⟨k, hk⟩ := List.getElem?_of_mem hc
      obtain ⟨tys, vars, h1, h2, _, h3⟩ :=
        H _ (List.mem_map.2 ⟨(c, k), List.mem_zipIdx_iff_getElem?.2 hk, rfl⟩)
      simp only at h1 h2 h3
      rw [S.variant_token hk, patternTypes_eq] at h1
      simp only [Option.some.injEq] at h1
      subst h1
      rw [vars_idents S0 _ (hone c hc)] at h2
      obtain ⟨l, h4, rfl⟩ := Option.map_eq_some_iff.1 h2
      rw [patternIdents_count, Nat.zero_add, patternTypes_eq, ← slots_length S0 _ _ _ h4,
        lookup_fieldVars] at h3
      cases h3
      exact fits_iff.2 h4
    · intro H arm harm
      obtain ⟨⟨c, k⟩, hck, rfl⟩ := List.mem_map.1 harm
      have hk := List.mem_zipIdx_iff_getElem?.1 hck
      have hc := List.mem_of_getElem? hk
      have h4 := fits_iff.1 (H c hc)
      refine ⟨_, fieldVars 0 c.to.types, S.variant_token hk, ?_, fieldVars_nodup _, ?_⟩
      · simp only
        rw [vars_idents S0 _ (hone c hc), h4]; rfl
      · simp only
        rw [patternIdents_count, Nat.zero_add, patternTypes_eq, lookup_fieldVars]
  have hidx : (∀ c ∈ tokens.conversions, FitsTy S0 c.to tokTy) →
      ∀ a ∈ m.idxArms, ∃ vars, a.1.vars S0 tokTy = some vars ∧ (vars.map (·.1)).Nodup := by
    intro H arm harm
    rw [hrel.idxArms] at harm
    unfold emitIdxArms at harm
    obtain ⟨⟨c, k⟩, hck, rfl⟩ := List.mem_map.1 harm
    have hk := List.mem_zipIdx_iff_getElem?.1 hck
    refine ⟨[], ?_, by simp⟩
    simp only
    rw [vars_ignore, fits_iff.1 (H c (List.mem_of_getElem? hk))]; rfl
  constructor
  · intro H
    exact ⟨hact.1 H.actions, harm.1 H.arms⟩
  · rintro ⟨H1, H2⟩
    obtain ⟨a0, g0, T0, ha0, hs0, hT0, hn0, d1, d2, d3, d4, d5, d6, d7⟩ := c33_arrays hgen
    rw [hst.auto] at ha0
    cases ha0
    have hn := buildTable_nStates hst.table
    have hrow : ∀ {α : Type} {l : List (List α)} {n k : Nat}, l.length = n →
        (∀ q, q < n → ∃ row, l[q]? = some row ∧ row.length = k) → ∀ row ∈ l, row.length = k := by
      intro α l n k h1 h2 row hr
      obtain ⟨q, hq⟩ := List.getElem?_of_mem hr
      obtain ⟨row', h3, h4⟩ := h2 q (by rw [← h1]; exact (List.getElem?_eq_some_iff.1 hq).1)
      rw [hq] at h3
      cases h3
      exact h4
    refine ⟨S.methods_typed, hact.2 H1, ?_, harm.2 H2, hidx H2, ?_, ?_, ?_, ?_, ?_, ?_⟩
    · intro s hs'
      obtain ⟨k, hk⟩ := List.getElem?_of_mem hs'
      obtain ⟨e, _, he⟩ := forall₂_getElem?' hst.structs hk
      unfold emitStruct at he
      replace he := Except.bind_eq_ok.1 he
      obtain ⟨st, _, he⟩ := he
      split at he
      · next n p k' hn _ hk' =>
        cases he
        obtain ⟨n0, e1, e2, e3, _⟩ := hs.nt' hn
        simp only
        rw [S.method_nt (S.types.num e.1 n0 k' e1 hk'), e3]
      · cases he
    · rw [hrel.action, hst.actionRows, hst.actionCols, hn]
      refine ⟨d1, hrow d1 fun q hq => ?_⟩
      obtain ⟨row, h1, h2, _⟩ := d6 q hq
      exact ⟨row, h1, h2⟩
    · rw [hrel.goto, hst.gotoRows, hst.gotoCols, hn, hs.nNonTerminals]
      refine ⟨d2, hrow d2 fun q hq => ?_⟩
      obtain ⟨row, h1, h2, _⟩ := d7 q hq
      exact ⟨row, h1, h2⟩
    · rw [hrel.semantic, hst.semanticLen, List.length_map]
    · rw [hrel.semantic]; exact fun n hn => hn
    · rw [hrel.expected, hst.expectedLen, hn, d3]
    · rw [hrel.terminalStrs, hst.terminalStrsLen, d4, hs.nTerminals]; rfl

end

/-! ## In terms of the user's definitions -/

section
variable {mkPath : String → X} {asts : List (AstNonTerminal X Ty)} {tokens : TokenEnum Ty}
  {g : Grammar X Ty} {nts ts : AMap String Nat}

omit [DecidableEq Ty] in
theorem find?_of_nodup' {α : Type} {l : List α} {f : α → String} (hn : (l.map f).Nodup) {a : α}
    {n : String} (ha : a ∈ l) (he : f a = n) : l.find? (fun x => f x = n) = some a := by
  subst he; exact find?_of_nodup hn ha

omit [DecidableEq Ty] in
theorem symbolTy_lowered (hl : Lowered mkPath asts tokens.conversions g nts ts)
    (hnd : (asts.map (·.name)).Nodup) {s : AstSymbol} {b : BoundSymbol}
    (h : LowersSym nts ts s b) : symbolTy asts tokens.conversions s = g.symTy tokens b.symbol := by
  unfold symbolTy
  rcases h.2 with ⟨n, i, h1, h2, h3⟩ | ⟨t, i, h1, h2, h3⟩
  · rw [h1, h3]
    obtain ⟨nt, a, h4, h5, h6, h7, _⟩ := hl.prods h2
    simp only [Grammar.symTy, h4, Option.map_some]
    have := find?_of_nodup' (f := fun x : AstNonTerminal X Ty => x.name) hnd h5 h6
    rw [this, h7]; rfl
  · rw [h1, h3]
    have h4 := (hl.tmap t i).1 h2
    rw [hl.terminals, List.getElem?_map] at h4
    obtain ⟨c, hc, h5⟩ := Option.map_eq_some_iff.1 h4
    simp only [Grammar.symTy, hc, Option.map_some]
    have := find?_of_nodup' (f := fun x : Conversion Ty => x.from_) hl.tnodup
      (List.mem_of_getElem? hc) h5
    rw [this]; rw [patternTypes_eq]; rfl

omit [DecidableEq Ty] in
theorem userScope_lowered (hl : Lowered mkPath asts tokens.conversions g nts ts)
    (hnd : (asts.map (·.name)).Nodup) {ss : List AstSymbol} {bs : List BoundSymbol}
    (h : List.Forall₂ (LowersSym nts ts) ss bs) :
    userScope asts tokens.conversions ss = gScope (g.symTy tokens) bs := by
  funext n
  induction h with
  | nil => rfl
  | @cons s b ss bs h1 _ ih =>
    unfold userScope gScope at ih ⊢
    rw [List.find?_cons, List.find?_cons, h1.boundName]
    by_cases hn : s.boundName = some n
    · simp only [hn, decide_true, Option.bind_some, h1.1, symbolTy_lowered hl hnd h1]
    · simp only [hn, decide_false]
      exact ih

omit [DecidableEq Ty] in
/-- The conditions on the lowered grammar are the conditions on the user's input. -/
theorem userTyped_iff (hl : Lowered mkPath asts tokens.conversions g nts ts)
    (hnd : (asts.map (·.name)).Nodup) (HasTy : Scope Ty → X → Ty → Prop)
    (S0 : Sig Ty) (tokTy : Ty)
    (hpath : ∀ Γ n b ty, Γ n = some (b, .one ty) → HasTy Γ (mkPath n) ty) :
    ((∀ e ∈ g.listing, ∀ n, g.nonTerminals[e.1]? = some n → "value_stack" ∉ e.2.2.binders ∧
        HasTy (gScope (g.symTy tokens) e.2.2.symbols) e.2.2.action n.returnTy) ∧
      ∀ c ∈ tokens.conversions, FitsTy S0 c.to tokTy) ↔
    UserTyped HasTy S0 tokTy asts tokens := by
  have huniq : ∀ {a d : AstNonTerminal X Ty}, a ∈ asts → d ∈ asts → a.name = d.name → a = d :=
    fun ha hd he => List.inj_on_of_nodup_map hnd ha hd he
  -- the lowered form of a user's production
  have hdown : ∀ d ∈ asts, ∀ p ∈ d.productions, ∃ e ∈ g.listing, ∃ n,
      g.nonTerminals[e.1]? = some n ∧ n.returnTy = d.typeDecl ∧ LowersProd nts ts p e.2.2 := by
    intro d hd p hp
    obtain ⟨j, hj⟩ := (hl.idx d.name).2 ⟨d, hd, rfl⟩
    obtain ⟨nt, a, h1, h2, h3, h4, _, h5⟩ := hl.prods hj
    have hmem : p ∈ userProds asts d.name :=
      List.mem_flatMap.2 ⟨d, List.mem_filter.2 ⟨hd, by simp⟩, hp⟩
    obtain ⟨k, hk⟩ := List.getElem?_of_mem hmem
    obtain ⟨pr, hpr, h6⟩ := forall₂_getElem? h5 hk
    refine ⟨(j, k, pr), ?_, nt, h1, ?_, h6⟩
    · have := (listing_aux g.nonTerminals 0).2 j k nt pr h1 hpr
      exact List.mem_of_getElem? (by simpa [Grammar.listing] using this)
    · rw [h4, huniq h2 hd h3]
  constructor
  · rintro ⟨H1, H2⟩
    refine ⟨?_, H2, ?_⟩
    · intro d hd p hp e he
      obtain ⟨x, hx, n, hn, hty, hlow⟩ := hdown d hd p hp
      have := (H1 x hx n hn).2
      rw [← userScope_lowered hl hnd hlow.1, hty] at this
      have h2 := hlow.2
      rw [he] at h2
      cases h2
      exact this
    · rintro ⟨d, hd, p, hp, s, hs, hsn⟩
      obtain ⟨x, hx, n, hn, hty, hlow⟩ := hdown d hd p hp
      refine (H1 x hx n hn).1 ?_
      obtain ⟨i, hi⟩ := List.getElem?_of_mem hs
      obtain ⟨bs, hbs, h4⟩ := forall₂_getElem? hlow.1 hi
      exact List.mem_filterMap.2 ⟨bs, List.mem_of_getElem? hbs, by rw [h4.boundName, hsn]⟩
  · intro H
    refine ⟨?_, H.patterns⟩
    intro e he nt hnt
    have hpr := mem_listing he
    unfold Grammar.getProduction? at hpr
    obtain ⟨nt', h1, h2⟩ := Option.bind_eq_some_iff.1 hpr
    rw [hnt] at h1; cases h1
    cases hp : nt.isPublic with
    | true =>
      obtain ⟨a, b, n', _, _, _, h6, h3, h4, _, h5, _⟩ := hl.pub hnt hp
      rw [h3] at h2
      have hw : e.2.2 = wrapperProd mkPath b := by
        have := List.mem_of_getElem? h2
        simpa using this
      rw [hw]
      refine ⟨by simp [Production.binders, wrapperProd], ?_⟩
      refine hpath _ _ false _ ?_
      simp [gScope, wrapperProd, Grammar.symTy, h4, h5, h6]
    | false =>
      by_cases hn : ∃ n, nts.get? n = some e.1
      · obtain ⟨n, hn⟩ := hn
        obtain ⟨nt', a, h3, h4, h5, h7, _, h6⟩ := hl.prods hn
        rw [hnt] at h3; cases h3
        obtain ⟨p, hp1, hp2⟩ := forall₂_getElem?' h6 h2
        have hp3 := List.mem_of_getElem? hp1
        unfold userProds at hp3
        obtain ⟨d, hd, hpd⟩ := List.mem_flatMap.1 hp3
        obtain ⟨hd1, hd2⟩ := List.mem_filter.1 hd
        have had : a = d := huniq h4 hd1 (by rw [h5]; simpa using (beq_iff_eq.1 hd2).symm)
        subst had
        have := H.actions a hd1 p hpd _ hp2.2
        rw [userScope_lowered hl hnd hp2.1, ← h7] at this
        refine ⟨?_, this⟩
        intro hv
        obtain ⟨b, hb, hb'⟩ := List.mem_filterMap.1 hv
        obtain ⟨i, hi⟩ := List.getElem?_of_mem hb
        obtain ⟨s, hs, h8⟩ := forall₂_getElem?' hp2.1 hi
        exact H.noStack ⟨a, hd1, p, hpd, s, List.mem_of_getElem? hs, by rw [← h8.boundName, hb']⟩
      · have := hl.priv hnt hp (fun n h => hn ⟨n, h⟩)
        rw [this] at h2
        simp at h2

end

end Parsegen
