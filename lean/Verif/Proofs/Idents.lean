import Verif.Spec.Idents
import Verif.Proofs.EmitNames
import Verif.Proofs.EmitCompiled

/-! # The identifiers the macro makes from text -/

namespace Parsegen

variable {A X Ty α β : Type}

/-! ## Strings -/

theorem IdentChars.isIdent_append {U : IdentChars} {s t : String} (hs : U.isIdent s = true)
    (ht : ∀ c ∈ t.toList, U.cont c = true) : U.isIdent (s ++ t) = true := by
  unfold IdentChars.isIdent at hs ⊢
  rw [String.toList_append]
  cases hl : s.toList with
  | nil => rw [hl] at hs; cases hs
  | cons c cs =>
    rw [hl] at hs
    simp only [Bool.and_eq_true, List.all_eq_true, List.cons_append, List.mem_append] at hs ⊢
    exact ⟨hs.1, fun x hx => hx.elim (hs.2 x) (ht x)⟩

theorem IdentChars.cont_of_mem {U : IdentChars} {s : String} (hs : U.isIdent s = true) :
    ∀ c ∈ s.toList, U.cont c = true := by
  unfold IdentChars.isIdent at hs
  intro c hc
  cases hl : s.toList with
  | nil => rw [hl] at hc; cases hc
  | cons d cs =>
    rw [hl] at hs hc
    simp only [Bool.and_eq_true, List.all_eq_true] at hs
    rcases List.mem_cons.1 hc with rfl | hc
    · exact U.start_cont _ hs.1
    · exact hs.2 c hc

theorem IdentChars.not_hash {U : IdentChars} {s : String} (h : '#' ∈ s.toList) :
    U.isIdent s = false := by
  cases hs : U.isIdent s with
  | false => rfl
  | true => have := U.cont_of_mem hs _ h; rw [U.hash] at this; cases this

theorem IsRaw.hash {U : IdentChars} {s : String} (h : IsRaw U s) : '#' ∈ s.toList := by
  obtain ⟨t, _, rfl⟩ := h
  rw [String.toList_append]
  have : "r#".toList = ['r', '#'] := by decide
  simp [this]

/-- ASCII characters of identifiers. -/
theorem IdentChars.cont_ascii {U : IdentChars} {c : Char} (h : (c.isAlphanum || c == '_') = true) :
    U.cont c = true := by
  simp only [Bool.or_eq_true, Char.isAlphanum, beq_iff_eq] at h
  rcases h with (h | h) | rfl
  · exact U.start_cont _ (U.alpha _ h)
  · exact U.digit _ h
  · exact U.start_cont _ U.underscore

theorem IdentChars.isIdent_ascii {U : IdentChars} {s : String} (h : asciiIdent.isIdent s = true) :
    U.isIdent s = true := by
  unfold IdentChars.isIdent at h ⊢
  cases hl : s.toList with
  | nil => rw [hl] at h; cases h
  | cons c cs =>
    rw [hl] at h
    simp only [Bool.and_eq_true, List.all_eq_true, asciiIdent, Bool.or_eq_true, beq_iff_eq] at h ⊢
    refine ⟨?_, fun x hx => U.cont_ascii ?_⟩
    · rcases h.1 with h | rfl
      · exact U.alpha _ h
      · exact U.underscore
    · simpa using h.2 x hx

theorem isIdent_num {U : IdentChars} {s : String} (hs : asciiIdent.isIdent s = true) (n : Nat) :
    U.isIdent (s ++ toString n) = true :=
  IdentChars.isIdent_append (IdentChars.isIdent_ascii hs)
    fun c hc => U.digit c (toString_nat_digits n c hc)

theorem isIdent_suffix {U : IdentChars} {s : String} (hs : U.isIdent s = true) :
    U.isIdent (s ++ "_terminal_idx") = true := by
  refine IdentChars.isIdent_append hs fun c hc => U.cont_ascii ?_
  have : ∀ c ∈ "_terminal_idx".toList, (c.isAlphanum || c == '_') = true := by decide
  exact this c hc

theorem isIdent_actionFnName (U : IdentChars) (i j : Nat) : U.isIdent (actionFnName i j) = true := by
  unfold actionFnName
  refine IdentChars.isIdent_append (IdentChars.isIdent_append (IdentChars.isIdent_append
    (isIdent_num (by decide) i) ?_) ?_) ?_
  · intro c hc
    have : ∀ c ∈ "p".toList, (c.isAlphanum || c == '_') = true := by decide
    exact U.cont_ascii (this c hc)
  · exact fun c hc => U.digit c (toString_nat_digits j c hc)
  · intro c hc
    have : ∀ c ∈ "_action".toList, (c.isAlphanum || c == '_') = true := by decide
    exact U.cont_ascii (this c hc)

theorem isIdent_fieldIdent (U : IdentChars) (i : Nat) : U.isIdent (fieldIdent i) = true :=
  isIdent_num (by decide) i

/-! ## The names the macro makes up are identifiers -/

/-- All of these are identifiers. -/
def AllIdents (U : IdentChars) (l : List String) : Prop := ∀ s ∈ l, U.isIdent s = true

theorem identsNew_ok {U : IdentChars} {l : List String} (h : AllIdents U l) :
    identsNew U l = .ok () := by
  induction l with
  | nil => rfl
  | cons s l ih =>
    unfold identsNew identNew
    rw [h s (by simp), ih fun x hx => h x (by simp [hx])]
    rfl

theorem emitNts_idents [DecidableEq Ty] (U : IdentChars) (tys : List Ty) (seen : AMap Ty Nat) (i : Nat) :
    ∀ e ∈ (emitNts tys seen i).1, U.isIdent e.1.name = true ∧ U.isIdent e.2.name = true ∧
      AllIdents U e.2.ids := by
  induction tys generalizing seen i with
  | nil => simp [emitNts]
  | cons ty tys ih =>
    unfold emitNts
    cases seen.get? ty with
    | some k => exact ih seen i
    | none =>
      intro e he
      rcases List.mem_cons.1 he with rfl | he
      · refine ⟨isIdent_num (by decide) _, isIdent_num (by decide) _, ?_⟩
        intro s hs
        simp only [emitNt, List.mem_singleton] at hs
        subst hs
        exact IdentChars.isIdent_ascii (by decide)
      · exact ih _ _ e he

theorem resultTypeIdents_ok [DecidableEq Ty] (U : IdentChars) (g : Grammar A Ty)
    (convs : List (Conversion Ty)) :
    AllIdents U (resultTypeIdents (emitResultType g convs).1 (emitResultType g convs).2.1) := by
  have key : ∀ e ∈ (convs.zipIdx.map fun e => emitToken e.2 e.1) ++
      (emitNts (g.nonTerminals.map (·.returnTy)) [] 0).1,
      U.isIdent e.1.name = true ∧ U.isIdent e.2.name = true ∧ AllIdents U e.2.ids := by
    intro e he
    rcases List.mem_append.1 he with he | he
    · obtain ⟨x, _, rfl⟩ := List.mem_map.1 he
      refine ⟨isIdent_num (by decide) _, isIdent_num (by decide) _, ?_⟩
      intro s hs
      simp only [emitToken, List.mem_map] at hs
      obtain ⟨n, _, rfl⟩ := hs
      exact isIdent_fieldIdent U n
    · exact emitNts_idents U _ _ _ e he
  intro s hs
  unfold resultTypeIdents emitResultType at hs
  simp only [List.map_map, List.mem_cons, List.mem_append, List.mem_map, List.mem_flatMap] at hs
  rcases hs with rfl | ⟨e, he, rfl⟩ | ⟨m, ⟨e, he, rfl⟩, hs⟩
  · exact IdentChars.isIdent_ascii (by decide)
  · exact (key e (by simpa using he)).1
  · have := key e (by simpa using he)
    rcases hs with rfl | hs
    · exact this.2.1
    · exact this.2.2 s hs

theorem emitStmt_idents (U : IdentChars) {variants : List Nat} {s : BoundSymbol} {st : EStmt}
    (h : emitStmt variants s = .ok st) : AllIdents U st.idents := by
  unfold emitStmt at h
  split at h
  · cases h; simp [AllIdents, EStmt.idents]
  · replace h := Except.bind_eq_ok.1 h
    obtain ⟨m, h1, h⟩ := h
    cases h
    intro x hx
    simp only [EStmt.idents, List.mem_singleton] at hx
    subst hx
    unfold emitExtract at h1
    split at h1
    · cases h1; exact isIdent_num (by decide) _
    · split at h1
      · cases h1
      · cases h1; exact isIdent_num (by decide) _

/-- The identifiers of an action function. -/
theorem emitProduction_idents (U : IdentChars) {variants : List Nat} {nt p : Nat} {pr : Production X}
    {decls : List (EActionFn X)} {r} (h : emitProduction variants nt p pr decls = .ok r)
    (hd : AllIdents U (actionIdents decls)) : AllIdents U (actionIdents r.2) := by
  unfold emitProduction at h
  replace h := Except.bind_eq_ok.1 h
  obtain ⟨stmts, h1, h⟩ := h
  split at h
  · cases h
  · replace h := Except.bind_eq_ok.1 h
    obtain ⟨idx, _, h⟩ := h
    cases h
    intro s hs
    simp only [actionIdents, List.flatMap_append, List.mem_append] at hs
    rcases hs with hs | hs
    · exact hd s hs
    · simp only [List.flatMap_cons, List.flatMap_nil, List.append_nil, List.mem_append,
        List.mem_flatMap, List.mem_cons, List.not_mem_nil, or_false] at hs
      rcases hs with ⟨st, hst, hs⟩ | rfl | rfl
      · obtain ⟨i, hi⟩ := List.getElem?_of_mem hst
        obtain ⟨b, _, hb⟩ := forall₂_getElem?' (mapM_ok_iff.1 h1) hi
        exact emitStmt_idents U hb s hs
      · exact isIdent_actionFnName U _ _
      · exact isIdent_num (by decide) _

theorem emitProductions_idents (U : IdentChars) {variants : List Nat} {nt p : Nat}
    {prs : List (Production X)} {decls : List (EActionFn X)} {r}
    (h : emitProductions variants nt p prs decls = .ok r)
    (hd : AllIdents U (actionIdents decls)) : AllIdents U (actionIdents r.2) := by
  induction prs generalizing p decls r with
  | nil => cases h; exact hd
  | cons pr prs ih =>
    unfold emitProductions at h
    replace h := Except.bind_eq_ok.1 h
    obtain ⟨⟨pr', d'⟩, h1, h⟩ := h
    replace h := Except.bind_eq_ok.1 h
    obtain ⟨⟨ps, d''⟩, h2, h⟩ := h
    cases h
    exact ih (r := (ps, d'')) h2 (emitProduction_idents U h1 hd)

theorem emitNonTerminals_idents (U : IdentChars) {variants : List Nat} {nt : Nat}
    {ns : List (NonTerminal X Ty)} {decls : List (EActionFn X)} {r}
    (h : emitNonTerminals variants nt ns decls = .ok r)
    (hd : AllIdents U (actionIdents decls)) : AllIdents U (actionIdents r.2) := by
  induction ns generalizing nt decls r with
  | nil => cases h; exact hd
  | cons n ns ih =>
    unfold emitNonTerminals at h
    replace h := Except.bind_eq_ok.1 h
    obtain ⟨⟨ps, d'⟩, h1, h⟩ := h
    replace h := Except.bind_eq_ok.1 h
    obtain ⟨⟨ns', d''⟩, h2, h⟩ := h
    cases h
    exact ih (r := (ns', d'')) h2 (emitProductions_idents U h1 hd)

theorem emitSemanticTable_idents (U : IdentChars) {g : Grammar X Ty} {variants : List Nat} {r}
    (h : emitSemanticTable g variants = .ok r) : AllIdents U (actionIdents r.1) := by
  unfold emitSemanticTable at h
  replace h := Except.bind_eq_ok.1 h
  obtain ⟨⟨ns, ds⟩, h1, h⟩ := h
  cases h
  exact emitNonTerminals_idents U h1 (by simp [AllIdents, actionIdents])

theorem valueIdents_ok (U : IdentChars) (tokens : TokenEnum Ty) : AllIdents U (valueIdents tokens) := by
  intro s hs
  simp only [valueIdents, emitValueArms, List.mem_cons, List.mem_flatMap, List.mem_map] at hs
  rcases hs with rfl | ⟨a, ⟨e, _, rfl⟩, hs⟩
  · exact IdentChars.isIdent_ascii (by decide)
  · simp only [List.mem_map] at hs
    rcases hs with rfl | ⟨n, _, rfl⟩
    · exact isIdent_num (by decide) _
    · exact isIdent_fieldIdent U n

/-! ## With and without the checks -/

/-- The program with the calls of `Ident::new` does the same as without, unless one of them panics,
with a string of which `B` holds. -/
inductive Checks (B : String → Prop) : Except IdentFault α → Except Fault α → Prop
  | ok (a : α) : Checks B (.ok a) (.ok a)
  | gen (f : Fault) : Checks B (.error (.gen f)) (.error f)
  | ident (s : String) (d : Except Fault α) (h : B s) : Checks B (.error (.ident s)) d

variable {B : String → Prop}

theorem Checks.plainly (d : Except Fault α) : Checks B (plainly d) d := by
  cases d with
  | ok a => exact .ok a
  | error f => exact .gen f

theorem Checks.bind {c : Except IdentFault α} {d : Except Fault α} {f : α → Except IdentFault β}
    {k : α → Except Fault β} (h : Checks B c d) (hf : ∀ a, d = .ok a → Checks B (f a) (k a)) :
    Checks B (c >>= f) (d >>= k) := by
  cases h with
  | ok a => exact hf a rfl
  | gen e => exact .gen e
  | ident s d h => exact .ident s _ h

theorem Checks.idents {U : IdentChars} {l : List String} {f : Unit → Except IdentFault β}
    {k : Except Fault β} (hl : ∀ s ∈ l, U.isIdent s = false → B s) (hf : Checks B (f ()) k) :
    Checks B (identsNew U l >>= f) k := by
  induction l with
  | nil => exact hf
  | cons s l ih =>
    unfold identsNew identNew
    cases hs : U.isIdent s with
    | true => exact ih fun x hx => hl x (by simp [hx])
    | false => exact .ident s _ (hl s (by simp) hs)

theorem Checks.fixed {U : IdentChars} {l : List String} {f : Unit → Except IdentFault β}
    {k : Except Fault β} (hl : AllIdents U l) (hf : Checks B (f ()) k) :
    Checks B (identsNew U l >>= f) k :=
  .idents (fun s hs h => by rw [hl s hs] at h; cases h) hf

theorem Checks.mapM {γ : Type} {f : γ → Except IdentFault β} {k : γ → Except Fault β} {l : List γ}
    (h : ∀ a ∈ l, Checks B (f a) (k a)) : Checks B (l.mapM f) (l.mapM k) := by
  induction l with
  | nil => exact .ok []
  | cons a l ih =>
    rw [List.mapM_cons, List.mapM_cons]
    refine (h a (by simp)).bind fun b _ => ?_
    refine (ih fun x hx => h x (by simp [hx])).bind fun bs _ => ?_
    exact .ok _

theorem emitStructI_checks (U : IdentChars) (g : Grammar Nat Ty) (variants : List Nat) (e : Nat × Nat)
    (hB : ∀ n, g.getNonTerminal? e.1 = some n → U.isIdent n.name = false → B n.name) :
    Checks B (emitStructI U g variants e) (emitStruct g variants e) := by
  unfold emitStructI emitStruct
  refine (Checks.plainly _).bind fun st _ => ?_
  cases hn : g.getNonTerminal? e.1 with
  | none => exact .gen _
  | some n =>
    simp only
    unfold identNew
    cases hs : U.isIdent n.name with
    | false => exact .ident _ _ (hB n hn hs)
    | true =>
      cases g.getProduction? e.1 0 with
      | none => exact .gen _
      | some p =>
        cases variants[e.1]? with
        | none => exact .gen _
        | some k =>
          have : U.isIdent (ntMethod k) = true := isIdent_num (by decide) _
          simp only [this]
          exact .ok _

theorem emitParserI_checks [DecidableEq Ty] (U : IdentChars) (h : HashOrder) (lc : String → String)
    (g : Grammar X Ty) (tokens : TokenEnum Ty)
    (hB : ∀ s, U.isIdent s = false → (s = lc tokens.typeName ++ "_terminal_idx" ∨
      ∃ a, generateAutomaton h g (generateFirstTable h g) = .ok a ∧
      ∃ e ∈ a.entries, ∃ n, g.nonTerminals[e.1]? = some n ∧ n.name = s) → B s) :
    Checks B (emitParserI U h lc g tokens) (emitParser h lc g tokens) := by
  unfold emitParserI emitParser
  refine (Checks.plainly _).bind fun auto ha => ?_
  have hr := resultTypeIdents_ok U g tokens.conversions
  generalize emitResultType g tokens.conversions = r at hr
  obtain ⟨vs, ms, nums⟩ := r
  refine Checks.fixed hr ?_
  refine (Checks.plainly _).bind fun fg hfg => ?_
  obtain ⟨fns, g'⟩ := fg
  refine Checks.fixed (emitSemanticTable_idents U hfg) ?_
  refine (Checks.plainly _).bind fun table _ => ?_
  refine (Checks.plainly _).bind fun action _ => ?_
  refine (Checks.plainly _).bind fun gotoVec _ => ?_
  refine (Checks.plainly _).bind fun goto _ => ?_
  refine Checks.idents ?_ ?_
  · intro s hs hi
    simp only [idxIdents, List.mem_cons, List.not_mem_nil, or_false] at hs
    rcases hs with rfl | rfl
    · exact hB _ hi (.inl rfl)
    · have : U.isIdent "token" = true := IdentChars.isIdent_ascii (by decide)
      rw [this] at hi; cases hi
  refine Checks.fixed (valueIdents_ok U tokens) ?_
  refine (Checks.mapM fun e he => emitStructI_checks U g' nums e ?_).bind fun structs _ => ?_
  · intro n hn hi
    refine hB _ hi (.inr ⟨auto, ha, e, (h.perm _).mem_iff.1 he, ?_⟩)
    obtain ⟨⟨fns', g''⟩, h1, _, rfl⟩ := (emitSemanticTable_rel g nums).left hfg
    obtain ⟨n0, e1, e2, _⟩ := (generateSemanticActionTable_ok h1).1.nt' hn
    exact ⟨n0, e1, e2.symm⟩
  · exact .ok _

theorem identsNew_iff {U : IdentChars} {l : List String} {u : Unit} :
    identsNew U l = .ok u ↔ AllIdents U l := by
  refine ⟨fun h => ?_, identsNew_ok⟩
  induction l with
  | nil => simp [AllIdents]
  | cons s l ih =>
    unfold identsNew identNew at h
    cases hs : U.isIdent s with
    | false => rw [hs] at h; cases h
    | true =>
      rw [hs] at h
      intro x hx
      rcases List.mem_cons.1 hx with rfl | hx
      · exact hs
      · exact ih h x hx

theorem bind_ok {ε : Type} {c : Except ε α} {f : α → Except ε β} {b : β}
    (h : (c >>= f) = .ok b) : ∃ a, c = .ok a ∧ f a = .ok b := by
  cases c with
  | error e => cases h
  | ok a => exact ⟨a, rfl, h⟩

theorem mapM_ok_mem {γ ε : Type} {f : γ → Except ε β} {l : List γ} {r : List β}
    (h : l.mapM f = .ok r) : ∀ b ∈ r, ∃ a ∈ l, f a = .ok b := by
  induction l generalizing r with
  | nil => cases h; simp
  | cons a l ih =>
    rw [List.mapM_cons] at h
    obtain ⟨b, h1, h⟩ := bind_ok h
    obtain ⟨bs, h2, h⟩ := bind_ok h
    cases h
    intro x hx
    rcases List.mem_cons.1 hx with rfl | hx
    · exact ⟨a, by simp, h1⟩
    · obtain ⟨y, hy, hy'⟩ := ih h2 x hx
      exact ⟨y, by simp [hy], hy'⟩

theorem emitStructI_name {U : IdentChars} {g : Grammar Nat Ty} {variants : List Nat} {e : Nat × Nat}
    {s : EStruct Ty} (h : emitStructI U g variants e = .ok s) : U.isIdent s.name = true := by
  unfold emitStructI at h
  obtain ⟨st, _, h⟩ := bind_ok h
  split at h
  · cases h
  · next n _ =>
    obtain ⟨_, h1, h⟩ := bind_ok h
    have : U.isIdent n.name = true := by
      unfold identNew at h1
      cases hs : U.isIdent n.name with
      | true => rfl
      | false => rw [hs] at h1; cases h1
    split at h
    · obtain ⟨_, _, h⟩ := bind_ok h
      cases h
      exact this
    · cases h

/-- If the macro accepts then the names of the parsers and of the token function are identifiers. -/
theorem emitParserI_ok [DecidableEq Ty] {U : IdentChars} {h : HashOrder} {lc : String → String}
    {g : Grammar X Ty} {tokens : TokenEnum Ty} {m : EModule X Ty}
    (hm : emitParserI U h lc g tokens = .ok m) :
    U.isIdent (lc tokens.typeName ++ "_terminal_idx") = true ∧
      ∀ s ∈ m.structs, U.isIdent s.name = true := by
  unfold emitParserI at hm
  obtain ⟨_, _, hm⟩ := bind_ok hm
  obtain ⟨_, _, hm⟩ := bind_ok hm
  obtain ⟨⟨_, _⟩, _, hm⟩ := bind_ok hm
  obtain ⟨_, _, hm⟩ := bind_ok hm
  obtain ⟨_, _, hm⟩ := bind_ok hm
  obtain ⟨_, _, hm⟩ := bind_ok hm
  obtain ⟨_, _, hm⟩ := bind_ok hm
  obtain ⟨_, _, hm⟩ := bind_ok hm
  obtain ⟨_, h1, hm⟩ := bind_ok hm
  obtain ⟨_, _, hm⟩ := bind_ok hm
  obtain ⟨structs, h2, hm⟩ := bind_ok hm
  cases hm
  refine ⟨identsNew_iff.1 h1 _ (by simp [idxIdents]), fun s hs => ?_⟩
  obtain ⟨e, _, he⟩ := mapM_ok_mem h2 s hs
  exact emitStructI_name he

end Parsegen
