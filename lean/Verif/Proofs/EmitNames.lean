import Verif.Proofs.Emit
import Verif.Proofs.Tokens
import Verif.Spec.EmitNames
import Verif.Props.Entries
import Verif.Props.Codegen
import Mathlib.Data.List.Nodup

/-! # Names of the emitted items -/

namespace Parsegen

variable {A X Ty : Type}

/-! ## Strings -/

theorem toString_nat_inj {m n : Nat} (h : toString m = toString n) : m = n := by
  have h2 : m.repr.toList = n.repr.toList := congrArg String.toList h
  rw [Nat.toList_repr, Nat.toList_repr] at h2
  have := congrArg (fun l => Nat.ofDigitChars 10 l 0) h2
  simpa using this

theorem prefixed_inj {p : String} {m n : Nat} (h : p ++ toString m = p ++ toString n) : m = n := by
  have := congrArg String.toList h
  simp only [String.toList_append] at this
  exact toString_nat_inj (String.toList_inj.1 (List.append_cancel_left this))

theorem toString_nat_digits (n : Nat) : ∀ c ∈ (toString n).toList, c.isDigit = true := by
  intro c hc
  have : (toString n).toList = n.repr.toList := rfl
  rw [this, Nat.toList_repr] at hc
  exact Nat.isDigit_of_mem_toDigits (b := 10) (by omega) (by omega) hc

theorem split_unique {a a' b b' : List Char} {x : Char} (ha : x ∉ a) (ha' : x ∉ a')
    (h : a ++ x :: b = a' ++ x :: b') : a = a' ∧ b = b' := by
  induction a generalizing a' with
  | nil =>
    cases a' with
    | nil => exact ⟨rfl, by simpa using h⟩
    | cons y a' => simp at h; exact absurd h.1 (fun e => ha' (by simp [e]))
  | cons z a ih =>
    cases a' with
    | nil => simp at h; exact absurd h.1 (fun e => ha (by simp [e]))
    | cons y a' =>
      simp only [List.cons_append, List.cons.injEq] at h
      obtain ⟨h1, h2⟩ := ih (by simp at ha; exact ha.2) (by simp at ha'; exact ha'.2) h.2
      exact ⟨by rw [h.1, h1], h2⟩

theorem actionFnName_inj {i j i' j' : Nat} (h : actionFnName i j = actionFnName i' j') :
    i = i' ∧ j = j' := by
  have h1 := congrArg String.toList h
  simp only [actionFnName, String.toList_append, List.append_assoc] at h1
  have h2 := List.append_cancel_left h1
  have hp : "p".toList = ['p'] := by decide
  rw [hp] at h2
  have hd : ∀ n : Nat, 'p' ∉ (toString n).toList := by
    intro n hn
    exact absurd (toString_nat_digits n _ hn) (by decide)
  obtain ⟨h3, h4⟩ := split_unique (hd i) (hd i') h2
  exact ⟨toString_nat_inj (String.toList_inj.1 h3),
    toString_nat_inj (String.toList_inj.1 (List.append_cancel_right h4))⟩

theorem actionFnName_head (i j : Nat) : ∃ c l, (actionFnName i j).toList = 'n' :: 't' :: c :: l ∧
    c.isDigit = true := by
  have h : (actionFnName i j).toList =
      'n' :: 't' :: ((toString i).toList ++ ("p" ++ toString j ++ "_action").toList) := by
    simp [actionFnName, String.toList_append]
  cases hi : (toString i).toList with
  | nil =>
    exfalso
    have : (toString i).toList = i.repr.toList := rfl
    rw [this, Nat.toList_repr] at hi
    exact Nat.toDigits_ne_nil hi
  | cons c l =>
    refine ⟨c, _, by rw [h, hi]; rfl, toString_nat_digits i c (by rw [hi]; simp)⟩

theorem getLast?_suffix {s t : String} {c : Char} (h : t.toList.getLast? = some c) :
    (s ++ t).toList.getLast? = some c := by
  rw [String.toList_append, List.getLast?_append, h]; rfl

theorem actionFnName_last (i j : Nat) : (actionFnName i j).toList.getLast? = some 'n' :=
  getLast?_suffix (by decide)

/-! ## Variants and methods -/

theorem emitNts_spec [DecidableEq Ty] (tys : List Ty) (seen : AMap Ty Nat) (i : Nat) :
    ∃ us : List Ty, (emitNts tys seen i).1 = (us.zipIdx i).map (fun e => emitNt e.2 e.1) ∧
      us.Nodup ∧ (∀ t, t ∈ us ↔ t ∈ tys ∧ seen.get? t = none) ∧
      List.Forall₂ (fun ty k => seen.get? ty = some k ∨ (i ≤ k ∧ us[k - i]? = some ty)) tys
        (emitNts tys seen i).2 := by
  induction tys generalizing seen i with
  | nil => exact ⟨[], rfl, by simp, by simp, .nil⟩
  | cons ty tys ih =>
    unfold emitNts
    cases hs : seen.get? ty with
    | some k =>
      obtain ⟨us, h1, h2, h3, h4⟩ := ih seen i
      refine ⟨us, h1, h2, ?_, .cons (.inl hs) h4⟩
      intro t
      rw [h3]
      constructor
      · rintro ⟨a, b⟩; exact ⟨by simp [a], b⟩
      · rintro ⟨a, b⟩
        rcases List.mem_cons.1 a with rfl | a
        · rw [hs] at b; cases b
        · exact ⟨a, b⟩
    | none =>
      obtain ⟨us, h1, h2, h3, h4⟩ := ih (seen.insert ty i) (i + 1)
      have hmem : ∀ t, t ∈ us ↔ t ∈ tys ∧ t ≠ ty ∧ seen.get? t = none := by
        intro t
        rw [h3, AMap.get?_insert]
        by_cases ht : ty = t
        · subst ht; simp
        · simp only [ht, if_false]
          constructor
          · rintro ⟨a, b⟩; exact ⟨a, fun e => ht e.symm, b⟩
          · rintro ⟨a, _, b⟩; exact ⟨a, b⟩
      refine ⟨ty :: us, ?_, ?_, ?_, ?_⟩
      · simp only [h1, List.zipIdx_cons, List.map_cons]
      · refine List.nodup_cons.2 ⟨fun h => ((hmem ty).1 h).2.1 rfl, h2⟩
      · intro t
        rw [List.mem_cons, List.mem_cons, hmem]
        constructor
        · rintro (rfl | ⟨a, _, b⟩)
          · exact ⟨.inl rfl, hs⟩
          · exact ⟨.inr a, b⟩
        · rintro ⟨a, b⟩
          by_cases ht : t = ty
          · exact .inl ht
          · rcases a with a | a
            · exact .inl a
            · exact .inr ⟨a, ht, b⟩
      · refine .cons (.inr ⟨Nat.le_refl _, by simp⟩) ?_
        refine h4.imp fun t k hk => ?_
        rcases hk with hk | ⟨hk1, hk2⟩
        · rw [AMap.get?_insert] at hk
          split at hk
          · next e => subst e; cases hk; exact .inr ⟨Nat.le_refl _, by simp⟩
          · exact .inl hk
        · refine .inr ⟨by omega, ?_⟩
          have : k - i = (k - (i + 1)) + 1 := by omega
          rw [this, List.getElem?_cons_succ]; exact hk2

/-- The distinct types of the non-terminals in order of first occurrence; variant `NonTerminal<k>` is
for the `k`-th. -/
structure NtTypes [DecidableEq Ty] (g : Grammar A Ty) (convs : List (Conversion Ty))
    (us : List Ty) : Prop where
  variants : (emitResultType g convs).1 =
    (convs.zipIdx.map fun e => (⟨tokenVariant e.2, patternTypes e.1.to⟩ : EVariant Ty)) ++
      us.zipIdx.map fun e => ⟨ntVariant e.2, [e.1]⟩
  methods : (emitResultType g convs).2.1 =
    (convs.zipIdx.map fun e => (emitToken e.2 e.1).2) ++ us.zipIdx.map fun e => (emitNt e.2 e.1).2
  nodup : us.Nodup
  mem : ∀ t, t ∈ us ↔ t ∈ g.nonTerminals.map (·.returnTy)
  num : ∀ (i : Nat) n k, g.nonTerminals[i]? = some n → (semanticActionVariants g)[i]? = some k →
    us[k]? = some n.returnTy

theorem ntTypes [DecidableEq Ty] (g : Grammar A Ty) (convs : List (Conversion Ty)) :
    ∃ us, NtTypes g convs us := by
  obtain ⟨us, h1, h2, h3, h4⟩ := emitNts_spec (g.nonTerminals.map (·.returnTy)) [] 0
  refine ⟨us, ?_, ?_, h2, by simpa using h3, ?_⟩
  · simp only [emitResultType, h1, List.map_append, List.map_map]
    rfl
  · simp only [emitResultType, h1, List.map_append, List.map_map]
    rfl
  · intro i n k hn hk
    rw [← emitResultType_nums g convs] at hk
    have hn' : (g.nonTerminals.map (·.returnTy))[i]? = some n.returnTy := by simp [hn]
    obtain ⟨k', e1, e2⟩ := forall₂_getElem? h4 hn'
    have : (emitResultType g convs).2.2 = (emitNts (g.nonTerminals.map (·.returnTy)) [] 0).2 := rfl
    rw [this, e1] at hk
    cases hk
    simpa using e2

theorem tokenVariant_ne_ntVariant (i k : Nat) : tokenVariant i ≠ ntVariant k := by
  intro h
  have := congrArg String.toList h
  simp only [tokenVariant, ntVariant, String.toList_append] at this
  have e1 : "Token".toList = 'T' :: "oken".toList := by decide
  have e2 : "NonTerminal".toList = 'N' :: "onTerminal".toList := by decide
  rw [e1, e2] at this
  simp at this

theorem tokenMethod_ne_ntMethod (i k : Nat) : tokenMethod i ≠ ntMethod k := by
  intro h
  have := congrArg String.toList h
  simp only [tokenMethod, ntMethod, String.toList_append] at this
  have e1 : "token_".toList = 't' :: "oken_".toList := by decide
  have e2 : "non_terminal_".toList = 'n' :: "on_terminal_".toList := by decide
  rw [e1, e2] at this
  simp at this

theorem nodup_zipIdx_map {α β : Type} (l : List α) (i : Nat) (f : Nat → β)
    (hf : ∀ a b, f a = f b → a = b) : ((l.zipIdx i).map fun e => f e.2).Nodup := by
  have : (l.zipIdx i).map (fun e => f e.2) = (List.range' i l.length).map f := by
    rw [← List.zipIdx_map_snd i l, List.map_map]; rfl
  rw [this]
  exact List.Nodup.map (fun a b h => hf a b h) List.nodup_range'

section
variable [DecidableEq Ty] {g : Grammar A Ty} {convs : List (Conversion Ty)} {us : List Ty}

theorem NtTypes.variants_nodup (hu : NtTypes g convs us) :
    ((emitResultType g convs).1.map (·.name)).Nodup := by
  rw [hu.variants, List.map_append, List.map_map, List.map_map]
  refine List.nodup_append.2 ⟨?_, ?_, ?_⟩
  · exact nodup_zipIdx_map convs 0 tokenVariant fun a b h => prefixed_inj h
  · exact nodup_zipIdx_map us 0 ntVariant fun a b h => prefixed_inj h
  · intro a ha b hb e
    obtain ⟨x, _, rfl⟩ := List.mem_map.1 ha
    obtain ⟨y, _, rfl⟩ := List.mem_map.1 hb
    exact tokenVariant_ne_ntVariant _ _ e

theorem NtTypes.methods_nodup (hu : NtTypes g convs us) :
    ((emitResultType g convs).2.1.map (·.name)).Nodup := by
  rw [hu.methods, List.map_append, List.map_map, List.map_map]
  refine List.nodup_append.2 ⟨?_, ?_, ?_⟩
  · exact nodup_zipIdx_map convs 0 tokenMethod fun a b h => prefixed_inj h
  · exact nodup_zipIdx_map us 0 ntMethod fun a b h => prefixed_inj h
  · intro a ha b hb e
    obtain ⟨x, _, rfl⟩ := List.mem_map.1 ha
    obtain ⟨y, _, rfl⟩ := List.mem_map.1 hb
    exact tokenMethod_ne_ntMethod _ _ e

end

theorem find?_of_nodup {α : Type} {l : List α} {f : α → String} (hn : (l.map f).Nodup) {a : α}
    (ha : a ∈ l) : l.find? (fun x => f x = f a) = some a := by
  induction l with
  | nil => simp at ha
  | cons b l ih =>
    rw [List.find?_cons]
    simp only [List.map_cons, List.nodup_cons] at hn
    rcases List.mem_cons.1 ha with rfl | ha
    · simp
    · have : f b ≠ f a := fun e => hn.1 (by rw [e]; exact List.mem_map_of_mem ha)
      simp only [this, decide_false]
      exact ih hn.2 ha

/-! ## The structs -/

section
variable [DecidableEq Ty] {h : HashOrder} {lc : String → String} {g : Grammar X Ty}
  {tokens : TokenEnum Ty} {m : EModule X Ty}

/-- One struct per `pub` non-terminal, with its name and type. -/
theorem structs_perm (hwf : g.WF) (hm : emitParser h lc g tokens = .ok m) :
    (m.structs.map fun s => (s.name, s.ret)).Perm
      ((g.nonTerminals.filter (·.isPublic)).map fun n => (n.name, n.returnTy)) := by
  obtain ⟨a, g', T, hst⟩ := emitParser_stages hm
  obtain ⟨a', ha', has⟩ := generateAutomaton_spec hwf (generateFirstTable_ok hwf h) h
  rw [hst.auto] at ha'; cases ha'
  obtain ⟨⟨fns, g2⟩, hsem, _, hg2⟩ := (emitSemanticTable_rel g (semanticActionVariants g)).left hst.sem
  simp only at hg2
  subst hg2
  have hs := (generateSemanticActionTable_ok hsem).1
  have h1 : m.structs.map (fun s => some (s.name, s.ret)) =
      (h.iter a.entries).map (fun e => (g.nonTerminals[e.1]?).map fun n => (n.name, n.returnTy)) := by
    have key : ∀ {l : List (Nat × Nat)} {es : List (EStruct Ty)},
        List.Forall₂ (fun e s => emitStruct g' (semanticActionVariants g) e = .ok s) l es →
        es.map (fun s => some (s.name, s.ret)) =
          l.map (fun e => (g.nonTerminals[e.1]?).map fun n => (n.name, n.returnTy)) := by
      intro l es hl
      induction hl with
      | nil => rfl
      | @cons e ep _ _ he _ ih =>
        rw [List.map_cons, List.map_cons, ih]
        congr 1
        unfold emitStruct at he
        replace he := Except.bind_eq_ok.1 he
        obtain ⟨st, _, he⟩ := he
        split at he
        · next n p k hn _ _ =>
          cases he
          obtain ⟨n0, e1, e2, e3, _⟩ := hs.nt' hn
          rw [e1]; simp [e2, e3]
        · cases he
    exact key hst.structs
  have h2 : (a.entries.map (·.1)).Perm
      ((List.range g.nonTerminals.length).filter fun i => (g.nonTerminals[i]?).any (·.isPublic)) := by
    refine (List.perm_ext_iff_of_nodup has.ent_nodup (List.nodup_range.filter _)).2 fun E => ?_
    rw [← AMap.get?_isSome_iff, has.ent_dom, List.mem_filter, List.mem_range]
    unfold Grammar.isPublic
    cases hE : g.nonTerminals[E]? with
    | none => simp
    | some n => simp [(List.getElem?_eq_some_iff.1 hE).1]
  have h3 : (m.structs.map (fun s => some (s.name, s.ret))).Perm
      ((g.nonTerminals.filter (·.isPublic)).map (fun n => some (n.name, n.returnTy))) := by
    rw [h1, ← filter_range_map]
    have := ((h.perm a.entries).map (·.1)).trans h2
    have := this.map (fun i => (g.nonTerminals[i]?).map fun n => (n.name, n.returnTy))
    rwa [List.map_map] at this
  have h4 : ∀ {l : List (String × Ty)} {r : List (String × Ty)},
      (l.map some).Perm (r.map some) → l.Perm r := by
    intro l r hp
    have := hp.filterMap id
    simpa [List.filterMap_map, Function.comp_def] using this
  refine h4 ?_
  simpa [List.map_map, Function.comp_def] using h3

theorem structs_names (hwf : g.WF) (hm : emitParser h lc g tokens = .ok m) :
    (m.structs.map (·.name)).Perm g.pubNames := by
  have := (structs_perm hwf hm).map (·.1)
  simpa [List.map_map, Function.comp_def, Grammar.pubNames] using this

theorem fns_names (hm : emitParser h lc g tokens = .ok m) :
    m.actionFns.map (·.name) = g.listing.map fun e => actionFnName e.1 e.2.1 := by
  obtain ⟨a, g', T, hst⟩ := emitParser_stages hm
  have key : ∀ {l : List (Nat × Nat × Production X)} {fs : List (EActionFn X)},
      List.Forall₂ (FnFor (semanticActionVariants g)) l fs →
      fs.map (·.name) = l.map fun e => actionFnName e.1 e.2.1 := by
    intro l fs hl
    induction hl with
    | nil => rfl
    | cons h1 _ ih => rw [List.map_cons, List.map_cons, ih, h1.name]
  exact key hst.fns

omit [DecidableEq Ty] in
theorem listing_keys_nodup (g : Grammar X Ty) : (g.listing.map fun e => (e.1, e.2.1)).Nodup := by
  rw [List.nodup_iff_injective_get]
  intro i j hij
  simp only [List.get_eq_getElem, List.getElem_map] at hij
  have e1 : g.listing[i.1]? = some (g.listing[i.1]'(by simpa using i.2)) :=
    List.getElem?_eq_getElem _
  have e2 : g.listing[j.1]? = some (g.listing[j.1]'(by simpa using j.2)) :=
    List.getElem?_eq_getElem _
  have k1 := listing_index (g := g) (k := i.1) (nt := (g.listing[i.1]'(by simpa using i.2)).1)
    (p := (g.listing[i.1]'(by simpa using i.2)).2.1)
    (pr := (g.listing[i.1]'(by simpa using i.2)).2.2) e1
  have k2 := listing_index (g := g) (k := j.1) (nt := (g.listing[j.1]'(by simpa using j.2)).1)
    (p := (g.listing[j.1]'(by simpa using j.2)).2.1)
    (pr := (g.listing[j.1]'(by simpa using j.2)).2.2) e2
  simp only [Prod.mk.injEq] at hij
  apply Fin.ext
  rw [k1, k2, hij.1, hij.2]

theorem fns_names_nodup (hm : emitParser h lc g tokens = .ok m) :
    (m.actionFns.map (·.name)).Nodup := by
  rw [fns_names hm]
  have := (listing_keys_nodup g).map (f := fun e : Nat × Nat => actionFnName e.1 e.2) (by
    intro a b hab
    obtain ⟨h1, h2⟩ := actionFnName_inj hab
    exact Prod.ext h1 h2)
  simpa [List.map_map, Function.comp_def] using this

theorem fns_lets (hm : emitParser h lc g tokens = .ok m) :
    List.Forall₂ (fun e f => EActionFn.lets f = e.2.2.binders.reverse) g.listing m.actionFns := by
  obtain ⟨a, g', T, hst⟩ := emitParser_stages hm
  refine hst.fns.imp fun e f hf => ?_
  have key : ∀ {l : List BoundSymbol} {ss : List EStmt},
      List.Forall₂ (fun s t => emitStmt (semanticActionVariants g) s = .ok t) l ss →
      ss.filterMap EStmt.binder = l.filterMap fun s => s.binder.map (·.name) := by
    intro l ss hl
    induction hl with
    | nil => rfl
    | @cons s t _ _ h1 _ ih =>
      rw [List.filterMap_cons, List.filterMap_cons, ih]
      unfold emitStmt at h1
      cases hb : s.binder with
      | none => rw [hb] at h1; cases h1; rfl
      | some n =>
        rw [hb] at h1
        replace h1 := Except.bind_eq_ok.1 h1
        obtain ⟨_, _, h1⟩ := h1
        cases h1; rfl
  rw [EActionFn.lets, key hf.stmts, List.filterMap_reverse]
  rfl

theorem idxName_last (lc : String → String) (t : String) :
    (lc t ++ "_terminal_idx").toList.getLast? = some 'x' := getLast?_suffix (by decide)

theorem fieldIdent_head (i : Nat) : (fieldIdent i).toList.head? = some 'f' := by
  simp [fieldIdent, String.toList_append]

theorem fieldIdents_nodup (n : Nat) : ((List.range n).map fieldIdent).Nodup :=
  List.nodup_range.map fun _ _ h => fieldIdent_inj h

/-- The functions and statics never clash. -/
theorem base_nodup (hm : emitParser h lc g tokens = .ok m) : (fixedStatics ++ m.fnItems).Nodup := by
  obtain ⟨gen, _, hr⟩ := (emitParser_rel h lc g tokens).left hm
  have hlast : ∀ n ∈ m.actionFns.map (·.name), n.toList.getLast? = some 'n' := by
    intro n hn
    rw [fns_names hm] at hn
    obtain ⟨e, _, rfl⟩ := List.mem_map.1 hn
    exact actionFnName_last _ _
  have hx := idxName_last lc tokens.typeName
  rw [← hr.idxName] at hx
  have hne : ∀ s : String, s.toList.getLast? ≠ some 'x' → m.idxName ≠ s := by
    rintro s hs rfl; exact hs hx
  have hfix : ∀ s ∈ fixedStatics ++ ["token_value", "parse_generic"],
      s.toList.getLast? ≠ some 'x' ∧ s.toList.getLast? ≠ some 'n' := by decide
  unfold EModule.fnItems
  rw [hr.valueName, ← List.append_assoc]
  refine List.nodup_append.2 ⟨?_, fns_names_nodup hm, ?_⟩
  · refine List.nodup_append.2 ⟨by decide, ?_, ?_⟩
    · refine List.nodup_cons.2 ⟨?_, by decide⟩
      intro hmem
      exact (hfix m.idxName (by simp at hmem ⊢; tauto)).1 hx
    · intro a ha b hb e
      subst e
      rcases List.mem_cons.1 hb with rfl | hb
      · exact (hfix _ (by simp [ha])).1 hx
      · have : ∀ a ∈ fixedStatics, a ∉ ["token_value", "parse_generic"] := by decide
        exact this a ha hb
  · intro a ha b hb e
    subst e
    have h1 := hlast _ hb
    rcases List.mem_append.1 ha with ha | ha
    · exact (hfix a (by simp [ha])).2 h1
    · rcases List.mem_cons.1 ha with rfl | ha
      · rw [hx] at h1; exact absurd h1 (by decide)
      · exact (hfix a (by simp at ha ⊢; tauto)).2 h1

theorem mem_locals (hm : emitParser h lc g tokens = .ok m) (n : String) :
    n ∈ m.locals ↔ n ∈ genericLocals ∨
      (∃ c ∈ tokens.conversions, ∃ i, i < (patternTypes c.to).length ∧ n = fieldIdent i) ∨
      (n = "f" ∧ g.nonTerminals ≠ []) ∨ ∃ e ∈ g.listing, n ∈ e.2.2.binders := by
  obtain ⟨gen, _, hr⟩ := (emitParser_rel h lc g tokens).left hm
  obtain ⟨us, hu⟩ := ntTypes g tokens.conversions
  have hl := fns_lets hm
  have h1 : n ∈ m.methods.flatMap (·.ids) ↔
      (∃ c ∈ tokens.conversions, ∃ i, i < (patternTypes c.to).length ∧ n = fieldIdent i) ∨
      (n = "f" ∧ g.nonTerminals ≠ []) := by
    rw [hr.methods, hu.methods, List.flatMap_append, List.mem_append]
    refine or_congr ?_ ?_
    · rw [List.mem_flatMap]
      constructor
      · rintro ⟨f, hf, hn⟩
        obtain ⟨⟨c, i⟩, hc, rfl⟩ := List.mem_map.1 hf
        simp only [emitToken] at hn
        obtain ⟨j, hj, rfl⟩ := List.mem_map.1 hn
        exact ⟨c, (List.mem_zipIdx hc).2.2 ▸ List.getElem_mem _, j, List.mem_range.1 hj, rfl⟩
      · rintro ⟨c, hc, j, hj, rfl⟩
        obtain ⟨i, hi⟩ := List.getElem?_of_mem hc
        refine ⟨(emitToken i c).2, List.mem_map.2 ⟨(c, i), List.mem_zipIdx_iff_getElem?.2 hi, rfl⟩, ?_⟩
        exact List.mem_map.2 ⟨j, List.mem_range.2 hj, rfl⟩
    · rw [List.mem_flatMap]
      constructor
      · rintro ⟨f, hf, hn⟩
        obtain ⟨⟨ty, i⟩, hc, rfl⟩ := List.mem_map.1 hf
        simp only [emitNt, List.mem_singleton] at hn
        refine ⟨hn, ?_⟩
        have : ty ∈ us := (List.mem_zipIdx hc).2.2 ▸ List.getElem_mem _
        obtain ⟨nt, hnt, _⟩ := List.mem_map.1 ((hu.mem ty).1 this)
        exact List.ne_nil_of_mem hnt
      · rintro ⟨rfl, hne⟩
        obtain ⟨nt, hnt⟩ := List.exists_mem_of_ne_nil _ hne
        have : nt.returnTy ∈ us := (hu.mem _).2 (List.mem_map_of_mem hnt)
        obtain ⟨i, hi⟩ := List.getElem?_of_mem this
        exact ⟨(emitNt i nt.returnTy).2,
          List.mem_map.2 ⟨(_, i), List.mem_zipIdx_iff_getElem?.2 hi, rfl⟩, by simp [emitNt]⟩
  have h2 : n ∈ m.valueArms.flatMap (·.args) ↔
      ∃ c ∈ tokens.conversions, ∃ i, i < (patternTypes c.to).length ∧ n = fieldIdent i := by
    rw [hr.valueArms, List.mem_flatMap]
    constructor
    · rintro ⟨f, hf, hn⟩
      obtain ⟨⟨c, i⟩, hc, rfl⟩ := List.mem_map.1 hf
      simp only at hn
      obtain ⟨j, hj, rfl⟩ := List.mem_map.1 hn
      rw [patternIdents_count, Nat.zero_add] at hj
      exact ⟨c, (List.mem_zipIdx hc).2.2 ▸ List.getElem_mem _, j, List.mem_range.1 hj, rfl⟩
    · rintro ⟨c, hc, j, hj, rfl⟩
      obtain ⟨i, hi⟩ := List.getElem?_of_mem hc
      refine ⟨_, List.mem_map.2 ⟨(c, i), List.mem_zipIdx_iff_getElem?.2 hi, rfl⟩, ?_⟩
      refine List.mem_map.2 ⟨j, List.mem_range.2 ?_, rfl⟩
      rw [patternIdents_count, Nat.zero_add]; exact hj
  have h3 : n ∈ m.actionFns.flatMap EActionFn.lets ↔ ∃ e ∈ g.listing, n ∈ e.2.2.binders := by
    rw [List.mem_flatMap]
    constructor
    · rintro ⟨f, hf, hn⟩
      obtain ⟨i, hi⟩ := List.getElem?_of_mem hf
      obtain ⟨e, he, hl'⟩ := forall₂_getElem?' hl hi
      exact ⟨e, List.mem_of_getElem? he, by rw [hl'] at hn; simpa using hn⟩
    · rintro ⟨e, he, hn⟩
      obtain ⟨i, hi⟩ := List.getElem?_of_mem he
      obtain ⟨f, hf, hl'⟩ := forall₂_getElem? hl hi
      exact ⟨f, List.mem_of_getElem? hf, by rw [hl']; simpa using hn⟩
  unfold EModule.locals
  rw [List.mem_append, List.mem_append, List.mem_append, h1, h2, h3]
  generalize (∃ c ∈ tokens.conversions, ∃ i, i < (patternTypes c.to).length ∧ n = fieldIdent i) = P
  generalize (n = "f" ∧ g.nonTerminals ≠ []) = Q
  generalize (∃ e ∈ g.listing, n ∈ e.2.2.binders) = R
  generalize (n ∈ genericLocals) = S
  clear * -
  constructor
  · rintro (((h | h | h) | h) | h)
    · exact .inl h
    · exact .inr (.inl h)
    · exact .inr (.inr (.inl h))
    · exact .inr (.inl h)
    · exact .inr (.inr (.inr h))
  · rintro (h | h | h | h)
    · exact .inl (.inl (.inl h))
    · exact .inl (.inr h)
    · exact .inl (.inl (.inr (.inr h)))
    · exact .inr h

omit [DecidableEq Ty] in
theorem pubNames_ne_nil {n : String} (hn : n ∈ g.pubNames) : g.nonTerminals ≠ [] := by
  obtain ⟨nt, hnt, _⟩ := List.mem_map.1 hn
  exact List.ne_nil_of_mem (List.mem_filter.1 hnt).1

theorem mem_variantFields (hm : emitParser h lc g tokens = .ok m) (ty : Ty) :
    ty ∈ m.variants.flatMap (·.fields) ↔ ty ∈ mentionedTypes g tokens := by
  obtain ⟨gen, _, hr⟩ := (emitParser_rel h lc g tokens).left hm
  obtain ⟨us, hu⟩ := ntTypes g tokens.conversions
  rw [hr.variants, hu.variants, List.flatMap_append, mentionedTypes, List.mem_append, List.mem_append]
  refine or_congr ?_ ?_
  · rw [List.mem_flatMap, List.mem_flatMap]
    constructor
    · rintro ⟨v, hv, hn⟩
      obtain ⟨⟨c, i⟩, hc, rfl⟩ := List.mem_map.1 hv
      rw [patternTypes_eq] at hn
      exact ⟨c, (List.mem_zipIdx hc).2.2 ▸ List.getElem_mem _, hn⟩
    · rintro ⟨c, hc, hn⟩
      rw [← patternTypes_eq] at hn
      obtain ⟨i, hi⟩ := List.getElem?_of_mem hc
      exact ⟨_, List.mem_map.2 ⟨(c, i), List.mem_zipIdx_iff_getElem?.2 hi, rfl⟩, hn⟩
  · rw [← hu.mem, List.mem_flatMap]
    constructor
    · rintro ⟨v, hv, hn⟩
      obtain ⟨⟨c, i⟩, hc, rfl⟩ := List.mem_map.1 hv
      simp only [List.mem_singleton] at hn
      subst hn
      exact (List.mem_zipIdx hc).2.2 ▸ List.getElem_mem _
    · intro hn
      obtain ⟨i, hi⟩ := List.getElem?_of_mem hn
      exact ⟨_, List.mem_map.2 ⟨(ty, i), List.mem_zipIdx_iff_getElem?.2 hi, rfl⟩, by simp⟩

theorem mem_userTypes (hwf : g.WF) (hm : emitParser h lc g tokens = .ok m) (ty : Ty) :
    ty ∈ m.userTypes ↔ ty ∈ mentionedTypes g tokens := by
  unfold EModule.userTypes
  rw [List.mem_append, mem_variantFields hm]
  constructor
  · rintro (h1 | h1)
    · exact h1
    · obtain ⟨s, hs, rfl⟩ := List.mem_map.1 h1
      have := (structs_perm hwf hm).mem_iff.1 (List.mem_map.2 ⟨s, hs, rfl⟩)
      obtain ⟨nt, hnt, he⟩ := List.mem_map.1 this
      simp only [Prod.mk.injEq] at he
      refine List.mem_append.2 (.inr ?_)
      rw [← he.2]
      exact List.mem_map_of_mem (List.mem_filter.1 hnt).1
  · exact .inl

/-- The conditions on the names in the grammar are exactly what the emitted module needs. -/
theorem wellScoped_iff {tyNames : Ty → List String} (hwf : g.WF)
    (hm : emitParser h lc g tokens = .ok m) :
    m.WellScoped tyNames ↔ NamesOk lc tyNames g tokens := by
  obtain ⟨gen, _, hr⟩ := (emitParser_rel h lc g tokens).left hm
  obtain ⟨us, hu⟩ := ntTypes g tokens.conversions
  have hperm := structs_names hwf hm
  have hS : ∀ n, n ∈ m.structs.map (·.name) ↔ n ∈ g.pubNames := fun n => hperm.mem_iff
  have hfn : ∀ n, n ∈ m.fnItems ↔ n = lc tokens.typeName ++ "_terminal_idx" ∨ n = "token_value" ∨
      n = "parse_generic" ∨ ∃ e ∈ g.listing, n = actionFnName e.1 e.2.1 := by
    intro n
    unfold EModule.fnItems
    rw [fns_names hm, hr.idxName, hr.valueName]
    simp only [List.mem_append, List.mem_cons, List.not_mem_nil, or_false, List.mem_map, or_assoc]
    refine or_congr_right (or_congr_right (or_congr_right ?_))
    exact ⟨fun ⟨e, a, b⟩ => ⟨e, a, b.symm⟩, fun ⟨e, a, b⟩ => ⟨e, a, b.symm⟩⟩
  have hty : ∀ n, n ∈ m.typeItems ↔ n ∈ fixedTypes ∨ n ∈ g.pubNames := by
    intro n; unfold EModule.typeItems; rw [List.mem_append, hS]
  have hval : ∀ n, n ∈ m.valueItems ↔ n ∈ fixedStatics ∨ n ∈ m.fnItems ∨ n ∈ g.pubNames := by
    intro n; unfold EModule.valueItems; rw [List.mem_append, List.mem_append, hS, or_assoc]
  have hloc := mem_locals hm
  have hstructs : ∀ {s}, s ∈ m.structs → ∃ nt ∈ g.nonTerminals, nt.isPublic = true ∧
      nt.name = s.name ∧ nt.returnTy = s.ret := by
    intro s hs
    have := (structs_perm hwf hm).mem_iff.1 (List.mem_map.2 ⟨s, hs, rfl⟩)
    obtain ⟨nt, hnt, he⟩ := List.mem_map.1 this
    simp only [Prod.mk.injEq] at he
    obtain ⟨h1, h2⟩ := List.mem_filter.1 hnt
    exact ⟨nt, h1, h2, he.1, he.2⟩
  have hstructs' : ∀ {nt}, nt ∈ g.nonTerminals → nt.isPublic = true → ∃ s ∈ m.structs,
      nt.returnTy = s.ret := by
    intro nt h1 h2
    have := (structs_perm hwf hm).mem_iff.2
      (List.mem_map.2 ⟨nt, List.mem_filter.2 ⟨h1, by simp [h2]⟩, rfl⟩)
    obtain ⟨s, hs, he⟩ := List.mem_map.1 this
    simp only [Prod.mk.injEq] at he
    exact ⟨s, hs, he.2.symm⟩
  constructor
  · intro hw
    have hshadow : ∀ n ∈ g.pubNames, n ∉ m.locals := fun n hn hl => hw.shadowStruct n hl ((hS n).2 hn)
    have htn := List.nodup_append.1 hw.types
    have hvn := List.nodup_append.1 hw.values
    have hfix : ∀ n ∈ g.pubNames, n ∉ fixedTypes := fun n hn hf => htn.2.2 n hf n ((hS n).2 hn) rfl
    have hbase : ∀ n ∈ g.pubNames, n ∉ fixedStatics ++ m.fnItems :=
      fun n hn hf => hvn.2.2 n hf n ((hS n).2 hn) rfl
    constructor
    · exact hperm.nodup_iff.1 htn.2.1
    · intro n hn hmem
      simp only [reservedNames, List.mem_append] at hmem
      rcases hmem with (((((h1 | h1) | h1) | h1) | h1) | h1) | h1
      · exact hfix n hn h1
      · exact hbase n hn (List.mem_append.2 (.inl h1))
      · refine hbase n hn (List.mem_append.2 (.inr ((hfn n).2 ?_)))
        simp at h1; tauto
      · exact hw.usedTypes n h1 ((hty n).2 (.inr hn))
      · exact hw.usedValues n h1 ((hval n).2 (.inr (.inr hn)))
      · exact hshadow n hn ((hloc n).2 (.inl h1))
      · exact hshadow n hn ((hloc n).2 (.inr (.inr (.inl ⟨by simpa using h1, pubNames_ne_nil hn⟩))))
    · intro n hn e
      exact hbase n hn (List.mem_append.2 (.inr ((hfn n).2 (.inl e))))
    · intro n hn e he e'
      exact hbase n hn (List.mem_append.2 (.inr ((hfn n).2 (.inr (.inr (.inr ⟨e, he, e'⟩))))))
    · intro n hn c hc i hi e
      exact hshadow n hn ((hloc n).2 (.inr (.inl ⟨c, hc, i, by rwa [patternTypes_eq], e⟩)))
    · intro n hn e he hb
      exact hshadow n hn ((hloc n).2 (.inr (.inr (.inr ⟨e, he, hb⟩))))
    · intro e he n hn
      refine ⟨hw.shadowStatic n ((hloc n).2 (.inr (.inr (.inr ⟨e, he, hn⟩)))), ?_⟩
      rintro rfl
      obtain ⟨i, hi⟩ := List.getElem?_of_mem he
      obtain ⟨f, hf, hl⟩ := forall₂_getElem? (fns_lets hm) hi
      refine hw.valueStack f (List.mem_of_getElem? hf) ?_
      rw [hl]; simpa using hn
    · intro ty hty' n hn
      have := hw.userTypes ty ((mem_userTypes hwf hm ty).2 hty') n hn
      rw [hty, not_or] at this
      exact this
    · have h1 := hw.tokenType
      rw [hty, not_or, hr.tokenType] at h1
      have h2 := hw.tokenParams
      rw [hr.tokenType] at h2
      exact ⟨h1.1, h1.2, h2⟩
    · intro nt hnt hp
      obtain ⟨s, hs, e⟩ := hstructs' hnt hp
      rw [e]; exact hw.retParams s hs
  · intro ho
    have hbase := base_nodup hm
    have hres : ∀ n ∈ g.pubNames, ∀ l : List String, l ⊆ reservedNames → n ∉ l :=
      fun n hn l hl hmem => ho.reserved n hn (hl hmem)
    have hnotFn : ∀ n ∈ g.pubNames, n ∉ m.fnItems := by
      intro n hn hf
      rcases (hfn n).1 hf with e | e | e | ⟨e, he, e'⟩
      · exact ho.idxName n hn e
      · exact ho.reserved n hn (by rw [e]; decide)
      · exact ho.reserved n hn (by rw [e]; decide)
      · exact ho.actionName n hn e he e'
    have hx := idxName_last lc tokens.typeName
    have hfnv : ∀ n ∈ m.fnItems, n.toList.getLast? = some 'x' ∨ n.toList.getLast? = some 'n' ∨
        n = "token_value" ∨ n = "parse_generic" := by
      intro n hn
      rcases (hfn n).1 hn with rfl | e | e | ⟨e, he, rfl⟩
      · exact .inl hx
      · exact .inr (.inr (.inl e))
      · exact .inr (.inr (.inr e))
      · exact .inr (.inl (actionFnName_last _ _))
    constructor
    · refine List.nodup_append.2 ⟨by decide, hperm.nodup_iff.2 ho.distinct, ?_⟩
      rintro a ha b hb rfl
      exact hres a ((hS a).1 hb) fixedTypes (by decide) ha
    · refine List.nodup_append.2 ⟨hbase, hperm.nodup_iff.2 ho.distinct, ?_⟩
      rintro a ha b hb rfl
      rcases List.mem_append.1 ha with ha | ha
      · exact hres a ((hS a).1 hb) fixedStatics (by decide) ha
      · exact hnotFn a ((hS a).1 hb) ha
    · rw [hr.variants]; exact hu.variants_nodup
    · rw [hr.methods]; exact hu.methods_nodup
    · intro f hf
      rw [hr.methods, hu.methods] at hf
      rcases List.mem_append.1 hf with hf | hf
      · obtain ⟨⟨c, i⟩, _, rfl⟩ := List.mem_map.1 hf
        exact fieldIdents_nodup _
      · obtain ⟨⟨c, i⟩, _, rfl⟩ := List.mem_map.1 hf
        simp [emitNt]
    · intro a ha
      rw [hr.valueArms] at ha
      obtain ⟨⟨c, i⟩, _, rfl⟩ := List.mem_map.1 ha
      exact fieldIdents_nodup _
    · intro n hn hmem
      rcases (hty n).1 hmem with h1 | h1
      · have : ∀ n ∈ usedTypes, n ∉ fixedTypes := by decide
        exact this n hn h1
      · exact hres n h1 usedTypes (by decide) hn
    · intro n hn hmem
      rcases (hval n).1 hmem with h1 | h1 | h1
      · have : ∀ n ∈ usedValues, n ∉ fixedStatics := by decide
        exact this n hn h1
      · have : ∀ n ∈ usedValues, ¬ (n.toList.getLast? = some 'x' ∨ n.toList.getLast? = some 'n' ∨
            n = "token_value" ∨ n = "parse_generic") := by decide
        exact this n hn (hfnv n h1)
      · exact hres n h1 usedValues (by decide) hn
    · intro n hn hmem
      have hp := (hS n).1 hmem
      rcases (hloc n).1 hn with h1 | ⟨c, hc, i, hi, e⟩ | ⟨h1, _⟩ | ⟨e, he, hb⟩
      · exact hres n hp genericLocals (by decide) h1
      · exact ho.fieldName n hp c hc i (by rwa [patternTypes_eq] at hi) e
      · exact ho.reserved n hp (by rw [h1]; decide)
      · exact ho.binder n hp e he hb
    · intro n hn hmem
      rcases (hloc n).1 hn with h1 | ⟨c, hc, i, hi, e⟩ | ⟨h1, _⟩ | ⟨e, he, hb⟩
      · revert h1 hmem; clear * -; revert n; decide
      · have h2 := fieldIdent_head i
        rw [← e] at h2
        have : ∀ n ∈ fixedStatics, n.toList.head? ≠ some 'f' := by decide
        exact this n hmem h2
      · rw [h1] at hmem; exact absurd hmem (by decide)
      · exact (ho.bindStatic e he n hb).1 hmem
    · intro f hf hmem
      obtain ⟨i, hi⟩ := List.getElem?_of_mem hf
      obtain ⟨e, he, hl⟩ := forall₂_getElem?' (fns_lets hm) hi
      rw [hl] at hmem
      exact (ho.bindStatic e (List.mem_of_getElem? he) _ (by simpa using hmem)).2 rfl
    · rw [hr.idxCall, hr.idxName]
      intro hmem
      have : ∀ n ∈ idxCallLocals, n.toList.getLast? ≠ some 'x' ∨ n = "action_idx" := by decide
      rcases this _ hmem with h1 | h1
      · exact h1 hx
      · have h2 := congrArg (fun s => (s.toList.reverse.drop 4).head?) h1
        simp only [String.toList_append, List.reverse_append] at h2
        have e1 : "_terminal_idx".toList.reverse = 'x' :: 'd' :: 'i' :: '_' :: 'l' :: "animret_".toList := by
          decide
        rw [e1] at h2
        have e2 : ("action_idx".toList.reverse.drop 4).head? = some 'n' := by decide
        rw [e2] at h2
        simp at h2
    · rw [hr.valueCall, hr.valueName]; decide
    · intro ty hty' n hn
      rw [hty, not_or]
      exact ho.types ty ((mem_userTypes hwf hm ty).1 hty') n hn
    · rw [hty, not_or, hr.tokenType]
      exact ⟨ho.tokenType.1, ho.tokenType.2.1⟩
    · intro s hs
      obtain ⟨nt, h1, h2, _, e⟩ := hstructs hs
      rw [← e]; exact ho.returnParam nt h1 h2
    · rw [hr.tokenType]; exact ho.tokenType.2.2

end

end Parsegen
