import Verif.Model.Text
import Mathlib.Data.List.Forall2
import Verif.Proofs.Util
import Verif.Spec.EmitNames

/-! # The text of the emitted functions does what `Model/EmitRuntime.lean` says -/

namespace Parsegen

variable {X Ty V W Tok E α : Type}

/-- A value of `SemanticActionResult`. -/
def EVal.toVal (v : EVal V) : Val V Tok E := .adt "SemanticActionResult" v.variant (v.fields.map .ext)

/-- A `let`-bound value. -/
def BVal.toVal : BVal V → Val V Tok E
  | .tok vs => .tuple (vs.map .ext)
  | .nt v => .ext v

theorem BVal.seen_toVal (b : BVal V) : (b.toVal : Val V Tok E).seen = some b := by
  cases b with
  | nt v => rfl
  | tok vs =>
    simp only [BVal.toVal, Val.seen]
    have : (vs.map (Val.ext : V → Val V Tok E)).mapM Val.user? = some vs := by
      induction vs with
      | nil => rfl
      | cons v vs ih => simp [List.mapM_cons, Val.user?, ih]
    rw [this]; rfl

/-- The function of the program with this name. -/
abbrev Program.fn? (P : Program X V Tok E) (f : FnRef) : Option (FnDecl X) := P.fns.find? (·.name = f)

theorem lookup_zip_range {xs : List String} {vs : List (Val V Tok E)} (hl : xs.length = vs.length)
    (base : List (Val V Tok E)) (env : Locals) (x : String) :
    ((xs.zip (List.range' base.length xs.length) ++ env).lookup x).bind
        (fun a => (base ++ vs)[a]?) =
      match (xs.zip vs).lookup x with
      | some v => some v
      | none => (env.lookup x).bind fun a => (base ++ vs)[a]? := by
  induction xs generalizing base vs with
  | nil => cases vs <;> simp_all
  | cons y xs ih =>
    cases vs with
    | nil => simp at hl
    | cons v vs =>
      simp only [List.length_cons, Nat.add_right_cancel_iff] at hl
      have := ih hl (base ++ [v])
      simp only [List.length_append, List.length_singleton, List.append_assoc,
        List.singleton_append] at this
      simp only [List.length_cons, List.range'_succ, List.zip_cons_cons, List.cons_append]
      by_cases hx : x = y
      · subst hx; simp
      · have hx' : (x == y) = false := by simp [hx]
        simp only [List.lookup_cons, hx', this]

/-! ## States -/

@[simp] theorem RState.pop_push (s : RState V W Tok E) (vs : List (Val V Tok E)) :
    (s.push vs).pop s.store.length = s := by
  simp [RState.pop, RState.push]

@[simp] theorem RState.push_nil (s : RState V W Tok E) : s.push [] = s := by simp [RState.push]

@[simp] theorem RState.pop_self (s : RState V W Tok E) : s.pop s.store.length = s := by
  simp [RState.pop]

/-- What a function call does, given what it computes: the value, or a panic. -/
def Gives (s : RState V W Tok E) (e : Except EFault α) (f : α → Res V W Tok E (Val V Tok E))
    (r : Res V W Tok E (Val V Tok E)) : Prop :=
  match e with
  | .ok a => r = f a
  | .error (.panic p) => r = .panic p s
  | .error .noCompile => True

/-- The cells and variables after binding names. -/
theorem lookup_bind {xs : List String} {vs : List (Val V Tok E)} (hl : xs.length = vs.length)
    (env : Locals) (s : RState V W Tok E) (x : String) {v : Val V Tok E}
    (hv : (xs.zip vs).lookup x = some v) :
    ∃ a, (env.bind xs s).lookup x = some a ∧ (s.push vs).store[a]? = some v := by
  have := lookup_zip_range hl s.store env x
  rw [hv] at this
  simpa [Option.bind_eq_some_iff, Locals.bind, RState.push] using this

theorem evalName_local (P : Program X V Tok E) {x : String} {env : Locals} {s : RState V W Tok E}
    {a : Nat} {v : Val V Tok E} (h1 : env.lookup x = some a) (h2 : s.store[a]? = some v) :
    evalName P x env s = .val v s := by
  simp [evalName, h1, h2]

theorem evalAll_names (P : Program X V Tok E) (H : Host X V W Tok E) (call : CallSem V W Tok E)
    (fuel : Nat) {env : Locals} {s : RState V W Tok E} {xs : List String} {vs : List (Val V Tok E)}
    (h : List.Forall₂ (fun x v => evalName P x env s = .val v s) xs vs) :
    evalAll P H call fuel (xs.map .name) env s = .val vs s := by
  induction h with
  | nil => rfl
  | cons h1 _ ih => simp only [List.map_cons, evalAll, eval, h1, Res.bind, ih]

theorem matchPats_vars (H : Host X V W Tok E) (xs : List String) (vs : List (Val V Tok E)) :
    matchPats H (xs.map .var) vs = some (some (xs.zip vs)) := by
  induction xs generalizing vs with
  | nil => cases vs <;> simp [matchPats]
  | cons x xs ih =>
    cases vs with
    | nil => simp [matchPats]
    | cons v vs => simp [matchPats, matchPat, ih]

theorem lookup_zip_map {β : Type} (xs : List String) (vs : List β) (f : β → Val V Tok E) (x : String) :
    (xs.zip (vs.map f)).lookup x = ((xs.zip vs).lookup x).map f := by
  induction xs generalizing vs with
  | nil => rfl
  | cons y ys ih =>
    cases vs with
    | nil => rfl
    | cons v vs =>
      simp only [List.map_cons, List.zip_cons_cons, List.lookup_cons]
      split
      · rfl
      · exact ih vs

theorem mapM_some_forall₂ {β γ : Type} {f : β → Option γ} {l : List β} {r : List γ}
    (h : l.mapM f = some r) : List.Forall₂ (fun a b => f a = some b) l r := by
  induction l generalizing r with
  | nil => simp at h; subst h; exact .nil
  | cons a l ih =>
    simp only [List.mapM_cons, Option.bind_eq_bind, Option.bind_eq_some_iff, Option.pure_def,
      Option.some.injEq] at h
    obtain ⟨b, h1, bs, h2, h3⟩ := h
    subst h3
    exact .cons h1 (ih h2)

/-! ## The functions of the program -/

theorem EModule.fn_method (m : EModule X Ty) (name : String) {f : EMethod Ty}
    (hf : m.methods.find? (·.name = name) = some f) :
    (m.text : Program X V Tok E).fn? (.assoc "SemanticActionResult" name) = some (methodText f) := by
  have h1 : (m.actionFns.map (actionFnText (X := X))).find?
      (fun d => d.name = .assoc "SemanticActionResult" name) = none := by
    rw [List.find?_eq_none]
    intro d hd
    obtain ⟨a, _, rfl⟩ := List.mem_map.1 hd
    simp [actionFnText]
  have h2 : (m.methods.map (methodText (X := X))).find?
      (fun d => d.name = .assoc "SemanticActionResult" name) = some (methodText f) := by
    rw [List.find?_map]
    have : ((fun d : FnDecl X => decide (d.name = .assoc "SemanticActionResult" name)) ∘ methodText) =
        fun f : EMethod Ty => decide (f.name = name) := by
      funext f; simp [methodText]
    rw [this, hf]; rfl
  simp [Program.fn?, EModule.text, genericText, idxFnText, valueFnText, h1, h2]

theorem Gives.method (m : EModule X Ty) (H : Host X V W Tok E) (fuel d : Nat) (name : String)
    (v : EVal V) (s : RState V W Tok E) :
    Gives s (m.callMethod name v) (fun b => .val b.toVal s)
      (callFn m.text H fuel (d + 1) (.assoc "SemanticActionResult" name) [v.toVal] s) := by
  unfold EModule.callMethod
  cases hf : m.methods.find? (·.name = name) with
  | none => trivial
  | some f =>
    have hfn := m.fn_method (V := V) (Tok := Tok) (E := E) name hf
    simp only [Program.fn?] at hfn
    simp only [callFn, hfn, methodText]
    have hself : (Locals.bind [] ["self"] s).lookup "self" = some s.store.length := by
      simp [Locals.bind]
    have hcell : (s.push [(v.toVal : Val V Tok E)]).store[s.store.length]? = some v.toVal := by
      simp [RState.push]
    simp only [List.length_singleton, if_true, eval, evalStmts, Res.bind,
      evalName_local _ hself hcell]
    simp only [evalArms, EVal.toVal, matchPat]
    by_cases hv : v.variant = f.variant
    · simp only [hv, if_true, List.length_map]
      by_cases hl : f.ids.length = v.fields.length
      · simp only [hl, if_true, matchPats_vars]
        generalize hvs : v.fields.map (Val.ext : V → Val V Tok E) = vs
        have hl' : f.ids.length = vs.length := by simp [← hvs, hl]
        have e1 : (f.ids.zip vs).map (·.1) = f.ids := by
          rw [List.map_fst_zip (by omega)]
        have e2 : (f.ids.zip vs).map (·.2) = vs := by
          rw [List.map_snd_zip (by omega)]
        simp only [e1, e2]
        have key : ∀ x u, (f.ids.zip v.fields).lookup x = some u →
            ∀ env (s' : RState V W Tok E), evalName (m.text : Program X V Tok E) x
              (Locals.bind env f.ids s') (s'.push vs) = .val (.ext u) (s'.push vs) := by
          intro x u hu env s'
          obtain ⟨a, h1, h2⟩ := lookup_bind hl' env s' x (v := .ext u) (by
            rw [← hvs, lookup_zip_map, hu]; rfl)
          exact evalName_local _ h1 h2
        unfold EBody.eval
        cases hb : f.body with
        | parens xs =>
          cases hm : xs.mapM fun x => (f.ids.zip v.fields).lookup x with
          | none => simp [Gives, hm]
          | some us =>
            have h3 := mapM_some_forall₂ hm
            simp only [Gives, hm, eval]
            rw [evalAll_names _ H _ fuel (vs := us.map .ext)]
            · simp [Res.bind, Res.pop, Res.finish, BVal.toVal]
            · rw [List.forall₂_map_right_iff]
              exact h3.imp fun x u hu => key x u hu _ _
        | single x =>
          cases hm : (f.ids.zip v.fields).lookup x with
          | none => simp [Gives, hm]
          | some u =>
            simp only [Gives, hm, eval, key x u hm]
            simp [Res.pop, Res.finish, BVal.toVal]
      · simp [hl, Gives]
    · simp [hv, Gives, eval, Res.pop, Res.finish]

/-- `SemanticActionResult::name(..)` -/
theorem apply_construct (m : EModule X Ty) (call : CallSem V W Tok E) {name : String} {us : List V}
    {r : EVal V} (hr : m.construct name us = .ok r) (s : RState V W Tok E) :
    apply (m.text : Program X V Tok E) call (.fn (.assoc "SemanticActionResult" name))
      (us.map .ext) s = .val r.toVal s := by
  unfold EModule.construct at hr
  cases hf : m.variants.find? (·.name = name) with
  | none => simp [hf] at hr
  | some v =>
    simp only [hf] at hr
    split at hr
    case isFalse => cases hr
    case isTrue hl =>
      cases hr
      have hlk : ∀ l : List (EVariant Ty), l.find? (·.name = name) = some v →
          (l.map fun v => (("SemanticActionResult", v.name), v.fields.length)).lookup
            ("SemanticActionResult", name) = some v.fields.length := by
        intro l hl
        induction l with
        | nil => simp at hl
        | cons a l ih =>
          rw [List.find?_cons] at hl
          simp only [List.map_cons, List.lookup_cons]
          by_cases ha : a.name = name
          · simp [ha] at hl ⊢; rw [hl]
          · have : (("SemanticActionResult", name) == ("SemanticActionResult", a.name)) = false := by
              simp; exact fun e => ha e.symm
            simp only [ha, decide_false] at hl
            rw [this]; exact ih hl
      have : (m.text : Program X V Tok E).variants.lookup ("SemanticActionResult", name) =
          some v.fields.length := by
        have hne : ∀ a b c : String, a ≠ "SemanticActionResult" →
            (("SemanticActionResult", c) == (a, b)) = false := by
          intro a b c h
          simp; exact fun e => absurd e.symm h
        simp only [EModule.text, List.lookup_cons]
        rw [hne _ _ _ (by decide), hne _ _ _ (by decide), hne _ _ _ (by decide),
          hne _ _ _ (by decide)]
        exact hlk _ hf
      simp [apply, this, hl, EVal.toVal]

theorem runIdxArms_text (m : EModule X Ty) (H : Host X V W Tok E) (call : CallSem V W Tok E)
    (fuel : Nat) (arms : List (RPat × Nat)) (t : Tok) (env : Locals) (s : RState V W Tok E) :
    Gives s (runIdxArms arms (H.toR t)) (fun k => .val (.num k) s)
      (evalArms (m.text : Program X V Tok E) H call fuel
        (arms.map fun a => (.token a.1, .num a.2)) (.tok t) env s) := by
  induction arms with
  | nil => trivial
  | cons a arms ih =>
    simp only [runIdxArms, List.map_cons, evalArms, matchPat]
    cases matchR a.1 (H.toR t) with
    | none => simpa using ih
    | some b => simp [Gives, eval, Res.pop]

theorem runValueArms_text (m : EModule X Ty) (H : Host X V W Tok E) (call : CallSem V W Tok E)
    (fuel : Nat) (arms : List EValueArm) (t : Tok) (env : Locals) (s : RState V W Tok E) :
    Gives s (m.runValueArms H.inj arms (H.toR t)) (fun v => .val v.toVal s)
      (evalArms (m.text : Program X V Tok E) H call fuel (arms.map fun a =>
        (.token a.pat, .block [] (.call (.path "SemanticActionResult" a.variant) (a.args.map .name))))
        (.tok t) env s) := by
  induction arms with
  | nil => trivial
  | cons a arms ih =>
    simp only [EModule.runValueArms, List.map_cons, evalArms, matchPat]
    cases matchR a.pat (H.toR t) with
    | none => simpa using ih
    | some b =>
      cases hm : a.args.mapM fun x => b.lookup x with
      | none => simp [Gives, hm]
      | some us =>
        simp only [hm, Option.map_some, List.map_map]
        cases hc : m.construct a.variant (us.map H.inj) with
        | error e =>
          cases e with
          | noCompile => trivial
          | panic f =>
            unfold EModule.construct at hc
            split at hc
            · cases hc
            · split at hc <;> cases hc
        | ok r =>
          have h3 := mapM_some_forall₂ hm
          simp only [Gives, eval, evalStmts, Res.bind]
          rw [evalAll_names _ H _ fuel (vs := (us.map H.inj).map .ext)]
          · simp only [apply_construct m call hc]
            simp [Res.pop]
          · rw [List.map_map, List.forall₂_map_right_iff]
            refine h3.imp fun x u hu => ?_
            obtain ⟨k, h4, h5⟩ := lookup_bind (xs := b.map (·.1))
              (vs := b.map ((fun x => x.2) ∘ fun b => (b.1, (Val.ext (H.inj b.2) : Val V Tok E))))
              (by simp) env s x (v := .ext (H.inj u)) (by
                clear hm hc h3
                induction b with
                | nil => simp at hu
                | cons c b ihb =>
                  obtain ⟨y, c⟩ := c
                  simp only [List.lookup_cons, List.map_cons, List.zip_cons_cons] at hu ⊢
                  split at hu
                  · cases hu; simp
                  · exact ihb hu)
            exact evalName_local _ h4 h5

/-! ## Apart -/

/-- The names in the emitted module that must be distinct for the functions to call each other. -/
structure EModule.Apart (m : EModule X Ty) : Prop where
  idx : m.idxCall = m.idxName
  value : m.valueCall = m.valueName
  fns : (fixedStatics ++ m.fnItems).Nodup
  idxLocal : m.idxName ∉ idxCallLocals
  valueLocal : m.valueName ∉ valueCallLocals
  extract : ∀ s ∈ m.structs, ∀ v ∈ m.variants, v.name ≠ s.extract
  methods : ∀ f ∈ m.methods, f.name ≠ "parse"
  structs : (m.structs.map (·.name)).Nodup

theorem EModule.Apart.names {m : EModule X Ty} (hm : m.Apart) :
    m.idxName ≠ "parse_generic" ∧ m.valueName ≠ "parse_generic" ∧ m.idxName ≠ m.valueName ∧
    (∀ f ∈ m.actionFns, f.name ≠ "parse_generic" ∧ f.name ≠ m.idxName ∧ f.name ≠ m.valueName) ∧
    ∀ f ∈ m.fnItems, f ∉ fixedStatics := by
  obtain ⟨_, h2, h3⟩ := List.nodup_append.1 hm.fns
  have h4 := h2
  unfold EModule.fnItems at h4
  obtain ⟨h5, _, h7⟩ := List.nodup_append.1 h4
  simp only [List.nodup_cons, List.mem_cons, List.not_mem_nil, or_false, not_or] at h5
  refine ⟨h5.1.2, h5.2.1, h5.1.1, fun f hf => ?_, fun f hf hf' => h3 f hf' f hf rfl⟩
  have := fun a ha => h7 a ha f.name (List.mem_map_of_mem hf)
  exact ⟨(this _ (by simp)).symm, (this _ (by simp)).symm, (this _ (by simp)).symm⟩

theorem EModule.Apart.fn_idx {m : EModule X Ty} (hm : m.Apart) :
    (m.text : Program X V Tok E).fn? (.free m.idxName) = some (idxFnText m.idxName m.idxArms) := by
  have h1 := hm.names.1.symm
  simp [Program.fn?, EModule.text, genericText, idxFnText, h1]

theorem EModule.Apart.fn_value {m : EModule X Ty} (hm : m.Apart) :
    (m.text : Program X V Tok E).fn? (.free m.valueName) =
      some (valueFnText m.valueName m.valueArms) := by
  obtain ⟨_, h2, h3, _⟩ := hm.names
  have h2' := h2.symm
  simp [Program.fn?, EModule.text, genericText, idxFnText, valueFnText, h2', h3]

theorem EModule.Apart.fn_action {m : EModule X Ty} (hm : m.Apart) {name : String} {f : EActionFn X}
    (hf : m.actionFns.find? (·.name = name) = some f) :
    (m.text : Program X V Tok E).fn? (.free name) = some (actionFnText f) := by
  have hmem := List.mem_of_find?_eq_some hf
  have hname : f.name = name := by simpa using List.find?_some hf
  obtain ⟨h1, h2, h3⟩ := hm.names.2.2.2.1 f hmem
  rw [hname] at h1 h2 h3
  have h1 := h1.symm
  have h2 := h2.symm
  have h3 := h3.symm
  have h4 : (m.actionFns.map (actionFnText (X := X))).find? (fun d => d.name = .free name) =
      some (actionFnText f) := by
    rw [List.find?_map]
    have : ((fun d : FnDecl X => decide (d.name = .free name)) ∘ actionFnText) =
        fun f : EActionFn X => decide (f.name = name) := by
      funext f; simp [actionFnText]
    rw [this, hf]; rfl
  simp [Program.fn?, EModule.text, genericText, idxFnText, valueFnText, h1, h2, h3, h4]

theorem EModule.Apart.fn_parse {m : EModule X Ty} (hm : m.Apart) {s : EStruct Ty}
    (hs : s ∈ m.structs) :
    (m.text : Program X V Tok E).fn? (.assoc s.name "parse") = some (parseText s) := by
  have h1 : (m.actionFns.map (actionFnText (X := X))).find?
      (fun d => d.name = .assoc s.name "parse") = none := by
    rw [List.find?_eq_none]
    intro d hd
    obtain ⟨a, _, rfl⟩ := List.mem_map.1 hd
    simp [actionFnText]
  have h2 : (m.methods.map (methodText (X := X))).find?
      (fun d => d.name = .assoc s.name "parse") = none := by
    rw [List.find?_eq_none]
    intro d hd
    obtain ⟨a, ha, rfl⟩ := List.mem_map.1 hd
    simp [methodText, hm.methods a ha]
  have h3 : (m.structs.map (parseText (X := X))).find?
      (fun d => d.name = .assoc s.name "parse") = some (parseText s) := by
    rw [List.find?_map]
    have : ((fun d : FnDecl X => decide (d.name = .assoc s.name "parse")) ∘ parseText) =
        fun f : EStruct Ty => decide (f.name = s.name) := by
      funext f; simp [parseText]
    rw [this]
    have : ∀ l : List (EStruct Ty), (l.map (·.name)).Nodup → s ∈ l →
        l.find? (fun f => f.name = s.name) = some s := by
      intro l
      induction l with
      | nil => simp
      | cons a l ih =>
        intro hn hmem
        simp only [List.map_cons, List.nodup_cons] at hn
        rcases List.mem_cons.1 hmem with rfl | hmem
        · simp
        · have : a.name ≠ s.name := fun e => hn.1 (e ▸ List.mem_map_of_mem hmem)
          simp [this]
          simpa using ih hn.2 hmem
    rw [this _ hm.structs hs]; rfl
  simp [Program.fn?, EModule.text, genericText, idxFnText, valueFnText, h1, h2, h3]

theorem Gives.idx {m : EModule X Ty} (hm : m.Apart) (H : Host X V W Tok E) (fuel d : Nat) (t : Tok)
    (s : RState V W Tok E) :
    Gives s (m.callIdx (H.toR t)) (fun k => .val (.num k) s)
      (callFn m.text H fuel (d + 1) (.free m.idxName) [.tok t] s) := by
  have hfn := hm.fn_idx (V := V) (Tok := Tok) (E := E)
  simp only [Program.fn?] at hfn
  have hx : (Locals.bind [] ["token"] s).lookup "token" = some s.store.length := by
    simp [Locals.bind]
  have hcell : (s.push [(.tok t : Val V Tok E)]).store[s.store.length]? = some (.tok t) := by
    simp [RState.push]
  simp only [EModule.callIdx, hm.idx, if_true, callFn, hfn, idxFnText, List.length_singleton, eval,
    evalStmts, Res.bind, evalName_local _ hx hcell]
  have := runIdxArms_text m H (callFn m.text H fuel d) fuel m.idxArms t (Locals.bind [] ["token"] s)
    (s.push [.tok t])
  cases hr : runIdxArms m.idxArms (H.toR t) with
  | ok k =>
    rw [hr] at this
    simp only [Gives] at this ⊢
    rw [this]; simp [Res.pop, Res.finish]
  | error e =>
    cases e with
    | noCompile => trivial
    | panic f =>
      rw [hr] at this
      simp only [Gives] at this ⊢
      rw [this]; simp [Res.pop, Res.finish]

theorem Gives.value {m : EModule X Ty} (hm : m.Apart) (H : Host X V W Tok E) (fuel d : Nat) (t : Tok)
    (s : RState V W Tok E) :
    Gives s (m.callValue H.inj (H.toR t)) (fun v => .val v.toVal s)
      (callFn m.text H fuel (d + 1) (.free m.valueName) [.tok t] s) := by
  have hfn := hm.fn_value (V := V) (Tok := Tok) (E := E)
  simp only [Program.fn?] at hfn
  have hx : (Locals.bind [] ["token"] s).lookup "token" = some s.store.length := by
    simp [Locals.bind]
  have hcell : (s.push [(.tok t : Val V Tok E)]).store[s.store.length]? = some (.tok t) := by
    simp [RState.push]
  simp only [EModule.callValue, hm.value, if_true, callFn, hfn, valueFnText, List.length_singleton,
    eval, evalStmts, Res.bind, evalName_local _ hx hcell]
  have := runValueArms_text m H (callFn m.text H fuel d) fuel m.valueArms t
    (Locals.bind [] ["token"] s) (s.push [.tok t])
  cases hr : m.runValueArms H.inj m.valueArms (H.toR t) with
  | ok k =>
    rw [hr] at this
    simp only [Gives] at this ⊢
    rw [this]; simp [Res.pop, Res.finish]
  | error e =>
    cases e with
    | noCompile => trivial
    | panic f =>
      rw [hr] at this
      simp only [Gives] at this ⊢
      rw [this]; simp [Res.pop, Res.finish]

/-! ## Action functions -/

/-- A stack of values as a vector: the top is last. -/
def stackVal (st : List (EVal V)) : Val V Tok E := .vec (st.reverse.map EVal.toVal)

/-- The local variables of an action function: cells `n + i`, holding `cells[i]`. -/
def LRel (n r : Nat) (cells : List (Val V Tok E)) (env : LEnv V) (loc : Locals) : Prop :=
  ∀ x, match env x with
    | none => loc.lookup x = none
    | some .stack => ∃ i, loc.lookup x = some (n + i) ∧ cells[i]? = some (.ref r)
    | some (.val b) => ∃ i, loc.lookup x = some (n + i) ∧ cells[i]? = some b.toVal

theorem LRel.bind {n r : Nat} {cells : List (Val V Tok E)} {env : LEnv V} {loc : Locals}
    (h : LRel n r cells env loc) (x : String) (b : BVal V) (s : RState V W Tok E)
    (hs : s.store.length = n + cells.length) :
    LRel n r (cells ++ [b.toVal]) (env.bind x b) (loc.bind [x] s) := by
  intro y
  have hy := h y
  simp only [Locals.bind, LEnv.bind, List.length_singleton, List.range'_one, List.zip_cons_cons,
    List.zip_nil_right, List.cons_append, List.nil_append, List.lookup_cons]
  by_cases hxy : y = x
  · subst hxy
    simp only [if_true, beq_self_eq_true]
    exact ⟨cells.length, by rw [hs], by simp⟩
  · have : (y == x) = false := by simp [hxy]
    simp only [hxy, if_false, this]
    have hap : ∀ {i : Nat} {v}, cells[i]? = some v → (cells ++ [b.toVal])[i]? = some v := by
      intro i v hi
      rw [List.getElem?_append_left (List.getElem?_eq_some_iff.1 hi).1]; exact hi
    split
    · rename_i hn; rw [hn] at hy; exact hy
    · rename_i hn; rw [hn] at hy
      obtain ⟨i, h1, h2⟩ := hy
      exact ⟨i, h1, hap h2⟩
    · rename_i hn; rw [hn] at hy
      obtain ⟨i, h1, h2⟩ := hy
      exact ⟨i, h1, hap h2⟩

theorem LRel.visible {r : Nat} {cells base : List (Val V Tok E)} {env : LEnv V} {loc : Locals}
    (h : LRel base.length r cells env loc) (w : W) (k : Nat) :
    visible loc (⟨base ++ cells, w, k⟩ : RState V W Tok E) = env.user := by
  funext x
  have hx := h x
  unfold Parsegen.visible LEnv.user
  split at hx
  · rename_i hn; simp [hx, hn]
  · rename_i hn
    obtain ⟨i, h1, h2⟩ := hx
    simp [h1, hn, List.getElem?_append_right, h2, Val.seen]
  · rename_i hn
    obtain ⟨i, h1, h2⟩ := hx
    simp [h1, hn, List.getElem?_append_right, h2, BVal.seen_toVal]

end Parsegen
