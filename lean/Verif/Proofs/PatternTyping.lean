import Verif.Proofs.Tokens
import Mathlib.Data.List.Nodup
import Verif.Spec.EmitTyping

/-! # Typing of the emitted token patterns -/

namespace Parsegen

variable {Ty : Type}

mutual
/-- The actual types at the `<T>` of a pattern; `none`: the pattern does not fit the type. -/
def slots (S : Sig Ty) : Pattern Ty → Ty → Option (List Ty)
  | .choose _, ty => some [ty]
  | .underscore, _ => some []
  | .dotDot, _ => none
  | .lit s, ty => if S.lit s ty then some [] else none
  | .path p, ty => match S.ctor p ty with
    | some [] => some []
    | _ => none
  | .enum p ps, ty => (S.ctor p ty).bind fun tys => slotsList S ps tys
  | .struct p fs dots, ty => (S.record p ty).bind fun tys =>
    if dots = true ∨ ∀ x ∈ tys, x.1 ∈ fs.map (·.1) then slotsFields S fs tys else none
  | .tuple ps, ty => (S.tuple ty).bind fun tys => slotsList S ps tys
/-- Components. -/
def slotsList (S : Sig Ty) : List (Pattern Ty) → List Ty → Option (List Ty)
  | [], tys => match tys with
    | [] => some []
    | _ :: _ => none
  | .dotDot :: ps, tys =>
    if (patternIgnoreList ps).any RPat.isRest = false ∧ ps.length ≤ tys.length then
      slotsList S ps (tys.drop (tys.length - ps.length))
    else none
  | p :: ps, tys => match tys with
    | [] => none
    | ty :: tys =>
      match slots S p ty, slotsList S ps tys with
      | some b, some b' => some (b ++ b')
      | _, _ => none
/-- Fields. -/
def slotsFields (S : Sig Ty) : List (String × Pattern Ty) → List (String × Ty) → Option (List Ty)
  | [], _ => some []
  | (f, p) :: fs, tys =>
    match tys.lookup f with
    | none => none
    | some ty =>
      match slots S p ty, slotsFields S fs tys with
      | some b, some b' => some (b ++ b')
      | _, _ => none
end

theorem RPat.varsList_rest {S : Sig Ty} {ps : List RPat} {tys : List Ty} :
    RPat.varsList S (.rest :: ps) tys =
      if ps.any RPat.isRest = false ∧ ps.length ≤ tys.length then
        RPat.varsList S ps (tys.drop (tys.length - ps.length)) else none := by
  rw [RPat.varsList]

theorem RPat.varsList_cons {S : Sig Ty} {p : RPat} {ps : List RPat} {tys : List Ty} (h : p ≠ .rest) :
    RPat.varsList S (p :: ps) tys = match tys with
      | [] => none
      | ty :: tys => match p.vars S ty, RPat.varsList S ps tys with
        | some b, some b' => some (b ++ b')
        | _, _ => none := by
  cases tys with
  | nil => rw [RPat.varsList]; exact h
  | cons => rw [RPat.varsList]; · rfl
            · exact h

theorem slotsList_rest {S : Sig Ty} {ps : List (Pattern Ty)} {tys : List Ty} :
    slotsList S (.dotDot :: ps) tys =
      if (patternIgnoreList ps).any RPat.isRest = false ∧ ps.length ≤ tys.length then
        slotsList S ps (tys.drop (tys.length - ps.length)) else none := by
  rw [slotsList]

theorem slotsList_cons {S : Sig Ty} {p : Pattern Ty} {ps : List (Pattern Ty)} {tys : List Ty}
    (h : p ≠ .dotDot) :
    slotsList S (p :: ps) tys = match tys with
      | [] => none
      | ty :: tys => match slots S p ty, slotsList S ps tys with
        | some b, some b' => some (b ++ b')
        | _, _ => none := by
  cases tys with
  | nil => rw [slotsList]; exact h
  | cons => rw [slotsList]; exact h

theorem isRest_iff {p : RPat} : p.isRest = true ↔ p = .rest := by
  cases p <;> simp [RPat.isRest]

theorem isRest_false {p : RPat} : p.isRest = false ↔ p ≠ .rest := by
  cases p <;> simp [RPat.isRest]

theorem ignore_any_rest (ps : List (Pattern Ty)) :
    (patternIgnoreList ps).any RPat.isRest = false ↔ Pattern.dotDot ∉ ps := by
  induction ps with
  | nil => simp [patternIgnoreList]
  | cons p ps ih =>
    rw [patternIgnoreList, List.any_cons, Bool.or_eq_false_iff, ih, isRest_false, ne_eq,
      patternIgnore_rest, List.mem_cons, not_or, eq_comm]

theorem idents_any_rest (ps : List (Pattern Ty)) (n : Nat) :
    (patternIdentsList ps n).1.any RPat.isRest = false ↔ Pattern.dotDot ∉ ps := by
  induction ps generalizing n with
  | nil => simp [patternIdentsList]
  | cons p ps ih =>
    simp only [patternIdentsList]
    rw [List.any_cons, Bool.or_eq_false_iff, ih, isRest_false, ne_eq,
      patternIdents_rest, List.mem_cons, not_or, eq_comm]

theorem patternIgnoreFields_names (fs : List (String × Pattern Ty)) :
    (patternIgnoreFields fs).map (·.1) = fs.map (·.1) := by
  induction fs with
  | nil => rfl
  | cons a fs ih => obtain ⟨f, p⟩ := a; simp [patternIgnoreFields, ih]

theorem patternIdentsFields_names (fs : List (String × Pattern Ty)) (n : Nat) :
    (patternIdentsFields fs n).1.map (·.1) = fs.map (·.1) := by
  induction fs generalizing n with
  | nil => rfl
  | cons a fs ih => obtain ⟨f, p⟩ := a; simp [patternIdentsFields, ih]

mutual
theorem vars_ignore (S : Sig Ty) : ∀ (p : Pattern Ty) (ty : Ty),
    (patternIgnore p).vars S ty = (slots S p ty).map fun _ => []
  | .choose _, ty => by simp [patternIgnore, RPat.vars, slots]
  | .underscore, ty => by simp [patternIgnore, RPat.vars, slots]
  | .dotDot, ty => by simp [patternIgnore, RPat.vars, slots]
  | .lit s, ty => by
    simp only [patternIgnore, RPat.vars, slots]
    split <;> rfl
  | .path p, ty => by
    simp only [patternIgnore, RPat.vars, slots]
    rcases S.ctor p ty with _ | _ | _ <;> rfl
  | .enum p ps, ty => by
    simp only [patternIgnore, RPat.vars, slots]
    cases S.ctor p ty with
    | none => rfl
    | some tys => exact varsList_ignore S ps tys
  | .struct p fs dots, ty => by
    simp only [patternIgnore, RPat.vars, slots, patternIgnoreFields_names]
    cases S.record p ty with
    | none => rfl
    | some tys =>
      simp only [Option.bind_some]
      split
      · exact varsFields_ignore S fs tys
      · rfl
  | .tuple ps, ty => by
    simp only [patternIgnore, RPat.vars, slots]
    cases S.tuple ty with
    | none => rfl
    | some tys => exact varsList_ignore S ps tys
theorem varsList_ignore (S : Sig Ty) : ∀ (ps : List (Pattern Ty)) (tys : List Ty),
    RPat.varsList S (patternIgnoreList ps) tys = (slotsList S ps tys).map fun _ => []
  | [], tys => by cases tys <;> simp [patternIgnoreList, RPat.varsList, slotsList]
  | p :: ps, tys => by
    rw [patternIgnoreList]
    by_cases hp : p = .dotDot
    · subst hp
      rw [patternIgnore, RPat.varsList_rest, slotsList_rest, patternIgnoreList_length]
      split
      · exact varsList_ignore S ps _
      · rfl
    · rw [RPat.varsList_cons (fun h => hp (patternIgnore_rest.1 h)), slotsList_cons hp]
      cases tys with
      | nil => rfl
      | cons ty tys =>
        simp only
        rw [vars_ignore S p ty, varsList_ignore S ps tys]
        cases slots S p ty <;> cases slotsList S ps tys <;> rfl
theorem varsFields_ignore (S : Sig Ty) : ∀ (fs : List (String × Pattern Ty)) (tys : List (String × Ty)),
    RPat.varsFields S (patternIgnoreFields fs) tys = (slotsFields S fs tys).map fun _ => []
  | [], tys => by simp [patternIgnoreFields, RPat.varsFields, slotsFields]
  | (f, p) :: fs, tys => by
    rw [patternIgnoreFields, RPat.varsFields, slotsFields]
    cases tys.lookup f with
    | none => rfl
    | some ty =>
      simp only
      rw [vars_ignore S p ty, varsFields_ignore S fs tys]
      cases slots S p ty <;> cases slotsFields S fs tys <;> rfl
end

mutual
theorem slots_length (S : Sig Ty) : ∀ (p : Pattern Ty) (ty : Ty) (c : List Ty),
    slots S p ty = some c → c.length = p.types.length
  | .choose _, ty, c => by intro h; simp [slots] at h; subst h; rfl
  | .underscore, ty, c => by intro h; simp [slots] at h; subst h; rfl
  | .dotDot, ty, c => by intro h; simp [slots] at h
  | .lit s, ty, c => by intro h; simp [slots] at h; rw [h.2]; rfl
  | .path p, ty, c => by
    intro h
    simp only [slots] at h
    split at h
    · cases h; rfl
    · cases h
  | .enum p ps, ty, c => by
    intro h
    simp only [slots] at h
    obtain ⟨tys, _, h2⟩ := Option.bind_eq_some_iff.1 h
    exact slotsList_length S ps tys c h2
  | .struct p fs dots, ty, c => by
    intro h
    simp only [slots] at h
    obtain ⟨tys, _, h2⟩ := Option.bind_eq_some_iff.1 h
    split at h2
    · exact slotsFields_length S fs tys c h2
    · cases h2
  | .tuple ps, ty, c => by
    intro h
    simp only [slots] at h
    obtain ⟨tys, _, h2⟩ := Option.bind_eq_some_iff.1 h
    exact slotsList_length S ps tys c h2
theorem slotsList_length (S : Sig Ty) : ∀ (ps : List (Pattern Ty)) (tys c : List Ty),
    slotsList S ps tys = some c → c.length = (Pattern.typesList ps).length
  | [], tys, c => by
    intro h
    cases tys with
    | nil => simp [slotsList] at h; subst h; rfl
    | cons => simp [slotsList] at h
  | p :: ps, tys, c => by
    intro h
    by_cases hp : p = .dotDot
    · subst hp
      rw [slotsList_rest] at h
      split at h
      · simpa [Pattern.typesList, Pattern.types] using slotsList_length S ps _ c h
      · cases h
    · rw [slotsList_cons hp] at h
      cases tys with
      | nil => cases h
      | cons ty tys =>
        simp only at h
        split at h
        · next b b' h1 h2 =>
          cases h
          rw [Pattern.typesList, List.length_append, List.length_append, slots_length S p ty b h1,
            slotsList_length S ps tys b' h2]
        · cases h
theorem slotsFields_length (S : Sig Ty) : ∀ (fs : List (String × Pattern Ty))
    (tys : List (String × Ty)) (c : List Ty),
    slotsFields S fs tys = some c → c.length = (Pattern.typesFields fs).length
  | [], tys, c => by
    intro h
    simp [slotsFields] at h; subst h; rfl
  | (f, p) :: fs, tys, c => by
    intro h
    rw [slotsFields] at h
    split at h
    · cases h
    · next ty hty =>
      split at h
      · next b b' h1 h2 =>
        cases h
        rw [Pattern.typesFields, List.length_append, List.length_append, slots_length S p ty b h1,
          slotsFields_length S fs tys b' h2]
      · cases h
end

/-- `l` with the names of the captured fields, from number `n` on. -/
def fieldVars (n : Nat) (l : List Ty) : List (String × Ty) :=
  (l.zipIdx n).map fun e => (fieldIdent e.2, e.1)

theorem fieldVars_append (n : Nat) (a b : List Ty) :
    fieldVars n (a ++ b) = fieldVars n a ++ fieldVars (n + a.length) b := by
  simp [fieldVars, List.zipIdx_append]

theorem vars_tupleNoComma {ps : List RPat} (S : Sig Ty) (h : ∀ p, ps = [p] → p = .rest) (ty : Ty) :
    (tupleNoComma ps).vars S ty = (RPat.tuple ps).vars S ty := by
  unfold tupleNoComma
  split
  · rfl
  · next p hne => exact absurd (h p rfl) (fun h' => hne (by rw [h']))
  · rfl

mutual
theorem vars_idents (S : Sig Ty) : ∀ (p : Pattern Ty) (_ : NoOneTuple p) (n : Nat) (ty : Ty),
    (patternIdents p n).1.vars S ty = (slots S p ty).map (fieldVars n)
  | .choose _, _, n, ty => by simp [patternIdents, RPat.vars, slots, fieldVars]
  | .underscore, _, n, ty => by simp [patternIdents, RPat.vars, slots, fieldVars]
  | .dotDot, _, n, ty => by simp [patternIdents, RPat.vars, slots]
  | .lit s, _, n, ty => by
    simp only [patternIdents, RPat.vars, slots]
    split <;> rfl
  | .path p, _, n, ty => by
    simp only [patternIdents, RPat.vars, slots]
    rcases S.ctor p ty with _ | _ | _ <;> rfl
  | .enum p ps, h, n, ty => by
    rw [NoOneTuple] at h
    simp only [patternIdents, RPat.vars, slots]
    cases S.ctor p ty with
    | none => rfl
    | some tys => exact varsList_idents S ps h n tys
  | .struct p fs dots, h, n, ty => by
    rw [NoOneTuple] at h
    simp only [patternIdents, RPat.vars, slots, patternIdentsFields_names]
    cases S.record p ty with
    | none => rfl
    | some tys =>
      simp only [Option.bind_some]
      split
      · exact varsFields_idents S fs h n tys
      · rfl
  | .tuple ps, h, n, ty => by
    rw [NoOneTuple] at h
    have h1 : ∀ p, (patternIdentsList ps n).1 = [p] → p = .rest := by
      intro p hp
      match ps, h.1, hp with
      | [], _, hp => simp [patternIdentsList] at hp
      | [q], h1, hp =>
        have := h1 q rfl
        subst this
        simp [patternIdentsList, patternIdents] at hp
        exact hp.symm
      | _ :: _ :: _, _, hp => simp [patternIdentsList] at hp
    simp only [patternIdents]
    rw [vars_tupleNoComma S h1]
    simp only [RPat.vars, slots]
    cases S.tuple ty with
    | none => rfl
    | some tys => exact varsList_idents S ps h.2 n tys
theorem varsList_idents (S : Sig Ty) : ∀ (ps : List (Pattern Ty)) (_ : NoOneTupleList ps) (n : Nat)
    (tys : List Ty),
    RPat.varsList S (patternIdentsList ps n).1 tys = (slotsList S ps tys).map (fieldVars n)
  | [], _, n, tys => by cases tys <;> simp [patternIdentsList, RPat.varsList, slotsList, fieldVars]
  | p :: ps, h, n, tys => by
    rw [NoOneTupleList] at h
    simp only [patternIdentsList]
    by_cases hp : p = .dotDot
    · subst hp
      simp only [patternIdents]
      rw [RPat.varsList_rest, slotsList_rest, patternIdentsList_length]
      have he : (patternIdentsList ps n).1.any RPat.isRest = (patternIgnoreList ps).any RPat.isRest := by
        have := (idents_any_rest ps n).trans (ignore_any_rest ps).symm
        cases h1 : (patternIdentsList ps n).1.any RPat.isRest <;>
          cases h2 : (patternIgnoreList ps).any RPat.isRest <;> simp_all
      rw [he]
      split
      · exact varsList_idents S ps h.2 n _
      · rfl
    · rw [RPat.varsList_cons (fun h => hp (patternIdents_rest.1 h)), slotsList_cons hp]
      cases tys with
      | nil => rfl
      | cons ty tys =>
        simp only
        rw [vars_idents S p h.1 n ty, varsList_idents S ps h.2 _ tys, patternIdents_count]
        cases hc : slots S p ty with
        | none => rfl
        | some c =>
          cases slotsList S ps tys with
          | none => rfl
          | some c' =>
            simp only [Option.map_some]
            rw [fieldVars_append, slots_length S p ty c hc, patternTypes_eq]
theorem varsFields_idents (S : Sig Ty) : ∀ (fs : List (String × Pattern Ty)) (_ : NoOneTupleFields fs)
    (n : Nat) (tys : List (String × Ty)),
    RPat.varsFields S (patternIdentsFields fs n).1 tys = (slotsFields S fs tys).map (fieldVars n)
  | [], _, n, tys => by simp [patternIdentsFields, RPat.varsFields, slotsFields, fieldVars]
  | (f, p) :: fs, h, n, tys => by
    rw [NoOneTupleFields] at h
    simp only [patternIdentsFields]
    rw [RPat.varsFields, slotsFields]
    cases tys.lookup f with
    | none => rfl
    | some ty =>
      simp only
      rw [vars_idents S p h.1 n ty, varsFields_idents S fs h.2 _ tys, patternIdents_count]
      cases hc : slots S p ty with
      | none => rfl
      | some c =>
        cases slotsFields S fs tys with
        | none => rfl
        | some c' =>
          simp only [Option.map_some]
          rw [fieldVars_append, slots_length S p ty c hc, patternTypes_eq]
end

mutual
theorem slots_of_fits {S : Sig Ty} : ∀ {p : Pattern Ty} {ty : Ty}, FitsTy S p ty →
    slots S p ty = some p.types
  | _, _, .choose T => rfl
  | _, _, .underscore _ => rfl
  | _, _, .lit h => by simp [slots, h, Pattern.types]
  | _, _, .path h => by simp [slots, h, Pattern.types]
  | _, _, .enum h hs => by simp [slots, h, Pattern.types, slotsList_of_fits hs]
  | _, _, .struct h hd hs => by
    simp only [slots, h, Pattern.types, Option.bind_some, if_pos hd]; exact slotsFields_of_fits hs
  | _, _, .tuple h hs => by simp [slots, h, Pattern.types, slotsList_of_fits hs]
theorem slotsList_of_fits {S : Sig Ty} : ∀ {ps : List (Pattern Ty)} {tys : List Ty},
    FitsTyList S ps tys → slotsList S ps tys = some (Pattern.typesList ps)
  | _, _, .nil => rfl
  | _, _, .dots skipped hd hl h => by
    rw [slotsList_rest, if_pos ⟨(ignore_any_rest _).2 hd, by simp; omega⟩]
    rw [show (skipped ++ _).length - _ = skipped.length by simp; omega, List.drop_left]
    rw [slotsList_of_fits h]; rfl
  | _, _, .cons (p := p) h h' => by
    have hp : p ≠ .dotDot := by rintro rfl; cases h
    rw [slotsList_cons hp]
    simp only [slots_of_fits h, slotsList_of_fits h', Pattern.typesList]
theorem slotsFields_of_fits {S : Sig Ty} : ∀ {fs : List (String × Pattern Ty)}
    {tys : List (String × Ty)}, FitsTyFields S fs tys →
    slotsFields S fs tys = some (Pattern.typesFields fs)
  | _, _, .nil _ => rfl
  | _, _, .cons hv h h' => by
    rw [slotsFields, hv]
    simp only [slots_of_fits h, slotsFields_of_fits h', Pattern.typesFields]
end

mutual
theorem fits_of_slots {S : Sig Ty} : ∀ (p : Pattern Ty) (ty : Ty), slots S p ty = some p.types →
    FitsTy S p ty
  | .choose T, ty => by
    intro h
    simp only [slots, Pattern.types, Option.some.injEq, List.cons.injEq, and_true] at h
    subst h; exact .choose _
  | .underscore, ty => fun _ => .underscore ty
  | .dotDot, ty => by intro h; simp [slots] at h
  | .lit s, ty => by intro h; simp [slots] at h; exact .lit h.1
  | .path p, ty => by
    intro h
    simp only [slots] at h
    split at h
    · next h' => exact .path h'
    · cases h
  | .enum p ps, ty => by
    intro h
    simp only [slots] at h
    obtain ⟨tys, h1, h2⟩ := Option.bind_eq_some_iff.1 h
    exact .enum h1 (fitsList_of_slots ps tys h2)
  | .struct p fs dots, ty => by
    intro h
    simp only [slots] at h
    obtain ⟨tys, h1, h2⟩ := Option.bind_eq_some_iff.1 h
    split at h2
    · next hd => exact .struct h1 hd (fitsFields_of_slots fs tys h2)
    · cases h2
  | .tuple ps, ty => by
    intro h
    simp only [slots] at h
    obtain ⟨tys, h1, h2⟩ := Option.bind_eq_some_iff.1 h
    exact .tuple h1 (fitsList_of_slots ps tys h2)
theorem fitsList_of_slots {S : Sig Ty} : ∀ (ps : List (Pattern Ty)) (tys : List Ty),
    slotsList S ps tys = some (Pattern.typesList ps) → FitsTyList S ps tys
  | [], tys => by
    intro h
    cases tys with
    | nil => exact .nil
    | cons => simp [slotsList] at h
  | p :: ps, tys => by
    intro h
    by_cases hp : p = .dotDot
    · subst hp
      rw [slotsList_rest] at h
      split at h
      · next hc =>
        have h2 := fitsList_of_slots ps _ h
        have := FitsTyList.dots (tys.take (tys.length - ps.length)) ((ignore_any_rest ps).1 hc.1)
          (by simp; omega) h2
        rwa [List.take_append_drop] at this
      · cases h
    · rw [slotsList_cons hp] at h
      cases tys with
      | nil => cases h
      | cons ty tys =>
        simp only at h
        split at h
        · next b b' h1 h2 =>
          rw [Pattern.typesList, Option.some.injEq] at h
          obtain ⟨e1, e2⟩ := List.append_inj h (slots_length S p ty b h1)
          subst e1 e2
          exact .cons (fits_of_slots p ty h1) (fitsList_of_slots ps tys h2)
        · cases h
theorem fitsFields_of_slots {S : Sig Ty} : ∀ (fs : List (String × Pattern Ty))
    (tys : List (String × Ty)), slotsFields S fs tys = some (Pattern.typesFields fs) →
    FitsTyFields S fs tys
  | [], tys => fun _ => .nil tys
  | (f, p) :: fs, tys => by
    intro h
    rw [slotsFields] at h
    split at h
    · cases h
    · next ty hty =>
      split at h
      · next b b' h1 h2 =>
        rw [Pattern.typesFields, Option.some.injEq] at h
        obtain ⟨e1, e2⟩ := List.append_inj h (slots_length S p ty b h1)
        subst e1 e2
        exact .cons hty (fits_of_slots p ty h1) (fitsFields_of_slots fs tys h2)
      · cases h
end

theorem fits_iff {S : Sig Ty} {p : Pattern Ty} {ty : Ty} :
    FitsTy S p ty ↔ slots S p ty = some p.types := ⟨slots_of_fits, fits_of_slots p ty⟩

theorem fieldVars_names (n : Nat) (l : List Ty) :
    (fieldVars n l).map (·.1) = (List.range' n l.length).map fieldIdent := by
  induction l generalizing n with
  | nil => rfl
  | cons a l ih =>
    have := ih (n + 1)
    simp only [fieldVars] at this
    simp [fieldVars, List.zipIdx_cons, List.range'_succ, this]

theorem fieldVars_nodup (l : List Ty) : ((fieldVars 0 l).map (·.1)).Nodup := by
  rw [fieldVars_names]
  exact List.Nodup.map (fun a b h => fieldIdent_inj h) List.nodup_range'

theorem lookup_fieldVars (l : List Ty) :
    ((List.range l.length).map fieldIdent).mapM (fun x => (fieldVars 0 l).lookup x) = some l := by
  have key : ∀ (l : List Ty) (n : Nat) (pre : List (String × Ty)),
      (∀ x ∈ pre, ∀ i, n ≤ i → x.1 ≠ fieldIdent i) →
      ((List.range' n l.length).map fieldIdent).mapM
        (fun x => (pre ++ fieldVars n l).lookup x) = some l := by
    intro l
    induction l with
    | nil => intros; rfl
    | cons a l ih =>
      intro n pre hpre
      have e1 : fieldVars n (a :: l) = (fieldIdent n, a) :: fieldVars (n + 1) l := by
        simp [fieldVars, List.zipIdx_cons]
      have e2 : (pre ++ fieldVars n (a :: l)).lookup (fieldIdent n) = some a := by
        rw [e1, List.lookup_append]
        have : pre.lookup (fieldIdent n) = none := by
          rw [List.lookup_eq_none_iff]
          intro p hp
          simpa using fun h : fieldIdent n = p.1 => hpre p hp n (Nat.le_refl _) h.symm
        rw [this]; simp
      have e3 := ih (n + 1) (pre ++ [(fieldIdent n, a)]) (by
        intro x hx i hi
        rcases List.mem_append.1 hx with hx | hx
        · exact hpre x hx i (by omega)
        · simp only [List.mem_singleton] at hx
          subst hx
          intro h
          have := fieldIdent_inj h
          omega)
      rw [List.append_assoc, List.singleton_append, ← e1] at e3
      rw [List.length_cons, List.range'_succ, List.map_cons, List.mapM_cons, e2, e3]
      rfl
  have := key l 0 [] (by simp)
  rw [← List.range_eq_range'] at this
  exact this

end Parsegen
