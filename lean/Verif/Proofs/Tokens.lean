import Verif.Spec.Tokens
import Verif.Spec.Semantics

/-! # The emitted token functions against the declared patterns -/

namespace Parsegen

variable {Ty : Type}

theorem fieldIdent_inj {m n : Nat} (h : fieldIdent m = fieldIdent n) : m = n := by
  unfold fieldIdent at h
  have h1 : (toString m) = toString n := by
    have := congrArg String.toList h
    simp only [String.toList_append] at this
    exact String.toList_inj.1 (List.append_cancel_left this)
  have h2 : m.repr.toList = n.repr.toList := congrArg String.toList h1
  rw [Nat.toList_repr, Nat.toList_repr] at h2
  have := congrArg (fun l => Nat.ofDigitChars 10 l 0) h2
  simpa using this

/-- Bindings of consecutive identifiers. -/
def numbered : Nat → List RVal → Binds
  | _, [] => []
  | n, v :: vs => (fieldIdent n, v) :: numbered (n + 1) vs

theorem numbered_append (n : Nat) (a b : List RVal) :
    numbered n (a ++ b) = numbered n a ++ numbered (n + a.length) b := by
  induction a generalizing n with
  | nil => rfl
  | cons v a ih =>
    simp only [List.cons_append, numbered, ih, List.length_cons]
    rw [show n + 1 + a.length = n + (a.length + 1) by omega]

theorem lookup_numbered {n i : Nat} {vs : List RVal} (hi : n ≤ i) :
    (numbered n vs).lookup (fieldIdent i) = vs[i - n]? := by
  induction vs generalizing n with
  | nil => rfl
  | cons v vs ih =>
    simp only [numbered, List.lookup_cons]
    by_cases h : i = n
    · subst h; simp
    · have hne : (fieldIdent i == fieldIdent n) = false := by
        simp only [beq_eq_false_iff_ne, ne_eq]
        intro he; exact h (fieldIdent_inj he)
      rw [hne]
      simp only
      rw [ih (by omega)]
      obtain ⟨k, hk⟩ : ∃ k, i - n = k + 1 := ⟨i - n - 1, by omega⟩
      rw [hk]
      simp
      congr 1; omega

theorem mapM_lookup_numbered (vs : List RVal) :
    (((List.range vs.length).map fieldIdent).mapM fun x => (numbered 0 vs).lookup x) = some vs := by
  have : ∀ (l : List Nat), (∀ i ∈ l, i < vs.length) →
      (l.map fieldIdent).mapM (fun x => (numbered 0 vs).lookup x) = l.mapM fun (i : Nat) => vs[i]? := by
    intro l
    induction l with
    | nil => intro _; rfl
    | cons i l ih =>
      intro h
      rw [List.map_cons, List.mapM_cons, List.mapM_cons, lookup_numbered (Nat.zero_le i),
        ih (fun j hj => h j (by simp [hj]))]
      rfl
  rw [this _ (by simp)]
  have h2 : ∀ (pre vs : List RVal),
      ((List.range' pre.length vs.length).mapM fun (i : Nat) => (pre ++ vs)[i]?) = some vs := by
    intro pre vs
    induction vs generalizing pre with
    | nil => rfl
    | cons v vs ih =>
      rw [List.length_cons, List.range'_succ, List.mapM_cons]
      have h3 := ih (pre ++ [v])
      simp only [List.length_append, List.length_cons, List.length_nil, List.append_assoc,
        List.singleton_append] at h3
      rw [h3]
      simp
  have := h2 [] vs
  simpa [List.range_eq_range'] using this

theorem patternIgnore_rest {p : Pattern Ty} : patternIgnore p = .rest ↔ p = .dotDot := by
  cases p <;> simp [patternIgnore]

theorem tupleNoComma_ne_rest (l : List RPat) : tupleNoComma l ≠ .rest := by
  unfold tupleNoComma; split <;> simp

theorem patternIdents_rest {p : Pattern Ty} {n : Nat} : (patternIdents p n).1 = .rest ↔ p = .dotDot := by
  cases p <;> simp [patternIdents, tupleNoComma_ne_rest]

theorem patternIgnoreList_length (ps : List (Pattern Ty)) :
    (patternIgnoreList ps).length = ps.length := by
  induction ps with
  | nil => rfl
  | cons p ps ih => simp [patternIgnoreList, ih]

theorem patternIdentsList_length (ps : List (Pattern Ty)) (n : Nat) :
    (patternIdentsList ps n).1.length = ps.length := by
  induction ps generalizing n with
  | nil => rfl
  | cons p ps ih => simp [patternIdentsList, ih]

theorem matchList_cons {p : RPat} {ps : List RPat} {vs : List RVal} (h : p ≠ .rest) :
    matchList (p :: ps) vs = match vs with
      | [] => none
      | v :: vs => match matchR p v, matchList ps vs with
        | some b, some b' => some (b ++ b')
        | _, _ => none := by
  cases vs with
  | nil => cases p <;> first | exact absurd rfl h | rfl
  | cons v vs => cases p <;> first | exact absurd rfl h | rfl

theorem captureList_cons {p : Pattern Ty} {ps : List (Pattern Ty)} {vs : List RVal}
    (h : p ≠ .dotDot) :
    captureList (p :: ps) vs = match vs with
      | [] => none
      | v :: vs => match capture p v, captureList ps vs with
        | some c, some c' => some (c ++ c')
        | _, _ => none := by
  cases vs with
  | nil => cases p <;> first | exact absurd rfl h | rfl
  | cons v vs => cases p <;> first | exact absurd rfl h | rfl

theorem matchList_rest {ps : List RPat} {vs : List RVal} :
    matchList (.rest :: ps) vs =
      if ps.length ≤ vs.length then matchList ps (vs.drop (vs.length - ps.length)) else none := by
  cases vs <;> rfl

theorem captureList_rest {ps : List (Pattern Ty)} {vs : List RVal} :
    captureList (.dotDot :: ps) vs =
      if ps.length ≤ vs.length then captureList ps (vs.drop (vs.length - ps.length)) else none := by
  cases vs <;> rfl

theorem patternIgnoreFields_any {fs : List (String × Pattern Ty)} {vs : List (String × RVal)} :
    (vs.all fun v => (patternIgnoreFields fs).any fun f => f.1 == v.1) = true ↔
      ∀ x ∈ vs, x.1 ∈ fs.map (·.1) := by
  have : ∀ x : String, ((patternIgnoreFields fs).any fun f => f.1 == x) = true ↔
      x ∈ fs.map (·.1) := by
    intro x
    induction fs with
    | nil => simp [patternIgnoreFields]
    | cons f fs ih =>
      obtain ⟨f, p⟩ := f
      simp only [patternIgnoreFields, List.any_cons, Bool.or_eq_true, beq_iff_eq, ih,
        List.map_cons, List.mem_cons]
      constructor <;> rintro (h | h)
      · exact Or.inl h.symm
      · exact Or.inr h
      · exact Or.inl h.symm
      · exact Or.inr h
  rw [List.all_eq_true]
  simp only [this]

theorem patternIdentsFields_any {fs : List (String × Pattern Ty)} {n : Nat}
    {vs : List (String × RVal)} :
    (vs.all fun v => (patternIdentsFields fs n).1.any fun f => f.1 == v.1) = true ↔
      ∀ x ∈ vs, x.1 ∈ fs.map (·.1) := by
  have : ∀ x : String, ((patternIdentsFields fs n).1.any fun f => f.1 == x) = true ↔
      x ∈ fs.map (·.1) := by
    intro x
    induction fs generalizing n with
    | nil => simp [patternIdentsFields]
    | cons f fs ih =>
      obtain ⟨f, p⟩ := f
      simp only [patternIdentsFields, List.any_cons, Bool.or_eq_true, beq_iff_eq, ih,
        List.map_cons, List.mem_cons]
      constructor <;> rintro (h | h)
      · exact Or.inl h.symm
      · exact Or.inr h
      · exact Or.inl h.symm
      · exact Or.inr h
  rw [List.all_eq_true]
  simp only [this]

mutual
theorem patternTypes_eq : ∀ p : Pattern Ty, patternTypes p = p.types
  | .choose _ => rfl
  | .underscore => rfl
  | .dotDot => rfl
  | .lit _ => rfl
  | .path _ => rfl
  | .enum _ ps => by rw [patternTypes, Pattern.types]; exact patternTypesList_eq ps
  | .struct _ fs _ => by rw [patternTypes, Pattern.types]; exact patternTypesFields_eq fs
  | .tuple ps => by rw [patternTypes, Pattern.types]; exact patternTypesList_eq ps
theorem patternTypesList_eq : ∀ ps : List (Pattern Ty), patternTypesList ps = Pattern.typesList ps
  | [] => rfl
  | p :: ps => by rw [patternTypesList, Pattern.typesList, patternTypes_eq p, patternTypesList_eq ps]
theorem patternTypesFields_eq : ∀ fs : List (String × Pattern Ty),
    patternTypesFields fs = Pattern.typesFields fs
  | [] => rfl
  | (_, p) :: fs => by
    rw [patternTypesFields, Pattern.typesFields, patternTypes_eq p, patternTypesFields_eq fs]
end

mutual
/-- The classifier pattern matches what the declared pattern matches. -/
theorem matchR_ignore : ∀ (p : Pattern Ty) (v : RVal),
    matchR (patternIgnore p) v = (capture p v).map fun _ => []
  | .choose _, v => by simp [patternIgnore, matchR, capture]
  | .underscore, v => by simp [patternIgnore, matchR, capture]
  | .dotDot, v => by simp [patternIgnore, matchR, capture]
  | .lit s, v => by
    cases v <;> simp [patternIgnore, matchR, capture]
  | .path p, v => by
    cases v with
    | ctor p' args =>
      cases args with
      | nil => simp only [patternIgnore, matchR, capture]; split <;> rfl
      | cons a args => simp [patternIgnore, matchR, capture]
    | record => simp [patternIgnore, matchR, capture]
    | tuple => simp [patternIgnore, matchR, capture]
    | lit => simp [patternIgnore, matchR, capture]
  | .enum p ps, v => by
    cases v with
    | ctor p' args =>
      simp only [patternIgnore, matchR, capture]
      split
      · exact matchList_ignore ps args
      · rfl
    | record => simp [patternIgnore, matchR, capture]
    | tuple => simp [patternIgnore, matchR, capture]
    | lit => simp [patternIgnore, matchR, capture]
  | .struct p fs dots, v => by
    cases v with
    | record p' vs =>
      simp only [patternIgnore, matchR, capture]
      have : (decide (p = p') && (dots || vs.all fun v => (patternIgnoreFields fs).any
          fun f => f.1 == v.1)) = true ↔ (p = p' ∧ (dots = true ∨ ∀ x ∈ vs, x.1 ∈ fs.map (·.1))) := by
        rw [Bool.and_eq_true, Bool.or_eq_true, patternIgnoreFields_any, decide_eq_true_eq]
      by_cases hc : p = p' ∧ (dots = true ∨ ∀ x ∈ vs, x.1 ∈ fs.map (·.1))
      · rw [if_pos (this.2 hc), if_pos hc]
        exact matchFields_ignore fs vs
      · rw [if_neg (fun h => hc (this.1 h)), if_neg hc]; rfl
    | ctor => simp [patternIgnore, matchR, capture]
    | tuple => simp [patternIgnore, matchR, capture]
    | lit => simp [patternIgnore, matchR, capture]
  | .tuple ps, v => by
    cases v with
    | tuple vs => simp only [patternIgnore, matchR, capture]; exact matchList_ignore ps vs
    | ctor => simp [patternIgnore, matchR, capture]
    | record => simp [patternIgnore, matchR, capture]
    | lit => simp [patternIgnore, matchR, capture]
theorem matchList_ignore : ∀ (ps : List (Pattern Ty)) (vs : List RVal),
    matchList (patternIgnoreList ps) vs = (captureList ps vs).map fun _ => []
  | [], vs => by cases vs <;> simp [patternIgnoreList, matchList, captureList]
  | p :: ps, vs => by
    rw [patternIgnoreList]
    by_cases hp : p = .dotDot
    · subst hp
      rw [patternIgnore, matchList_rest, captureList_rest, patternIgnoreList_length]
      split
      · exact matchList_ignore ps _
      · rfl
    · rw [matchList_cons (fun h => hp (patternIgnore_rest.1 h)), captureList_cons hp]
      cases vs with
      | nil => rfl
      | cons v vs =>
        simp only
        rw [matchR_ignore p v, matchList_ignore ps vs]
        cases capture p v <;> cases captureList ps vs <;> rfl
theorem matchFields_ignore : ∀ (fs : List (String × Pattern Ty)) (vs : List (String × RVal)),
    matchFields (patternIgnoreFields fs) vs = (captureFields fs vs).map fun _ => []
  | [], vs => by simp [patternIgnoreFields, matchFields, captureFields]
  | (f, p) :: fs, vs => by
    rw [patternIgnoreFields, matchFields, captureFields]
    cases vs.lookup f with
    | none => rfl
    | some v =>
      simp only
      rw [matchR_ignore p v, matchFields_ignore fs vs]
      cases capture p v <;> cases captureFields fs vs <;> rfl
end

mutual
/-- A match captures one value per declared type. -/
theorem capture_length : ∀ (p : Pattern Ty) (v : RVal) (c : List RVal), capture p v = some c →
    c.length = (patternTypes p).length
  | .choose _, v, c => by
    intro h; simp [capture] at h; subst h; rfl
  | .underscore, v, c => by intro h; simp [capture] at h; subst h; rfl
  | .dotDot, v, c => by intro h; simp [capture] at h
  | .lit s, v, c => by
    intro h; cases v <;> simp [capture] at h
    obtain ⟨_, rfl⟩ := h; rfl
  | .path p, v, c => by
    intro h
    cases v with
    | ctor p' args =>
      cases args with
      | nil => simp only [capture] at h; split at h <;> cases h; rfl
      | cons a args => simp [capture] at h
    | record => simp [capture] at h
    | tuple => simp [capture] at h
    | lit => simp [capture] at h
  | .enum p ps, v, c => by
    intro h
    cases v with
    | ctor p' args =>
      simp only [capture] at h
      split at h
      · rw [patternTypes]; exact captureList_length ps _ c h
      · cases h
    | record => simp [capture] at h
    | tuple => simp [capture] at h
    | lit => simp [capture] at h
  | .struct p fs dots, v, c => by
    intro h
    cases v with
    | record p' args =>
      simp only [capture] at h
      split at h
      · rw [patternTypes]; exact captureFields_length fs _ c h
      · cases h
    | ctor => simp [capture] at h
    | tuple => simp [capture] at h
    | lit => simp [capture] at h
  | .tuple ps, v, c => by
    intro h
    cases v with
    | tuple args =>
      simp only [capture] at h
      rw [patternTypes]; exact captureList_length ps _ c h
    | ctor => simp [capture] at h
    | record => simp [capture] at h
    | lit => simp [capture] at h
theorem captureList_length : ∀ (ps : List (Pattern Ty)) (vs c : List RVal),
    captureList ps vs = some c → c.length = (patternTypesList ps).length
  | [], vs, c => by
    intro h
    cases vs <;> simp [captureList] at h
    subst h; rfl
  | p :: ps, vs, c => by
    intro h
    rw [patternTypesList]
    by_cases hp : p = .dotDot
    · subst hp
      rw [captureList_rest] at h
      split at h
      · simpa [patternTypes] using captureList_length ps _ c h
      · cases h
    · rw [captureList_cons hp] at h
      split at h
      · cases h
      · next v vs =>
        split at h
        · next c1 c2 h1 h2 =>
          cases h
          rw [List.length_append, List.length_append, capture_length p v c1 h1,
            captureList_length ps vs c2 h2]
        · cases h
theorem captureFields_length : ∀ (fs : List (String × Pattern Ty)) (vs : List (String × RVal))
    (c : List RVal), captureFields fs vs = some c → c.length = (patternTypesFields fs).length
  | [], vs, c => by intro h; simp [captureFields] at h; subst h; rfl
  | (f, p) :: fs, vs, c => by
    intro h
    rw [patternTypesFields]
    rw [captureFields] at h
    split at h
    · cases h
    · next v _ =>
      split at h
      · next c1 c2 h1 h2 =>
        cases h
        rw [List.length_append, List.length_append, capture_length p v c1 h1,
          captureFields_length fs vs c2 h2]
      · cases h
end

mutual
theorem patternIdents_count : ∀ (p : Pattern Ty) (n : Nat),
    (patternIdents p n).2 = n + (patternTypes p).length
  | .choose _, n => rfl
  | .underscore, n => rfl
  | .dotDot, n => rfl
  | .lit _, n => rfl
  | .path _, n => rfl
  | .enum _ ps, n => by simp only [patternIdents, patternTypes]; exact patternIdentsList_count ps n
  | .struct _ fs _, n => by
    simp only [patternIdents, patternTypes]; exact patternIdentsFields_count fs n
  | .tuple ps, n => by simp only [patternIdents, patternTypes]; exact patternIdentsList_count ps n
theorem patternIdentsList_count : ∀ (ps : List (Pattern Ty)) (n : Nat),
    (patternIdentsList ps n).2 = n + (patternTypesList ps).length
  | [], n => rfl
  | p :: ps, n => by
    simp only [patternIdentsList, patternTypesList, List.length_append]
    rw [patternIdentsList_count ps, patternIdents_count p]; omega
theorem patternIdentsFields_count : ∀ (fs : List (String × Pattern Ty)) (n : Nat),
    (patternIdentsFields fs n).2 = n + (patternTypesFields fs).length
  | [], n => rfl
  | (_, p) :: fs, n => by
    simp only [patternIdentsFields, patternTypesFields, List.length_append]
    rw [patternIdentsFields_count fs, patternIdents_count p]; omega
end

theorem matchR_tupleNoComma {ps : List RPat} (h : ∀ p, ps = [p] → p = .rest) (v : RVal) :
    matchR (tupleNoComma ps) v = matchR (.tuple ps) v := by
  unfold tupleNoComma
  split
  · rfl
  · next p hne => exact absurd (h p rfl) (fun h' => hne (by rw [h']))
  · rfl

mutual
/-- The value pattern binds exactly the captures, numbered in order. -/
theorem matchR_idents : ∀ (p : Pattern Ty) (_ : NoOneTuple p) (n : Nat) (v : RVal),
    matchR (patternIdents p n).1 v = (capture p v).map (numbered n)
  | .choose _, _, n, v => by simp [patternIdents, matchR, capture, numbered]
  | .underscore, _, n, v => by simp [patternIdents, matchR, capture, numbered]
  | .dotDot, _, n, v => by simp [patternIdents, matchR, capture]
  | .lit s, _, n, v => by
    cases v <;> simp [patternIdents, matchR, capture]
    split <;> rfl
  | .path p, _, n, v => by
    cases v with
    | ctor p' args =>
      cases args with
      | nil => simp only [patternIdents, matchR, capture]; split <;> rfl
      | cons a args => simp [patternIdents, matchR, capture]
    | record => simp [patternIdents, matchR, capture]
    | tuple => simp [patternIdents, matchR, capture]
    | lit => simp [patternIdents, matchR, capture]
  | .enum p ps, h, n, v => by
    rw [NoOneTuple] at h
    cases v with
    | ctor p' args =>
      simp only [patternIdents, matchR, capture]
      split
      · exact matchList_idents ps h n args
      · rfl
    | record => simp [patternIdents, matchR, capture]
    | tuple => simp [patternIdents, matchR, capture]
    | lit => simp [patternIdents, matchR, capture]
  | .struct p fs dots, h, n, v => by
    rw [NoOneTuple] at h
    cases v with
    | record p' vs =>
      simp only [patternIdents, matchR, capture]
      have : (decide (p = p') && (dots || vs.all fun v => (patternIdentsFields fs n).1.any
          fun f => f.1 == v.1)) = true ↔ (p = p' ∧ (dots = true ∨ ∀ x ∈ vs, x.1 ∈ fs.map (·.1))) := by
        rw [Bool.and_eq_true, Bool.or_eq_true, patternIdentsFields_any, decide_eq_true_eq]
      by_cases hc : p = p' ∧ (dots = true ∨ ∀ x ∈ vs, x.1 ∈ fs.map (·.1))
      · rw [if_pos (this.2 hc), if_pos hc]
        exact matchFields_idents fs h n vs
      · rw [if_neg (fun h => hc (this.1 h)), if_neg hc]; rfl
    | ctor => simp [patternIdents, matchR, capture]
    | tuple => simp [patternIdents, matchR, capture]
    | lit => simp [patternIdents, matchR, capture]
  | .tuple ps, h, n, v => by
    rw [NoOneTuple] at h
    have h1 : ∀ p, (patternIdentsList ps n).1 = [p] → p = .rest := by
      intro p hp
      match ps, h.1, hp with
      | [], _, hp => simp [patternIdentsList] at hp
      | [q], h1, hp =>
        have := h1 q rfl
        subst this
        simp [patternIdentsList, patternIdents] at hp
        exact hp.symm
      | _ :: _ :: _, _, hp => simp [patternIdentsList] at hp
    simp only [patternIdents]
    rw [matchR_tupleNoComma h1]
    cases v with
    | tuple vs => simp only [matchR, capture]; exact matchList_idents ps h.2 n vs
    | ctor => simp [matchR, capture]
    | record => simp [matchR, capture]
    | lit => simp [matchR, capture]
theorem matchList_idents : ∀ (ps : List (Pattern Ty)) (_ : NoOneTupleList ps) (n : Nat)
    (vs : List RVal),
    matchList (patternIdentsList ps n).1 vs = (captureList ps vs).map (numbered n)
  | [], _, n, vs => by cases vs <;> simp [patternIdentsList, matchList, captureList, numbered]
  | p :: ps, h, n, vs => by
    rw [NoOneTupleList] at h
    simp only [patternIdentsList]
    by_cases hp : p = .dotDot
    · subst hp
      simp only [patternIdents]
      rw [matchList_rest, captureList_rest, patternIdentsList_length]
      split
      · exact matchList_idents ps h.2 n _
      · rfl
    · rw [matchList_cons (fun h => hp (patternIdents_rest.1 h)), captureList_cons hp]
      cases vs with
      | nil => rfl
      | cons v vs =>
        simp only
        rw [matchR_idents p h.1 n v, matchList_idents ps h.2 _ vs, patternIdents_count]
        cases hc : capture p v with
        | none => rfl
        | some c =>
          cases captureList ps vs with
          | none => rfl
          | some c' =>
            simp only [Option.map_some]
            rw [numbered_append, capture_length p v c hc]
theorem matchFields_idents : ∀ (fs : List (String × Pattern Ty)) (_ : NoOneTupleFields fs) (n : Nat)
    (vs : List (String × RVal)),
    matchFields (patternIdentsFields fs n).1 vs = (captureFields fs vs).map (numbered n)
  | [], _, n, vs => by simp [patternIdentsFields, matchFields, captureFields, numbered]
  | (f, p) :: fs, h, n, vs => by
    rw [NoOneTupleFields] at h
    simp only [patternIdentsFields]
    rw [matchFields, captureFields]
    cases vs.lookup f with
    | none => rfl
    | some v =>
      simp only
      rw [matchR_idents p h.1 n v, matchFields_idents fs h.2 _ vs, patternIdents_count]
      cases hc : capture p v with
      | none => rfl
      | some c =>
        cases captureFields fs vs with
        | none => rfl
        | some c' =>
          simp only [Option.map_some]
          rw [numbered_append, capture_length p v c hc]
end

/-- The index of the first declared pattern that matches. -/
def firstMatch : List (Conversion Ty) → RVal → Option Nat
  | [], _ => none
  | c :: cs, v => if (capture c.to v).isSome then some 0 else (firstMatch cs v).map (· + 1)

theorem tokenTerminalIdx_eq (cs : List (Conversion Ty)) (i : Nat) (v : RVal) :
    tokenTerminalIdx cs i v = (firstMatch cs v).map (· + i) := by
  induction cs generalizing i with
  | nil => rfl
  | cons c cs ih =>
    unfold tokenTerminalIdx firstMatch
    rw [matchR_ignore]
    cases capture c.to v with
    | some c' => simp
    | none =>
      simp only [Option.map_none, Option.isSome_none, Bool.false_eq_true, if_false, ih,
        Option.map_map]
      congr 1; funext x; simp; omega

theorem tokenValue_eq (cs : List (Conversion Ty)) (h : ∀ c ∈ cs, NoOneTuple c.to) (i : Nat)
    (v : RVal) : tokenValue cs i v =
      (firstMatch cs v).bind fun k => (classify cs v).map fun r => SAR.token (k + i) r.2 := by
  induction cs generalizing i with
  | nil => rfl
  | cons c cs ih =>
    unfold tokenValue firstMatch classify
    simp only
    rw [matchR_idents _ (h c (by simp))]
    cases hc : capture c.to v with
    | some c' =>
      simp only [Option.map_some, Option.isSome_some, if_true, Option.bind_some]
      rw [patternIdents_count, Nat.zero_add, ← capture_length c.to v c' hc, mapM_lookup_numbered]
      simp
    | none =>
      simp only [Option.map_none, Option.isSome_none, Bool.false_eq_true, if_false]
      rw [ih (fun c hc => h c (by simp [hc]))]
      cases firstMatch cs v with
      | none => rfl
      | some k =>
        simp only [Option.map_some, Option.bind_some]
        congr 1; funext r; congr 1; omega

theorem classify_firstMatch {cs : List (Conversion Ty)} {v : RVal} {k : Nat}
    (h : firstMatch cs v = some k) : ∃ c caps, cs[k]? = some c ∧ capture c.to v = some caps ∧
      classify cs v = some (c.from_, caps) := by
  induction cs generalizing k with
  | nil => cases h
  | cons c cs ih =>
    unfold firstMatch at h
    cases hc : capture c.to v with
    | some caps =>
      rw [hc] at h
      simp at h
      subst h
      exact ⟨c, caps, rfl, hc, by rw [classify, hc]⟩
    | none =>
      rw [hc] at h
      simp at h
      obtain ⟨k', hk', rfl⟩ := h
      obtain ⟨c', caps, h1, h2, h3⟩ := ih hk'
      exact ⟨c', caps, by simpa using h1, h2, by rw [classify, hc]; exact h3⟩

theorem firstMatch_isSome {cs : List (Conversion Ty)} {v : RVal} {r : String × List RVal}
    (h : classify cs v = some r) : ∃ k, firstMatch cs v = some k := by
  induction cs with
  | nil => cases h
  | cons c cs ih =>
    unfold firstMatch
    unfold classify at h
    cases hc : capture c.to v with
    | some caps => exact ⟨0, by simp⟩
    | none =>
      rw [hc] at h
      obtain ⟨k, hk⟩ := ih h
      exact ⟨k + 1, by simp [hk]⟩

end Parsegen
