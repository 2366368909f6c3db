import Verif.Spec.Variables
import Verif.Proofs.Tokens
import Verif.Proofs.Macro

/-! # Path patterns that are variables -/

namespace Parsegen

variable {X Ty : Type} (isVar : String → Bool)

/-! ## Emitted patterns -/

mutual
/-- An emitted pattern with `_` for the variables that are paths. -/
def RPat.wildVars : RPat → RPat
  | .path p => if isVar p then .wild else .path p
  | .tupleStruct p ps => .tupleStruct p (RPat.wildVarsList ps)
  | .struct p fs dots => .struct p (RPat.wildVarsFields fs) dots
  | .tuple ps => .tuple (RPat.wildVarsList ps)
  | .paren p => .paren (p.wildVars)
  | .wild => .wild
  | .rest => .rest
  | .lit s => .lit s
  | .ident n => .ident n
/-- In components. -/
def RPat.wildVarsList : List RPat → List RPat
  | [] => []
  | p :: ps => p.wildVars :: RPat.wildVarsList ps
/-- In fields. -/
def RPat.wildVarsFields : List (String × RPat) → List (String × RPat)
  | [] => []
  | (f, p) :: fs => (f, p.wildVars) :: RPat.wildVarsFields fs
end

theorem RPat.wildVars_rest {p : RPat} : p.wildVars isVar = .rest ↔ p = .rest := by
  cases p <;> simp [RPat.wildVars]
  split <;> simp

theorem RPat.resolve_rest {p : RPat} : p.resolve isVar = .rest ↔ p = .rest := by
  cases p <;> simp [RPat.resolve]
  split <;> simp

theorem RPat.wildVarsList_length (ps : List RPat) : (RPat.wildVarsList isVar ps).length = ps.length := by
  induction ps with
  | nil => rfl
  | cons p ps ih => simp [RPat.wildVarsList, ih]

theorem RPat.resolveList_length (ps : List RPat) : (RPat.resolveList isVar ps).length = ps.length := by
  induction ps with
  | nil => rfl
  | cons p ps ih => simp [RPat.resolveList, ih]

theorem RPat.wildVarsFields_any (fs : List (String × RPat)) (v : String) :
    (RPat.wildVarsFields isVar fs).any (fun f => f.1 == v) = fs.any (fun f => f.1 == v) := by
  induction fs with
  | nil => rfl
  | cons f fs ih => obtain ⟨f, p⟩ := f; simp [RPat.wildVarsFields, ih]

theorem RPat.resolveFields_any (fs : List (String × RPat)) (v : String) :
    (RPat.resolveFields isVar fs).any (fun f => f.1 == v) = fs.any (fun f => f.1 == v) := by
  induction fs with
  | nil => rfl
  | cons f fs ih => obtain ⟨f, p⟩ := f; simp [RPat.resolveFields, ih]

/-- The two matches: the second one binds fewer names, and the first one these. -/
inductive VarRel (names : List String) : Option Binds → Option Binds → Prop
  | none : VarRel names none none
  | some {b b' : Binds} (hs : b'.Sublist b) (hn : b.map (·.1) = names) : VarRel names (some b) (some b')

/-- The bindings of two patterns. -/
def bothBinds (a b : Option Binds) : Option Binds :=
  match a, b with
  | some x, some y => some (x ++ y)
  | _, _ => none

theorem VarRel.append {n n' : List String} {a a' b b' : Option Binds} (h : VarRel n a a')
    (h' : VarRel n' b b') : VarRel (n ++ n') (bothBinds a b) (bothBinds a' b') := by
  cases h with
  | none => exact .none
  | some hs hn =>
    cases h' with
    | none => exact .none
    | some hs' hn' => exact .some (hs.append hs') (by rw [List.map_append, hn, hn'])

mutual
theorem matchR_vars : ∀ (q : RPat) (v : RVal),
    VarRel (q.resolve isVar).boundVars (matchR (q.resolve isVar) v) (matchR (q.wildVars isVar) v)
  | .wild, v => by simp only [RPat.resolve, RPat.wildVars, matchR, RPat.boundVars]; exact .some .slnil rfl
  | .rest, v => by simp only [RPat.resolve, RPat.wildVars, matchR, RPat.boundVars]; exact .none
  | .ident n, v => by
    simp only [RPat.resolve, RPat.wildVars, matchR, RPat.boundVars]; exact .some (.refl _) rfl
  | .lit s, v => by
    simp only [RPat.resolve, RPat.wildVars, RPat.boundVars]
    cases v <;> simp only [matchR] <;> try exact .none
    split
    · exact .some .slnil rfl
    · exact .none
  | .path p, v => by
    simp only [RPat.resolve, RPat.wildVars]
    cases isVar p with
    | true =>
      simp only [if_true, matchR, RPat.boundVars]
      exact .some (List.nil_sublist _) rfl
    | false =>
      simp only [Bool.false_eq_true, if_false, RPat.boundVars]
      cases v with
      | ctor p' args =>
        cases args with
        | nil =>
          simp only [matchR]
          split
          · exact .some .slnil rfl
          · exact .none
        | cons => simp only [matchR]; exact .none
      | record => simp only [matchR]; exact .none
      | tuple => simp only [matchR]; exact .none
      | lit => simp only [matchR]; exact .none
  | .tupleStruct p ps, v => by
    simp only [RPat.resolve, RPat.wildVars, RPat.boundVars]
    cases v <;> simp only [matchR] <;> try exact .none
    split
    · exact matchList_vars ps _
    · exact .none
  | .struct p fs dots, v => by
    simp only [RPat.resolve, RPat.wildVars, RPat.boundVars]
    cases v <;> simp only [matchR, RPat.wildVarsFields_any, RPat.resolveFields_any] <;> try exact .none
    split
    · exact matchFields_vars fs _
    · exact .none
  | .tuple ps, v => by
    simp only [RPat.resolve, RPat.wildVars, RPat.boundVars]
    cases v <;> simp only [matchR] <;> try exact .none
    exact matchList_vars ps _
  | .paren p, v => by
    simp only [RPat.resolve, RPat.wildVars, RPat.boundVars, matchR]
    exact matchR_vars p v
theorem matchList_vars : ∀ (ps : List RPat) (vs : List RVal),
    VarRel (RPat.boundVarsList (RPat.resolveList isVar ps)) (matchList (RPat.resolveList isVar ps) vs)
      (matchList (RPat.wildVarsList isVar ps) vs)
  | [], vs => by
    cases vs <;> simp only [RPat.resolveList, RPat.wildVarsList, matchList, RPat.boundVarsList]
    · exact .some .slnil rfl
    · exact .none
  | p :: ps, vs => by
    rw [RPat.resolveList, RPat.wildVarsList, RPat.boundVarsList]
    by_cases hp : p = .rest
    · subst hp
      rw [RPat.resolve, RPat.wildVars, matchList_rest, matchList_rest, RPat.resolveList_length,
        RPat.wildVarsList_length, RPat.boundVars, List.nil_append]
      split
      · exact matchList_vars ps _
      · exact .none
    · rw [matchList_cons (fun h => hp ((RPat.resolve_rest isVar).1 h)),
        matchList_cons (fun h => hp ((RPat.wildVars_rest isVar).1 h))]
      cases vs with
      | nil => exact .none
      | cons v vs => exact (matchR_vars p v).append (matchList_vars ps vs)
theorem matchFields_vars : ∀ (fs : List (String × RPat)) (vs : List (String × RVal)),
    VarRel (RPat.boundVarsFields (RPat.resolveFields isVar fs)) (matchFields (RPat.resolveFields isVar fs) vs)
      (matchFields (RPat.wildVarsFields isVar fs) vs)
  | [], vs => by
    simp only [RPat.resolveFields, RPat.wildVarsFields, matchFields, RPat.boundVarsFields]
    exact .some .slnil rfl
  | (f, p) :: fs, vs => by
    simp only [RPat.resolveFields, RPat.wildVarsFields, matchFields, RPat.boundVarsFields]
    cases vs.lookup f with
    | none => exact .none
    | some v => exact (matchR_vars p v).append (matchFields_vars fs vs)
end

/-! ## Declared patterns -/

mutual
theorem patternIgnore_wildVars : ∀ p : Pattern Ty,
    patternIgnore (p.wildVars isVar) = (patternIgnore p).wildVars isVar
  | .choose _ => rfl
  | .underscore => rfl
  | .dotDot => rfl
  | .lit _ => rfl
  | .path p => by
    simp only [Pattern.wildVars, patternIgnore, RPat.wildVars]
    split <;> rfl
  | .enum p ps => by
    simp only [Pattern.wildVars, patternIgnore, RPat.wildVars, patternIgnoreList_wildVars ps]
  | .struct p fs dots => by
    simp only [Pattern.wildVars, patternIgnore, RPat.wildVars, patternIgnoreFields_wildVars fs]
  | .tuple ps => by
    simp only [Pattern.wildVars, patternIgnore, RPat.wildVars, patternIgnoreList_wildVars ps]
theorem patternIgnoreList_wildVars : ∀ ps : List (Pattern Ty),
    patternIgnoreList (Pattern.wildVarsList isVar ps) = RPat.wildVarsList isVar (patternIgnoreList ps)
  | [] => rfl
  | p :: ps => by
    simp only [Pattern.wildVarsList, patternIgnoreList, RPat.wildVarsList, patternIgnore_wildVars p,
      patternIgnoreList_wildVars ps]
theorem patternIgnoreFields_wildVars : ∀ fs : List (String × Pattern Ty),
    patternIgnoreFields (Pattern.wildVarsFields isVar fs) =
      RPat.wildVarsFields isVar (patternIgnoreFields fs)
  | [] => rfl
  | (f, p) :: fs => by
    simp only [Pattern.wildVarsFields, patternIgnoreFields, RPat.wildVarsFields,
      patternIgnore_wildVars p, patternIgnoreFields_wildVars fs]
end

theorem tupleNoComma_wildVars (ps : List RPat) :
    tupleNoComma (RPat.wildVarsList isVar ps) = (tupleNoComma ps).wildVars isVar := by
  match ps with
  | [] => rfl
  | [p] =>
    by_cases hp : p = .rest
    · subst hp; rfl
    · have h1 : ∀ q : RPat, q ≠ .rest → tupleNoComma [q] = .paren q := by
        intro q hq; cases q <;> first | rfl | exact absurd rfl hq
      rw [h1 p hp, RPat.wildVarsList, RPat.wildVarsList,
        h1 _ (fun h => hp ((RPat.wildVars_rest isVar).1 h)), RPat.wildVars]
  | p :: q :: ps =>
    have h1 : ∀ (p q : RPat) (ps : List RPat), tupleNoComma (p :: q :: ps) = .tuple (p :: q :: ps) := by
      intro p q ps; cases p <;> rfl
    simp only [RPat.wildVarsList, h1, RPat.wildVars]

mutual
theorem patternIdents_wildVars : ∀ (p : Pattern Ty) (n : Nat),
    patternIdents (p.wildVars isVar) n = ((patternIdents p n).1.wildVars isVar, (patternIdents p n).2)
  | .choose _, n => rfl
  | .underscore, n => rfl
  | .dotDot, n => rfl
  | .lit _, n => rfl
  | .path p, n => by
    simp only [Pattern.wildVars, patternIdents, RPat.wildVars]
    split <;> rfl
  | .enum p ps, n => by
    simp only [Pattern.wildVars, patternIdents, RPat.wildVars, patternIdentsList_wildVars ps]
  | .struct p fs dots, n => by
    simp only [Pattern.wildVars, patternIdents, RPat.wildVars, patternIdentsFields_wildVars fs]
  | .tuple ps, n => by
    simp only [Pattern.wildVars, patternIdents, patternIdentsList_wildVars ps, tupleNoComma_wildVars]
theorem patternIdentsList_wildVars : ∀ (ps : List (Pattern Ty)) (n : Nat),
    patternIdentsList (Pattern.wildVarsList isVar ps) n =
      (RPat.wildVarsList isVar (patternIdentsList ps n).1, (patternIdentsList ps n).2)
  | [], n => rfl
  | p :: ps, n => by
    simp only [Pattern.wildVarsList, patternIdentsList, RPat.wildVarsList, patternIdents_wildVars p,
      patternIdentsList_wildVars ps]
theorem patternIdentsFields_wildVars : ∀ (fs : List (String × Pattern Ty)) (n : Nat),
    patternIdentsFields (Pattern.wildVarsFields isVar fs) n =
      (RPat.wildVarsFields isVar (patternIdentsFields fs n).1, (patternIdentsFields fs n).2)
  | [], n => rfl
  | (f, p) :: fs, n => by
    simp only [Pattern.wildVarsFields, patternIdentsFields, RPat.wildVarsFields,
      patternIdents_wildVars p, patternIdentsFields_wildVars fs]
end

mutual
theorem NoOneTuple.wildVars : ∀ p : Pattern Ty, NoOneTuple p → NoOneTuple (p.wildVars isVar)
  | .choose _, h => h
  | .underscore, h => h
  | .dotDot, h => h
  | .lit _, h => h
  | .path p, h => by
    simp only [Pattern.wildVars]
    split <;> simp [NoOneTuple]
  | .enum p ps, h => by
    simp only [Pattern.wildVars, NoOneTuple] at h ⊢
    exact NoOneTupleList.wildVars ps h
  | .struct p fs dots, h => by
    simp only [Pattern.wildVars, NoOneTuple] at h ⊢
    exact NoOneTupleFields.wildVars fs h
  | .tuple ps, h => by
    simp only [Pattern.wildVars, NoOneTuple] at h ⊢
    refine ⟨?_, NoOneTupleList.wildVars ps h.2⟩
    intro p hp
    match ps, hp with
    | [], hp => simp [Pattern.wildVarsList] at hp
    | [q], hp =>
      simp only [Pattern.wildVarsList, List.cons.injEq, and_true] at hp
      have := h.1 q rfl
      subst this
      rw [← hp]; rfl
    | _ :: _ :: _, hp => simp [Pattern.wildVarsList] at hp
theorem NoOneTupleList.wildVars : ∀ ps : List (Pattern Ty), NoOneTupleList ps →
    NoOneTupleList (Pattern.wildVarsList isVar ps)
  | [], h => h
  | p :: ps, h => by
    simp only [Pattern.wildVarsList, NoOneTupleList] at h ⊢
    exact ⟨NoOneTuple.wildVars p h.1, NoOneTupleList.wildVars ps h.2⟩
theorem NoOneTupleFields.wildVars : ∀ fs : List (String × Pattern Ty), NoOneTupleFields fs →
    NoOneTupleFields (Pattern.wildVarsFields isVar fs)
  | [], h => h
  | (f, p) :: fs, h => by
    simp only [Pattern.wildVarsFields, NoOneTupleFields] at h ⊢
    exact ⟨NoOneTuple.wildVars p h.1, NoOneTupleFields.wildVars fs h.2⟩
end

/-! ## The token functions -/

theorem tokenTerminalIdxV_eq (cs : List (Conversion Ty)) (i : Nat) (v : RVal) :
    tokenTerminalIdxV isVar cs i v = tokenTerminalIdx (cs.map (·.wildVars isVar)) i v := by
  induction cs generalizing i with
  | nil => rfl
  | cons c cs ih =>
    unfold tokenTerminalIdxV
    rw [List.map_cons]
    unfold tokenTerminalIdx
    have h1 := matchR_vars isVar (patternIgnore c.to) v
    rw [← patternIgnore_wildVars] at h1
    simp only [Conversion.wildVars]
    generalize matchR ((patternIgnore c.to).resolve isVar) v = o at h1 ⊢
    generalize matchR (patternIgnore (c.to.wildVars isVar)) v = o' at h1 ⊢
    cases h1 with
    | none => exact ih _
    | some => rfl

theorem lookup_sublist {b b' : Binds} (hs : b'.Sublist b) (hd : (b.map (·.1)).Nodup) {x : String}
    (hx : x ∈ b'.map (·.1)) : b.lookup x = b'.lookup x := by
  induction hs with
  | slnil => rfl
  | @cons l₁ l₂ a hs ih =>
    obtain ⟨k, v⟩ := a
    simp only [List.map_cons, List.nodup_cons] at hd
    have : x ≠ k := by
      rintro rfl
      exact hd.1 ((hs.map (·.1)).subset hx)
    rw [List.lookup_cons, beq_eq_false_iff_ne.2 this]
    exact ih hd.2 hx
  | @cons_cons l₁ l₂ a hs ih =>
    obtain ⟨k, v⟩ := a
    simp only [List.map_cons, List.nodup_cons, List.mem_cons] at hd hx
    rw [List.lookup_cons, List.lookup_cons]
    by_cases hk : x = k
    · subst hk; simp
    · rw [ih hd.2 (hx.resolve_left hk)]

theorem mem_numbered (n : Nat) (vs : List RVal) {i : Nat} (h1 : n ≤ i) (h2 : i < n + vs.length) :
    fieldIdent i ∈ (numbered n vs).map (·.1) := by
  induction vs generalizing n with
  | nil => simp at h2; omega
  | cons v vs ih =>
    simp only [numbered, List.map_cons, List.mem_cons]
    by_cases h : i = n
    · left; rw [h]
    · right
      refine ih (n + 1) (by omega) ?_
      simp only [List.length_cons] at h2
      omega

theorem tokenValueV_eq (cs : List (Conversion Ty)) (hs : ∀ c ∈ cs, NoOneTuple c.to)
    (hd : ∀ c ∈ cs, (((patternIdents c.to 0).1.resolve isVar).boundVars).Nodup) (i : Nat) (v : RVal) :
    tokenValueV isVar cs i v = tokenValue (cs.map (·.wildVars isVar)) i v := by
  induction cs generalizing i with
  | nil => rfl
  | cons c cs ih =>
    unfold tokenValueV
    rw [List.map_cons]
    unfold tokenValue
    have h1 := matchR_vars isVar (patternIdents c.to 0).1 v
    have h2 := patternIdents_wildVars isVar c.to 0
    have h3 := matchR_idents _ (NoOneTuple.wildVars isVar c.to (hs c (by simp))) 0 v
    rw [h2] at h3
    simp only [Conversion.wildVars, h2]
    have ih' := ih (fun c hc => hs c (by simp [hc])) (fun c hc => hd c (by simp [hc]))
    generalize hm : matchR ((patternIdents c.to 0).1.resolve isVar) v = o at h1 ⊢
    generalize hm' : matchR ((patternIdents c.to 0).1.wildVars isVar) v = o' at h1 h3 ⊢
    cases h1 with
    | none => exact ih' _
    | @some b b' hsub hn =>
      simp only
      cases hc : capture (c.to.wildVars isVar) v with
      | none => rw [hc] at h3; cases h3
      | some caps =>
        rw [hc, Option.map_some] at h3
        cases h3
        have hlen := capture_length _ v caps hc
        have hcount : (patternIdents c.to 0).2 = caps.length := by
          have := patternIdents_count (c.to.wildVars isVar) 0
          rw [h2] at this
          simp only at this
          omega
        congr 1
        have key : ∀ l : List Nat, (∀ i ∈ l, i < caps.length) →
            (l.map fieldIdent).mapM (fun x => b.lookup x) =
              (l.map fieldIdent).mapM (fun x => (numbered 0 caps).lookup x) := by
          intro l
          induction l with
          | nil => intro _; rfl
          | cons j l ihl =>
            intro hj
            rw [List.map_cons, List.mapM_cons, List.mapM_cons, ihl fun x hx => hj x (by simp [hx]),
              lookup_sublist hsub (by rw [hn]; exact hd c (by simp))
                (mem_numbered 0 caps (Nat.zero_le j) (by have := hj j (by simp); omega))]
        exact key _ fun x hx => by rw [← hcount]; simpa using hx

end Parsegen
