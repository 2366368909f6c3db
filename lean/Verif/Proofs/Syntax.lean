import Verif.Spec.Syntax
import Verif.Proofs.Util

/-! # Reading the macro input -/

namespace Parsegen

variable {X Ty α β : Type} {S : Syn X Ty}

/-! ## Tokens -/

theorem punct1_eq_some {c : Char} {ts rest : List TokTree} :
    punct1 c ts = some rest ↔ ∃ j, ts = .punct c j :: rest := by
  unfold punct1
  split
  · next c' j r =>
    split
    · next h => subst h; simp
    · next h => simp [h]
  · next h => simp; exact ⟨h _ _ _, h _ _ _⟩

@[simp] theorem punct1_self {c : Char} {j : Bool} {rest : List TokTree} :
    punct1 c (.punct c j :: rest) = some rest := punct1_eq_some.2 ⟨j, rfl⟩

theorem punct2_eq_some {c d : Char} {ts rest : List TokTree} :
    punct2 c d ts = some rest ↔ ∃ j, ts = .punct c true :: .punct d j :: rest := by
  unfold punct2
  split
  · next c' d' j r =>
    split
    · next h => obtain ⟨rfl, rfl⟩ := h; simp
    · next h =>
      simp only [reduceCtorEq, List.cons.injEq, TokTree.punct.injEq, and_true, false_iff,
        not_exists]
      rintro j' ⟨rfl, ⟨rfl, _⟩, _⟩; exact h ⟨rfl, rfl⟩
  · next h => simp; exact ⟨h _ _ _ _, h _ _ _ _⟩

@[simp] theorem punct2_self {c d : Char} {j : Bool} {rest : List TokTree} :
    punct2 c d (.punct c true :: .punct d j :: rest) = some rest := punct2_eq_some.2 ⟨j, rfl⟩

theorem kw_eq_some {s : String} {ts rest : List TokTree} :
    kw s ts = some rest ↔ ts = .ident s :: rest := by
  unfold kw
  split
  · next s' r =>
    split
    · next h => subst h; simp
    · next h => simp [h]
  · next h => simp; exact h _ _

@[simp] theorem kw_self {s : String} {rest : List TokTree} : kw s (.ident s :: rest) = some rest :=
  kw_eq_some.2 rfl

theorem group_eq_some {d : Delim} {ts c rest : List TokTree} :
    group d ts = some (c, rest) ↔ ts = .group d c :: rest := by
  unfold group
  split
  · next d' c' r =>
    split
    · next h => subst h; simp
    · next h => simp [h]
  · next h => simp; exact h _ _ _

@[simp] theorem group_self {d : Delim} {c rest : List TokTree} :
    group d (.group d c :: rest) = some (c, rest) := group_eq_some.2 rfl

theorem Syn.ident_eq_some {ts rest : List TokTree} {s : String} :
    S.ident ts = some (s, rest) ↔ ts = .ident s :: rest ∧ S.keyword s = false := by
  unfold Syn.ident
  split
  · next s' r =>
    split
    · next h =>
      simp only [reduceCtorEq, List.cons.injEq, TokTree.ident.injEq, false_iff, not_and]
      rintro ⟨rfl, _⟩; simp [h]
    · next h =>
      simp only [Option.some.injEq, Prod.mk.injEq, List.cons.injEq, TokTree.ident.injEq]
      constructor
      · rintro ⟨rfl, rfl⟩; exact ⟨⟨rfl, rfl⟩, by simpa using h⟩
      · rintro ⟨⟨rfl, rfl⟩, _⟩; exact ⟨rfl, rfl⟩
  · next h => simp; intro hh; exact absurd hh (h _ _)

theorem Syn.ident_self {rest : List TokTree} {s : String} (h : S.keyword s = false) :
    S.ident (.ident s :: rest) = some (s, rest) := ident_eq_some.2 ⟨rfl, h⟩

theorem lifetime_eq_some {ts rest : List TokTree} {s : String} :
    lifetime ts = some (s, rest) ↔ ts = .lifetime s :: rest := by
  unfold lifetime
  split
  · simp
  · next h => simp; exact h _ _

theorem expect_eq_ok {o : Option α} {a : α} : expect o = .ok a ↔ o = some a := by
  cases o <;> simp [expect]

@[simp] theorem expect_some {a : α} : expect (some a) = .ok a := rfl

@[simp] theorem expect_none : expect (none : Option α) = .error .error := rfl

theorem expect_ne {o : Option α} {f : ReadFault} (h : expect o = .error f) : f = .error := by
  cases o <;> simp_all [expect]

/-- Literals. -/
theorem lit_eq_some {ts rest : List TokTree} {text : String} {v : Option String} :
    lit ts = some ((text, v), rest) ↔
      (v = none ∧ ∃ pre, PlainLiteral pre text ∧ ts = pre ++ rest) ∨
      (∃ w, v = some w ∧ ts = .lit text (.str w) :: rest) := by
  constructor
  · intro h
    unfold lit at h
    split at h <;> simp only [Option.some.injEq, Prod.mk.injEq, reduceCtorEq] at h
    · obtain ⟨⟨rfl, rfl⟩, rfl⟩ := h; exact .inr ⟨_, rfl, rfl⟩
    · obtain ⟨⟨rfl, rfl⟩, rfl⟩ := h; exact .inl ⟨rfl, _, .num, rfl⟩
    · obtain ⟨⟨rfl, rfl⟩, rfl⟩ := h; exact .inl ⟨rfl, _, .other, rfl⟩
    · obtain ⟨⟨rfl, rfl⟩, rfl⟩ := h; exact .inl ⟨rfl, _, .true, rfl⟩
    · obtain ⟨⟨rfl, rfl⟩, rfl⟩ := h; exact .inl ⟨rfl, _, .false, rfl⟩
    · obtain ⟨⟨rfl, rfl⟩, rfl⟩ := h; exact .inl ⟨rfl, _, .negative, rfl⟩
  · rintro (⟨rfl, pre, h, rfl⟩ | ⟨w, rfl, rfl⟩)
    · cases h <;> rfl
    · rfl

theorem litStr_eq {ts rest : List TokTree} {v : String} :
    litStr ts = (some v, rest) ↔ ∃ text, ts = .lit text (.str v) :: rest := by
  constructor
  · intro h
    unfold litStr at h
    split at h <;> simp only [Prod.mk.injEq, Option.some.injEq, reduceCtorEq, false_and] at h
    next text w r hl =>
    obtain ⟨rfl, rfl⟩ := h
    rcases lit_eq_some.1 hl with ⟨h, _⟩ | ⟨w', h1, h2⟩
    · cases h
    · cases h1; exact ⟨_, h2⟩
  · rintro ⟨text, rfl⟩; rfl

/-- The tokens do not begin with a literal. -/
def NoLit (ts : List TokTree) : Prop := lit ts = none

theorem litStr_none {ts rest : List TokTree} (h : litStr ts = (none, rest)) :
    ∃ skip, Actual skip ∧ ts = skip ++ rest ∧ (skip = [] → lit ts = none) := by
  unfold litStr at h
  split at h <;> simp only [Prod.mk.injEq, reduceCtorEq, false_and, true_and] at h
  · next text r hl =>
    subst h
    rcases lit_eq_some.1 hl with ⟨_, pre, h1, h2⟩ | ⟨w', h1, _⟩
    · exact ⟨pre, .inr ⟨_, h1⟩, h2, by rintro rfl; cases h1⟩
    · cases h1
  · next hl => subst h; exact ⟨[], .inl rfl, rfl, fun _ => hl⟩

theorem litStr_skip {skip rest : List TokTree} (hs : Actual skip) (hr : lit rest = none) :
    litStr (skip ++ rest) = (none, rest) := by
  rcases hs with rfl | ⟨text, h⟩
  · simp [litStr, hr]
  · have := (lit_eq_some (ts := skip ++ rest) (v := none)).2 (.inl ⟨rfl, _, h, rfl⟩)
    simp [litStr, this]

theorem lit_ident {x : String} {rest : List TokTree} (hx : S.keyword x = false) :
    lit (.ident x :: rest) = none := by
  cases h : lit (.ident x :: rest) with
  | none => rfl
  | some r =>
    obtain ⟨⟨text, v⟩, r⟩ := r
    rcases lit_eq_some.1 h with ⟨_, pre, h1, h2⟩ | ⟨w, _, h2⟩
    · cases h1 <;> simp at h2
      · rw [h2.1, S.keywords "true" (by simp)] at hx; cases hx
      · rw [h2.1, S.keywords "false" (by simp)] at hx; cases hx
    · cases h2

theorem lit_lt {j : Bool} {rest : List TokTree} : lit (.punct '<' j :: rest) = none := by
  cases h : lit (.punct '<' j :: rest) with
  | none => rfl
  | some r =>
    obtain ⟨⟨text, v⟩, r⟩ := r
    rcases lit_eq_some.1 h with ⟨_, pre, h1, h2⟩ | ⟨w, _, h2⟩
    · cases h1 <;> simp at h2
    · cases h2

theorem skipComma_comma {j : Bool} {rest : List TokTree} :
    skipComma (.punct ',' j :: rest) = rest := by simp [skipComma]

theorem skipComma_cases (ts : List TokTree) :
    (skipComma ts = ts ∧ punct1 ',' ts = none) ∨ ∃ j, ts = .punct ',' j :: skipComma ts := by
  unfold skipComma
  cases h : punct1 ',' ts with
  | none => exact .inl ⟨rfl, rfl⟩
  | some r => exact .inr (punct1_eq_some.1 h)

/-! ## Patterns: soundness -/

theorem terminated_sound {p : Reader α} {At : List TokTree → α → List TokTree → Prop}
    {In : List TokTree → List α → Prop} (hp : ∀ ts a rest, p ts = .ok (a, rest) → At ts a rest)
    (hnil : In [] []) (hlast : ∀ ts a, At ts a [] → In ts [a])
    (hcons : ∀ ts a j rest as, At ts a (.punct ',' j :: rest) → In rest as → In ts (a :: as)) :
    ∀ k ts as, terminated p k ts = .ok as → In ts as := by
  intro k
  induction k with
  | zero =>
    intro ts as h
    cases ts with
    | nil => simp only [terminated, Except.ok.injEq] at h; subst h; exact hnil
    | cons t ts => simp [terminated] at h
  | succ k ih =>
    intro ts as h
    cases ts with
    | nil => simp only [terminated, Except.ok.injEq] at h; subst h; exact hnil
    | cons t ts =>
      rw [terminated] at h
      obtain ⟨⟨a, rest⟩, h1, h2⟩ := Except.bind_eq_ok.1 h
      cases rest with
      | nil => cases h2; exact hlast _ _ (hp _ _ _ h1)
      | cons r rest =>
        obtain ⟨rest', h3, h4⟩ := Except.bind_eq_ok.1 h2
        obtain ⟨as', h5, h6⟩ := Except.bind_eq_ok.1 h4
        cases h6
        obtain ⟨j, h7⟩ := punct1_eq_some.1 (expect_eq_ok.1 h3)
        exact hcons _ _ j rest' _ (h7 ▸ hp _ _ _ h1) (ih _ _ h5)

theorem structFields_sound {p : Reader (Pattern Ty)}
    (hp : ∀ ts a rest, p ts = .ok (a, rest) → PatternAt S ts a rest) :
    ∀ k ts fs d, structFields S p k ts = .ok (fs, d) → FieldsIn S ts fs d := by
  intro k
  induction k with
  | zero =>
    intro ts fs d h
    cases ts with
    | nil => simp only [structFields, Except.ok.injEq, Prod.mk.injEq] at h; obtain ⟨rfl, rfl⟩ := h; exact .nil
    | cons t ts => simp [structFields] at h
  | succ k ih =>
    intro ts fs d h
    cases ts with
    | nil => simp only [structFields, Except.ok.injEq, Prod.mk.injEq] at h; obtain ⟨rfl, rfl⟩ := h; exact .nil
    | cons t ts =>
      rw [structFields] at h
      split at h
      · next rest hd =>
        obtain ⟨j, hj⟩ := punct2_eq_some.1 hd
        split at h
        · next he =>
          simp only [Except.ok.injEq, Prod.mk.injEq] at h; obtain ⟨rfl, rfl⟩ := h
          rw [List.isEmpty_iff] at he; subst he
          rw [hj]; exact .dots
        · cases h
      · next hd =>
        obtain ⟨⟨⟨x, pt⟩, rest⟩, h1, h2⟩ := Except.bind_eq_ok.1 h
        unfold fieldPattern at h1
        obtain ⟨⟨x', ts1⟩, e1, h1⟩ := Except.bind_eq_ok.1 h1
        obtain ⟨ts2, e2, h1⟩ := Except.bind_eq_ok.1 h1
        obtain ⟨⟨pt', ts3⟩, e3, h1⟩ := Except.bind_eq_ok.1 h1
        simp only [Except.ok.injEq, Prod.mk.injEq] at h1
        obtain ⟨⟨rfl, rfl⟩, rfl⟩ := h1
        obtain ⟨e1, hx⟩ := Syn.ident_eq_some.1 (expect_eq_ok.1 e1)
        obtain ⟨j, rfl⟩ := punct1_eq_some.1 (expect_eq_ok.1 e2)
        rw [e1]
        have hpt := hp _ _ _ e3
        dsimp only at h2
        split at h2
        · next rest' hc =>
          obtain ⟨⟨fs', d'⟩, h3, h4⟩ := Except.bind_eq_ok.1 h2
          simp only [Except.ok.injEq, Prod.mk.injEq] at h4; obtain ⟨rfl, rfl⟩ := h4
          obtain ⟨j', rfl⟩ := punct1_eq_some.1 hc
          exact .cons hx hpt (ih _ _ _ h3)
        · next hc =>
          split at h2
          · next hor =>
            obtain ⟨⟨fs', d'⟩, h3, h4⟩ := Except.bind_eq_ok.1 h2
            simp only [Except.ok.injEq, Prod.mk.injEq] at h4; obtain ⟨rfl, rfl⟩ := h4
            simp only [Bool.or_eq_true, List.isEmpty_iff, Option.isSome_iff_exists] at hor
            rcases hor with rfl | ⟨r, hr⟩
            · have := ih _ _ _ h3
              cases this with
              | nil => exact .last hx hpt
            · obtain ⟨j', rfl⟩ := punct2_eq_some.1 hr
              have := ih _ _ _ h3
              cases this with
              | dots => exact .lastDots hx hpt
          · cases h2

theorem pattern_sound : ∀ n ts p rest, pattern S n ts = .ok (p, rest) → PatternAt S ts p rest := by
  intro n
  induction n with
  | zero => intro ts p rest h; simp [pattern] at h
  | succ n ih =>
    intro ts p rest h
    have hps : ∀ {c ps}, terminated (pattern S n) c.length c = .ok ps → PatternsIn S c ps :=
      fun h => terminated_sound (At := PatternAt S) ih .nil (fun _ _ => .last)
        (fun _ _ _ _ _ => .cons) _ _ _ h
    rw [pattern] at h
    split at h
    · next r hd =>
      simp only [Except.ok.injEq, Prod.mk.injEq] at h; obtain ⟨rfl, rfl⟩ := h
      obtain ⟨j, rfl⟩ := punct2_eq_some.1 hd
      exact .dotDot
    split at h
    · next text v r hl =>
      simp only [Except.ok.injEq, Prod.mk.injEq] at h; obtain ⟨rfl, rfl⟩ := h
      rcases lit_eq_some.1 hl with ⟨_, pre, h1, rfl⟩ | ⟨w, _, rfl⟩
      · exact .lit (.plain h1)
      · exact PatternAt.lit (ts := [_]) .str
    split at h
    · next r hu =>
      simp only [Except.ok.injEq, Prod.mk.injEq] at h; obtain ⟨rfl, rfl⟩ := h
      rw [kw_eq_some.1 hu]
      exact .underscore
    split at h
    · next c r hg =>
      obtain ⟨ps, h1, h2⟩ := Except.bind_eq_ok.1 h
      simp only [Except.ok.injEq, Prod.mk.injEq] at h2; obtain ⟨rfl, rfl⟩ := h2
      rw [group_eq_some.1 hg]
      exact .tuple (hps h1)
    split at h
    · next x hx =>
      obtain ⟨x, r⟩ := x
      obtain ⟨rfl, hk⟩ := Syn.ident_eq_some.1 hx
      obtain ⟨⟨path, r'⟩, h1, h⟩ := Except.bind_eq_ok.1 h
      rw [expect_eq_ok] at h1
      dsimp only at h
      split at h
      · next c r hg =>
        obtain ⟨ps, h2, h⟩ := Except.bind_eq_ok.1 h
        simp only [Except.ok.injEq, Prod.mk.injEq] at h; obtain ⟨rfl, rfl⟩ := h
        rw [group_eq_some.1 hg] at h1
        exact .enum hk h1 (hps h2)
      split at h
      · next c r hg =>
        obtain ⟨⟨fs, d⟩, h2, h⟩ := Except.bind_eq_ok.1 h
        simp only [Except.ok.injEq, Prod.mk.injEq] at h; obtain ⟨rfl, rfl⟩ := h
        rw [group_eq_some.1 hg] at h1
        exact .struct hk h1 (structFields_sound ih _ _ _ _ h2)
      · simp only [Except.ok.injEq, Prod.mk.injEq] at h; obtain ⟨rfl, rfl⟩ := h
        exact .path hk h1
    split at h
    · next r hl =>
      obtain ⟨⟨ty, r'⟩, h1, h⟩ := Except.bind_eq_ok.1 h
      obtain ⟨r'', h2, h⟩ := Except.bind_eq_ok.1 h
      simp only [Except.ok.injEq, Prod.mk.injEq] at h; obtain ⟨rfl, rfl⟩ := h
      obtain ⟨j, rfl⟩ := punct1_eq_some.1 hl
      obtain ⟨j', rfl⟩ := punct1_eq_some.1 (expect_eq_ok.1 h2)
      exact .choose (expect_eq_ok.1 h1)
    · cases h

/-! ## Patterns: completeness -/

theorem depthList_append (l r : List TokTree) :
    TokTree.depthList (l ++ r) = max (TokTree.depthList l) (TokTree.depthList r) := by
  induction l with
  | nil => simp [TokTree.depthList]
  | cons t l ih => simp [TokTree.depthList, ih, Nat.max_assoc]

/-- What remains is a proper suffix. -/
def Consumes (ts rest : List TokTree) : Prop := ∃ pre, pre ≠ [] ∧ ts = pre ++ rest

theorem Consumes.length {ts rest : List TokTree} (h : Consumes ts rest) : rest.length < ts.length := by
  obtain ⟨pre, h1, rfl⟩ := h
  have := List.length_pos_iff.2 h1
  simp; omega

theorem Consumes.depth {ts rest : List TokTree} (h : Consumes ts rest) :
    TokTree.depthList rest ≤ TokTree.depthList ts := by
  obtain ⟨pre, _, rfl⟩ := h
  rw [depthList_append]; omega

theorem Consumes.ne {ts rest : List TokTree} (h : Consumes ts rest) : ts ≠ [] := by
  obtain ⟨pre, h1, rfl⟩ := h
  simp [h1]

theorem Consumes.trans {a b c : List TokTree} (h : Consumes a b) (h' : Consumes b c) : Consumes a c := by
  obtain ⟨p, h1, rfl⟩ := h
  obtain ⟨q, h2, rfl⟩ := h'
  exact ⟨p ++ q, by simp [h1], by simp⟩

theorem consumes_cons (t : TokTree) (ts : List TokTree) : Consumes (t :: ts) ts := ⟨[t], by simp, rfl⟩

theorem Consumes.cons (t : TokTree) {ts rest : List TokTree} (h : Consumes ts rest) :
    Consumes (t :: ts) rest := (consumes_cons t ts).trans h

theorem Literal.ne {ts : List TokTree} {text : String} (h : Literal ts text) : ts ≠ [] := by
  cases h with
  | str => simp
  | plain h => cases h <;> simp

theorem PatternAt.consumes {ts : List TokTree} {p : Pattern Ty} {rest : List TokTree}
    (h : PatternAt S ts p rest) : Consumes ts rest := by
  cases h with
  | dotDot => exact (consumes_cons _ _).cons _
  | lit h => exact ⟨_, h.ne, rfl⟩
  | underscore => exact consumes_cons _ _
  | tuple h => exact consumes_cons _ _
  | path hx h => exact S.path_consumes _ _ _ h
  | enum hx h hp => exact Consumes.trans (S.path_consumes _ _ _ h) (consumes_cons _ _)
  | struct hx h hp => exact Consumes.trans (S.path_consumes _ _ _ h) (consumes_cons _ _)
  | choose h => exact (Consumes.trans (S.type_consumes _ _ _ h) (consumes_cons _ _)).cons _

/-- What may follow a pattern. -/
def PatternEnd (rest : List TokTree) : Prop :=
  group .paren rest = none ∧ group .brace rest = none

theorem patternEnd_nil : PatternEnd [] := ⟨rfl, rfl⟩

theorem patternEnd_punct {c : Char} {j : Bool} {rest : List TokTree} :
    PatternEnd (.punct c j :: rest) := ⟨rfl, rfl⟩

theorem terminated_nil (p : Reader α) (k : Nat) : terminated p k [] = .ok [] := by
  cases k <;> rfl

theorem terminated_last {p : Reader α} {ts : List TokTree} {a : α} (h : p ts = .ok (a, []))
    (hn : ts ≠ []) (k : Nat) : terminated p (k + 1) ts = .ok [a] := by
  cases ts with
  | nil => exact absurd rfl hn
  | cons t ts => rw [terminated, h]; rfl

theorem terminated_cons {p : Reader α} {ts rest : List TokTree} {a : α} {j : Bool} {as : List α}
    {k : Nat} (h : p ts = .ok (a, .punct ',' j :: rest)) (hn : ts ≠ [])
    (hr : terminated p k rest = .ok as) : terminated p (k + 1) ts = .ok (a :: as) := by
  cases ts with
  | nil => exact absurd rfl hn
  | cons t ts => rw [terminated, h]; simp [hr]

theorem pattern_ident {n : Nat} {x : String} {ts r : List TokTree} {path : String}
    (hx : S.keyword x = false) (h : S.path (.ident x :: ts) = some (path, r)) :
    pattern S (n + 1) (.ident x :: ts) =
      match group .paren r with
      | some (contents, rest') => do
        let ps ← terminated (pattern S n) contents.length contents
        .ok (.enum path ps, rest')
      | none =>
      match group .brace r with
      | some (contents, rest') => do
        let (fs, d) ← structFields S (pattern S n) contents.length contents
        .ok (.struct path fs d, rest')
      | none => .ok (.path path, r) := by
  have h1 : punct2 '.' '.' (.ident x :: ts) = none := rfl
  have h2 : lit (.ident x :: ts) = none := lit_ident hx
  have h3 : kw "_" (.ident x :: ts) = none := by
    simp only [kw]
    rw [if_neg]
    rintro rfl
    rw [S.keywords "_" (by simp)] at hx; cases hx
  have h4 : group .paren (.ident x :: ts) = none := rfl
  rw [pattern, h1, h2, h3, h4, Syn.ident_self hx]
  dsimp only
  rw [h]
  rfl

theorem fieldPattern_eq {p : Reader (Pattern Ty)} {x : String} {j : Bool} {ts rest : List TokTree}
    {a : Pattern Ty} (hx : S.keyword x = false) (h : p ts = .ok (a, rest)) :
    fieldPattern S p (.ident x :: .punct ':' j :: ts) = .ok ((x, a), rest) := by
  simp [fieldPattern, Syn.ident_self hx, h]

theorem pattern_complete' {ts : List TokTree} {p : Pattern Ty} {rest : List TokTree}
    (h : PatternAt S ts p rest) : (∀ path, p = .path path → PatternEnd rest) → ∀ n, TokTree.depthList ts < n →
      pattern S n ts = .ok (p, rest) := by
  refine PatternAt.rec (S := S)
    (motive_1 := fun ts p rest _ => (∀ path, p = .path path → PatternEnd rest) → ∀ n,
      TokTree.depthList ts < n → pattern S n ts = .ok (p, rest))
    (motive_2 := fun ts ps _ => ∀ n, TokTree.depthList ts < n → ∀ k, ts.length ≤ k →
      terminated (pattern S n) k ts = .ok ps)
    (motive_3 := fun ts fs d _ => ∀ n, TokTree.depthList ts < n → ∀ k, ts.length ≤ k →
      structFields S (pattern S n) k ts = .ok (fs, d))
    ?_ ?_ ?_ ?_ ?_ ?_ ?_ ?_ ?_ ?_ ?_ ?_ ?_ ?_ ?_ ?_ h
  · intro j rest _ n hn
    cases n with
    | zero => omega
    | succ n => simp [pattern]
  · intro ts text rest h hq n hn
    clear hq
    cases n with
    | zero => omega
    | succ n =>
      have h1 : punct2 '.' '.' (ts ++ rest) = none := by
        cases h with
        | str => rfl
        | plain h =>
          cases h <;> try rfl
          next text j =>
          cases hp : punct2 '.' '.' ([TokTree.punct '-' j, .lit text .num] ++ rest) with
          | none => rfl
          | some r => obtain ⟨j', h⟩ := punct2_eq_some.1 hp; simp at h
      have h2 : ∃ v, lit (ts ++ rest) = some ((text, v), rest) := by
        cases h with
        | str => exact ⟨_, lit_eq_some.2 (.inr ⟨_, rfl, rfl⟩)⟩
        | plain h => exact ⟨_, lit_eq_some.2 (.inl ⟨rfl, _, h, rfl⟩)⟩
      obtain ⟨v, h2⟩ := h2
      rw [pattern, h1, h2]
  · intro rest _ n hn
    cases n with
    | zero => omega
    | succ n =>
      have h2 : lit (.ident "_" :: rest) = none := rfl
      rw [pattern, show punct2 '.' '.' (.ident "_" :: rest) = none from rfl, h2, kw_self]
  · intro contents ps rest _ ih _ n hn
    simp only [TokTree.depthList, TokTree.depth] at hn
    cases n with
    | zero => omega
    | succ n =>
      rw [pattern, show punct2 '.' '.' (.group .paren contents :: rest) = none from rfl,
        show lit (.group .paren contents :: rest) = none from rfl,
        show kw "_" (.group .paren contents :: rest) = none from rfl, group_self]
      simp [ih n (by omega) _ (Nat.le_refl _)]
  · intro x ts path rest hx h hr n hn
    cases n with
    | zero => omega
    | succ n => rw [pattern_ident hx h, (hr _ rfl).1, (hr _ rfl).2]
  · intro x ts path contents ps rest hx h _ ih _ n hn
    have := Consumes.depth (S.path_consumes _ _ _ h)
    rw [show TokTree.depthList (TokTree.group Delim.paren contents :: rest)
      = max (TokTree.depthList contents + 1) (TokTree.depthList rest) by
        simp [TokTree.depthList, TokTree.depth]] at this
    cases n with
    | zero => omega
    | succ n =>
      rw [pattern_ident hx h, group_self]
      simp [ih n (by omega) _ (Nat.le_refl _)]
  · intro x ts path contents fs dots rest hx h _ ih _ n hn
    have := Consumes.depth (S.path_consumes _ _ _ h)
    rw [show TokTree.depthList (TokTree.group Delim.brace contents :: rest)
      = max (TokTree.depthList contents + 1) (TokTree.depthList rest) by
        simp [TokTree.depthList, TokTree.depth]] at this
    cases n with
    | zero => omega
    | succ n =>
      rw [pattern_ident hx h, show group .paren (.group .brace contents :: rest) = none from rfl,
        group_self]
      simp [ih n (by omega) _ (Nat.le_refl _)]
  · intro j ts ty j' rest h _ n hn
    cases n with
    | zero => omega
    | succ n =>
      have h1 : punct2 '.' '.' (.punct '<' j :: ts) = none := by
        cases hp : punct2 '.' '.' (TokTree.punct '<' j :: ts) with
        | none => rfl
        | some r => obtain ⟨j', h⟩ := punct2_eq_some.1 hp; simp at h
      rw [pattern, h1, lit_lt, show kw "_" (.punct '<' j :: ts) = none from rfl,
        show group .paren (.punct '<' j :: ts) = none from rfl,
        show S.ident (.punct '<' j :: ts) = none from rfl, punct1_self]
      simp [h]
  · intro n _ k _; exact terminated_nil _ _
  · intro ts p h ih n hn k hk
    have := h.consumes.length
    obtain ⟨k, rfl⟩ : ∃ k', k = k' + 1 := ⟨k - 1, by omega⟩
    exact terminated_last (ih (fun _ _ => patternEnd_nil) n hn) h.consumes.ne k
  · intro ts p j rest ps h hs ih ihs n hn k hk
    have hc := h.consumes.trans (consumes_cons _ _)
    have := hc.length
    have := hc.depth
    obtain ⟨k, rfl⟩ : ∃ k', k = k' + 1 := ⟨k - 1, by omega⟩
    exact terminated_cons (ih (fun _ _ => patternEnd_punct) n hn) h.consumes.ne (ihs n (by omega) k (by omega))
  · intro n _ k _; cases k <;> rfl
  · intro j n _ k hk
    obtain ⟨k, rfl⟩ : ∃ k', k = k' + 1 := ⟨k - 1, by simp at hk; omega⟩
    simp [structFields]
  · intro x j ts p hx h ih n hn k hk
    simp only [TokTree.depthList, TokTree.depth] at hn
    simp only [List.length_cons] at hk
    obtain ⟨k, rfl⟩ : ∃ k', k = k' + 1 := ⟨k - 1, by omega⟩
    rw [structFields, show punct2 '.' '.' (.ident x :: .punct ':' j :: ts) = none from rfl]
    have h0 : structFields S (pattern S n) k [] = .ok ([], false) := by cases k <;> rfl
    simp [fieldPattern_eq hx (ih (fun _ _ => patternEnd_nil) n (by omega)), show punct1 ',' [] = none from rfl, h0]
  · intro x j ts p j' hx h ih n hn k hk
    simp only [TokTree.depthList, TokTree.depth] at hn
    simp only [List.length_cons] at hk
    have := h.consumes.length
    simp only [List.length_cons] at this
    obtain ⟨k, rfl⟩ : ∃ k', k = k' + 2 := ⟨k - 2, by omega⟩
    rw [structFields, show punct2 '.' '.' (.ident x :: .punct ':' j :: ts) = none from rfl]
    have h0 : structFields S (pattern S n) (k + 1) [.punct '.' true, .punct '.' j'] = .ok ([], true) := by
      simp [structFields]
    have h1 : punct1 ',' [.punct '.' true, .punct '.' j'] = none := by
      simp [punct1]
    simp [fieldPattern_eq hx (ih (fun _ _ => patternEnd_punct) n (by omega)), h1, h0]
  · intro x j ts p j' rest fs dots hx h _ ih ihs n hn k hk
    simp only [TokTree.depthList, TokTree.depth] at hn
    simp only [List.length_cons] at hk
    have hc := h.consumes.trans (consumes_cons _ _)
    have := hc.length
    have := hc.depth
    obtain ⟨k, rfl⟩ : ∃ k', k = k' + 1 := ⟨k - 1, by omega⟩
    rw [structFields, show punct2 '.' '.' (.ident x :: .punct ':' j :: ts) = none from rfl]
    simp [fieldPattern_eq hx (ih (fun _ _ => patternEnd_punct) n (by omega)), ihs n (by omega) k (by omega)]

/-! ## Faults -/

theorem pattern_complete {ts : List TokTree} {p : Pattern Ty} {rest : List TokTree}
    (h : PatternAt S ts p rest) (hr : PatternEnd rest) : ∀ n, TokTree.depthList ts < n →
      pattern S n ts = .ok (p, rest) := pattern_complete' h fun _ _ => hr

theorem Except.bind_eq_error {ε α β : Type} {x : Except ε α} {f : α → Except ε β} {e : ε} :
    (x >>= f) = .error e ↔ x = .error e ∨ ∃ a, x = .ok a ∧ f a = .error e := by
  cases x <;> simp

theorem expect_eq_error {o : Option α} {f : ReadFault} :
    expect o = .error f ↔ o = none ∧ f = .error := by
  cases o <;> simp [expect, eq_comm]

theorem terminated_fault {p : Reader α} {D : List TokTree → Prop} {F : ReadFault → Prop}
    (hF : F .error) (hD : ∀ ts rest, Consumes ts rest → D ts → D rest)
    (hp : ∀ ts f, D ts → p ts = .error f → F f)
    (hc : ∀ ts a rest, p ts = .ok (a, rest) → Consumes ts rest) :
    ∀ k ts f, D ts → ts.length ≤ k → terminated p k ts = .error f → F f := by
  intro k
  induction k with
  | zero =>
    intro ts f _ hk h
    cases ts with
    | nil => simp [terminated] at h
    | cons => simp at hk
  | succ k ih =>
    intro ts f hd hk h
    cases ts with
    | nil => simp [terminated] at h
    | cons t ts =>
      rw [terminated] at h
      rcases Except.bind_eq_error.1 h with h | ⟨⟨a, rest⟩, h1, h⟩
      · exact hp _ _ hd h
      · have hcr := hc _ _ _ h1
        cases rest with
        | nil => cases h
        | cons r rest =>
          rcases Except.bind_eq_error.1 h with h | ⟨rest', h2, h⟩
          · rw [expect_eq_error] at h; rw [h.2]; exact hF
          · rcases Except.bind_eq_error.1 h with h | ⟨as, _, h⟩
            · obtain ⟨j, h2⟩ := punct1_eq_some.1 (expect_eq_ok.1 h2)
              rw [h2] at hcr
              have hcr := hcr.trans (consumes_cons _ _)
              have := hcr.length
              exact ih _ _ (hD _ _ hcr hd) (by simp at hk this; omega) h
            · cases h

theorem structFields_fault {p : Reader (Pattern Ty)} {D : List TokTree → Prop}
    (hD : ∀ ts rest, Consumes ts rest → D ts → D rest)
    (hp : ∀ ts, D ts → p ts ≠ .error .outOfFuel)
    (hc : ∀ ts a rest, p ts = .ok (a, rest) → Consumes ts rest) :
    ∀ k ts, D ts → ts.length ≤ k → structFields S p k ts ≠ .error .outOfFuel := by
  intro k
  induction k with
  | zero =>
    intro ts _ hk h
    cases ts with
    | nil => simp [structFields] at h
    | cons => simp at hk
  | succ k ih =>
    intro ts hd hk h
    cases ts with
    | nil => simp [structFields] at h
    | cons t ts =>
      rw [structFields] at h
      split at h
      · split at h <;> cases h
      · rcases Except.bind_eq_error.1 h with h | ⟨⟨⟨x, a⟩, rest⟩, h1, h⟩
        · unfold fieldPattern at h
          rcases Except.bind_eq_error.1 h with h | ⟨⟨x, ts1⟩, e1, h⟩
          · rw [expect_eq_error] at h; cases h.2
          dsimp only at h
          rcases Except.bind_eq_error.1 h with h | ⟨ts2, e2, h'⟩
          · rw [expect_eq_error] at h; cases h.2
          clear h
          rcases Except.bind_eq_error.1 h' with h | ⟨_, _, h⟩
          · obtain ⟨e1, _⟩ := Syn.ident_eq_some.1 (expect_eq_ok.1 e1)
            obtain ⟨j, rfl⟩ := punct1_eq_some.1 (expect_eq_ok.1 e2)
            rw [e1] at hd
            exact hp _ (hD _ _ ((consumes_cons _ _).cons _) hd) h
          · cases h
        · have hcr : Consumes (t :: ts) rest := by
            unfold fieldPattern at h1
            obtain ⟨⟨x', ts1⟩, e1, h1⟩ := Except.bind_eq_ok.1 h1
            obtain ⟨ts2, e2, h1⟩ := Except.bind_eq_ok.1 h1
            obtain ⟨⟨pt', ts3⟩, e3, h1⟩ := Except.bind_eq_ok.1 h1
            simp only [Except.ok.injEq, Prod.mk.injEq] at h1
            obtain ⟨⟨rfl, rfl⟩, rfl⟩ := h1
            obtain ⟨e1, hx⟩ := Syn.ident_eq_some.1 (expect_eq_ok.1 e1)
            obtain ⟨j, rfl⟩ := punct1_eq_some.1 (expect_eq_ok.1 e2)
            rw [e1]
            exact ((hc _ _ _ e3).cons _).cons _
          have hl := hcr.length
          dsimp only at h
          split at h
          · next rest' h2 =>
            obtain ⟨j, rfl⟩ := punct1_eq_some.1 h2
            rcases Except.bind_eq_error.1 h with h | ⟨_, _, h⟩
            · have hcr := hcr.trans (consumes_cons _ _)
              exact ih _ (hD _ _ hcr hd) (by simp at hk hl; omega) h
            · cases h
          · split at h
            · rcases Except.bind_eq_error.1 h with h | ⟨_, _, h⟩
              · exact ih _ (hD _ _ hcr hd) (by simp at hk hl; omega) h
              · cases h
            · cases h

theorem pattern_fuel : ∀ n ts, TokTree.depthList ts < n → pattern S n ts ≠ .error .outOfFuel := by
  intro n
  induction n with
  | zero => intro ts h; omega
  | succ n ih =>
    intro ts hn h
    have hD : ∀ ts rest, Consumes ts rest → TokTree.depthList ts < n → TokTree.depthList rest < n :=
      fun ts rest hc h => Nat.lt_of_le_of_lt hc.depth h
    have hc : ∀ ts a rest, pattern S n ts = .ok (a, rest) → Consumes ts rest :=
      fun ts a rest h => (pattern_sound _ _ _ _ h).consumes
    have hps : ∀ c, TokTree.depthList c < n →
        terminated (pattern S n) c.length c ≠ .error .outOfFuel := fun c hd hh =>
      terminated_fault (F := (· ≠ .outOfFuel)) (D := (TokTree.depthList · < n)) (by simp) hD
        (fun ts f hd hf he => ih ts hd (he ▸ hf)) hc _ _ _ hd (Nat.le_refl _) hh rfl
    have hg : ∀ {ts d c r}, TokTree.depthList ts < n + 1 → Consumes ts (.group d c :: r) ∨
        ts = .group d c :: r → TokTree.depthList c < n := by
      intro ts d c r h1 h2
      have : TokTree.depthList (.group d c :: r) ≤ TokTree.depthList ts := by
        rcases h2 with h2 | rfl
        · exact h2.depth
        · exact Nat.le_refl _
      simp only [TokTree.depthList, TokTree.depth] at this
      omega
    rw [pattern] at h
    split at h
    · cases h
    split at h
    · cases h
    split at h
    · cases h
    split at h
    · next c r e =>
      rcases Except.bind_eq_error.1 h with h | ⟨_, _, h⟩
      · exact hps _ (hg hn (.inr (group_eq_some.1 e))) h
      · cases h
    split at h
    · rcases Except.bind_eq_error.1 h with h | ⟨⟨path, r⟩, h1, h⟩
      · rw [expect_eq_error] at h; cases h.2
      rw [expect_eq_ok] at h1
      dsimp only at h
      split at h
      · next c r e =>
        rcases Except.bind_eq_error.1 h with h | ⟨_, _, h⟩
        · rw [group_eq_some.1 e] at h1
          exact hps _ (hg hn (.inl (S.path_consumes _ _ _ h1))) h
        · cases h
      split at h
      · next c r e =>
        rcases Except.bind_eq_error.1 h with h | ⟨_, _, h⟩
        · rw [group_eq_some.1 e] at h1
          exact structFields_fault (D := (TokTree.depthList · < n)) hD ih hc _ _
            (hg hn (.inl (S.path_consumes _ _ _ h1))) (Nat.le_refl _) h
        · cases h
      · cases h
    split at h
    · rcases Except.bind_eq_error.1 h with h | ⟨⟨ty, r⟩, h1, h⟩
      · rw [expect_eq_error] at h; cases h.2
      rcases Except.bind_eq_error.1 h with h | ⟨_, _, h⟩
      · rw [expect_eq_error] at h; cases h.2
      · cases h
    · cases h

/-! ## Symbols -/

theorem symbolLoop_op (op : RepeatOp) (s : AstSymbol) (j : Bool) (rest : List TokTree) :
    symbolLoop s (.punct op.char j :: rest) = symbolLoop (.repeat_ op s) rest := by
  cases op <;> simp [symbolLoop, RepeatOp.char]

/-- The tokens do not begin with `+`, `*` or `?`. -/
def SymbolEnd (ts : List TokTree) : Prop := ∀ (op : RepeatOp) j rest, ts ≠ .punct op.char j :: rest

theorem symbolLoop_end {s : AstSymbol} {ts : List TokTree} (h : SymbolEnd ts) :
    symbolLoop s ts = (s, ts) := by
  unfold symbolLoop
  split
  · next c j rest =>
    rw [if_neg, if_neg, if_neg]
    · rintro rfl; exact h .question _ _ rfl
    · rintro rfl; exact h .star _ _ rfl
    · rintro rfl; exact h .plus _ _ rfl
  · rfl

theorem symbolLoop_sound {Skip : List TokTree → Prop} {ts0 : List TokTree} :
    ∀ (ts : List TokTree) (s : AstSymbol), SymbolAt S Skip ts0 s ts →
      SymbolAt S Skip ts0 (symbolLoop s ts).1 (symbolLoop s ts).2 ∧ SymbolEnd (symbolLoop s ts).2 := by
  intro ts
  induction ts with
  | nil => intro s h; exact ⟨h, by intro op j rest hh; cases hh⟩
  | cons t ts ih =>
    intro s h
    by_cases he : SymbolEnd (t :: ts)
    · rw [symbolLoop_end he]; exact ⟨h, he⟩
    · unfold SymbolEnd at he
      obtain ⟨op, j, rest, he⟩ : ∃ (op : RepeatOp) (j : Bool) (rest : List TokTree),
          t :: ts = .punct op.char j :: rest :=
        Classical.byContradiction fun hn => he fun op j rest hh => hn ⟨op, j, rest, hh⟩
      cases he
      rw [symbolLoop_op]
      exact ih _ (.repeated h)

theorem optKw_cases (w : String) (ts : List TokTree) :
    (∃ r, ts = .ident w :: r ∧ optKw w ts = (true, r)) ∨
    (kw w ts = none ∧ optKw w ts = (false, ts)) := by
  unfold optKw
  cases h : kw w ts with
  | some r => exact .inl ⟨r, kw_eq_some.1 h, rfl⟩
  | none => exact .inr ⟨rfl, rfl⟩

theorem optKw_self (w : String) (ts : List TokTree) : optKw w (.ident w :: ts) = (true, ts) := by
  simp [optKw]

theorem optKw_other {w x : String} {ts : List TokTree} (hx : S.keyword x = false)
    (hw : S.keyword w = true) : optKw w (.ident x :: ts) = (false, .ident x :: ts) := by
  have : kw w (.ident x :: ts) = none := by
    simp only [kw]
    rw [if_neg]
    rintro rfl
    rw [hw] at hx; cases hx
  simp [optKw, this]

theorem symbol0_sound {p : Reader AstSymbol}
    (hp : ∀ ts s rest, p ts = .ok (s, rest) → SymbolAt S Actual ts s rest) {ts : List TokTree}
    {s : AstSymbol} {rest : List TokTree} (h1 : symbol0 S p ts = .ok (s, rest)) :
    SymbolAt S Actual ts s rest := by
  unfold symbol0 at h1
  split at h1
  · next v r hl =>
    cases h1
    obtain ⟨text, rfl⟩ := litStr_eq.1 hl
    exact .terminal
  · next r hl =>
    obtain ⟨skip, hs, rfl, _⟩ := litStr_none hl
    split at h1
    · next name r' hi =>
      cases h1
      obtain ⟨rfl, hk⟩ := Syn.ident_eq_some.1 hi
      exact .nonTerminal hs hk
    · obtain ⟨ts1, e1, h2⟩ := Except.bind_eq_ok.1 h1
      clear h1
      obtain ⟨j, rfl⟩ := punct1_eq_some.1 (expect_eq_ok.1 e1)
      have h1 := h2
      clear h2
      rcases optKw_cases "mut" ts1 with ⟨r, rfl, hm⟩ | ⟨_, hm⟩
      all_goals
        rw [hm] at h1
        obtain ⟨⟨x, ts3⟩, e2, h1⟩ := Except.bind_eq_ok.1 h1
        obtain ⟨ts4, e3, h1⟩ := Except.bind_eq_ok.1 h1
        obtain ⟨⟨s1, ts5⟩, e4, h1⟩ := Except.bind_eq_ok.1 h1
        obtain ⟨ts6, e5, h1⟩ := Except.bind_eq_ok.1 h1
        cases h1
        obtain ⟨rfl, hx⟩ := Syn.ident_eq_some.1 (expect_eq_ok.1 e2)
        obtain ⟨j', rfl⟩ := punct1_eq_some.1 (expect_eq_ok.1 e3)
        obtain ⟨j'', rfl⟩ := punct1_eq_some.1 (expect_eq_ok.1 e5)
      · exact .namedMut hs hx (hp _ _ _ e4)
      · exact .named hs hx (hp _ _ _ e4)

theorem symbol_sound : ∀ n ts s rest, symbol S n ts = .ok (s, rest) →
    SymbolAt S Actual ts s rest ∧ SymbolEnd rest := by
  intro n
  induction n with
  | zero => intro ts s rest h; simp [symbol] at h
  | succ n ih =>
    intro ts s rest h
    rw [symbol] at h
    obtain ⟨⟨s0, ts0⟩, h1, h2⟩ := Except.bind_eq_ok.1 h
    simp only [Except.ok.injEq] at h2
    have := symbolLoop_sound _ _ (symbol0_sound (fun _ _ _ h => (ih _ _ _ h).1) h1)
    rw [h2] at this
    exact this

theorem SymbolAt.consumes {Skip : List TokTree → Prop} {ts : List TokTree} {s : AstSymbol}
    {rest : List TokTree} (h : SymbolAt S Skip ts s rest) : Consumes ts rest := by
  have app : ∀ {skip t r r'}, Consumes (t :: r) r' → Consumes (skip ++ t :: r) r' := by
    rintro skip t r r' ⟨pre, h1, h2⟩
    exact ⟨skip ++ pre, by simp [h1], by simp [h2]⟩
  induction h with
  | terminal => exact consumes_cons _ _
  | nonTerminal => exact app (consumes_cons _ _)
  | named _ _ _ ih => exact app ((((ih.trans (consumes_cons _ _)).cons _).cons _).cons _)
  | namedMut _ _ _ ih => exact app (((((ih.trans (consumes_cons _ _)).cons _).cons _).cons _).cons _)
  | repeated _ ih => exact ih.trans (consumes_cons _ _)

theorem symbol_complete {ts : List TokTree} {s : AstSymbol} {rest : List TokTree}
    (h : SymbolAt S Actual ts s rest) : ∀ n, ts.length < n →
      symbol S n ts = .ok (symbolLoop s rest) := by
  have hmut := S.keywords "mut" (by simp)
  induction h with
  | terminal =>
    intro n hn
    cases n with
    | zero => omega
    | succ n => rw [symbol, symbol0, litStr_eq.2 ⟨_, rfl⟩]; rfl
  | nonTerminal hs hk =>
    intro n hn
    cases n with
    | zero => omega
    | succ n => rw [symbol, symbol0, litStr_skip hs (lit_ident hk)]; simp [Syn.ident_self hk]
  | @named skip j x j' ts s j'' rest hs hx _ ih =>
    intro n hn
    cases n with
    | zero => omega
    | succ n =>
      have h1 := ih n (by simp at hn; omega)
      rw [symbolLoop_end (by intro op j r hh; cases op <;> simp [RepeatOp.char] at hh)] at h1
      rw [symbol, symbol0, litStr_skip hs lit_lt]
      simp [show S.ident (.punct '<' j :: .ident x :: .punct ':' j' :: ts) = none from rfl,
        optKw_other hx hmut, Syn.ident_self hx, h1]
  | @namedMut skip j x j' ts s j'' rest hs hx _ ih =>
    intro n hn
    cases n with
    | zero => omega
    | succ n =>
      have h1 := ih n (by simp at hn; omega)
      rw [symbolLoop_end (by intro op j r hh; cases op <;> simp [RepeatOp.char] at hh)] at h1
      rw [symbol, symbol0, litStr_skip hs lit_lt]
      simp [show S.ident (.punct '<' j :: .ident "mut" :: .ident x :: .punct ':' j' :: ts) = none from rfl,
        optKw_self, Syn.ident_self hx, h1]
  | repeated _ ih =>
    intro n hn
    rw [ih n hn, symbolLoop_op]

theorem symbol_fault : ∀ n ts f, ts.length < n → symbol S n ts = .error f → f = .error := by
  intro n
  induction n with
  | zero => intro ts f h; omega
  | succ n ih =>
    intro ts f hn h
    rw [symbol] at h
    replace h := Except.bind_eq_error.1 h
    rcases h with h | ⟨_, _, h⟩
    · unfold symbol0 at h
      split at h
      · cases h
      · next r hl =>
        obtain ⟨skip, hs, rfl, _⟩ := litStr_none hl
        simp only [List.length_append] at hn
        split at h
        · cases h
        · rcases Except.bind_eq_error.1 h with h | ⟨ts1, e1, h'⟩
          · exact (expect_eq_error.1 h).2
          clear h
          obtain ⟨j, rfl⟩ := punct1_eq_some.1 (expect_eq_ok.1 e1)
          simp only [List.length_cons] at hn
          have h := h'
          clear h'
          rcases optKw_cases "mut" ts1 with ⟨r, rfl, hm⟩ | ⟨_, hm⟩
          all_goals
            rw [hm] at h
            rcases Except.bind_eq_error.1 h with h | ⟨⟨x, ts2⟩, e2, h⟩
            · exact (expect_eq_error.1 h).2
            dsimp only at h
            rcases Except.bind_eq_error.1 h with h | ⟨ts3, e3, h'⟩
            · exact (expect_eq_error.1 h).2
            clear h
            obtain ⟨rfl, _⟩ := Syn.ident_eq_some.1 (expect_eq_ok.1 e2)
            obtain ⟨j', rfl⟩ := punct1_eq_some.1 (expect_eq_ok.1 e3)
            simp only [List.length_cons] at hn
            rcases Except.bind_eq_error.1 h' with h | ⟨⟨s, ts4⟩, e4, h⟩
            · exact ih _ _ (by omega) h
            dsimp only at h
            rcases Except.bind_eq_error.1 h with h | ⟨_, _, h⟩
            · exact (expect_eq_error.1 h).2
            · cases h
    · cases h

end Parsegen
