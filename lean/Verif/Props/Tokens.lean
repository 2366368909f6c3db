import Verif.Proofs.Tokens
import Verif.Props.Examples

/-! # Properties of the emitted token functions: C28, C29

`capture p v` (in `Spec/Tokens.lean`) is what a declared pattern matches and captures. -/

namespace Parsegen

variable {Ty : Type}

/-- A declared pattern matches a value. -/
def Matches (p : Pattern Ty) (v : RVal) : Prop := ∃ caps, capture p v = some caps

/-! ## C28 Token classification is first-match and consistent -/

theorem firstMatch_iff {cs : List (Conversion Ty)} {v : RVal} {k : Nat} :
    firstMatch cs v = some k ↔
      (∃ c, cs[k]? = some c ∧ Matches c.to v) ∧
        ∀ j, j < k → ∀ c, cs[j]? = some c → ¬ Matches c.to v := by
  induction cs generalizing k with
  | nil => simp [firstMatch]
  | cons c cs ih =>
    rw [firstMatch]
    split
    · next hm =>
      obtain ⟨caps, hc⟩ := Option.isSome_iff_exists.1 hm
      constructor
      · intro h; cases h
        exact ⟨⟨c, rfl, caps, hc⟩, by intro j hj; omega⟩
      · rintro ⟨_, h2⟩
        cases k with
        | zero => rfl
        | succ k => exact absurd ⟨caps, hc⟩ (h2 0 (by omega) c rfl)
    · next hm =>
      have hno : ¬ Matches c.to v := by
        rintro ⟨caps, hc⟩; rw [hc] at hm; exact hm rfl
      cases k with
      | zero =>
        constructor
        · intro h
          obtain ⟨a, _, h2⟩ := Option.map_eq_some_iff.1 h
          omega
        · rintro ⟨⟨c', h1, h2⟩, _⟩
          cases h1; exact absurd h2 hno
      | succ k =>
        have : (firstMatch cs v).map (· + 1) = some (k + 1) ↔ firstMatch cs v = some k := by
          cases firstMatch cs v <;> simp
        rw [this, ih]
        constructor
        · rintro ⟨h1, h2⟩
          refine ⟨h1, ?_⟩
          intro j hj d hd
          cases j with
          | zero => cases hd; exact hno
          | succ j => exact h2 j (by omega) d hd
        · rintro ⟨h1, h2⟩
          exact ⟨h1, fun j hj d hd => h2 (j + 1) (by omega) d hd⟩

/-- **C28**, classifier: `token_terminal_idx` returns the number of the *first* declared terminal
whose pattern matches; no arm applies exactly if no pattern matches. -/
theorem c28_first_match (cs : List (Conversion Ty)) (v : RVal) (k : Nat) :
    tokenTerminalIdx cs 0 v = some k ↔
      (∃ c, cs[k]? = some c ∧ Matches c.to v) ∧
        ∀ j, j < k → ∀ c, cs[j]? = some c → ¬ Matches c.to v := by
  rw [tokenTerminalIdx_eq, ← firstMatch_iff]
  cases firstMatch cs v <;> simp

/-- **C28**, consistency: unless a pattern contains a one-element tuple pattern, `token_value` takes
the same arm as `token_terminal_idx`. -/
theorem c28_consistent (cs : List (Conversion Ty)) (hs : ∀ c ∈ cs, NoOneTuple c.to) (v : RVal)
    (k : Nat) :
    tokenTerminalIdx cs 0 v = some k ↔ ∃ fs, tokenValue cs 0 v = some (.token k fs) := by
  rw [tokenTerminalIdx_eq, tokenValue_eq cs hs]
  cases h : firstMatch cs v with
  | none => simp
  | some j =>
    obtain ⟨c, caps, _, _, h3⟩ := classify_firstMatch h
    simp [h3]

/-- ... and it always builds a token value (never any other stack value). -/
theorem c28_token_value (cs : List (Conversion Ty)) (hs : ∀ c ∈ cs, NoOneTuple c.to) (v : RVal)
    (r : SAR RVal) (h : tokenValue cs 0 v = some r) : ∃ k fs, r = .token k fs := by
  rw [tokenValue_eq cs hs] at h
  obtain ⟨k, _, h⟩ := Option.bind_eq_some_iff.1 h
  obtain ⟨r', _, rfl⟩ := Option.map_eq_some_iff.1 h
  exact ⟨_, _, rfl⟩

/-- Overlapping patterns: `Tok::Num(..)` is declared before `Tok::Num(<u64>)` and wins. -/
example :
    let cs : List (Conversion String) :=
      [⟨"plus", .path "Tok::Plus"⟩, ⟨"any", .enum "Tok::Num" [.dotDot]⟩,
        ⟨"num", .enum "Tok::Num" [.choose "u64"]⟩]
    let v : RVal := .ctor "Tok::Num" [.lit "1"]
    (∀ c ∈ cs, NoOneTuple c.to) ∧ tokenTerminalIdx cs 0 v = some 1 ∧
      tokenValue cs 0 v = some (.token 1 []) := by
  refine ⟨?_, ?_, ?_⟩
  · intro c hc
    simp only [List.mem_cons, List.not_mem_nil, or_false] at hc
    rcases hc with rfl | rfl | rfl <;> simp [NoOneTuple, NoOneTupleList]
  · simp [tokenTerminalIdx, patternIgnore, patternIgnoreList, matchR, matchList]
  · simp [tokenValue, patternIdents, patternIdentsList, matchR, matchList]

/-- The side condition is needed: with the declarations `"a" = Tok::A((<u64>))` (a one-element tuple)
and `"b" = Tok::A(<u64>)`, the value `Tok::A(1)` is classified as `b` but its value is built by the arm
of `a`, because the second emitted `match` drops the comma of `(p,)`. -/
theorem c28_one_tuple_differs :
    let cs : List (Conversion String) :=
      [⟨"a", .enum "Tok::A" [.tuple [.choose "u64"]]⟩, ⟨"b", .enum "Tok::A" [.choose "u64"]⟩]
    let v : RVal := .ctor "Tok::A" [.lit "1"]
    tokenTerminalIdx cs 0 v = some 1 ∧ tokenValue cs 0 v = some (.token 0 [.lit "1"]) := by
  constructor
  · simp [tokenTerminalIdx, patternIgnore, patternIgnoreList, matchR, matchList]
  · simp [tokenValue, patternIdents, patternIdentsList, tupleNoComma, matchR, matchList, fieldIdent,
      List.range_succ, List.lookup]

/-! ## C29 Captured fields arrive in pattern order -/

/-- **C29.** The fields of the value built for a token are exactly the sub-values at the `<T>`
positions of the matched pattern, left to right. -/
theorem c29_captures (cs : List (Conversion Ty)) (hs : ∀ c ∈ cs, NoOneTuple c.to) (v : RVal)
    (k : Nat) (fs : List RVal) (h : tokenValue cs 0 v = some (.token k fs)) :
    ∃ c, cs[k]? = some c ∧ capture c.to v = some fs := by
  rw [tokenValue_eq cs hs] at h
  obtain ⟨j, h1, h2⟩ := Option.bind_eq_some_iff.1 h
  obtain ⟨c, caps, h3, h4, h5⟩ := classify_firstMatch h1
  rw [h5] at h2
  simp only [Option.map_some, Option.some.injEq, SAR.token.injEq, Nat.add_zero] at h2
  obtain ⟨rfl, rfl⟩ := h2
  exact ⟨c, h3, h4⟩

mutual
theorem capture_picks : ∀ (p : Pattern Ty) (v : RVal) (c : List RVal), capture p v = some c →
    ∃ l, Picks p v l ∧ l.map (·.1) = patternTypes p ∧ l.map (·.2) = c
  | .choose T, v, c => by
    intro h; simp only [capture, Option.some.injEq] at h; subst h
    exact ⟨_, .choose T v, rfl, rfl⟩
  | .underscore, v, c => by
    intro h; simp only [capture, Option.some.injEq] at h; subst h
    exact ⟨_, .underscore v, rfl, rfl⟩
  | .dotDot, v, c => by intro h; simp [capture] at h
  | .lit s, v, c => by
    intro h
    cases v with
    | lit s' =>
      simp only [capture] at h
      split at h
      · next e => cases h; subst e; exact ⟨_, .lit s, rfl, rfl⟩
      · cases h
    | ctor => simp [capture] at h
    | record => simp [capture] at h
    | tuple => simp [capture] at h
  | .path p, v, c => by
    intro h
    cases v with
    | ctor p' args =>
      cases args with
      | nil =>
        simp only [capture] at h
        split at h
        · next e => cases h; subst e; exact ⟨_, .path p, rfl, rfl⟩
        · cases h
      | cons => simp [capture] at h
    | lit => simp [capture] at h
    | record => simp [capture] at h
    | tuple => simp [capture] at h
  | .enum p ps, v, c => by
    intro h
    cases v with
    | ctor p' args =>
      simp only [capture] at h
      split at h
      · next e =>
        subst e
        obtain ⟨l, h1, h2, h3⟩ := captureList_picks ps _ c h
        exact ⟨l, .enum p h1, by rw [h2, patternTypes], h3⟩
      · cases h
    | lit => simp [capture] at h
    | record => simp [capture] at h
    | tuple => simp [capture] at h
  | .struct p fs dots, v, c => by
    intro h
    cases v with
    | record p' vs =>
      simp only [capture] at h
      split at h
      · next e =>
        obtain ⟨rfl, e⟩ := e
        obtain ⟨l, h1, h2, h3⟩ := captureFields_picks fs _ c h
        exact ⟨l, .struct p e h1, by rw [h2, patternTypes], h3⟩
      · cases h
    | ctor => simp [capture] at h
    | tuple => simp [capture] at h
    | lit => simp [capture] at h
  | .tuple ps, v, c => by
    intro h
    cases v with
    | tuple args =>
      simp only [capture] at h
      obtain ⟨l, h1, h2, h3⟩ := captureList_picks ps _ c h
      exact ⟨l, .tuple h1, by rw [h2, patternTypes], h3⟩
    | ctor => simp [capture] at h
    | record => simp [capture] at h
    | lit => simp [capture] at h
theorem captureList_picks : ∀ (ps : List (Pattern Ty)) (vs : List RVal) (c : List RVal),
    captureList ps vs = some c →
    ∃ l, PicksList ps vs l ∧ l.map (·.1) = patternTypesList ps ∧ l.map (·.2) = c
  | [], vs, c => by
    intro h
    cases vs with
    | nil => simp only [captureList, Option.some.injEq] at h; subst h; exact ⟨_, .nil, rfl, rfl⟩
    | cons => simp [captureList] at h
  | .dotDot :: ps, vs, c => by
    intro h
    simp only [captureList] at h
    split at h
    · next hle =>
      obtain ⟨l, h1, h2, h3⟩ := captureList_picks ps _ c h
      refine ⟨l, ?_, by rw [h2, patternTypesList, patternTypes, List.nil_append], h3⟩
      have := PicksList.dots (vs.take (vs.length - ps.length)) (by simp; omega) h1
      rwa [List.take_append_drop] at this
    · cases h
  | p :: ps, vs, c => by
    intro h
    by_cases hp : p = .dotDot
    · subst hp
      simp only [captureList] at h
      split at h
      · next hle =>
        obtain ⟨l, h1, h2, h3⟩ := captureList_picks ps _ c h
        refine ⟨l, ?_, by rw [h2, patternTypesList, patternTypes, List.nil_append], h3⟩
        have := PicksList.dots (vs.take (vs.length - ps.length)) (by simp; omega) h1
        rwa [List.take_append_drop] at this
      · cases h
    · cases vs with
      | nil => rw [captureList] at h; · cases h
               · exact hp
      | cons v vs =>
        rw [captureList] at h
        · split at h
          · next c1 c2 e1 e2 =>
            cases h
            obtain ⟨l, h1, h2, h3⟩ := capture_picks p v c1 e1
            obtain ⟨l', h1', h2', h3'⟩ := captureList_picks ps vs c2 e2
            exact ⟨_, .cons h1 h1', by rw [List.map_append, h2, h2', patternTypesList],
              by rw [List.map_append, h3, h3']⟩
          · cases h
        · exact hp
theorem captureFields_picks : ∀ (fs : List (String × Pattern Ty)) (vs : List (String × RVal))
    (c : List RVal), captureFields fs vs = some c →
    ∃ l, PicksFields fs vs l ∧ l.map (·.1) = patternTypesFields fs ∧ l.map (·.2) = c
  | [], vs, c => by
    intro h; simp only [captureFields, Option.some.injEq] at h; subst h; exact ⟨_, .nil vs, rfl, rfl⟩
  | (f, p) :: fs, vs, c => by
    intro h
    rw [captureFields] at h
    split at h
    · cases h
    · next v hv =>
      split at h
      · next c1 c2 e1 e2 =>
        cases h
        obtain ⟨l, h1, h2, h3⟩ := capture_picks p v c1 e1
        obtain ⟨l', h1', h2', h3'⟩ := captureFields_picks fs vs c2 e2
        exact ⟨_, .cons hv h1 h1', by rw [List.map_append, h2, h2', patternTypesFields],
          by rw [List.map_append, h3, h3']⟩
      · cases h
end

/-- **C29.** The captured values and the argument types declared for the emitted variant `Token<k>`
(`pattern_types`) correspond one to one and in order: both come from the `<T>` positions of the matched
pattern, left to right. -/
theorem c29_typed (cs : List (Conversion Ty)) (hs : ∀ c ∈ cs, NoOneTuple c.to) (v : RVal)
    (k : Nat) (fs : List RVal) (h : tokenValue cs 0 v = some (.token k fs)) :
    ∃ c l, cs[k]? = some c ∧ Picks c.to v l ∧ patternTypes c.to = l.map (·.1) ∧
      fs = l.map (·.2) := by
  obtain ⟨c, h1, h2⟩ := c29_captures cs hs v k fs h
  obtain ⟨l, h3, h4, h5⟩ := capture_picks _ _ _ h2
  exact ⟨c, l, h1, h3, h4.symm, h5.symm⟩

/-- Nested captures, with `..` and named fields out of order. -/
example :
    let p : Pattern String := .enum "T::N" [.choose "A", .dotDot,
      .struct "P" [("y", .choose "B"), ("x", .tuple [.choose "C", .underscore])] true]
    let v : RVal := .ctor "T::N" [.lit "1", .lit "2", .lit "3",
      .record "P" [("x", .tuple [.lit "4", .lit "5"]), ("y", .lit "6"), ("z", .lit "7")]]
    tokenValue [⟨"n", p⟩] 0 v = some (.token 0 [.lit "1", .lit "6", .lit "4"]) ∧
      patternTypes p = ["A", "B", "C"] := by
  constructor
  · simp [tokenValue, patternIdents, patternIdentsList, patternIdentsFields, tupleNoComma, matchR,
      matchList, matchFields, fieldIdent, List.range_succ, List.lookup]
    have h1 : ("f" ++ Nat.repr 1 == "f" ++ Nat.repr 0) = false := by decide
    have h2 : ("f" ++ Nat.repr 2 == "f" ++ Nat.repr 0) = false := by decide
    have h3 : ("f" ++ Nat.repr 2 == "f" ++ Nat.repr 1) = false := by decide
    simp [h1, h2, h3]
  · simp [patternTypes, patternTypesList, patternTypesFields]

end Parsegen
