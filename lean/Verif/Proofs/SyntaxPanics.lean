import Verif.Proofs.SyntaxItems

/-! # Panics while reading the macro input -/

namespace Parsegen

variable {X Ty α β : Type} {S : Syn X Ty}

theorem terminated_panic {p : Reader α} {At : List TokTree → α → List TokTree → Prop}
    {Pn : List TokTree → Prop} {Pns : List TokTree → Prop}
    (hp : ∀ ts a rest, p ts = .ok (a, rest) → At ts a rest)
    (hpn : ∀ ts, p ts = .error .panic → Pn ts)
    (hhere : ∀ ts, ts ≠ [] → Pn ts → Pns ts)
    (hlater : ∀ ts a j rest, At ts a (.punct ',' j :: rest) → Pns rest → Pns ts) :
    ∀ k ts, terminated p k ts = .error .panic → Pns ts := by
  intro k
  induction k with
  | zero => intro ts h; cases ts <;> simp [terminated] at h
  | succ k ih =>
    intro ts h
    cases ts with
    | nil => simp [terminated] at h
    | cons t ts =>
      rw [terminated] at h
      replace h := Except.bind_eq_error.1 h
      rcases h with h | ⟨⟨a, rest⟩, h1, h⟩
      · exact hhere _ (by simp) (hpn _ h)
      cases rest with
      | nil => cases h
      | cons r rest =>
        replace h := Except.bind_eq_error.1 h
        rcases h with h | ⟨rest', h2, h⟩
        · cases (expect_eq_error.1 h).2
        replace h := Except.bind_eq_error.1 h
        rcases h with h | ⟨_, _, h⟩
        · obtain ⟨j, e⟩ := punct1_eq_some.1 (expect_eq_ok.1 h2)
          exact hlater _ a j rest' (e ▸ hp _ _ _ h1) (ih _ h)
        · cases h

/-- What a field pattern reads. -/
theorem fieldPattern_eq_ok {p : Reader (Pattern Ty)} {ts rest : List TokTree} {x : String}
    {a : Pattern Ty} (h : fieldPattern S p ts = .ok ((x, a), rest)) :
    ∃ j ts', ts = .ident x :: .punct ':' j :: ts' ∧ S.keyword x = false ∧ p ts' = .ok (a, rest) := by
  unfold fieldPattern at h
  replace h := Except.bind_eq_ok.1 h
  obtain ⟨⟨x', ts1⟩, e1, h⟩ := h
  replace h := Except.bind_eq_ok.1 h
  obtain ⟨ts2, e2, h⟩ := h
  replace h := Except.bind_eq_ok.1 h
  obtain ⟨⟨pt', ts3⟩, e3, h⟩ := h
  simp only [Except.ok.injEq, Prod.mk.injEq] at h
  obtain ⟨⟨rfl, rfl⟩, rfl⟩ := h
  obtain ⟨e1, hx⟩ := Syn.ident_eq_some.1 (expect_eq_ok.1 e1)
  obtain ⟨j, rfl⟩ := punct1_eq_some.1 (expect_eq_ok.1 e2)
  exact ⟨j, ts2, e1, hx, e3⟩

theorem fieldPattern_panic {p : Reader (Pattern Ty)} {ts : List TokTree}
    (h : fieldPattern S p ts = .error .panic) :
    ∃ x j ts', ts = .ident x :: .punct ':' j :: ts' ∧ S.keyword x = false ∧ p ts' = .error .panic := by
  unfold fieldPattern at h
  replace h := Except.bind_eq_error.1 h
  rcases h with h | ⟨⟨x, ts1⟩, e1, h⟩
  · cases (expect_eq_error.1 h).2
  replace h := Except.bind_eq_error.1 h
  rcases h with h | ⟨ts2, e2, h⟩
  · cases (expect_eq_error.1 h).2
  replace h := Except.bind_eq_error.1 h
  rcases h with h | ⟨⟨pt', ts3⟩, e3, h⟩
  · obtain ⟨e1, hx⟩ := Syn.ident_eq_some.1 (expect_eq_ok.1 e1)
    obtain ⟨j, rfl⟩ := punct1_eq_some.1 (expect_eq_ok.1 e2)
    exact ⟨x, j, ts2, e1, hx, h⟩
  · cases h

theorem structFields_panic {p : Reader (Pattern Ty)}
    (hp : ∀ ts a rest, p ts = .ok (a, rest) → PatternAt S ts a rest)
    (hend : ∀ ts path rest, p ts = .ok (.path path, rest) → ¬ GroupFirst rest)
    (hpn : ∀ ts, p ts = .error .panic → PatternPanics S ts) :
    ∀ k ts, structFields S p k ts = .error .panic → FieldsPanic S ts := by
  intro k
  induction k with
  | zero => intro ts h; cases ts <;> simp [structFields] at h
  | succ k ih =>
    intro ts h
    cases ts with
    | nil => simp [structFields] at h
    | cons t ts =>
      rw [structFields] at h
      split at h
      · next rest e =>
        split at h
        · cases h
        · next hne =>
          obtain ⟨j, e⟩ := punct2_eq_some.1 e
          rw [e]
          cases rest with
          | nil => simp at hne
          | cons r rest => exact .afterDots
      · next e =>
        replace h := Except.bind_eq_error.1 h
        rcases h with h | ⟨⟨⟨x, a⟩, rest⟩, h1, h⟩
        · obtain ⟨x, j, ts', e, hx, h⟩ := fieldPattern_panic h
          rw [e]
          exact .here hx (hpn _ h)
        obtain ⟨j, ts', e, hx, h1⟩ := fieldPattern_eq_ok h1
        rw [e]
        have hat := hp _ _ _ h1
        dsimp only at h
        split at h
        · next rest' h2 =>
          obtain ⟨j', rfl⟩ := punct1_eq_some.1 h2
          replace h := Except.bind_eq_error.1 h
          rcases h with h | ⟨_, _, h⟩
          · exact .later hx hat (ih _ h)
          · cases h
        · next hnc =>
          split at h
          · next hor =>
            replace h := Except.bind_eq_error.1 h
            rcases h with h | ⟨_, _, h⟩
            · cases rest with
              | nil => cases k <;> simp [structFields] at h
              | cons r rest =>
                simp only [List.isEmpty_cons, Bool.false_or] at hor
                obtain ⟨r', hr'⟩ := Option.isSome_iff_exists.1 hor
                obtain ⟨j', e'⟩ := punct2_eq_some.1 hr'
                rw [e'] at h hat
                cases k with
                | zero => simp [structFields] at h
                | succ k =>
                  simp only [structFields, punct2_self] at h
                  split at h
                  · cases h
                  · next hne =>
                    cases r' with
                    | nil => simp at hne
                    | cons t r' => exact .laterDots hx hat
            · cases h
          · next hor =>
            refine .separator hx hat (fun path e => hend _ path _ (e ▸ h1)) ?_
            intro hf
            cases hf with
            | nil => simp at hor
            | comma => simp at hnc
            | dots => simp at hor

theorem pattern_path {n : Nat} {ts rest : List TokTree} {path : String}
    (h : pattern S n ts = .ok (.path path, rest)) : ¬ GroupFirst rest := by
  cases n with
  | zero => cases h
  | succ n =>
    rw [pattern] at h
    split at h
    · cases h
    split at h
    · cases h
    split at h
    · cases h
    split at h
    · replace h := Except.bind_eq_ok.1 h
      obtain ⟨_, _, h⟩ := h
      cases h
    split at h
    · replace h := Except.bind_eq_ok.1 h
      obtain ⟨⟨path', r⟩, h1, h⟩ := h
      dsimp only at h
      split at h
      · replace h := Except.bind_eq_ok.1 h
        obtain ⟨_, _, h⟩ := h
        cases h
      next e1 =>
      split at h
      · replace h := Except.bind_eq_ok.1 h
        obtain ⟨_, _, h⟩ := h
        cases h
      next e2 =>
      cases h
      intro hg
      cases hg <;> simp_all
    split at h
    · replace h := Except.bind_eq_ok.1 h
      obtain ⟨_, _, h⟩ := h
      replace h := Except.bind_eq_ok.1 h
      obtain ⟨_, _, h⟩ := h
      cases h
    · cases h

theorem pattern_panic : ∀ n ts, pattern S n ts = .error .panic → PatternPanics S ts := by
  intro n
  induction n with
  | zero => intro ts h; cases h
  | succ n ih =>
    intro ts h
    have hps : ∀ c, terminated (pattern S n) c.length c = .error .panic → PatternsPanic S c :=
      fun c => terminated_panic (At := PatternAt S) (Pn := PatternPanics S) (pattern_sound n) ih
        (fun _ => .here) (fun _ _ _ _ => .later) _ _
    rw [pattern] at h
    split at h
    · cases h
    next e1 =>
    split at h
    · cases h
    next e2 =>
    split at h
    · cases h
    next e3 =>
    split at h
    · next c r e =>
      replace h := Except.bind_eq_error.1 h
      rcases h with h | ⟨_, _, h⟩
      · rw [group_eq_some.1 e]
        exact .tuple (hps _ h)
      · cases h
    next e4 =>
    split at h
    · next v e =>
      obtain ⟨x, ts'⟩ := v
      obtain ⟨rfl, hx⟩ := Syn.ident_eq_some.1 e
      replace h := Except.bind_eq_error.1 h
      rcases h with h | ⟨⟨path, r⟩, h1, h⟩
      · cases (expect_eq_error.1 h).2
      rw [expect_eq_ok] at h1
      dsimp only at h
      split at h
      · next c r e =>
        replace h := Except.bind_eq_error.1 h
        rcases h with h | ⟨_, _, h⟩
        · rw [group_eq_some.1 e] at h1
          exact .enum hx h1 (hps _ h)
        · cases h
      split at h
      · next c r e =>
        replace h := Except.bind_eq_error.1 h
        rcases h with h | ⟨_, _, h⟩
        · rw [group_eq_some.1 e] at h1
          exact .struct hx h1
            (structFields_panic (pattern_sound n) (fun _ _ _ => pattern_path) ih _ _ h)
        · cases h
      · cases h
    next e5 =>
    split at h
    · replace h := Except.bind_eq_error.1 h
      rcases h with h | ⟨⟨ty, r⟩, h1, h⟩
      · cases (expect_eq_error.1 h).2
      replace h := Except.bind_eq_error.1 h
      rcases h with h | ⟨_, _, h⟩
      · cases (expect_eq_error.1 h).2
      · cases h
    next e6 =>
    refine .start fun hs => ?_
    cases hs with
    | dotDot => simp at e1
    | @lit ts text rest hl =>
      cases hl with
      | plain hl => rw [lit_eq_some.2 (.inl ⟨rfl, _, hl, rfl⟩)] at e2; cases e2
      | str => cases e2
    | underscore => simp at e3
    | paren => simp at e4
    | ident hx => rw [Syn.ident_self hx] at e5; cases e5
    | lt => simp at e6

/-! ## Completeness -/

theorem terminated_here {p : Reader α} {ts : List TokTree} (h : p ts = .error .panic)
    (hne : ts ≠ []) (k : Nat) (hk : ts.length ≤ k) : terminated p k ts = .error .panic := by
  cases ts with
  | nil => exact absurd rfl hne
  | cons t ts =>
    cases k with
    | zero => simp at hk
    | succ k => rw [terminated, h]; rfl

theorem terminated_later {p : Reader α} {ts rest : List TokTree} {a : α} {j : Bool} {k : Nat}
    (h : p ts = .ok (a, .punct ',' j :: rest)) (hn : ts ≠ [])
    (hr : terminated p k rest = .error .panic) : terminated p (k + 1) ts = .error .panic := by
  cases ts with
  | nil => exact absurd rfl hn
  | cons t ts => rw [terminated, h]; simp [hr]

theorem pattern_start {ts : List TokTree} (h : ¬ PatternStart S ts) (n : Nat) :
    pattern S (n + 1) ts = .error .panic := by
  have h1 : punct2 '.' '.' ts = none := by
    cases e : punct2 '.' '.' ts with
    | none => rfl
    | some r => obtain ⟨j, rfl⟩ := punct2_eq_some.1 e; exact absurd .dotDot h
  have h2 : lit ts = none := by
    cases e : lit ts with
    | none => rfl
    | some r =>
      obtain ⟨⟨text, v⟩, r⟩ := r
      rcases lit_eq_some.1 e with ⟨_, pre, hp, rfl⟩ | ⟨w, _, rfl⟩
      · exact absurd (.lit (.plain hp)) h
      · exact absurd (PatternStart.lit (S := S) (rest := r) (.str (text := text) (v := w))) h
  have h3 : kw "_" ts = none := by
    cases e : kw "_" ts with
    | none => rfl
    | some r => rw [kw_eq_some] at e; subst e; exact absurd .underscore h
  have h4 : group .paren ts = none := by
    cases e : group .paren ts with
    | none => rfl
    | some r => obtain ⟨c, r⟩ := r; rw [group_eq_some] at e; subst e; exact absurd .paren h
  have h5 : S.ident ts = none := by
    cases e : S.ident ts with
    | none => rfl
    | some r =>
      obtain ⟨x, r⟩ := r; obtain ⟨rfl, hx⟩ := Syn.ident_eq_some.1 e; exact absurd (.ident hx) h
  have h6 : punct1 '<' ts = none := by
    cases e : punct1 '<' ts with
    | none => rfl
    | some r => obtain ⟨j, rfl⟩ := punct1_eq_some.1 e; exact absurd .lt h
  rw [pattern, h1, h2, h3, h4, h5, h6]

theorem groupFirst_patternEnd {rest : List TokTree} (h : ¬ GroupFirst rest) : PatternEnd rest := by
  constructor
  · cases e : group .paren rest with
    | none => rfl
    | some r => obtain ⟨c, r⟩ := r; rw [group_eq_some] at e; subst e; exact absurd .paren h
  · cases e : group .brace rest with
    | none => rfl
    | some r => obtain ⟨c, r⟩ := r; rw [group_eq_some] at e; subst e; exact absurd .brace h

theorem fieldPattern_here {p : Reader (Pattern Ty)} {x : String} {j : Bool} {ts : List TokTree}
    {f : ReadFault} (hx : S.keyword x = false) (h : p ts = .error f) :
    fieldPattern S p (.ident x :: .punct ':' j :: ts) = .error f := by
  simp [fieldPattern, Syn.ident_self hx, h]

theorem pattern_panics {ts : List TokTree} (h : PatternPanics S ts) :
    ∀ n, TokTree.depthList ts < n → pattern S n ts = .error .panic := by
  have dg : ∀ (d : Delim) (c rest : List TokTree), TokTree.depthList (.group d c :: rest)
      = max (TokTree.depthList c + 1) (TokTree.depthList rest) := by
    intro d c rest; simp [TokTree.depthList, TokTree.depth]
  refine PatternPanics.rec (S := S)
    (motive_1 := fun ts _ => ∀ n, TokTree.depthList ts < n → pattern S n ts = .error .panic)
    (motive_2 := fun ts _ => ∀ n, TokTree.depthList ts < n → ∀ k, ts.length ≤ k →
      terminated (pattern S n) k ts = .error .panic)
    (motive_3 := fun ts _ => ∀ n, TokTree.depthList ts < n → ∀ k, ts.length ≤ k →
      structFields S (pattern S n) k ts = .error .panic)
    ?_ ?_ ?_ ?_ ?_ ?_ ?_ ?_ ?_ ?_ ?_ h
  · intro ts h n hn
    obtain ⟨n, rfl⟩ : ∃ m, n = m + 1 := ⟨n - 1, by omega⟩
    exact pattern_start h n
  · intro contents rest _ ih n hn
    rw [dg] at hn
    obtain ⟨n, rfl⟩ : ∃ m, n = m + 1 := ⟨n - 1, by omega⟩
    rw [pattern, show punct2 '.' '.' (.group .paren contents :: rest) = none from rfl,
      show lit (.group .paren contents :: rest) = none from rfl,
      show kw "_" (.group .paren contents :: rest) = none from rfl, group_self]
    simp [ih n (by omega) _ (Nat.le_refl _)]
  · intro x ts path contents rest hx h _ ih n hn
    have := Consumes.depth (S.path_consumes _ _ _ h)
    rw [dg] at this
    obtain ⟨n, rfl⟩ : ∃ m, n = m + 1 := ⟨n - 1, by omega⟩
    rw [pattern_ident hx h, group_self]
    simp [ih n (by omega) _ (Nat.le_refl _)]
  · intro x ts path contents rest hx h _ ih n hn
    have := Consumes.depth (S.path_consumes _ _ _ h)
    rw [dg] at this
    obtain ⟨n, rfl⟩ : ∃ m, n = m + 1 := ⟨n - 1, by omega⟩
    rw [pattern_ident hx h, show group .paren (.group .brace contents :: rest) = none from rfl,
      group_self]
    simp [ih n (by omega) _ (Nat.le_refl _)]
  · intro ts hne _ ih n hn k hk
    exact terminated_here (ih n hn) hne k hk
  · intro ts p j rest h _ ih n hn k hk
    have hc := h.consumes.trans (consumes_cons _ _)
    have := hc.length
    have := hc.depth
    obtain ⟨k, rfl⟩ : ∃ k', k = k' + 1 := ⟨k - 1, by omega⟩
    exact terminated_later (pattern_complete h patternEnd_punct n hn) h.consumes.ne
      (ih n (by omega) k (by omega))
  · intro j t rest n _ k hk
    obtain ⟨k, rfl⟩ : ∃ k', k = k' + 1 := ⟨k - 1, by simp at hk; omega⟩
    simp [structFields]
  · intro x j ts hx h ih n hn k hk
    simp only [TokTree.depthList, TokTree.depth] at hn
    simp only [List.length_cons] at hk
    obtain ⟨k, rfl⟩ : ∃ k', k = k' + 1 := ⟨k - 1, by omega⟩
    rw [structFields, show punct2 '.' '.' (.ident x :: .punct ':' j :: ts) = none from rfl]
    dsimp only
    rw [fieldPattern_here hx (ih n (by omega))]
    rfl
  · intro x j ts p rest hx h hm hr n hn k hk
    simp only [TokTree.depthList, TokTree.depth] at hn
    simp only [List.length_cons] at hk
    obtain ⟨k, rfl⟩ : ∃ k', k = k' + 1 := ⟨k - 1, by omega⟩
    rw [structFields, show punct2 '.' '.' (.ident x :: .punct ':' j :: ts) = none from rfl]
    dsimp only
    rw [fieldPattern_eq hx (pattern_complete' h (fun path e => groupFirst_patternEnd (hm path e)) n
      (by omega))]
    have h1 : punct1 ',' rest = none := by
      cases e : punct1 ',' rest with
      | none => rfl
      | some r => obtain ⟨j, rfl⟩ := punct1_eq_some.1 e; exact absurd .comma hr
    have h2 : punct2 '.' '.' rest = none := by
      cases e : punct2 '.' '.' rest with
      | none => rfl
      | some r => obtain ⟨j, rfl⟩ := punct2_eq_some.1 e; exact absurd .dots hr
    have h3 : rest ≠ [] := by rintro rfl; exact hr .nil
    simp [h1, h2, h3]
  · intro x j ts p j' t rest hx h n hn k hk
    simp only [TokTree.depthList, TokTree.depth] at hn
    simp only [List.length_cons] at hk
    have := h.consumes.length
    simp only [List.length_cons] at this
    obtain ⟨k, rfl⟩ : ∃ k', k = k' + 2 := ⟨k - 2, by omega⟩
    rw [structFields, show punct2 '.' '.' (.ident x :: .punct ':' j :: ts) = none from rfl]
    dsimp only
    rw [fieldPattern_eq hx (pattern_complete h patternEnd_punct n (by omega))]
    simp [structFields, punct1]
  · intro x j ts p j' rest hx h _ ih n hn k hk
    simp only [TokTree.depthList, TokTree.depth] at hn
    simp only [List.length_cons] at hk
    have hc := h.consumes.trans (consumes_cons _ _)
    have := hc.length
    have := hc.depth
    obtain ⟨k, rfl⟩ : ∃ k', k = k' + 1 := ⟨k - 1, by omega⟩
    rw [structFields, show punct2 '.' '.' (.ident x :: .punct ':' j :: ts) = none from rfl]
    dsimp only
    rw [fieldPattern_eq hx (pattern_complete h patternEnd_punct n (by omega))]
    simp [ih n (by omega) k (by omega)]

/-! ## Conversions -/

theorem conversion_panic {ts : List TokTree} (h : conversion S ts = .error .panic) :
    ∃ text v j ts', ts = .lit text (.str v) :: .punct '=' true :: .punct '>' j :: ts' ∧
      PatternPanics S ts' := by
  unfold conversion at h
  dsimp only at h
  split at h
  · next v ts1 e =>
    obtain ⟨text, rfl⟩ := litStr_eq.1 e
    replace h := Except.bind_eq_error.1 h
    rcases h with h | ⟨ts2, e2, h⟩
    · cases (expect_eq_error.1 h).2
    obtain ⟨j, rfl⟩ := punct2_eq_some.1 (expect_eq_ok.1 e2)
    replace h := Except.bind_eq_error.1 h
    rcases h with h | ⟨_, _, h⟩
    · exact ⟨text, v, j, ts2, rfl, pattern_panic _ _ h⟩
    · cases h
  · cases h

theorem conversion_fuel {ts : List TokTree} : conversion S ts ≠ .error .outOfFuel := by
  intro h
  unfold conversion at h
  dsimp only at h
  split at h
  · next v ts1 e =>
    replace h := Except.bind_eq_error.1 h
    rcases h with h | ⟨ts2, e2, h⟩
    · cases (expect_eq_error.1 h).2
    replace h := Except.bind_eq_error.1 h
    rcases h with h | ⟨_, _, h⟩
    · exact pattern_fuel _ _ (Nat.lt_succ_self _) h
    · cases h
  · cases h

theorem conversions_panic {k : Nat} {ts : List TokTree}
    (h : terminated (conversion S) k ts = .error .panic) : ConversionsPanic S ts :=
  terminated_panic (At := ConversionAt S) (Pn := ConversionsPanic S) (fun _ _ _ => conversion_sound)
    (fun ts h => by
      obtain ⟨text, v, j, ts', rfl, hp⟩ := conversion_panic h
      exact .here hp)
    (fun _ _ h => h) (fun _ _ _ _ => .later) _ _ h

theorem conversions_fuel (ts : List TokTree) :
    terminated (conversion S) ts.length ts ≠ .error .outOfFuel := fun h =>
  terminated_fault (F := (· ≠ .outOfFuel)) (D := fun _ => True) (by simp) (fun _ _ _ _ => trivial)
    (fun _ f _ hf he => conversion_fuel (he ▸ hf)) (fun _ _ _ h => (conversion_sound h).consumes)
    _ _ _ trivial (Nat.le_refl _) h rfl

theorem conversions_panics {ts : List TokTree} (h : ConversionsPanic S ts) :
    ∀ k, ts.length ≤ k → terminated (conversion S) k ts = .error .panic := by
  induction h with
  | @here text v j ts h =>
    intro k hk
    refine terminated_here ?_ (by simp) k hk
    have h1 : litStr (.lit text (.str v) :: .punct '=' true :: .punct '>' j :: ts)
        = (some v, .punct '=' true :: .punct '>' j :: ts) := litStr_eq.2 ⟨_, rfl⟩
    unfold conversion
    rw [h1]
    simp [pattern_panics h _ (Nat.lt_succ_self _)]
  | @later ts c j rest h hs ih =>
    intro k hk
    have := (h.consumes.trans (consumes_cons _ _)).length
    obtain ⟨k, rfl⟩ : ∃ k', k = k' + 1 := ⟨k - 1, by omega⟩
    exact terminated_later (conversion_complete h patternEnd_punct) h.consumes.ne (ih k (by omega))

/-! ## Items -/

theorem grammarItem_fault {ts : List TokTree} {f : ReadFault} (h : grammarItem S ts = .error f) :
    f = .error ∨ f = .panic ∧
      ((∃ x rest, ts = .ident "type" :: .ident x :: rest ∧ S.keyword x = false ∧ x ≠ "State") ∨
       ∃ name ts' as contents rest, ts = .ident "enum" :: .ident name :: ts' ∧ S.keyword name = false ∧
         ParamsAt ts' as (.group .brace contents :: rest) ∧ ConversionsPanic S contents) := by
  unfold grammarItem at h
  split at h
  · replace h := Except.bind_eq_error.1 h
    rcases h with h | ⟨_, _, h⟩
    · unfold typeDef at h
      replace h := Except.bind_eq_error.1 h
      rcases h with h | ⟨ts1, e1, h⟩
      · exact .inl (expect_eq_error.1 h).2
      replace h := Except.bind_eq_error.1 h
      rcases h with h | ⟨⟨x, ts2⟩, e2, h⟩
      · exact .inl (expect_eq_error.1 h).2
      dsimp only at h
      split at h
      · replace h := Except.bind_eq_error.1 h
        rcases h with h | ⟨ts3, e3, h⟩
        · exact .inl (expect_eq_error.1 h).2
        replace h := Except.bind_eq_error.1 h
        rcases h with h | ⟨⟨ty, ts4⟩, e4, h⟩
        · exact .inl (expect_eq_error.1 h).2
        replace h := Except.bind_eq_error.1 h
        rcases h with h | ⟨ts3, e3, h⟩
        · exact .inl (expect_eq_error.1 h).2
        cases h
      · next hne =>
        cases h
        have e1 := kw_eq_some.1 (expect_eq_ok.1 e1)
        obtain ⟨e2, hx⟩ := Syn.ident_eq_some.1 (expect_eq_ok.1 e2)
        exact .inr ⟨rfl, .inl ⟨x, ts2, by rw [e1, e2], hx, hne⟩⟩
    · cases h
  split at h
  · replace h := Except.bind_eq_error.1 h
    rcases h with h | ⟨_, _, h⟩
    · unfold tokenEnum at h
      replace h := Except.bind_eq_error.1 h
      rcases h with h | ⟨ts1, e1, h⟩
      · exact .inl (expect_eq_error.1 h).2
      replace h := Except.bind_eq_error.1 h
      rcases h with h | ⟨⟨x, ts2⟩, e2, h⟩
      · exact .inl (expect_eq_error.1 h).2
      dsimp only at h
      replace h := Except.bind_eq_error.1 h
      rcases h with h | ⟨⟨as, ts3⟩, e3, h⟩
      · exact .inl (typeParams_fault h)
      replace h := Except.bind_eq_error.1 h
      rcases h with h | ⟨⟨contents, ts4⟩, e4, h⟩
      · exact .inl (expect_eq_error.1 h).2
      dsimp only at h
      replace h := Except.bind_eq_error.1 h
      rcases h with h | ⟨_, _, h⟩
      · have e1 := kw_eq_some.1 (expect_eq_ok.1 e1)
        obtain ⟨e2, hx⟩ := Syn.ident_eq_some.1 (expect_eq_ok.1 e2)
        have e4 := group_eq_some.1 (expect_eq_ok.1 e4)
        cases f with
        | error => exact .inl rfl
        | outOfFuel => exact absurd h (conversions_fuel _)
        | panic =>
          exact .inr ⟨rfl, .inr ⟨x, ts2, as, contents, ts4, by rw [e1, e2], hx,
            e4 ▸ typeParams_sound e3, conversions_panic h⟩⟩
      · cases h
    · cases h
  · replace h := Except.bind_eq_error.1 h
    rcases h with h | ⟨_, _, h⟩
    · exact .inl (definition_fault h)
    · cases h

theorem grammarItems_panic : ∀ k ts, grammarItems S k ts = .error .panic → ItemsPanic S ts := by
  intro k
  induction k with
  | zero => intro ts h; cases ts <;> simp [grammarItems] at h
  | succ k ih =>
    intro ts h
    cases ts with
    | nil => simp [grammarItems] at h
    | cons t ts =>
      rw [grammarItems] at h
      replace h := Except.bind_eq_error.1 h
      rcases h with h | ⟨⟨i, rest⟩, h1, h⟩
      · rcases grammarItem_fault h with h | ⟨_, ⟨x, rest, e, hk, hx⟩ | ⟨name, ts', as, c, rest, e, hn, hp, hc⟩⟩
        · cases h
        · rw [e]; exact .typeDef hk hx
        · rw [e]; exact .tokenEnum hn hp hc
      · replace h := Except.bind_eq_error.1 h
        rcases h with h | ⟨_, _, h⟩
        · exact .later (grammarItem_sound h1) (ih _ h)
        · cases h

theorem grammarItems_fuel : ∀ k ts, ts.length ≤ k → grammarItems S k ts ≠ .error .outOfFuel := by
  intro k
  induction k with
  | zero =>
    intro ts hk h
    cases ts with
    | nil => simp [grammarItems] at h
    | cons => simp at hk
  | succ k ih =>
    intro ts hk h
    cases ts with
    | nil => simp [grammarItems] at h
    | cons t ts =>
      rw [grammarItems] at h
      replace h := Except.bind_eq_error.1 h
      rcases h with h | ⟨⟨i, rest⟩, h1, h⟩
      · rcases grammarItem_fault h with h | ⟨h, _⟩ <;> cases h
      · replace h := Except.bind_eq_error.1 h
        rcases h with h | ⟨_, _, h⟩
        · have := (grammarItem_sound h1).consumes.length
          exact ih _ (by simp at hk this ⊢; omega) h
        · cases h

theorem grammarItems_panics {ts : List TokTree} (h : ItemsPanic S ts) :
    ∀ k, ts.length ≤ k → grammarItems S k ts = .error .panic := by
  induction h with
  | @typeDef x rest hk hx =>
    intro k hl
    obtain ⟨k, rfl⟩ : ∃ k', k = k' + 1 := ⟨k - 1, by simp at hl; omega⟩
    rw [grammarItems]
    simp [grammarItem, typeDef, Syn.ident_self hk, hx]
  | @tokenEnum name ts as contents rest hn hp hc =>
    intro k hl
    obtain ⟨k, rfl⟩ : ∃ k', k = k' + 1 := ⟨k - 1, by simp at hl; omega⟩
    rw [grammarItems]
    have h1 : kw "type" (.ident "enum" :: .ident name :: ts) = none := kw_other (by decide)
    have h2 := conversions_panics hc _ (Nat.le_refl _)
    have h3 := typeParams_complete hp rfl
    simp [grammarItem, h1, tokenEnum, Syn.ident_self hn, h3, h2]
  | @later ts i rest h hs ih =>
    intro k hl
    have := h.consumes.length
    obtain ⟨k, rfl⟩ : ∃ k', k = k' + 1 := ⟨k - 1, by omega⟩
    have hne := h.consumes.ne
    cases ts with
    | nil => exact absurd rfl hne
    | cons t ts =>
      rw [grammarItems, grammarItem_complete h]
      simp [ih k (by omega)]

end Parsegen
