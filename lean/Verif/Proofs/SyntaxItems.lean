import Verif.Proofs.Syntax

/-! # Reading productions, definitions and items -/

namespace Parsegen

variable {X Ty α β : Type} {S : Syn X Ty}

/-! ## Productions -/

theorem symbols_sound : ∀ k ts ss rest, symbols S k ts = .ok (ss, rest) →
    SymbolsAt S Actual ts ss rest ∧ ∃ j r, rest = .punct '=' true :: .punct '>' j :: r := by
  intro k
  induction k with
  | zero => intro ts ss rest h; simp [symbols] at h
  | succ k ih =>
    intro ts ss rest h
    rw [symbols] at h
    split at h
    · next r hr =>
      simp only [Except.ok.injEq, Prod.mk.injEq] at h; obtain ⟨rfl, rfl⟩ := h
      obtain ⟨j, rfl⟩ := punct2_eq_some.1 hr
      exact ⟨.nil, j, r, rfl⟩
    · replace h := Except.bind_eq_ok.1 h
      obtain ⟨⟨s, ts1⟩, h1, h⟩ := h
      replace h := Except.bind_eq_ok.1 h
      obtain ⟨⟨ss', ts2⟩, h2, h⟩ := h
      simp only [Except.ok.injEq, Prod.mk.injEq] at h; obtain ⟨rfl, rfl⟩ := h
      obtain ⟨h3, h4⟩ := ih _ _ _ h2
      exact ⟨.cons (symbol_sound _ _ _ _ h1).1 h3, h4⟩

/-- The first token of a symbol. -/
theorem SymbolAt.start {ts : List TokTree} {s : AstSymbol} {rest : List TokTree}
    (h : SymbolAt S Actual ts s rest) : SymbolEnd ts ∧ punct2 '=' '>' ts = none ∧
      punct1 ',' ts = none ∧ group .brace ts = none := by
  have skip : ∀ {sk t r}, Actual sk → (∀ c j, t = TokTree.punct c j → c = '<') →
      (∀ d c, t ≠ .group d c) →
      SymbolEnd (sk ++ t :: r) ∧ punct2 '=' '>' (sk ++ t :: r) = none ∧
        punct1 ',' (sk ++ t :: r) = none ∧ group .brace (sk ++ t :: r) = none := by
    intro sk t r hs ht hg
    have gen : ∀ {t : TokTree} {r : List TokTree}, (∀ c j, t = TokTree.punct c j → c = '<' ∨ c = '-') →
        (∀ d c, t ≠ .group d c) →
        SymbolEnd (t :: r) ∧ punct2 '=' '>' (t :: r) = none ∧ punct1 ',' (t :: r) = none ∧
          group .brace (t :: r) = none := by
      intro t r ht hg
      refine ⟨?_, ?_, ?_, ?_⟩
      · intro op j rest hh
        simp only [List.cons.injEq] at hh
        rcases ht _ _ hh.1 with h | h <;> cases op <;> simp [RepeatOp.char] at h
      · cases hp : punct2 '=' '>' (t :: r) with
        | none => rfl
        | some r' =>
          obtain ⟨j, hh⟩ := punct2_eq_some.1 hp
          simp only [List.cons.injEq] at hh
          rcases ht _ _ hh.1 with h | h <;> simp at h
      · cases hp : punct1 ',' (t :: r) with
        | none => rfl
        | some r' =>
          obtain ⟨j, hh⟩ := punct1_eq_some.1 hp
          simp only [List.cons.injEq] at hh
          rcases ht _ _ hh.1 with h | h <;> simp at h
      · cases hp : group .brace (t :: r) with
        | none => rfl
        | some r' =>
          obtain ⟨c, r'⟩ := r'
          have hh := group_eq_some.1 hp
          simp only [List.cons.injEq] at hh
          exact absurd hh.1 (hg _ _)
    rcases hs with rfl | ⟨text, hs⟩
    · exact gen (fun c j h => .inl (ht c j h)) hg
    · cases hs <;> exact gen (by intro c j h; simp at h <;> exact .inr h.1.symm) (by simp)
  induction h with
  | terminal => exact skip (sk := []) (.inl rfl) (by simp) (by simp)
  | nonTerminal hs => exact skip hs (by simp) (by simp)
  | named hs => exact skip hs (by intro c j h; simp at h; exact h.1.symm) (by simp)
  | namedMut hs => exact skip hs (by intro c j h; simp at h; exact h.1.symm) (by simp)
  | repeated _ ih => exact ih

theorem SymbolsAt.consumes {Skip : List TokTree → Prop} {ts : List TokTree} {ss : List AstSymbol}
    {rest : List TokTree} (h : SymbolsAt S Skip ts ss rest) : ts = rest ∨ Consumes ts rest := by
  induction h with
  | nil => exact .inl rfl
  | cons h _ ih =>
    rcases ih with rfl | ih
    · exact .inr h.consumes
    · exact .inr (h.consumes.trans ih)

/-- The first token of a production. -/
theorem SymbolsAt.start {ts : List TokTree} {ss : List AstSymbol} {j : Bool} {r : List TokTree}
    (h : SymbolsAt S Actual ts ss (.punct '=' true :: .punct '>' j :: r)) :
    SymbolEnd ts ∧ punct1 ',' ts = none ∧ group .brace ts = none ∧ ts ≠ [] := by
  cases h with
  | nil =>
    refine ⟨?_, by simp [punct1], rfl, by simp⟩
    intro op j' rest hh
    cases op <;> simp [RepeatOp.char] at hh
  | cons h _ => exact ⟨h.start.1, h.start.2.2.1, h.start.2.2.2, h.consumes.ne⟩

theorem symbols_complete {ts : List TokTree} {ss : List AstSymbol} {rest : List TokTree}
    (h : SymbolsAt S Actual ts ss rest) : ∀ j r, rest = .punct '=' true :: .punct '>' j :: r →
    ∀ k, ts.length < k → symbols S k ts = .ok (ss, rest) := by
  induction h with
  | nil =>
    rintro j r rfl k hk
    cases k with
    | zero => omega
    | succ k => simp [symbols]
  | cons h hs ih =>
    rintro j r rfl k hk
    cases k with
    | zero => omega
    | succ k =>
      have := h.consumes.length
      rw [symbols, h.start.2.1]
      simp [symbol_complete h _ (Nat.lt_succ_self _), symbolLoop_end hs.start.1,
        ih j r rfl k (by omega)]

theorem symbols_fault : ∀ k ts f, ts.length < k → symbols S k ts = .error f → f = .error := by
  intro k
  induction k with
  | zero => intro ts f hk; omega
  | succ k ih =>
    intro ts f hk h
    rw [symbols] at h
    split at h
    · cases h
    · replace h := Except.bind_eq_error.1 h
      rcases h with h | ⟨⟨s, ts1⟩, h1, h⟩
      · exact symbol_fault _ _ _ (Nat.lt_succ_self _) h
      · replace h := Except.bind_eq_error.1 h
        rcases h with h | ⟨_, _, h⟩
        · have := (symbol_sound _ _ _ _ h1).1.consumes.length
          exact ih _ _ (by omega) h
        · cases h

theorem production_sound {ts : List TokTree} {p : AstProduction X} {rest : List TokTree}
    (h : production S ts = .ok (p, rest)) : ProductionAt S Actual ts p rest := by
  unfold production at h
  replace h := Except.bind_eq_ok.1 h
  obtain ⟨⟨ss, ts1⟩, h1, h⟩ := h
  replace h := Except.bind_eq_ok.1 h
  obtain ⟨⟨a, ts2⟩, h2, h⟩ := h
  simp only [Except.ok.injEq, Prod.mk.injEq] at h; obtain ⟨rfl, rfl⟩ := h
  obtain ⟨h3, _⟩ := symbols_sound _ _ _ _ h1
  unfold action at h2
  replace h2 := Except.bind_eq_ok.1 h2
  obtain ⟨ts3, e1, h2⟩ := h2
  obtain ⟨j, rfl⟩ := punct2_eq_some.1 (expect_eq_ok.1 e1)
  split at h2
  · next ts4 hq =>
    replace h2 := Except.bind_eq_ok.1 h2
    obtain ⟨⟨e, ts5⟩, e2, h2⟩ := h2
    simp only [Except.ok.injEq, Prod.mk.injEq] at h2; obtain ⟨rfl, rfl⟩ := h2
    obtain ⟨j', rfl⟩ := punct1_eq_some.1 hq
    exact .fallible h3 (expect_eq_ok.1 e2)
  · replace h2 := Except.bind_eq_ok.1 h2
    obtain ⟨⟨e, ts5⟩, e2, h2⟩ := h2
    simp only [Except.ok.injEq, Prod.mk.injEq] at h2; obtain ⟨rfl, rfl⟩ := h2
    exact .infallible h3 (expect_eq_ok.1 e2)

theorem ProductionAt.consumes {Skip : List TokTree → Prop} {ts : List TokTree} {p : AstProduction X}
    {rest : List TokTree} (h : ProductionAt S Skip ts p rest) : Consumes ts rest := by
  have key : ∀ {ts ss r r'}, SymbolsAt S Skip ts ss r → Consumes r r' → Consumes ts r' := by
    intro ts ss r r' h1 h2
    rcases h1.consumes with rfl | h1
    · exact h2
    · exact h1.trans h2
  cases h with
  | infallible hs he => exact key hs (((Consumes.cons _ (S.expr_consumes _ _ _ he)).cons _))
  | fallible hs he => exact key hs ((((Consumes.cons _ (S.expr_consumes _ _ _ he)).cons _).cons _))

theorem production_complete {ts : List TokTree} {p : AstProduction X} {rest : List TokTree}
    (h : ProductionAt S Actual ts p rest) : production S ts = .ok (p, rest) := by
  cases h with
  | @infallible ss j ts' e _ hs he =>
    unfold production
    have hq : punct1 '?' ts' = none := by
      cases h : punct1 '?' ts' with
      | none => rfl
      | some r =>
        obtain ⟨j', rfl⟩ := punct1_eq_some.1 h
        rw [S.expr_question] at he; cases he
    simp [symbols_complete hs _ _ rfl _ (Nat.lt_succ_self _), action, hq, he]
  | @fallible ss j j' ts' e _ hs he =>
    unfold production
    simp [symbols_complete hs _ _ rfl _ (Nat.lt_succ_self _), action, he]

theorem production_fault {ts : List TokTree} {f : ReadFault} (h : production S ts = .error f) :
    f = .error := by
  unfold production at h
  replace h := Except.bind_eq_error.1 h
  rcases h with h | ⟨⟨ss, ts1⟩, h1, h⟩
  · exact symbols_fault _ _ _ (Nat.lt_succ_self _) h
  replace h := Except.bind_eq_error.1 h
  rcases h with h | ⟨_, _, h⟩
  · unfold action at h
    replace h := Except.bind_eq_error.1 h
    rcases h with h | ⟨ts3, e1, h⟩
    · exact (expect_eq_error.1 h).2
    split at h
    all_goals
      replace h := Except.bind_eq_error.1 h
      rcases h with h | ⟨_, _, h⟩
      · exact (expect_eq_error.1 h).2
      · cases h
  · cases h

theorem productions_sound : ∀ k ts ps, productions S k ts = .ok ps → ProductionsIn S Actual ts ps := by
  intro k
  induction k with
  | zero =>
    intro ts ps h
    cases ts with
    | nil => simp only [productions, Except.ok.injEq] at h; subst h; exact .nil
    | cons => simp [productions] at h
  | succ k ih =>
    intro ts ps h
    cases ts with
    | nil => simp only [productions, Except.ok.injEq] at h; subst h; exact .nil
    | cons t ts =>
      rw [productions] at h
      replace h := Except.bind_eq_ok.1 h
      obtain ⟨⟨p, ts1⟩, h1, h⟩ := h
      replace h := Except.bind_eq_ok.1 h
      obtain ⟨ps', h2, h⟩ := h
      cases h
      have hp := production_sound h1
      have hr := ih _ _ h2
      rcases skipComma_cases ts1 with ⟨e, _⟩ | ⟨j, e⟩
      · rw [e] at hr; exact .cons hp hr
      · rw [e] at hp; exact .comma hp hr

theorem ProductionsIn.start {ts : List TokTree} {ps : List (AstProduction X)}
    (h : ProductionsIn S Actual ts ps) : punct1 ',' ts = none := by
  cases h with
  | nil => rfl
  | cons h _ => cases h with
    | infallible hs => exact hs.start.2.1
    | fallible hs => exact hs.start.2.1
  | comma h _ => cases h with
    | infallible hs => exact hs.start.2.1
    | fallible hs => exact hs.start.2.1

theorem productions_complete {ts : List TokTree} {ps : List (AstProduction X)}
    (h : ProductionsIn S Actual ts ps) : ∀ k, ts.length ≤ k → productions S k ts = .ok ps := by
  induction h with
  | nil => intro k _; cases k <;> rfl
  | @cons ts p rest ps h hs ih =>
    intro k hk
    have := h.consumes.length
    obtain ⟨k, rfl⟩ : ∃ k', k = k' + 1 := ⟨k - 1, by omega⟩
    obtain ⟨t, ts, rfl⟩ := List.exists_cons_of_ne_nil h.consumes.ne
    have e : skipComma rest = rest := by simp [skipComma, hs.start]
    rw [productions, production_complete h]
    simp [e, ih k (by omega)]
  | @comma ts p j rest ps h hs ih =>
    intro k hk
    have := h.consumes.length
    simp only [List.length_cons] at this
    obtain ⟨k, rfl⟩ : ∃ k', k = k' + 1 := ⟨k - 1, by omega⟩
    obtain ⟨t, ts, rfl⟩ := List.exists_cons_of_ne_nil h.consumes.ne
    rw [productions, production_complete h]
    simp [skipComma_comma, ih k (by omega)]

theorem productions_fault : ∀ k ts f, ts.length ≤ k → productions S k ts = .error f → f = .error := by
  intro k
  induction k with
  | zero =>
    intro ts f hk h
    cases ts with
    | nil => simp [productions] at h
    | cons => simp at hk
  | succ k ih =>
    intro ts f hk h
    cases ts with
    | nil => simp [productions] at h
    | cons t ts =>
      rw [productions] at h
      replace h := Except.bind_eq_error.1 h
      rcases h with h | ⟨⟨p, ts1⟩, h1, h⟩
      · exact production_fault h
      replace h := Except.bind_eq_error.1 h
      rcases h with h | ⟨_, _, h⟩
      · have h1 := (production_sound h1).consumes.length
        have : (skipComma ts1).length ≤ ts1.length := by
          rcases skipComma_cases ts1 with ⟨e, _⟩ | ⟨j, e⟩
          · rw [e]; exact Nat.le_refl _
          · have := congrArg List.length e; simp at this; omega
        exact ih _ _ (by simp only [List.length_cons] at hk h1 ⊢; omega) h
      · cases h

/-! ## Definitions -/

theorem definition_sound {b : Bool} {ts : List TokTree} {d : AstNonTerminal X Ty} {rest : List TokTree}
    (h : definition S b ts = .ok (d, rest)) :
    ∃ name j ts1 ty j' body ps, ts = .ident name :: .punct ':' j :: ts1 ∧ S.keyword name = false ∧
      S.type ts1 = some (ty, .punct '=' j' :: body) ∧ BodyAt S Actual body ps rest ∧
      d = ⟨b, name, ty, ps⟩ := by
  unfold definition at h
  replace h := Except.bind_eq_ok.1 h
  obtain ⟨⟨name, ts1⟩, e1, h⟩ := h
  replace h := Except.bind_eq_ok.1 h
  obtain ⟨ts2, e2, h⟩ := h
  replace h := Except.bind_eq_ok.1 h
  obtain ⟨⟨ty, ts3⟩, e3, h⟩ := h
  replace h := Except.bind_eq_ok.1 h
  obtain ⟨ts4, e4, h⟩ := h
  obtain ⟨rfl, hk⟩ := Syn.ident_eq_some.1 (expect_eq_ok.1 e1)
  obtain ⟨j, rfl⟩ := punct1_eq_some.1 (expect_eq_ok.1 e2)
  obtain ⟨j', rfl⟩ := punct1_eq_some.1 (expect_eq_ok.1 e4)
  rw [expect_eq_ok] at e3
  split at h
  · next c ts5 hg =>
    replace h := Except.bind_eq_ok.1 h
    obtain ⟨ps, e5, h⟩ := h
    replace h := Except.bind_eq_ok.1 h
    obtain ⟨ts6, e6, h⟩ := h
    simp only [Except.ok.injEq, Prod.mk.injEq] at h
    obtain ⟨rfl, rfl⟩ := h
    obtain ⟨j'', rfl⟩ := punct1_eq_some.1 (expect_eq_ok.1 e6)
    refine ⟨name, j, _, ty, j', _, ps, rfl, hk, e3, ?_, rfl⟩
    rw [group_eq_some.1 hg]
    exact .braces (productions_sound _ _ _ e5)
  · replace h := Except.bind_eq_ok.1 h
    obtain ⟨⟨p, ts5⟩, e5, h⟩ := h
    replace h := Except.bind_eq_ok.1 h
    obtain ⟨ts6, e6, h⟩ := h
    simp only [Except.ok.injEq, Prod.mk.injEq] at h
    obtain ⟨rfl, rfl⟩ := h
    obtain ⟨j'', rfl⟩ := punct1_eq_some.1 (expect_eq_ok.1 e6)
    exact ⟨name, j, _, ty, j', _, [p], rfl, hk, e3, .single (production_sound e5), rfl⟩

theorem nonTerminal_sound {ts : List TokTree} {d : AstNonTerminal X Ty} {rest : List TokTree}
    (h : nonTerminal S ts = .ok (d, rest)) : ItemAt S Actual ts (.nonTerminal d) rest := by
  unfold nonTerminal at h
  rcases optKw_cases "pub" ts with ⟨r, rfl, hm⟩ | ⟨_, hm⟩
  · rw [hm] at h
    obtain ⟨name, j, ts1, ty, j', body, ps, rfl, hk, ht, hb, rfl⟩ := definition_sound h
    exact .pubDef hk ht hb
  · rw [hm] at h
    obtain ⟨name, j, ts1, ty, j', body, ps, rfl, hk, ht, hb, rfl⟩ := definition_sound h
    exact .privateDef hk ht hb

theorem definition_complete {b : Bool} {name : String} {j : Bool} {ts : List TokTree}
    {ty : Ty} {j' : Bool} {body rest : List TokTree} {ps : List (AstProduction X)}
    (hn : S.keyword name = false) (ht : S.type ts = some (ty, .punct '=' j' :: body))
    (hb : BodyAt S Actual body ps rest) :
    definition S b (.ident name :: .punct ':' j :: ts) = .ok (⟨b, name, ty, ps⟩, rest) := by
  unfold definition
  cases hb with
  | braces h =>
    simp [Syn.ident_self hn, ht, productions_complete h _ (Nat.le_refl _)]
  | single h =>
    have hg : group .brace body = none := by
      cases h with
      | infallible hs => exact hs.start.2.2.1
      | fallible hs => exact hs.start.2.2.1
    simp [Syn.ident_self hn, ht, hg, production_complete h]

theorem definition_fault {b : Bool} {ts : List TokTree} {f : ReadFault}
    (h : definition S b ts = .error f) : f = .error := by
  unfold definition at h
  replace h := Except.bind_eq_error.1 h
  rcases h with h | ⟨⟨name, ts1⟩, e1, h⟩
  · exact (expect_eq_error.1 h).2
  replace h := Except.bind_eq_error.1 h
  rcases h with h | ⟨ts2, e2, h⟩
  · exact (expect_eq_error.1 h).2
  replace h := Except.bind_eq_error.1 h
  rcases h with h | ⟨⟨ty, ts3⟩, e3, h⟩
  · exact (expect_eq_error.1 h).2
  replace h := Except.bind_eq_error.1 h
  rcases h with h | ⟨ts4, e4, h⟩
  · exact (expect_eq_error.1 h).2
  split at h
  · replace h := Except.bind_eq_error.1 h
    rcases h with h | ⟨_, _, h⟩
    · exact productions_fault _ _ _ (Nat.le_refl _) h
    replace h := Except.bind_eq_error.1 h
    rcases h with h | ⟨_, _, h⟩
    · exact (expect_eq_error.1 h).2
    · cases h
  · replace h := Except.bind_eq_error.1 h
    rcases h with h | ⟨_, _, h⟩
    · exact production_fault h
    replace h := Except.bind_eq_error.1 h
    rcases h with h | ⟨_, _, h⟩
    · exact (expect_eq_error.1 h).2
    · cases h

/-! ## The token enum -/

theorem conversion_sound {ts : List TokTree} {c : Conversion Ty} {rest : List TokTree}
    (h : conversion S ts = .ok (c, rest)) : ConversionAt S ts c rest := by
  unfold conversion at h
  split at h
  · next v ts1 hl =>
    obtain ⟨text, rfl⟩ := litStr_eq.1 hl
    replace h := Except.bind_eq_ok.1 h
    obtain ⟨ts2, e2, h⟩ := h
    replace h := Except.bind_eq_ok.1 h
    obtain ⟨⟨p, ts3⟩, e3, h⟩ := h
    simp only [Except.ok.injEq, Prod.mk.injEq] at h
    obtain ⟨rfl, rfl⟩ := h
    obtain ⟨j, rfl⟩ := punct2_eq_some.1 (expect_eq_ok.1 e2)
    exact .mk (pattern_sound _ _ _ _ e3)
  · cases h

theorem ConversionAt.consumes {ts : List TokTree} {c : Conversion Ty} {rest : List TokTree}
    (h : ConversionAt S ts c rest) : Consumes ts rest := by
  cases h with
  | mk h => exact ((h.consumes.cons _).cons _).cons _

theorem conversion_complete {ts : List TokTree} {c : Conversion Ty} {rest : List TokTree}
    (h : ConversionAt S ts c rest) (hr : PatternEnd rest) : conversion S ts = .ok (c, rest) := by
  cases h with
  | mk h =>
    unfold conversion
    rw [litStr_eq.2 ⟨_, rfl⟩]
    simp [pattern_complete h hr _ (Nat.lt_succ_self _)]

theorem conversions_sound {k : Nat} {ts : List TokTree} {cs : List (Conversion Ty)}
    (h : terminated (conversion S) k ts = .ok cs) : ConversionsIn S ts cs :=
  terminated_sound (At := ConversionAt S) (fun _ _ _ => conversion_sound) .nil (fun _ _ => .last)
    (fun _ _ _ _ _ => .cons) _ _ _ h

theorem conversions_complete {ts : List TokTree} {cs : List (Conversion Ty)}
    (h : ConversionsIn S ts cs) : ∀ k, ts.length ≤ k → terminated (conversion S) k ts = .ok cs := by
  induction h with
  | nil => intro k _; exact terminated_nil _ _
  | last h =>
    intro k hk
    have := h.consumes.length
    obtain ⟨k, rfl⟩ : ∃ k', k = k' + 1 := ⟨k - 1, by omega⟩
    exact terminated_last (conversion_complete h patternEnd_nil) h.consumes.ne k
  | cons h _ ih =>
    intro k hk
    have := h.consumes.length
    simp only [List.length_cons] at this
    obtain ⟨k, rfl⟩ : ∃ k', k = k' + 1 := ⟨k - 1, by omega⟩
    exact terminated_cons (conversion_complete h patternEnd_punct) h.consumes.ne (ih k (by omega))

theorem lifetimes_sound : ∀ k ts as rest, lifetimes k ts = .ok (as, rest) →
    LifetimesAt ts as rest ∧ ∃ j r, rest = .punct '>' j :: r := by
  intro k
  induction k with
  | zero => intro ts as rest h; simp [lifetimes] at h
  | succ k ih =>
    intro ts as rest h
    rw [lifetimes] at h
    split at h
    · next r hr =>
      simp only [Except.ok.injEq, Prod.mk.injEq] at h; obtain ⟨rfl, rfl⟩ := h
      obtain ⟨j, rfl⟩ := punct1_eq_some.1 hr
      exact ⟨.nil, j, r, rfl⟩
    · replace h := Except.bind_eq_ok.1 h
      obtain ⟨⟨a, ts1⟩, e1, h⟩ := h
      replace h := Except.bind_eq_ok.1 h
      obtain ⟨⟨as', ts2⟩, e2, h⟩ := h
      simp only [Except.ok.injEq, Prod.mk.injEq] at h; obtain ⟨rfl, rfl⟩ := h
      rw [lifetime_eq_some.1 (expect_eq_ok.1 e1)]
      obtain ⟨h1, h2⟩ := ih _ _ _ e2
      refine ⟨?_, h2⟩
      rcases skipComma_cases ts1 with ⟨e, _⟩ | ⟨j, e⟩
      · rw [e] at h1; exact .cons h1
      · rw [e]; exact .comma h1

theorem lifetimes_complete {ts rest : List TokTree} {as : List String} (h : LifetimesAt ts as rest) :
    ∀ j r, rest = .punct '>' j :: r → ∀ k, ts.length < k → lifetimes k ts = .ok (as, rest) := by
  induction h with
  | nil =>
    rintro j r rfl k hk
    cases k with
    | zero => omega
    | succ k => simp [lifetimes]
  | @cons a ts as rest h ih =>
    rintro j r rfl k hk
    cases k with
    | zero => omega
    | succ k =>
      have e : skipComma ts = ts := by
        have : punct1 ',' ts = none := by cases h <;> simp [punct1]
        simp [skipComma, this]
      rw [lifetimes, show punct1 '>' (.lifetime a :: ts) = none from rfl]
      simp [lifetime, e, ih j r rfl k (by simp at hk; omega)]
  | @comma a j' ts as rest h ih =>
    rintro j r rfl k hk
    cases k with
    | zero => omega
    | succ k =>
      rw [lifetimes, show punct1 '>' (.lifetime a :: .punct ',' j' :: ts) = none from rfl]
      simp [lifetime, skipComma_comma, ih j r rfl k (by simp at hk; omega)]

theorem lifetimes_fault : ∀ k ts f, ts.length < k → lifetimes k ts = .error f → f = .error := by
  intro k
  induction k with
  | zero => intro ts f hk; omega
  | succ k ih =>
    intro ts f hk h
    rw [lifetimes] at h
    split at h
    · cases h
    · replace h := Except.bind_eq_error.1 h
      rcases h with h | ⟨⟨a, ts1⟩, e1, h⟩
      · exact (expect_eq_error.1 h).2
      · rw [lifetime_eq_some.1 (expect_eq_ok.1 e1)] at hk
        have : (skipComma ts1).length ≤ ts1.length := by
          rcases skipComma_cases ts1 with ⟨e, _⟩ | ⟨j, e⟩
          · rw [e]; exact Nat.le_refl _
          · have := congrArg List.length e; simp at this; omega
        replace h := Except.bind_eq_error.1 h
        rcases h with h | ⟨_, _, h⟩
        · exact ih _ _ (by simp only [List.length_cons] at hk; omega) h
        · cases h

theorem typeParams_sound {ts rest : List TokTree} {as : List String}
    (h : typeParams ts = .ok (as, rest)) : ParamsAt ts as rest := by
  unfold typeParams at h
  split at h
  · next ts1 e =>
    obtain ⟨j, rfl⟩ := punct1_eq_some.1 e
    replace h := Except.bind_eq_ok.1 h
    obtain ⟨⟨as', ts2⟩, h1, h⟩ := h
    replace h := Except.bind_eq_ok.1 h
    obtain ⟨ts3, h2, h⟩ := h
    simp only [Except.ok.injEq, Prod.mk.injEq] at h; obtain ⟨rfl, rfl⟩ := h
    obtain ⟨j', rfl⟩ := punct1_eq_some.1 (expect_eq_ok.1 h2)
    exact .some (lifetimes_sound _ _ _ _ h1).1
  · cases h; exact .none

theorem typeParams_complete {ts rest : List TokTree} {as : List String} (h : ParamsAt ts as rest)
    (hr : punct1 '<' rest = none) : typeParams ts = .ok (as, rest) := by
  cases h with
  | none => simp [typeParams, hr]
  | some h => simp [typeParams, lifetimes_complete h _ _ rfl _ (Nat.lt_succ_self _)]

theorem typeParams_fault {ts : List TokTree} {f : ReadFault} (h : typeParams ts = .error f) :
    f = .error := by
  unfold typeParams at h
  split at h
  · replace h := Except.bind_eq_error.1 h
    rcases h with h | ⟨_, _, h⟩
    · exact lifetimes_fault _ _ _ (Nat.lt_succ_self _) h
    · replace h := Except.bind_eq_error.1 h
      rcases h with h | ⟨_, _, h⟩
      · exact (expect_eq_error.1 h).2
      · cases h
  · cases h

/-! ## Items -/

theorem grammarItem_sound {ts : List TokTree} {i : GrammarItem X Ty} {rest : List TokTree}
    (h : grammarItem S ts = .ok (i, rest)) : ItemAt S Actual ts i rest := by
  unfold grammarItem at h
  split at h
  · replace h := Except.bind_eq_ok.1 h
    obtain ⟨⟨ty, ts1⟩, h1, h⟩ := h
    simp only [Except.ok.injEq, Prod.mk.injEq] at h
    obtain ⟨rfl, rfl⟩ := h
    unfold typeDef at h1
    replace h1 := Except.bind_eq_ok.1 h1
    obtain ⟨ts2, e2, h1⟩ := h1
    replace h1 := Except.bind_eq_ok.1 h1
    obtain ⟨⟨n, ts3⟩, e3, h1⟩ := h1
    dsimp only at h1
    split at h1
    · next hn =>
      subst hn
      replace h1 := Except.bind_eq_ok.1 h1
      obtain ⟨ts4, e4, h1⟩ := h1
      replace h1 := Except.bind_eq_ok.1 h1
      obtain ⟨⟨ty', ts5⟩, e5, h1⟩ := h1
      replace h1 := Except.bind_eq_ok.1 h1
      obtain ⟨ts6, e6, h1⟩ := h1
      simp only [Except.ok.injEq, Prod.mk.injEq] at h1
      obtain ⟨rfl, rfl⟩ := h1
      rw [kw_eq_some.1 (expect_eq_ok.1 e2), (Syn.ident_eq_some.1 (expect_eq_ok.1 e3)).1]
      obtain ⟨j, rfl⟩ := punct1_eq_some.1 (expect_eq_ok.1 e4)
      obtain ⟨j', rfl⟩ := punct1_eq_some.1 (expect_eq_ok.1 e6)
      exact .typeDef (expect_eq_ok.1 e5)
    · cases h1
  split at h
  · replace h := Except.bind_eq_ok.1 h
    obtain ⟨⟨t, ts1⟩, h1, h⟩ := h
    simp only [Except.ok.injEq, Prod.mk.injEq] at h
    obtain ⟨rfl, rfl⟩ := h
    unfold tokenEnum at h1
    replace h1 := Except.bind_eq_ok.1 h1
    obtain ⟨ts2, e2, h1⟩ := h1
    replace h1 := Except.bind_eq_ok.1 h1
    obtain ⟨⟨n, ts3⟩, e3, h1⟩ := h1
    replace h1 := Except.bind_eq_ok.1 h1
    obtain ⟨⟨as, ts4⟩, e4, h1⟩ := h1
    replace h1 := Except.bind_eq_ok.1 h1
    obtain ⟨⟨c, ts5⟩, e5, h1⟩ := h1
    replace h1 := Except.bind_eq_ok.1 h1
    obtain ⟨cs, e6, h1⟩ := h1
    simp only [Except.ok.injEq, Prod.mk.injEq] at h1
    obtain ⟨rfl, rfl⟩ := h1
    obtain ⟨e3, hk⟩ := Syn.ident_eq_some.1 (expect_eq_ok.1 e3)
    rw [kw_eq_some.1 (expect_eq_ok.1 e2), e3]
    have hp := typeParams_sound e4
    rw [group_eq_some.1 (expect_eq_ok.1 e5)] at hp
    exact .tokenEnum hk hp (conversions_sound e6)
  · replace h := Except.bind_eq_ok.1 h
    obtain ⟨⟨d, ts1⟩, h1, h⟩ := h
    simp only [Except.ok.injEq, Prod.mk.injEq] at h
    obtain ⟨rfl, rfl⟩ := h
    exact nonTerminal_sound h1

theorem ParamsAt.consumes {ts rest : List TokTree} {as : List String} (h : ParamsAt ts as rest) :
    ts = rest ∨ Consumes ts rest := by
  have key : ∀ {ts as rest}, LifetimesAt ts as rest → ts = rest ∨ Consumes ts rest := by
    intro ts as rest h
    induction h with
    | nil => exact .inl rfl
    | cons _ ih =>
      rcases ih with rfl | ih
      · exact .inr (consumes_cons _ _)
      · exact .inr (ih.cons _)
    | comma _ ih =>
      rcases ih with rfl | ih
      · exact .inr ((consumes_cons _ _).cons _)
      · exact .inr ((ih.cons _).cons _)
  cases h with
  | none => exact .inl rfl
  | some h =>
    rcases key h with rfl | h
    · exact .inr ((consumes_cons _ _).cons _)
    · exact .inr ((h.trans (consumes_cons _ _)).cons _)

theorem BodyAt.consumes {Skip : List TokTree → Prop} {ts rest : List TokTree}
    {ps : List (AstProduction X)} (h : BodyAt S Skip ts ps rest) : Consumes ts rest := by
  cases h with
  | braces => exact (consumes_cons _ _).cons _
  | single h => exact h.consumes.trans (consumes_cons _ _)

theorem ItemAt.consumes {Skip : List TokTree → Prop} {ts rest : List TokTree} {i : GrammarItem X Ty}
    (h : ItemAt S Skip ts i rest) : Consumes ts rest := by
  cases h with
  | typeDef h =>
    exact (((Consumes.trans (S.type_consumes _ _ _ h) (consumes_cons _ _)).cons _).cons _).cons _
  | tokenEnum _ hp _ =>
    rcases hp.consumes with rfl | hp
    · exact ((consumes_cons _ _).cons _).cons _
    · exact ((hp.trans (consumes_cons _ _)).cons _).cons _
  | privateDef _ ht hb =>
    exact ((((Consumes.trans (S.type_consumes _ _ _ ht) (consumes_cons _ _))).trans hb.consumes).cons _).cons _
  | pubDef _ ht hb =>
    exact (((((Consumes.trans (S.type_consumes _ _ _ ht) (consumes_cons _ _))).trans
      hb.consumes).cons _).cons _).cons _

theorem kw_other {w x : String} {ts : List TokTree} (h : x ≠ w) : kw w (.ident x :: ts) = none := by
  simp [kw, h]

theorem Syn.ne_keyword {x w : String} (hx : S.keyword x = false)
    (hw : w ∈ ["enum", "type", "pub", "mut", "_", "true", "false"]) : x ≠ w := by
  rintro rfl
  rw [S.keywords _ hw] at hx; cases hx

theorem grammarItem_complete {ts : List TokTree} {i : GrammarItem X Ty} {rest : List TokTree}
    (h : ItemAt S Actual ts i rest) : grammarItem S ts = .ok (i, rest) := by
  cases h with
  | typeDef h => simp [grammarItem, typeDef, Syn.ident_self S.state, h]
  | tokenEnum hn hp hc =>
    simp [grammarItem, kw_other (show "enum" ≠ "type" by decide), tokenEnum, Syn.ident_self hn,
      typeParams_complete hp rfl, conversions_complete hc _ (Nat.le_refl _)]
  | privateDef hn ht hb =>
    simp [grammarItem, kw_other (Syn.ne_keyword (w := "type") hn (by simp)),
      kw_other (Syn.ne_keyword (w := "enum") hn (by simp)), nonTerminal,
      optKw_other hn (S.keywords "pub" (by simp)), definition_complete hn ht hb]
  | pubDef hn ht hb =>
    simp [grammarItem, kw_other (show "pub" ≠ "type" by decide), kw_other (show "pub" ≠ "enum" by decide),
      nonTerminal, optKw_self, definition_complete hn ht hb]

theorem grammarItems_sound : ∀ k ts is, grammarItems S k ts = .ok is → ItemsIn S Actual ts is := by
  intro k
  induction k with
  | zero =>
    intro ts is h
    cases ts with
    | nil => simp only [grammarItems, Except.ok.injEq] at h; subst h; exact .nil
    | cons => simp [grammarItems] at h
  | succ k ih =>
    intro ts is h
    cases ts with
    | nil => simp only [grammarItems, Except.ok.injEq] at h; subst h; exact .nil
    | cons t ts =>
      rw [grammarItems] at h
      replace h := Except.bind_eq_ok.1 h
      obtain ⟨⟨i, ts1⟩, h1, h⟩ := h
      replace h := Except.bind_eq_ok.1 h
      obtain ⟨is', h2, h⟩ := h
      cases h
      exact .cons (grammarItem_sound h1) (ih _ _ h2)

theorem grammarItems_complete {ts : List TokTree} {is : List (GrammarItem X Ty)}
    (h : ItemsIn S Actual ts is) : ∀ k, ts.length ≤ k → grammarItems S k ts = .ok is := by
  induction h with
  | nil => intro k _; cases k <;> rfl
  | @cons ts i rest is h hs ih =>
    intro k hk
    have := h.consumes.length
    obtain ⟨k, rfl⟩ : ∃ k', k = k' + 1 := ⟨k - 1, by omega⟩
    obtain ⟨t, ts, rfl⟩ := List.exists_cons_of_ne_nil h.consumes.ne
    rw [grammarItems, grammarItem_complete h]
    simp [ih k (by omega)]

end Parsegen
