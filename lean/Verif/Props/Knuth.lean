import Verif.Proofs.Knuth
import Verif.Props.UserLevel

/-! # C61: the macro and Knuth's definition of LR(1) -/

namespace Parsegen

variable {X Ty V W Tok E : Type}

/-- **C61.** The grammars called LR(1) in C04, C05 and C23 are those of the textbook definition, provided
every non-terminal that is used derives some string of terminals. -/
theorem c61_knuth {defs : List (AstNonTerminal X Ty)} (hP : UProductive defs) :
    ULR1 defs ↔ ∀ d ∈ defs, d.isPub = true → KnuthLR1 defs d.name :=
  ⟨fun h d hd hp => knuth_of_moves (h d hd hp), fun h d hd hp => moves_of_knuth hP (h d hd hp)⟩

/-- **C61.** One half does not need the proviso. -/
theorem c61_knuth_of_lr1 {defs : List (AstNonTerminal X Ty)} (h : ULR1 defs)
    {d : AstNonTerminal X Ty} (hd : d ∈ defs) (hp : d.isPub = true) : KnuthLR1 defs d.name :=
  knuth_of_moves (h d hd hp)

variable [DecidableEq Ty]

/-- **C61.** If the macro panics because of a conflict, some `pub` non-terminal is not LR(1) by Knuth's
definition, or some non-terminal that is used derives no string at all. -/
theorem c61_rejected {h : HashOrder} {mkPath : String → X} {items : List (GrammarItem X Ty)} {f : Fault}
    (hsz : loweredCount (itemNonTerminals items) ≤ 4294967296)
    (hnd : ((itemNonTerminals items).map (·.name)).Nodup)
    (he : parserMacro h mkPath items = .error f) (hf : f.IsConflict)
    (hP : UProductive (itemNonTerminals items)) :
    ∃ d ∈ itemNonTerminals items, d.isPub = true ∧ ¬ KnuthLR1 (itemNonTerminals items) d.name := by
  by_contra hc
  refine c23_user hsz hnd he hf ((c61_knuth hP).2 fun d hd hp => ?_)
  by_contra hk
  exact hc ⟨d, hd, hp, hk⟩

/-- **C61.** Grammars that are LR(1) by Knuth's definition are accepted, up to the size limits. -/
theorem c61_accepted {h : HashOrder} {mkPath : String → X} {items : List (GrammarItem X Ty)}
    {t : TokenEnum Ty} {g : Grammar X Ty}
    (hsz : loweredCount (itemNonTerminals items) ≤ 4294967296)
    (hnd : ((itemNonTerminals items).map (·.name)).Nodup)
    (hP : UProductive (itemNonTerminals items))
    (hK : ∀ d ∈ itemNonTerminals items, d.isPub = true → KnuthLR1 (itemNonTerminals items) d.name)
    (hm : macroItems items = .ok (itemNonTerminals items, t))
    (hl : lower mkPath (itemNonTerminals items) t.conversions = .ok g) :
    (∃ gen, parserMacro h mkPath items = .ok (gen, t)) ∨
      parserMacro h mkPath items = .error .u16Overflow ∨
      parserMacro h mkPath items = .error .u32Overflow :=
  c23_user_accepted hsz hnd ((c61_knuth hP).2 hK) hm hl

/-- **C61.** For such a grammar, if also no nullable symbol is in the way of FIRST (`UHarmless`), the
parser accepts exactly the sentences. -/
theorem c61_parses {P : Compiled X Ty V W Tok} {ep : EntryPoint} {input : Nat → Option (Except E Tok)}
    {w : W} {toks : List Tok} (hnd : (P.defs.map (·.name)).Nodup) (hP : UProductive P.defs)
    (hK : ∀ d ∈ P.defs, d.isPub = true → KnuthLR1 P.defs d.name) (hh : UHarmless P.defs)
    (hep : ep ∈ P.gen.entries) (hin : Ends input toks)
    (hu : ∀ d ∈ P.defs, ∀ p ∈ d.productions, ∀ e, p.action = .infallible e →
      ∀ env w, P.code.run e env w ≠ none) :
    (∃ v w' n, P.Returns ep input w (.ok v) w' n) ↔ P.IsSentence ep.name toks :=
  c04_user hnd ((c61_knuth hP).2 hK) hh hep hin hu

/-- **C61.** The macro does not overlook that two productions compete: if it accepts the grammar (and no
nullable symbol is in the way of FIRST), two rightmost derivations from an entry point that agree up to
the end of the handle and in the terminal that comes next end with the same production, applied at the
same place.  (Knuth's condition for `αβ = γδ`; `S' → S` excepted.) -/
theorem c61_reduce_reduce {P : Compiled X Ty V W Tok} {ep : EntryPoint}
    (hnd : (P.defs.map (·.name)).Nodup) (hh : UHarmless P.defs) (hep : ep ∈ P.gen.entries)
    {α β γ δ : List USym} {q q' : String × Nat} {w x : List String}
    (h : UHandle P.defs ep.name α (some q) β w) (h' : UHandle P.defs ep.name γ (some q') δ x)
    (e : α ++ β = γ ++ δ) (hw : w.head? = x.head?) : α = γ ∧ q = q' := by
  obtain ⟨g, nts, ts, a, g', T, S⟩ := P.setup hep
  obtain ⟨E, nt, e1, e2, e3, _⟩ := S.run hep
  obtain ⟨b, hb1, hb2⟩ := S.lowered.entry_name hnd e1 e2
  rw [e3] at hb1
  have hE : g.isPublic E = true := by unfold Grammar.isPublic; rw [e1]; exact e2
  have hF := generateFirstTable_enough S.wf (S.lowered.harmless S.wf hh) P.order
  have k := h.wants
  have k' := h'.wants
  rw [← e, ← hw] at k'
  have hq : q = q' := by
    obtain ⟨A, i⟩ := q
    obtain ⟨B, j⟩ := q'
    obtain ⟨γ1, c, m, a1, a2, a3, a4⟩ := S.lowered.user_wants hE hb2 hb1 k
    obtain ⟨γ2, c', m', b1, b2, b3, b4⟩ := S.lowered.user_wants hE hb2 hb1 k'
    cases names_func a1 b1
    cases a2.func b2
    have h1 := a4.mono fun x hx => hx.itemsAt hF S.wf hE
    have h2 := b4.mono fun x hx => hx.itemsAt hF S.wf hE
    cases m with
    | shift => exact absurd a3 (by simp [handleMove, NamesMove])
    | accept => exact absurd a3 (by simp [handleMove, NamesMove])
    | reduce n1 i1 =>
      cases m' with
      | shift => exact absurd b3 (by simp [handleMove, NamesMove])
      | accept => exact absurd b3 (by simp [handleMove, NamesMove])
      | reduce n2 i2 =>
        obtain ⟨ρ1, h3, h4, h5⟩ := h1
        obtain ⟨ρ2, h6, h7, h8⟩ := h2
        by_cases hne : (n1, i1) = (n2, i2)
        · cases hne
          have := S.lowered.move_inj a3 b3
          cases this
          rfl
        · obtain ⟨f, hf⟩ := c20_reduce_reduce S.wf hE hne h3 h4 h6 h7 h5 h8
          obtain ⟨g2, l1, l2, _⟩ := P.stages_ok
          rw [S.lower] at l1
          cases l1
          rw [l2] at hf
          cases hf
  subst hq
  refine ⟨?_, rfl⟩
  cases h with
  | step _ hp =>
    cases h' with
    | step _ hp' =>
      cases hp.inj hp'
      exact List.append_cancel_right e

/-! ## Examples -/

namespace Examples

omit [DecidableEq Ty] in
/-- A use of a non-terminal gives a production. -/
theorem hasProd_mem {defs : List (AstNonTerminal X Ty)} {A : String} {i : Nat} {rhs : List USym}
    (h : UHasProd defs A i rhs) : ∃ d ∈ defs, d.name = A ∧ ∃ p ∈ d.productions,
      p.symbols.map (·.plain) = rhs.map some := by
  obtain ⟨p, h1, h2⟩ := h
  have := List.mem_of_getElem? h1
  simp only [userProds, List.mem_flatMap, List.mem_filter, beq_iff_eq] at this
  obtain ⟨d, ⟨h3, h4⟩, h5⟩ := this
  exact ⟨d, h3, h4, p, h5, h2⟩

theorem arith_term_n : USentence arith.defs "Term" ["n"] := by
  have h : arith.defs = arithDefs := defs_itemsOf _
  rw [USentence, h]
  refine .tail (.refl _) (.mk [] [] [.term "n"] "Term"
    ⟨[nm "a" (.terminal "n")], logged (fun e => num e "a") "Term" 0⟩ ?_ rfl)
  simp [userProds, arithDefs]

theorem arith_expr_n : USentence arith.defs "Expr" ["n"] := by
  have h : arith.defs = arithDefs := defs_itemsOf _
  have h1 := arith_term_n
  rw [USentence, h] at h1 ⊢
  refine UDerives.trans (.tail (.refl _) (.mk [] [] [.nt "Term"] "Expr"
    ⟨[nm "a" (.nonTerminal "Term")], logged (fun e => num e "a") "Expr" 1⟩ ?_ rfl)) h1
  simp [userProds, arithDefs]

/-- Both non-terminals of `arith` derive strings. -/
theorem arith_uproductive : UProductive arith.defs := by
  intro A i rhs B h hB
  have e : arith.defs = arithDefs := defs_itemsOf _
  have : B = "Expr" ∨ B = "Term" := by
    rw [e] at h
    obtain ⟨d, hd, _, p, hp, hs⟩ := hasProd_mem h
    have : some (USym.nt B) ∈ p.symbols.map (·.plain) := by
      rw [hs]; exact List.mem_map_of_mem hB
    simp only [arithDefs, List.mem_cons, List.not_mem_nil, or_false] at hd
    rcases hd with rfl | rfl <;> simp only [List.mem_cons, List.not_mem_nil, or_false] at hp <;>
      rcases hp with rfl | rfl <;> simp [nm, AstSymbol.plain] at this <;> simp [this]
  rcases this with rfl | rfl
  · exact ⟨_, arith_expr_n⟩
  · exact ⟨_, arith_term_n⟩

/-- `arith` is LR(1) by Knuth's definition: the hypotheses of `c61_accepted` and `c61_parses`. -/
theorem arith_knuth : ∀ d ∈ arith.defs, d.isPub = true → KnuthLR1 arith.defs d.name :=
  (c61_knuth arith_uproductive).1 arith_ulr1

example (h : HashOrder) (g : Grammar (Act Log) String)
    (hl : lower code.mkPath arithDefs tk.conversions = .ok g) :
    (∃ gen, parserMacro h code.mkPath (itemsOf arithDefs) = .ok (gen, tk)) ∨
      parserMacro h code.mkPath (itemsOf arithDefs) = .error .u16Overflow ∨
      parserMacro h code.mkPath (itemsOf arithDefs) = .error .u32Overflow := by
  refine c61_accepted (g := g) ?_ ?_ arith_uproductive arith_knuth rfl ?_
  · rw [defs_itemsOf]; decide
  · rw [defs_itemsOf]; decide
  · rw [defs_itemsOf]; exact hl

/-- `arith` meets the hypotheses of `c61_reduce_reduce`. -/
example {ep : EntryPoint} (hep : ep ∈ arith.gen.entries) {α β γ δ : List USym} {q q' : String × Nat}
    {w x : List String} (h : UHandle arith.defs ep.name α (some q) β w)
    (h' : UHandle arith.defs ep.name γ (some q') δ x) (e : α ++ β = γ ++ δ)
    (hw : w.head? = x.head?) : α = γ ∧ q = q' :=
  c61_reduce_reduce arith_regular.names arith_harmless hep h h' e hw

/-- A handle of `arith`: `Expr' ⇒ Expr ⇒ Term ⇒ n`. -/
example : UHandle arith.defs "Expr" [] (some ("Term", 0)) [.term "n"] [] := by
  have e : arith.defs = arithDefs := defs_itemsOf _
  rw [e]
  refine .step (.tail (.refl _) (URight.mk (A := "Expr") (i := 1) (β := [.nt "Term"]) [] [] ?_)) ?_
  · exact ⟨⟨[nm "a" (.nonTerminal "Term")], logged (fun e => num e "a") "Expr" 1⟩, rfl, rfl⟩
  · exact ⟨⟨[nm "a" (.terminal "n")], logged (fun e => num e "a") "Term" 0⟩, rfl, rfl⟩

/-- `twoWays` is rejected, and both `A` and `B` derive strings: it is not LR(1) by Knuth's definition. -/
example : ¬ KnuthLR1 twoWays "S" := by
  have hP : UProductive twoWays := by
    intro C i rhs B h hB
    obtain ⟨d, hd, _, p, hp, hs⟩ := hasProd_mem h
    have : some (USym.nt B) ∈ p.symbols.map (·.plain) := by
      rw [hs]; exact List.mem_map_of_mem hB
    simp only [twoWays, List.mem_cons, List.not_mem_nil, or_false] at hd
    have : B = "A" ∨ B = "B" := by
      rcases hd with rfl | rfl | rfl <;> simp only [List.mem_cons, List.not_mem_nil, or_false] at hp
      · rcases hp with rfl | rfl <;> simp [nm, AstSymbol.plain] at this <;> simp [this]
      · subst hp; simp [AstSymbol.plain] at this
      · subst hp; simp [AstSymbol.plain] at this
    rcases this with rfl | rfl
    · refine ⟨["+"], .tail (.refl _) (.mk [] [] [.term "+"] "A"
        ⟨[.terminal "+"], logged (fun _ => 0) "A" 0⟩ ?_ rfl)⟩
      simp [userProds, twoWays]
    · refine ⟨["+"], .tail (.refl _) (.mk [] [] [.term "+"] "B"
        ⟨[.terminal "+"], logged (fun _ => 1) "B" 0⟩ ?_ rfl)⟩
      simp [userProds, twoWays]
  have h : isPanic (parserMacro .insertion code.mkPath (itemsOf twoWays))
      (.reduceOverReduce 4 none 2 0 3 0) = true := by
    decide +kernel
  cases he : parserMacro .insertion code.mkPath (itemsOf twoWays) with
  | ok _ => rw [he] at h; cases h
  | error f =>
    rw [he] at h
    simp only [isPanic, decide_eq_true_eq] at h
    subst h
    obtain ⟨d, hd, hp, hk⟩ := c61_rejected (by rw [defs_itemsOf]; decide)
      (by rw [defs_itemsOf]; decide) he trivial (by rw [defs_itemsOf]; exact hP)
    rw [defs_itemsOf] at hd hk
    simp only [twoWays, List.mem_cons, List.not_mem_nil, or_false] at hd
    rcases hd with rfl | rfl | rfl
    · exact hk
    · cases hp
    · cases hp

/-- `pub S = { A "+" U => .., B "+" U => .., ")" => .. };  A = { "(" => .. };  B = { "(" => .. };`
`U = { U ")" => .. }`: nothing can be derived from `U`. -/
def barren : List (AstNonTerminal (Act Log) String) :=
  [ ⟨true, "S", "u64",
      [⟨[.nonTerminal "A", .terminal "+", .nonTerminal "U"], logged (fun _ => 0) "S" 0⟩,
        ⟨[.nonTerminal "B", .terminal "+", .nonTerminal "U"], logged (fun _ => 0) "S" 1⟩,
        ⟨[.terminal ")"], logged (fun _ => 0) "S" 2⟩]⟩,
    ⟨false, "A", "u64", [⟨[.terminal "("], logged (fun _ => 0) "A" 0⟩]⟩,
    ⟨false, "B", "u64", [⟨[.terminal "("], logged (fun _ => 0) "B" 0⟩]⟩,
    ⟨false, "U", "u64", [⟨[.nonTerminal "U", .terminal ")"], logged (fun _ => 0) "U" 0⟩]⟩ ]

/-- The productions of `barren`. -/
theorem barren_prod {A : String} {i : Nat} {rhs : List USym} (h : UHasProd barren A i rhs) :
    (A = "S" ∧ i = 0 ∧ rhs = [.nt "A", .term "+", .nt "U"]) ∨
    (A = "S" ∧ i = 1 ∧ rhs = [.nt "B", .term "+", .nt "U"]) ∨
    (A = "S" ∧ i = 2 ∧ rhs = [.term ")"]) ∨
    (A = "A" ∧ i = 0 ∧ rhs = [.term "("]) ∨ (A = "B" ∧ i = 0 ∧ rhs = [.term "("]) ∨
    (A = "U" ∧ i = 0 ∧ rhs = [.nt "U", .term ")"]) := by
  obtain ⟨d, hd, hA, _⟩ := hasProd_mem h
  have key : ∀ {p : List (Option USym)} {r : List USym}, p = rhs.map some → p = r.map some → rhs = r :=
    fun h1 h2 => (List.map_injective_iff.2 (fun _ _ h => by cases h; rfl)) (h1.symm.trans h2)
  obtain ⟨p, h1, h2⟩ := h
  simp only [barren, List.mem_cons, List.not_mem_nil, or_false] at hd
  rcases hd with rfl | rfl | rfl | rfl <;> subst hA <;>
    simp [userProds, barren] at h1
  · rcases i with _ | _ | _ | i <;> simp at h1 <;> subst h1
    · exact .inl ⟨rfl, rfl, key h2 rfl⟩
    · exact .inr (.inl ⟨rfl, rfl, key h2 rfl⟩)
    · exact .inr (.inr (.inl ⟨rfl, rfl, key h2 rfl⟩))
  · rcases i with _ | i <;> simp at h1
    subst h1
    exact .inr (.inr (.inr (.inl ⟨rfl, rfl, key h2 rfl⟩)))
  · rcases i with _ | i <;> simp at h1
    subst h1
    exact .inr (.inr (.inr (.inr (.inl ⟨rfl, rfl, key h2 rfl⟩))))
  · rcases i with _ | i <;> simp at h1
    subst h1
    exact .inr (.inr (.inr (.inr (.inr ⟨rfl, rfl, key h2 rfl⟩))))

/-- Where a form with one non-terminal followed by terminals can be split. -/
theorem split_last {α φ : List USym} {X U : String} {w v : List String}
    (e : α ++ .nt X :: w.map .term = φ ++ .nt U :: v.map .term) : α = φ ∧ X = U ∧ w = v := by
  rcases List.append_eq_append_iff.1 e with ⟨a', e1, e2⟩ | ⟨c', e1, e2⟩
  · rcases a' with _ | ⟨x, a'⟩
    · rw [List.nil_append] at e2
      injection e2 with h1 h2
      cases h1
      exact ⟨by simpa using e1.symm, rfl, map_term_inj h2⟩
    · exfalso
      rw [List.cons_append] at e2
      injection e2 with h1 h2
      have : USym.nt U ∈ w.map USym.term := by rw [h2]; simp
      simp at this
  · rcases c' with _ | ⟨x, c'⟩
    · rw [List.nil_append] at e2
      injection e2 with h1 h2
      cases h1
      exact ⟨by simpa using e1, rfl, (map_term_inj h2).symm⟩
    · exfalso
      rw [List.cons_append] at e2
      injection e2 with h1 h2
      have : USym.nt X ∈ v.map USym.term := by rw [h2]; simp
      simp at this

/-- The forms of the rightmost derivations of `barren`. -/
theorem barren_form {F : List USym} (h : URights barren [.nt "S"] F) :
    F = [.nt "S"] ∨ F = [.term ")"] ∨ ∃ C n, (C = "A" ∨ C = "B") ∧
      F = [.nt C, .term "+"] ++ .nt "U" :: (List.replicate n ")").map .term := by
  induction h with
  | refl => exact .inl rfl
  | @tail m r _ s ih =>
    cases s with
    | mk α w hp =>
      rcases ih with e | e | ⟨C, n, hC, e⟩
      · obtain ⟨rfl, rfl, rfl⟩ := split_last (φ := []) (v := []) e
        rcases barren_prod hp with ⟨_, _, rfl⟩ | ⟨_, _, rfl⟩ | ⟨_, _, rfl⟩ | ⟨h, _⟩ | ⟨h, _⟩ | ⟨h, _⟩
        · exact .inr (.inr ⟨"A", 0, .inl rfl, rfl⟩)
        · exact .inr (.inr ⟨"B", 0, .inr rfl, rfl⟩)
        · exact .inr (.inl rfl)
        all_goals simp at h
      · exfalso
        rcases α with _ | ⟨x, α⟩
        · cases e
        · have := congrArg List.length e
          simp at this
      · obtain ⟨rfl, rfl, rfl⟩ := split_last e
        rcases barren_prod hp with ⟨h, _⟩ | ⟨h, _⟩ | ⟨h, _⟩ | ⟨h, _⟩ | ⟨h, _⟩ | ⟨_, _, rfl⟩
        · simp at h
        · simp at h
        · simp at h
        · simp at h
        · simp at h
        · exact .inr (.inr ⟨C, n + 1, hC, by simp [List.replicate_succ]⟩)

/-- The handles of `barren`. -/
theorem barren_handle {α β : List USym} {q : Option (String × Nat)} {w : List String}
    (h : UHandle barren "S" α q β w) :
    (α = [] ∧ w = [] ∧ (q = none ∧ β = [.nt "S"] ∨
      q = some ("S", 0) ∧ β = [.nt "A", .term "+", .nt "U"] ∨
      q = some ("S", 1) ∧ β = [.nt "B", .term "+", .nt "U"] ∨ q = some ("S", 2) ∧ β = [.term ")"])) ∨
    ∃ C n, (C = "A" ∨ C = "B") ∧ α = [.nt C, .term "+"] ∧ q = some ("U", 0) ∧
      β = [.nt "U", .term ")"] ∧ w = List.replicate n ")" := by
  cases h with
  | start => exact .inl ⟨rfl, rfl, .inl ⟨rfl, rfl⟩⟩
  | step h hp =>
    rcases barren_form h with e | e | ⟨C, n, hC, e⟩
    · obtain ⟨rfl, rfl, rfl⟩ := split_last (φ := []) (v := []) e
      rcases barren_prod hp with ⟨_, rfl, rfl⟩ | ⟨_, rfl, rfl⟩ | ⟨_, rfl, rfl⟩ | ⟨h, _⟩ | ⟨h, _⟩ | ⟨h, _⟩
      · exact .inl ⟨rfl, rfl, .inr (.inl ⟨rfl, rfl⟩)⟩
      · exact .inl ⟨rfl, rfl, .inr (.inr (.inl ⟨rfl, rfl⟩))⟩
      · exact .inl ⟨rfl, rfl, .inr (.inr (.inr ⟨rfl, rfl⟩))⟩
      all_goals simp at h
    · exfalso
      rcases α with _ | ⟨x, α⟩
      · cases e
      · have := congrArg List.length e
        simp at this
    · obtain ⟨rfl, rfl, rfl⟩ := split_last e
      rcases barren_prod hp with ⟨h, _⟩ | ⟨h, _⟩ | ⟨h, _⟩ | ⟨h, _⟩ | ⟨h, _⟩ | ⟨_, rfl, rfl⟩
      · simp at h
      · simp at h
      · simp at h
      · simp at h
      · simp at h
      · exact .inr ⟨C, n, hC, rfl, rfl, rfl, rfl⟩

theorem barren_knuth : KnuthLR1 barren "S" := by
  intro α q β w γ q' δ x y h h' e hw
  rcases barren_handle h with ⟨rfl, rfl, k⟩ | ⟨C, n, hC, rfl, rfl, rfl, rfl⟩
  · rcases barren_handle h' with ⟨rfl, rfl, k'⟩ | ⟨C', n', hC', rfl, rfl, rfl, rfl⟩
    · have hy : y = [] := by cases y <;> simp_all
      subst hy
      rcases k with ⟨rfl, rfl⟩ | ⟨rfl, rfl⟩ | ⟨rfl, rfl⟩ | ⟨rfl, rfl⟩ <;>
        rcases k' with ⟨rfl, rfl⟩ | ⟨rfl, rfl⟩ | ⟨rfl, rfl⟩ | ⟨rfl, rfl⟩ <;>
        first | exact ⟨rfl, rfl, rfl⟩ | (exfalso; simp at e)
    · exfalso
      have hy : y = [] := by cases y <;> simp_all
      subst hy
      have := congrArg List.length e
      rcases k with ⟨rfl, rfl⟩ | ⟨rfl, rfl⟩ | ⟨rfl, rfl⟩ | ⟨rfl, rfl⟩ <;> simp at this
  · rcases barren_handle h' with ⟨rfl, rfl, k'⟩ | ⟨C', n', hC', rfl, rfl, rfl, rfl⟩
    · exfalso
      have := congrArg List.length e
      rcases k' with ⟨rfl, rfl⟩ | ⟨rfl, rfl⟩ | ⟨rfl, rfl⟩ | ⟨rfl, rfl⟩ <;> simp at this
    · simp only [List.cons_append, List.nil_append, List.cons.injEq, USym.nt.injEq, true_and] at e
      obtain ⟨rfl, e⟩ := e
      exact ⟨rfl, rfl, map_term_inj e⟩

set_option maxRecDepth 10000 in
/-- **C61**: without the proviso it is false.  `barren` is LR(1) by Knuth's definition (no rightmost
derivation ever gets to `A` or `B`), and the macro rejects it. -/
theorem c61_counterexample : (∀ d ∈ barren, d.isPub = true → KnuthLR1 barren d.name) ∧
    ∃ f : Fault, f.IsConflict ∧
      parserMacro .insertion code.mkPath (itemsOf barren) = .error f := by
  refine ⟨?_, .reduceOverReduce 4 (some 0) 2 0 3 0, trivial, ?_⟩
  · intro d hd hp
    simp only [barren, List.mem_cons, List.not_mem_nil, or_false] at hd
    rcases hd with rfl | rfl | rfl | rfl
    · exact barren_knuth
    all_goals cases hp
  · have h : isPanic (parserMacro .insertion code.mkPath (itemsOf barren))
        (.reduceOverReduce 4 (some 0) 2 0 3 0) = true := by
      decide +kernel
    cases he : parserMacro .insertion code.mkPath (itemsOf barren) with
    | ok _ => rw [he] at h; cases h
    | error f =>
      rw [he] at h
      simp only [isPanic, decide_eq_true_eq] at h
      rw [h]

end Examples

end Parsegen
