import Verif.Spec.Extend
import Verif.Props.Refactor

/-! # C80: extending a grammar is conservative -/

namespace Parsegen

variable {X Ty Ty' V W Tok Tok' E : Type} [DecidableEq Ty] [DecidableEq Ty']
  {P : Compiled X Ty V W Tok} {Q : Compiled X Ty' V W Tok'} {f : Tok → Tok'} {ep ep' : EntryPoint}
  {input : Nat → Option (Except E Tok)} {w w' w1 : W} {n n' : Nat}

theorem LaterVersion.means (h : LaterVersion P Q f) {ss : List AstSymbol} {toks : List Tok} {vals : List (BVal V)}
    (hm : P.Means ss toks w vals w') : Q.Means ss (toks.map f) w vals w' := by
  unfold Compiled.Means at hm ⊢
  induction hm with
  | nil w => exact .nil w
  | @term s t ss ts w vs w' hs _ ih =>
    have := UEval.term (asts := Q.defs) (cls := Q.cls) (alg := userValues Q.code Q.fields) (t := f t)
      (s := s) (by rw [h.cls]; exact hs) ih
    rw [List.map_cons]
    simpa only [userValues, h.fields] using this
  | @nt s name i p t1 t2 w us w1 v w2 ss vs w3 hs hp _ ha _ ih1 ih2 =>
    obtain ⟨j, hj⟩ := List.mem_iff_getElem?.1 (h.prods name p (List.mem_of_getElem? hp))
    rw [List.map_append]
    refine .nt hs hj ih1 ?_ ih2
    simpa only [userValues, h.code] using ha

theorem LaterVersion.sentence (h : LaterVersion P Q f) {A : String} {x : List String}
    (hx : USentence P.defs A x) : USentence Q.defs A x := by
  refine c79_admissible (fun B rhs hr y hy => ?_) hx
  obtain ⟨p, hp, hs⟩ := hr
  exact (URule.yields ⟨p, h.prods _ _ hp, hs⟩ (yields_of_derives hy)).derives

theorem LaterVersion.look (h : LaterVersion P Q f) (i : Nat) : Q.look (renameInput f input) i = P.look input i := by
  unfold Compiled.look renameInput
  cases input i with
  | none => rfl
  | some a =>
    cases a with
    | error e => rfl
    | ok t => simp [Except.map, h.cls]

theorem reads_rename {toks : List Tok} (h : Reads input toks) :
    Reads (renameInput f input) (toks.map f) := by
  intro i t ht
  rw [List.getElem?_map] at ht
  obtain ⟨t0, h0, rfl⟩ := Option.map_eq_some_iff.1 ht
  unfold renameInput
  rw [h i t0 h0]
  rfl

/-- **C80.** What was accepted is still accepted, with the same value and the same effects, after the same
number of calls of `next()`. Only the later version needs to be regular. -/
theorem c80_ok (h : LaterVersion P Q f) (hQ : Q.Regular) (hep : ep ∈ P.gen.entries)
    (hep' : ep' ∈ Q.gen.entries) (hn : ep'.name = ep.name) {v : V}
    (hr : P.Returns ep input w (.ok v) w' n) :
    Q.Returns ep' (renameInput f input) w (.ok v) w' n := by
  obtain ⟨toks, h1, h2, h3⟩ := c02_value hep hr
  have hlen : n = (toks.map f).length + 1 := by
    obtain ⟨e1, e2⟩ := c13_ok_reads_all hep hr
    obtain ⟨toks', -, a1, a2, -⟩ := c08_prefix hep hr
    have l1 := reads_unique_length a1 (t2 := toks) (by rw [h2]; simp)
    have l2 := reads_unique_length h1 (t2 := toks') (by
        rw [a2, Nat.add_sub_cancel] at e1
        rw [e1]; simp)
    rw [List.length_map]
    omega
  rw [hlen]
  refine c04_value hQ hep' ⟨reads_rename h1, ?_⟩ (hn ▸ h.means h3)
  rw [List.length_map, renameInput, h2]
  rfl

/-- **C80.** The later version does not stop earlier. -/
theorem c80_later (h : LaterVersion P Q f) (hQ : Q.Regular) (hP : P.Productive) (hQ' : Q.Productive)
    (hep : ep ∈ P.gen.entries) (hep' : ep' ∈ Q.gen.entries) (hn : ep'.name = ep.name)
    {o o' : Outcome V E} (hr : P.Returns ep input w o w' n)
    (hr' : Q.Returns ep' (renameInput f input) w o' w1 n') (ho : ∀ x, o' ≠ .fault x) : n ≤ n' := by
  obtain ⟨toks, a1, rfl, rest, a3⟩ := consumed_viable hP hep hr
  obtain ⟨cs, rfl, b1, _, b3⟩ := (c79_reports hQ hQ' hep' hr' ho).inv
  apply Nat.le_of_not_lt
  intro hlt
  obtain ⟨r, hr⟩ := looks_le b1 (fun i c hc => (h.look i).trans (look_reads a1 i c hc)) (by simp; omega)
  cases r with
  | nil =>
    have := congrArg List.length hr
    simp at this
    omega
  | cons c r =>
    have hc := look_reads a1 cs.length c (by rw [hr]; simp)
    refine b3 c ((h.look _).trans hc) (r ++ rest) ?_
    rw [hn]
    apply h.sentence
    rw [hr] at a3
    simpa using a3

/-- **C80.** A lexer error that was reported is still reported. -/
theorem c80_lexer (h : LaterVersion P Q f) (hQ : Q.Regular) (hP : P.Productive) (hQ' : Q.Productive)
    (hT : Q.Total) (hep : ep ∈ P.gen.entries) (hep' : ep' ∈ Q.gen.entries) (hn : ep'.name = ep.name)
    {err : E} (hr : P.Returns ep input w (.lexerError err) w' n) :
    ∃ w1, Q.Returns ep' (renameInput f input) w (.lexerError err) w1 n := by
  obtain ⟨toks, a1, a2, a3, _⟩ := c12_lexer_error hep hr
  obtain ⟨toks', b1, b2, rest, b3⟩ := consumed_viable hP hep hr
  obtain rfl := reads_same a1 b1 (by omega)
  have : Reports (USentence Q.defs ep'.name) (Q.tokens.conversions.map (·.from_))
      (Q.look (renameInput f input)) (.lexerError err) ((toks.map P.cls).length + 1) := by
    refine .lexer _ err (fun i c hc => (h.look i).trans (look_reads a1 i c hc)) ?_
      ⟨rest, hn ▸ h.sentence b3⟩
    rw [h.look, List.length_map]
    unfold Compiled.look
    rw [a2]
    rfl
  obtain ⟨o', w1, c1, c2⟩ := (c79_iff hQ hQ' hT hep' (w := w)).2 this
  rw [List.length_map, ← a3] at c1
  cases o' with
  | lexerError e =>
    cases c2
    exact ⟨w1, c1⟩
  | _ => cases c2

theorem Reports.shrink {L L' : List String → Prop} (hL : ∀ x, L x → L' x) {terms terms' : List String}
    {look : Nat → Option (Except E String)} {o : Outcome Unit E} {found expected : String}
    (h : Reports L terms look o n) (ho : ∀ x, o ≠ .fault x)
    (h' : Reports L' terms' look (.parserError found expected) n') :
    ∃ found0 expected0, o = .parserError found0 expected0 ∧ n ≤ n' ∧
      (n = n' → found0 = found ∧ ∃ names0 names, expected0 = ", ".intercalate names0 ∧
        expected = ", ".intercalate names ∧ names0 ⊆ names) := by
  have hle : n ≤ n' := by
    obtain ⟨cs, rfl, a1, ⟨rest, a2⟩, -⟩ := h.inv
    obtain ⟨cs', rfl, b1, -, b3⟩ := h'.inv
    apply Nat.le_of_not_lt
    intro hlt
    obtain ⟨r, rfl⟩ := looks_le b1 a1 (by omega)
    cases r with
    | nil => simp at hlt
    | cons c r =>
      exact b3 c (a1 cs'.length c (by simp)) (r ++ rest) (hL _ (by simpa using a2))
  -- what the later version saw
  obtain ⟨cs', names', rfl, b1, b2, b3, b4, b5⟩ : ∃ cs' names', n' = cs'.length + 1 ∧
      (∀ (i : Nat) c, cs'[i]? = some c → look i = some (.ok c)) ∧
      (look cs'.length = some (.ok found) ∨ look cs'.length = none ∧ found = "end-of-input") ∧
      (look cs'.length = none → ¬ L' cs') ∧ expected = ", ".intercalate names' ∧
      ∀ t, t ∈ names' ↔ ∃ rest, L' (cs' ++ t :: rest) := by
    cases h' with
    | unexpected cs c names hr he hv hn hs hm =>
      exact ⟨cs, names, rfl, hr, .inl he, by simp [he], rfl, hm⟩
    | ended cs names hr he hv hn hs hm =>
      exact ⟨cs, names, rfl, hr, .inr ⟨he, rfl⟩, fun _ => hn, rfl, hm⟩
  have same : ∀ {cs : List String}, (∀ (i : Nat) c, cs[i]? = some c → look i = some (.ok c)) →
      cs.length + 1 = cs'.length + 1 → cs = cs' := by
    intro cs hr hl
    obtain ⟨r, rfl⟩ := looks_le hr b1 (by omega)
    simp at hl
    simp [hl]
  have early : ∀ {cs : List String}, cs.length + 1 ≤ cs'.length + 1 →
      (∀ (i : Nat) c, cs[i]? = some c → look i = some (.ok c)) →
      (∃ c, look cs.length = some (.ok c)) ∨ cs = cs' := by
    intro cs hl hr
    rcases Nat.lt_or_ge cs.length cs'.length with hlt | hge
    · exact .inl ⟨_, b1 _ _ (List.getElem?_eq_getElem hlt)⟩
    · exact .inr (same hr (by omega))
  cases h with
  | ok cs hr he hs =>
    rcases early hle hr with ⟨c, hc⟩ | rfl
    · rw [he] at hc; cases hc
    · exact absurd (hL _ hs) (b3 he)
  | lexer cs err hr he hv =>
    rcases early hle hr with ⟨c, hc⟩ | rfl
    · rw [he] at hc; cases hc
    · rcases b2 with b2 | ⟨b2, -⟩ <;> rw [he] at b2 <;> cases b2
  | unexpected cs c names hr he hv hn hs hm =>
    refine ⟨_, _, rfl, hle, fun e => ?_⟩
    obtain rfl := same hr e
    refine ⟨?_, names, names', rfl, b4, fun t ht => (b5 t).2 ((hm t).1 ht |>.imp fun _ => hL _)⟩
    rcases b2 with b2 | ⟨b2, -⟩ <;> rw [he] at b2 <;> cases b2
    rfl
  | ended cs names hr he hv hn hs hm =>
    refine ⟨_, _, rfl, hle, fun e => ?_⟩
    obtain rfl := same hr e
    refine ⟨?_, names, names', rfl, b4, fun t ht => (b5 t).2 ((hm t).1 ht |>.imp fun _ => hL _)⟩
    rcases b2 with b2 | ⟨-, rfl⟩
    · rw [he] at b2; cases b2
    · rfl

/-- **C80.** A syntax error of the later version was a syntax error before, and if it was at the same place,
what was expected there is still expected. -/
theorem c80_error (h : LaterVersion P Q f) (hP : P.Regular) (hQ : Q.Regular) (hP' : P.Productive)
    (hQ' : Q.Productive) (hT : P.Total) (hep : ep ∈ P.gen.entries) (hep' : ep' ∈ Q.gen.entries)
    (hn : ep'.name = ep.name) {found expected : String}
    (hr : Q.Returns ep' (renameInput f input) w (.parserError found expected) w1 n') :
    ∃ found0 expected0 w' n, P.Returns ep input w (.parserError found0 expected0) w' n ∧ n ≤ n' ∧
      (n = n' → found0 = found ∧ ∃ names0 names, expected0 = ", ".intercalate names0 ∧
        expected = ", ".intercalate names ∧ names0 ⊆ names) := by
  let input0 : Nat → Option (Except E Tok) := fun i => if i < n' then input i else none
  have he : ∀ i < n', input0 i = input i := fun i hi => if_pos hi
  obtain ⟨o, w', n, h0⟩ := c07_productive (w := w) (input := input0) hP' hP.names hP.first hep
    (k := n') (by simp [input0])
  have hnf : ∀ x, o ≠ .fault x := by
    rintro x rfl
    exact c06_no_panic hep hT h0
  have r1 := (c79_reports hP hP' hep h0 hnf)
  have r2 := (c79_reports hQ hQ' hep' hr (by intro x hx; cases hx)).mono (look' := P.look input0)
    (L' := USentence Q.defs ep.name) (fun i hi => by
      rw [h.look]; unfold Compiled.look; rw [he i hi]) (fun x => by rw [hn])
  have hnf' : ∀ x, o.report ≠ .fault x := by
    intro x hx
    cases o with
    | fault y => exact hnf y rfl
    | _ => cases hx
  obtain ⟨found0, expected0, e1, e2, e3⟩ := r1.shrink (fun x hx => h.sentence hx) hnf' r2
  refine ⟨found0, expected0, w', n, ?_, e2, e3⟩
  have h1 := c14_unread_input (fun i hi => he i (by omega)) h0
  cases o with
  | parserError a b =>
    cases e1
    exact h1
  | _ => cases e1

/-! ## Parentheses are added to the sums -/

namespace Examples

/-- Sums without parentheses. -/
def flatDefs : List (AstNonTerminal (Act Log) String) :=
  [ ⟨true, "Expr", "u64",
      [⟨[nm "a" (.nonTerminal "Term")], logged (fun e => num e "a") "Expr" 1⟩,
        ⟨[nm "a" (.nonTerminal "Expr"), .terminal "+", nm "b" (.nonTerminal "Term")],
          logged (fun e => num e "a" + num e "b") "Expr" 0⟩]⟩,
    ⟨false, "Term", "u64", [⟨[nm "a" (.terminal "n")], logged (fun e => num e "a") "Term" 0⟩]⟩ ]

set_option maxRecDepth 10000 in
theorem flat_ok : (parserMacro .insertion code.mkPath (itemsOf flatDefs)).isOk = true := by
  decide +kernel

/-- The compiled program. -/
def flat : Compiled (Act Log) String Nat Log Tk := program flatDefs flat_ok

theorem flat_enum : flat.tokens = tk := rfl

theorem flat_toR : flat.toR = Tk.toR := rfl

theorem flat_inj : flat.inj = inj := rfl

theorem arith_inj : arith.inj = inj := rfl

theorem flat_code : flat.code = code := rfl

theorem arith_code : arith.code = code := rfl

theorem flat_later : LaterVersion flat arith id where
  prods := by
    rw [show flat.defs = flatDefs from defs_itemsOf _, show arith.defs = arithDefs from defs_itemsOf _]
    intro name p hp
    simp only [userProds, flatDefs, List.mem_flatMap, List.mem_filter, List.mem_cons, List.not_mem_nil,
      or_false, beq_iff_eq] at hp
    simp only [userProds, arithDefs, List.mem_flatMap, List.mem_filter, List.mem_cons, List.not_mem_nil,
      or_false, beq_iff_eq]
    obtain ⟨d, ⟨rfl | rfl, rfl⟩, hp⟩ := hp
    · refine ⟨_, ⟨.inl rfl, rfl⟩, ?_⟩
      simp only [List.mem_cons, List.not_mem_nil, or_false] at hp ⊢
      rcases hp with rfl | rfl <;> simp
    · refine ⟨_, ⟨.inr rfl, rfl⟩, ?_⟩
      simp only [List.mem_cons, List.not_mem_nil, or_false] at hp ⊢
      exact .inl hp
  code := by rw [arith_code, flat_code]
  cls t := by
    unfold Compiled.cls
    rw [arith_enum, flat_enum, arith_toR, flat_toR]
    rfl
  fields t := by
    unfold Compiled.fields
    rw [arith_enum, flat_enum, arith_toR, flat_toR, arith_inj, flat_inj]
    rfl

/-- Every sum that was accepted is still accepted, with the same value. -/
example (ep ep' : EntryPoint) (hep : ep ∈ flat.gen.entries) (hep' : ep' ∈ arith.gen.entries)
    (hn : ep'.name = ep.name) (input : Nat → Option (Except String Tk)) (w w' : Log) (v n : Nat)
    (h : flat.Returns ep input w (.ok v) w' n) :
    arith.Returns ep' (renameInput id input) w (.ok v) w' n :=
  c80_ok flat_later arith_regular hep hep' hn h

set_option maxRecDepth 10000 in
/-- `1 + 2` is accepted by the earlier version. -/
theorem flat_run : run flat 0 (stream [.num 1, .plus, .num 2]) [] 100 =
    some (.ok 3, [("Term", 0), ("Expr", 1), ("Term", 0), ("Expr", 0)], 4) := by decide +kernel

set_option maxRecDepth 10000 in
/-- About `1 + (` the earlier version said that a number was expected in the place of the parenthesis, the
later one goes on. About `1 +` the later one expects more. -/
example : run flat 0 (stream [.num 1, .plus, .lp]) [] 100 =
      some (.parserError "(" "n", [("Term", 0), ("Expr", 1)], 3) ∧
    run arith 0 (stream [.num 1, .plus, .lp]) [] 100 =
      some (.parserError "end-of-input" "n, (", [("Term", 0), ("Expr", 1)], 4) ∧
    run flat 0 (stream [.num 1, .plus]) [] 100 =
      some (.parserError "end-of-input" "n", [("Term", 0), ("Expr", 1)], 3) ∧
    run arith 0 (stream [.num 1, .plus]) [] 100 =
      some (.parserError "end-of-input" "n, (", [("Term", 0), ("Expr", 1)], 3) := by
  refine ⟨?_, ?_, ?_, ?_⟩ <;> decide +kernel

set_option maxRecDepth 10000 in
theorem flat_regular : flat.Regular := by
  obtain ⟨ep, hep, _⟩ := run_returns flat_run
  refine flat.regular_of_check hep ?_ ?_
  · decide +kernel
  · decide +kernel

theorem flat_productive : flat.Productive := by
  unfold Compiled.Productive
  rw [show flat.defs = flatDefs from defs_itemsOf _]
  have h1 : Yields flatDefs [.nt "Term"] ["n"] :=
    URule.yields (rhs := [.term "n"]) ((urule_mem (l := [[.term "n"]]) rfl).2 (by simp)) (.term .nil)
  have h2 : Yields flatDefs [.nt "Expr"] ["n"] :=
    URule.yields (rhs := [.nt "Term"])
      ((urule_mem (l := [[.nt "Term"], [.nt "Expr", .term "+", .nt "Term"]]) rfl).2 (by simp)) h1
  intro d hd
  have : d.name = "Expr" ∨ d.name = "Term" := by
    simp only [flatDefs, List.mem_cons, List.not_mem_nil, or_false] at hd
    rcases hd with rfl | rfl <;> simp
  rcases this with h | h <;> rw [h]
  · exact ⟨_, h2.derives⟩
  · exact ⟨_, h1.derives⟩

theorem flat_total : flat.Total := by
  unfold Compiled.Total
  rw [show flat.defs = flatDefs from defs_itemsOf _]
  intro d hm p hp e he env w
  simp only [flatDefs, List.mem_cons, List.not_mem_nil, or_false] at hm
  rcases hm with rfl | rfl <;> simp only [List.mem_cons, List.not_mem_nil, or_false] at hp
  · rcases hp with rfl | rfl <;> cases he <;> exact fun h => nomatch h
  · subst hp
    cases he
    exact fun h => nomatch h

/-- `c80_error` and `c80_lexer` apply. -/
example (ep ep' : EntryPoint) (hep : ep ∈ flat.gen.entries) (hep' : ep' ∈ arith.gen.entries)
    (hn : ep'.name = ep.name) (input : Nat → Option (Except String Tk)) (w w1 : Log) (a b : String) (n : Nat)
    (h : arith.Returns ep' (renameInput id input) w (.parserError a b) w1 n) :
    ∃ a' b' w' n', flat.Returns ep input w (.parserError a' b') w' n' ∧ n' ≤ n := by
  obtain ⟨a', b', w', n', h1, h2, -⟩ := c80_error flat_later flat_regular arith_regular flat_productive
    arith_productive flat_total hep hep' hn h
  exact ⟨a', b', w', n', h1, h2⟩

example (ep ep' : EntryPoint) (hep : ep ∈ flat.gen.entries) (hep' : ep' ∈ arith.gen.entries)
    (hn : ep'.name = ep.name) (input : Nat → Option (Except String Tk)) (w w' : Log) (e : String) (n : Nat)
    (h : flat.Returns ep input w (.lexerError e) w' n) :
    ∃ w1, arith.Returns ep' (renameInput id input) w (.lexerError e) w1 n :=
  c80_lexer flat_later arith_regular flat_productive arith_productive arith_total hep hep' hn h

/-! ## The later version must be regular -/

def pairDefs : List (AstNonTerminal (Act Log) String) :=
  [ ⟨false, "A", "u64", [⟨[nm "a" (.terminal "n")], logged (fun e => num e "a") "A" 0⟩]⟩,
    ⟨true, "S", "u64", [⟨[nm "a" (.nonTerminal "A"), .terminal "+"], logged (fun e => num e "a") "S" 0⟩]⟩ ]

/-- One production is added, and the macro accepts. -/
def pairLaterDefs : List (AstNonTerminal (Act Log) String) :=
  [ ⟨false, "A", "u64", [⟨[nm "a" (.terminal "n")], logged (fun e => num e "a") "A" 0⟩]⟩,
    ⟨true, "S", "u64", [⟨[nm "a" (.nonTerminal "A"), .terminal "+"], logged (fun e => num e "a") "S" 0⟩,
      ⟨[nm "a" (.terminal "n"), .terminal "+", .terminal "("], logged (fun e => num e "a") "S" 1⟩]⟩ ]

set_option maxRecDepth 10000 in
theorem pair_ok : (parserMacro .insertion code.mkPath (itemsOf pairDefs)).isOk = true := by decide +kernel

set_option maxRecDepth 10000 in
theorem pairLater_ok : (parserMacro .insertion code.mkPath (itemsOf pairLaterDefs)).isOk = true := by
  decide +kernel

def pair : Compiled (Act Log) String Nat Log Tk := program pairDefs pair_ok

def pairLater : Compiled (Act Log) String Nat Log Tk := program pairLaterDefs pairLater_ok

set_option maxRecDepth 10000 in
theorem pair_run : run pair 0 (stream [.num 1, .plus]) [] 100 =
    some (.ok 1, [("A", 0), ("S", 0)], 3) := by decide +kernel

set_option maxRecDepth 10000 in
theorem pairLater_run : run pairLater 0 (stream [.num 1, .plus]) [] 100 =
    some (.parserError "end-of-input" "(", [], 3) := by decide +kernel

theorem pair_later : LaterVersion pair pairLater id where
  prods := by
    rw [show pair.defs = pairDefs from defs_itemsOf _,
      show pairLater.defs = pairLaterDefs from defs_itemsOf _]
    intro name p hp
    simp only [userProds, pairDefs, List.mem_flatMap, List.mem_filter, List.mem_cons, List.not_mem_nil,
      or_false, beq_iff_eq] at hp
    simp only [userProds, pairLaterDefs, List.mem_flatMap, List.mem_filter, List.mem_cons,
      List.not_mem_nil, or_false, beq_iff_eq]
    obtain ⟨d, ⟨rfl | rfl, rfl⟩, hp⟩ := hp
    · exact ⟨_, ⟨.inl rfl, rfl⟩, by simpa using hp⟩
    · exact ⟨_, ⟨.inr rfl, rfl⟩, by
        simp only [List.mem_cons, List.not_mem_nil, or_false] at hp ⊢
        exact .inl hp⟩
  code := by rw [show pairLater.code = code from rfl, show pair.code = code from rfl]
  cls t := by
    unfold Compiled.cls
    rw [show pairLater.tokens = tk from rfl, show pair.tokens = tk from rfl,
      show pairLater.toR = Tk.toR from rfl, show pair.toR = Tk.toR from rfl]
    rfl
  fields t := by
    unfold Compiled.fields
    rw [show pairLater.tokens = tk from rfl, show pair.tokens = tk from rfl,
      show pairLater.toR = Tk.toR from rfl, show pair.toR = Tk.toR from rfl,
      show pairLater.inj = inj from rfl, show pair.inj = inj from rfl]
    rfl

set_option maxRecDepth 10000 in
theorem pair_name : (pair.gen.entries[0]?).map (·.name) = some "S" := by decide +kernel

set_option maxRecDepth 10000 in
theorem pairLater_name : (pairLater.gen.entries[0]?).map (·.name) = some "S" := by decide +kernel

/-- **C80.** If the macro accepts the later version although it is not regular (a shift silently replaced a
reduce), an input that was accepted can be refused. -/
theorem c80_counterexample : ∃ (ep ep' : EntryPoint) (w' w1 : Log) (v n n1 : Nat) (a b : String),
    LaterVersion pair pairLater id ∧ ep ∈ pair.gen.entries ∧ ep' ∈ pairLater.gen.entries ∧
    ep'.name = ep.name ∧ pair.Returns ep (stream [.num 1, .plus]) [] (.ok v) w' n ∧
    pairLater.Returns ep' (stream [.num 1, .plus]) [] (.parserError a b) w1 n1 := by
  obtain ⟨ep, hep, e1, h⟩ := run_returns pair_run
  obtain ⟨ep', hep', e2, h'⟩ := run_returns pairLater_run
  have n1 := pair_name
  have n2 := pairLater_name
  rw [e1] at n1
  rw [e2] at n2
  simp only [Option.map_some, Option.some.injEq] at n1 n2
  exact ⟨ep, ep', _, _, _, _, _, _, _, pair_later, hep, hep', n2.trans n1.symm, h, h'⟩

end Examples

end Parsegen
