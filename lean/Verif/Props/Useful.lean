import Verif.Props.Reports
import Verif.Props.Extend

/-! # C82: what can be learnt from a syntax error -/

namespace Parsegen

variable {X Ty V W Tok E : Type} [DecidableEq Ty] {P : Compiled X Ty V W Tok} {ep : EntryPoint}
  {input : Nat → Option (Except E Tok)} {w w' : W} {n : Nat}

/-- **C82.** In a syntax error at a token, the token is not among the terminals that are expected, and if none is
expected, the tokens before it are a complete sentence (which no other sentence continues). -/
theorem c82_token (hR : P.Regular) (hP : P.Productive) (hep : ep ∈ P.gen.entries) {found expected : String}
    (h : P.Returns ep input w (.parserError found expected) w' n) {t : Tok}
    (ht : input (n - 1) = some (.ok t)) :
    ∃ toks names, Reads input toks ∧ n = toks.length + 1 ∧ found = P.cls t ∧
      expected = ", ".intercalate names ∧ names.Nodup ∧ found ∉ names ∧
      (names = [] ↔ P.IsSentence ep.name toks ∧
        ∀ rest, rest ≠ [] → ¬ USentence P.defs ep.name (toks.map P.cls ++ rest)) := by
  obtain ⟨g, nts, ts, a, g', T, S⟩ := P.setup hep
  have hnd : (P.tokens.conversions.map (·.from_)).Nodup := S.lowered.tnodup
  obtain ⟨toks, h1, h2, rest0, h3⟩ := consumed_viable hP hep h
  obtain ⟨toks', names, b1, b2, rfl, b4, b5⟩ := c10_expected_complete hR hP hep h
  obtain rfl := reads_same h1 b1 (by omega)
  obtain ⟨toks', a1, a2, a3, a4⟩ := c08_first_error hR hep h
  obtain rfl := reads_same h1 a1 (by omega)
  obtain ⟨toks', c1, c2, c3⟩ := c11_found hep h
  obtain rfl := reads_same h1 c1 (by omega)
  have hn : n - 1 = toks.length := by omega
  rw [hn] at ht
  have hf : found = P.cls t := by
    rcases c3 with ⟨t', c3, rfl⟩ | ⟨c3, rfl⟩
    · rw [ht] at c3; cases c3; rfl
    · rw [ht] at c3; cases c3
  refine ⟨toks, names, h1, h2, hf, rfl, hnd.sublist b4, ?_, ?_⟩
  · rw [hf, b5]
    rintro ⟨rest, hr⟩
    exact a3 t ht rest hr
  · constructor
    · rintro rfl
      have : ∀ rest, rest ≠ [] → ¬ USentence P.defs ep.name (toks.map P.cls ++ rest) := by
        intro rest hne hs
        cases rest with
        | nil => exact hne rfl
        | cons c rest => exact absurd ((b5 c).2 ⟨rest, hs⟩) (by simp)
      refine ⟨?_, this⟩
      by_cases hr : rest0 = []
      · subst hr
        rw [List.append_nil] at h3
        exact h3
      · exact absurd h3 (this _ hr)
    · rintro ⟨-, hno⟩
      refine List.eq_nil_iff_forall_not_mem.2 fun c hc => ?_
      obtain ⟨rest, hr⟩ := (b5 c).1 hc
      exact hno (c :: rest) (by simp) hr

/-- **C82.** In a syntax error at the end of the input some terminal is expected. -/
theorem c82_end (hR : P.Regular) (hP : P.Productive) (hep : ep ∈ P.gen.entries) {found expected : String}
    (h : P.Returns ep input w (.parserError found expected) w' n) (ht : input (n - 1) = none) :
    found = "end-of-input" ∧
      ∃ names, expected = ", ".intercalate names ∧ names.Nodup ∧ names ≠ [] := by
  obtain ⟨g, nts, ts, a, g', T, S⟩ := P.setup hep
  have hnd : (P.tokens.conversions.map (·.from_)).Nodup := S.lowered.tnodup
  obtain ⟨toks, h1, h2, rest0, h3⟩ := consumed_viable hP hep h
  obtain ⟨toks', names, b1, b2, rfl, b4, b5⟩ := c10_expected_complete hR hP hep h
  obtain rfl := reads_same h1 b1 (by omega)
  obtain ⟨toks', a1, a2, a3, a4⟩ := c08_first_error hR hep h
  obtain rfl := reads_same h1 a1 (by omega)
  obtain ⟨toks', c1, c2, c3⟩ := c11_found hep h
  obtain rfl := reads_same h1 c1 (by omega)
  have hn : n - 1 = toks.length := by omega
  rw [hn] at ht
  refine ⟨?_, names, rfl, hnd.sublist b4, ?_⟩
  · rcases c3 with ⟨t', c3, _⟩ | ⟨c3, rfl⟩
    · rw [ht] at c3; cases c3
    · rfl
  · rintro rfl
    cases rest0 with
    | nil => exact a4 ht (by rw [List.append_nil] at h3; exact h3)
    | cons c rest => exact absurd ((b5 c).2 ⟨rest, h3⟩) (by simp)

/-! ## Reading the text -/

theorem comma_split {l l' r r' : List Char} (hl : ',' ∉ l) (hl' : ',' ∉ l')
    (hr : r = [] ∨ ∃ q, r = ',' :: q) (hr' : r' = [] ∨ ∃ q, r' = ',' :: q) (h : l ++ r = l' ++ r') :
    l = l' ∧ r = r' := by
  induction l generalizing l' with
  | nil =>
    cases l' with
    | nil => exact ⟨rfl, h⟩
    | cons c l' =>
      rcases hr with rfl | ⟨q, rfl⟩
      · cases h
      · cases h
        simp at hl'
  | cons c l ih =>
    cases l' with
    | nil =>
      rcases hr' with rfl | ⟨q, rfl⟩
      · cases h
      · cases h
        simp at hl
    | cons c' l' =>
      rw [List.cons_append, List.cons_append, List.cons.injEq] at h
      obtain ⟨rfl, h⟩ := h
      simp only [List.mem_cons, not_or] at hl hl'
      obtain ⟨rfl, h2⟩ := ih hl.2 hl'.2 h
      exact ⟨rfl, h2⟩

/-- What follows the first name. -/
def commaTail : List String → List Char
  | [] => []
  | s :: l => ',' :: ' ' :: (", ".intercalate (s :: l)).toList

theorem commas_cons (s : String) (l : List String) :
    (", ".intercalate (s :: l)).toList = s.toList ++ commaTail l := by
  cases l with
  | nil => simp [commaTail]
  | cons t l =>
    rw [String.intercalate_cons_cons]
    simp [commaTail]

theorem commaTail_starts (l : List String) : commaTail l = [] ∨ ∃ q, commaTail l = ',' :: q := by
  cases l with
  | nil => exact .inl rfl
  | cons => exact .inr ⟨_, rfl⟩

/-- **C82.** The text tells the names, if no terminal is empty or contains a comma. -/
theorem c82_text {names names' : List String} (h : ∀ s ∈ names, s ≠ "" ∧ ',' ∉ s.toList)
    (h' : ∀ s ∈ names', s ≠ "" ∧ ',' ∉ s.toList)
    (he : ", ".intercalate names = ", ".intercalate names') : names = names' := by
  induction names generalizing names' with
  | nil =>
    cases names' with
    | nil => rfl
    | cons s l =>
      have h2 := commas_cons s l
      rw [← he] at h2
      simp at h2
      exact absurd h2.1 (h' s (by simp)).1
  | cons s l ih =>
    have h2 := commas_cons s l
    cases names' with
    | nil =>
      rw [he] at h2
      simp at h2
      exact absurd h2.1 (h s (by simp)).1
    | cons s' l' =>
      rw [he, commas_cons] at h2
      obtain ⟨e1, e2⟩ := comma_split (h' s' (by simp)).2 (h s (by simp)).2 (commaTail_starts l')
        (commaTail_starts l) h2
      rw [String.toList_inj] at e1
      subst e1
      cases l with
      | nil =>
        cases l' with
        | nil => rfl
        | cons => cases e2
      | cons t l =>
        cases l' with
        | nil => cases e2
        | cons t' l' =>
          simp only [commaTail, List.cons.injEq, true_and, String.toList_inj] at e2
          rw [ih (fun s hs => h s (by simp [hs])) (fun s hs => h' s (by simp [hs])) e2.symm]

/-- The condition is needed. -/
example : ", ".intercalate ["a", "b"] = ", ".intercalate ["a, b"] ∧
    ", ".intercalate [""] = ", ".intercalate [] := by decide

/-! ## Examples -/

namespace Examples

set_option maxRecDepth 10000 in
theorem arith_short : run arith 0 (stream [.num 1, .plus]) [] 100 =
    some (.parserError "end-of-input" "n, (", [("Term", 0), ("Expr", 1)], 3) := by decide +kernel

/-- `c82_end` applies to `1 +`. -/
example : ∃ names, "n, (" = ", ".intercalate names ∧ names.Nodup ∧ names ≠ [] := by
  obtain ⟨ep, hep, _, h⟩ := run_returns arith_short
  obtain ⟨-, names, h1, h2, h3⟩ := c82_end arith_regular arith_productive hep h rfl
  exact ⟨names, h1, h2, h3⟩

set_option maxRecDepth 10000 in
/-- `1 + )` -/
theorem arith_wrong : run arith 0 (stream [.num 1, .plus, .rp]) [] 100 =
    some (.parserError ")" "n, (", [("Term", 0), ("Expr", 1)], 3) := by decide +kernel

/-- `c82_token` applies to it. -/
example : ∃ names, "n, (" = ", ".intercalate names ∧ ")" ∉ names := by
  obtain ⟨ep, hep, _, h⟩ := run_returns arith_wrong
  obtain ⟨-, names, -, -, -, h1, -, h2, -⟩ := c82_token arith_regular arith_productive hep h (t := .rp) rfl
  exact ⟨names, h1, h2⟩

/-- A sentence that nothing continues. -/
def finalDefs : List (AstNonTerminal (Act Log) String) :=
  [ ⟨true, "S", "u64", [⟨[nm "a" (.terminal "n")], logged (fun e => num e "a") "S" 0⟩]⟩ ]

set_option maxRecDepth 10000 in
theorem final_ok : (parserMacro .insertion code.mkPath (itemsOf finalDefs)).isOk = true := by decide +kernel

def final : Compiled (Act Log) String Nat Log Tk := program finalDefs final_ok

set_option maxRecDepth 10000 in
/-- After `1` only the end of the input can come; the message says that nothing is expected. -/
theorem c82_nothing : run final 0 (stream [.num 1, .plus]) [] 100 =
    some (.parserError "+" "", [], 2) := by decide +kernel

end Examples

end Parsegen
