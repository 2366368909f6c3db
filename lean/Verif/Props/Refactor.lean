import Verif.Spec.Refactor
import Verif.Props.Reports
import Verif.Proofs.Knuth
import Verif.Proofs.Classes
import Verif.Props.Space

/-! # C79: rewriting a grammar without changing its language -/

namespace Parsegen

variable {X X' Ty Ty' : Type} {defs : List (AstNonTerminal X Ty)} {defs' : List (AstNonTerminal X' Ty')}

theorem URule.of {A : String} {i : Nat} {rhs : List USym} (h : UHasProd defs A i rhs) :
    URule defs A rhs := by
  obtain ⟨p, hp, hs⟩ := h
  exact ⟨p, List.mem_of_getElem? hp, hs⟩

theorem URule.has {A : String} {rhs : List USym} (h : URule defs A rhs) :
    ∃ i, UHasProd defs A i rhs := by
  obtain ⟨p, hp, hs⟩ := h
  obtain ⟨i, hi⟩ := List.mem_iff_getElem?.1 hp
  exact ⟨i, p, hi, hs⟩

theorem URule.yields {A : String} {rhs : List USym} (h : URule defs A rhs) {x : List String}
    (hx : Yields defs rhs x) : Yields defs [.nt A] x := by
  obtain ⟨i, hi⟩ := h.has
  simpa using Yields.nt hi hx .nil

/-- **C79.** If in `defs'` every rule of `defs` is admissible, every sentence of `defs` is a sentence of
`defs'`. -/
theorem c79_admissible
    (h : ∀ A rhs, URule defs A rhs → ∀ x, UDerives defs' rhs (x.map .term) → USentence defs' A x)
    {A : String} {x : List String} (hx : USentence defs A x) : USentence defs' A x := by
  have key : ∀ {ss : List USym} {w : List String}, Yields defs ss w → Yields defs' ss w := by
    intro ss w hy
    induction hy with
    | nil => exact .nil
    | term _ ih => exact .term ih
    | nt hp _ _ ih1 ih2 => exact (yields_of_derives (h _ _ (.of hp) _ ih1.derives)).append ih2
  exact (key (yields_of_derives hx)).derives

/-- **C79.** The order of the rules, and writing a rule twice, do not matter to the language. -/
theorem c79_rules (h : ∀ A rhs, URule defs A rhs ↔ URule defs' A rhs) {A : String} {x : List String} :
    USentence defs A x ↔ USentence defs' A x :=
  ⟨c79_admissible fun B rhs hr _ hy => (((h B rhs).1 hr).yields (yields_of_derives hy)).derives,
    c79_admissible fun B rhs hr _ hy => (((h B rhs).2 hr).yields (yields_of_derives hy)).derives⟩

/-- **C79.** Inlining a non-terminal does not change the language. -/
theorem c79_inline {A H : String} {α γ : List USym} (h : Inlined defs defs' A H α γ) {B : String}
    {x : List String} : USentence defs B x ↔ USentence defs' B x := by
  obtain ⟨hne, hA, hr⟩ := h
  constructor
  · refine c79_admissible fun B rhs hB x hx => ?_
    have hx := yields_of_derives hx
    by_cases hc : B = A ∧ rhs = α ++ .nt H :: γ
    · obtain ⟨rfl, rfl⟩ := hc
      obtain ⟨w1, w2, rfl, h1, h2⟩ := hx.split
      cases h2 with
      | @nt _ i rhs _ w2 w3 hp h2 h3 =>
        have hH : URule defs H rhs := by
          rcases (hr _ _).1 (.of hp) with h | ⟨h, _⟩
          · exact h.1
          · exact absurd h.symm hne
        refine (URule.yields ((hr B (α ++ rhs ++ γ)).2 (.inr ⟨rfl, _, hH, rfl⟩)) ?_).derives
        rw [← List.append_assoc]
        exact (h1.append h2).append h3
    · exact (((hr _ _).2 (.inl ⟨hB, hc⟩)).yields hx).derives
  · refine c79_admissible fun B rhs hB x hx => ?_
    have hx := yields_of_derives hx
    rcases (hr _ _).1 hB with ⟨h, _⟩ | ⟨rfl, β, hβ, rfl⟩
    · exact (h.yields hx).derives
    · obtain ⟨w12, w3, rfl, h12, h3⟩ := hx.split
      obtain ⟨w1, w2, rfl, h1, h2⟩ := h12.split
      refine (hA.yields ?_).derives
      rw [List.append_assoc]
      exact h1.append ((hβ.yields h2).append h3)

theorem YieldsN.split : ∀ {a b : List USym} {w : List String} {n : Nat}, YieldsN defs (a ++ b) w n →
    ∃ w1 w2 n1 n2, w = w1 ++ w2 ∧ YieldsN defs a w1 n1 ∧ YieldsN defs b w2 n2 ∧ n = n1 + n2
  | [], b, w, n, h => ⟨[], w, 0, n, rfl, .nil, h, by omega⟩
  | .term t :: a, b, w, n, h => by
    cases h with
    | term h =>
      obtain ⟨w1, w2, n1, n2, rfl, h1, h2, rfl⟩ := h.split
      exact ⟨t :: w1, w2, n1, n2, rfl, .term h1, h2, rfl⟩
  | .nt A :: a, b, w, n, h => by
    cases h with
    | nt hp h1 h2 =>
      obtain ⟨w1, w2, n1, n2, rfl, h3, h4, rfl⟩ := h2.split
      exact ⟨_, w2, _, n2, (List.append_assoc ..).symm, .nt hp h1 h3, h4, by omega⟩

/-- **C79.** Turning the left recursion of a list into right recursion does not change the language. -/
theorem c79_recursion {A : String} {σ ξ : List USym} (h : Turned defs defs' A σ ξ) {B : String}
    {x : List String} : USentence defs B x ↔ USentence defs' B x := by
  obtain ⟨hl, hr, ho⟩ := h
  have l1 := (hl _).2 (.inl rfl)
  have l2 := (hl _).2 (.inr rfl)
  have r1 := (hr _).2 (.inl rfl)
  have r2 := (hr _).2 (.inr rfl)
  constructor
  · refine c79_admissible fun B rhs hB x hx => ?_
    have hx := yields_of_derives hx
    by_cases hc : B = A
    · subst hc
      rcases (hl _).1 hB with rfl | rfl
      · have key : ∀ n w1 w2 w3, YieldsN defs' [.nt B] w1 n → Yields defs' σ w2 → Yields defs' ξ w3 →
            Yields defs' [.nt B] (w1 ++ w2 ++ w3) := by
          intro n
          induction n using Nat.strongRecOn with
          | ind n ih =>
            intro w1 w2 w3 h1 h2 h3
            obtain ⟨i, rhs, m, hp, hm, rfl⟩ := h1.nt_inv
            rcases (hr _).1 (.of hp) with rfl | rfl
            · obtain ⟨u, u3, n1, n2, rfl, a1, a2, rfl⟩ := hm.split
              refine r1.yields ?_
              rw [show u ++ u3 ++ w2 ++ w3 = u ++ (u3 ++ w2 ++ w3) by simp]
              exact a1.yields.append (ih n2 (by omega) _ _ _ a2 h2 h3)
            · exact r1.yields ((hm.yields.append h2).append (r2.yields h3))
        obtain ⟨w1, w23, rfl, h1, h23⟩ := Yields.split (a := [.nt B]) hx
        obtain ⟨w2, w3, rfl, h2, h3⟩ := h23.split
        obtain ⟨n, hn⟩ := h1.sized
        rw [← List.append_assoc]
        exact (key n _ _ _ hn h2 h3).derives
      · exact (r2.yields hx).derives
    · exact (((ho _ _ hc).1 hB).yields hx).derives
  · refine c79_admissible fun B rhs hB x hx => ?_
    have hx := yields_of_derives hx
    by_cases hc : B = A
    · subst hc
      rcases (hr _).1 hB with rfl | rfl
      · have key : ∀ n w1 w2 w3, Yields defs ξ w1 → Yields defs σ w2 → YieldsN defs [.nt B] w3 n →
            Yields defs [.nt B] (w1 ++ w2 ++ w3) := by
          intro n
          induction n using Nat.strongRecOn with
          | ind n ih =>
            intro w1 w2 w3 h1 h2 h3
            obtain ⟨i, rhs, m, hp, hm, rfl⟩ := h3.nt_inv
            rcases (hl _).1 (.of hp) with rfl | rfl
            · obtain ⟨u, u3, n1, n2, rfl, a1, a2, rfl⟩ := YieldsN.split (a := [.nt B]) hm
              refine l1.yields ?_
              rw [← List.append_assoc]
              exact (ih n1 (by omega) _ _ _ h1 h2 a1).append a2.yields
            · refine l1.yields ?_
              rw [List.append_assoc]
              exact (l2.yields h1).append (h2.append hm.yields)
        obtain ⟨w12, w3, rfl, h12, h3⟩ := hx.split
        obtain ⟨w1, w2, rfl, h1, h2⟩ := h12.split
        obtain ⟨n, hn⟩ := h3.sized
        exact (key n _ _ _ h1 h2 hn).derives
      · exact (l2.yields hx).derives
    · exact (((ho _ _ hc).2 hB).yields hx).derives

/-! ## The sums, with right recursion -/

namespace Examples

/-- As `arithDefs`, but with right recursion. -/
def sumsRDefs : List (AstNonTerminal (Act Log) String) :=
  [ ⟨true, "Expr", "u64",
      [⟨[nm "a" (.nonTerminal "Term"), .terminal "+", nm "b" (.nonTerminal "Expr")],
          logged (fun e => num e "a" + num e "b") "Expr" 0⟩,
        ⟨[nm "a" (.nonTerminal "Term")], logged (fun e => num e "a") "Expr" 1⟩]⟩,
    ⟨true, "Term", "u64",
      [⟨[nm "a" (.terminal "n")], logged (fun e => num e "a") "Term" 0⟩,
        ⟨[.terminal "(", nm "a" (.nonTerminal "Expr"), .terminal ")"],
          logged (fun e => num e "a") "Term" 1⟩]⟩ ]

set_option maxRecDepth 10000 in
theorem sumsR_ok : (parserMacro .insertion code.mkPath (itemsOf sumsRDefs)).isOk = true := by
  decide +kernel

/-- The compiled program. -/
def sumsR : Compiled (Act Log) String Nat Log Tk := program sumsRDefs sumsR_ok

set_option maxRecDepth 10000 in
/-- About `1 +` both programs say that a number or a parenthesis was expected, after three calls of
`next()`; the actions that ran first are not the same. -/
theorem sumsR_run : run sumsR 0 (stream [.num 1, .plus]) [] 100 =
    some (.parserError "end-of-input" "n, (", [("Term", 0)], 3) := by decide +kernel

set_option maxRecDepth 10000 in
example : run arith 0 (stream [.num 1, .plus]) [] 100 =
    some (.parserError "end-of-input" "n, (", [("Term", 0), ("Expr", 1)], 3) := by decide +kernel

theorem urule_mem {X Ty : Type} {defs : List (AstNonTerminal X Ty)} {A : String} {rhs : List USym}
    {l : List (List USym)}
    (h : (userProds defs A).map (fun p => p.symbols.map (·.plain)) = l.map (·.map some)) :
    URule defs A rhs ↔ rhs ∈ l := by
  have hi : Function.Injective (fun r : List USym => r.map some) :=
    List.map_injective_iff.2 (Option.some_injective _)
  rw [← List.mem_map_of_injective hi, ← h, List.mem_map]
  rfl

theorem arith_turned : Turned arith.defs sumsR.defs "Expr" [.term "+"] [.nt "Term"] := by
  rw [show arith.defs = arithDefs from defs_itemsOf _, show sumsR.defs = sumsRDefs from defs_itemsOf _]
  refine ⟨fun rhs => ?_, fun rhs => ?_, fun B rhs hB => ?_⟩
  · rw [urule_mem (l := [[.nt "Expr", .term "+", .nt "Term"], [.nt "Term"]]) rfl]
    simp
  · rw [urule_mem (l := [[.nt "Term", .term "+", .nt "Expr"], [.nt "Term"]]) rfl]
    simp
  · have : userProds arithDefs B = userProds sumsRDefs B := by
      have h1 : ("Expr" == B) = false := by simpa using fun h => hB h.symm
      simp [userProds, arithDefs, sumsRDefs, List.filter, h1]
    unfold URule
    rw [this]

/-- As `arithDefs`, with the rules of `Term` in the place of `Expr → Term`. -/
def sumsIDefs : List (AstNonTerminal (Act Log) String) :=
  [ ⟨true, "Expr", "u64",
      [⟨[nm "a" (.nonTerminal "Expr"), .terminal "+", nm "b" (.nonTerminal "Term")],
          logged (fun e => num e "a" + num e "b") "Expr" 0⟩,
        ⟨[nm "a" (.terminal "n")], logged (fun e => num e "a") "Expr" 1⟩,
        ⟨[.terminal "(", nm "a" (.nonTerminal "Expr"), .terminal ")"],
          logged (fun e => num e "a") "Expr" 2⟩]⟩,
    ⟨true, "Term", "u64",
      [⟨[nm "a" (.terminal "n")], logged (fun e => num e "a") "Term" 0⟩,
        ⟨[.terminal "(", nm "a" (.nonTerminal "Expr"), .terminal ")"],
          logged (fun e => num e "a") "Term" 1⟩]⟩ ]

theorem arith_inlined : Inlined arithDefs sumsIDefs "Expr" "Term" [] [] := by
  have e1 (rhs) := urule_mem (rhs := rhs) (defs := arithDefs) (A := "Expr")
    (l := [[.nt "Expr", .term "+", .nt "Term"], [.nt "Term"]]) rfl
  have e2 (rhs) := urule_mem (rhs := rhs) (defs := sumsIDefs) (A := "Expr")
    (l := [[.nt "Expr", .term "+", .nt "Term"], [.term "n"], [.term "(", .nt "Expr", .term ")"]]) rfl
  have e3 (rhs) := urule_mem (rhs := rhs) (defs := arithDefs) (A := "Term")
    (l := [[.term "n"], [.term "(", .nt "Expr", .term ")"]]) rfl
  refine ⟨by decide, (e1 _).2 (by simp), fun B rhs => ?_⟩
  by_cases hB : B = "Expr"
  · subst hB
    rw [e1, e2]
    simp only [e3, List.nil_append, List.append_nil, exists_eq_right', true_and, List.mem_cons,
      List.not_mem_nil, or_false]
    constructor
    · rintro (rfl | rfl | rfl) <;> simp
    · rintro (⟨rfl | rfl, h⟩ | rfl | rfl) <;> simp_all
  · have : userProds arithDefs B = userProds sumsIDefs B := by
      have h1 : ("Expr" == B) = false := by simpa using fun h => hB h.symm
      simp [userProds, arithDefs, sumsIDefs, List.filter, h1]
    unfold URule
    rw [this]
    simp [hB]

/-- The rules of `Term` can be used in the place of `Expr → Term`. -/
example (x : List String) : USentence arithDefs "Expr" x ↔ USentence sumsIDefs "Expr" x :=
  c79_inline arith_inlined

set_option maxRecDepth 10000 in
theorem sumsR_regular : sumsR.Regular := by
  obtain ⟨ep, hep, _⟩ := run_returns sumsR_run
  refine sumsR.regular_of_check hep ?_ ?_
  · decide +kernel
  · decide +kernel

theorem arith_enum : arith.tokens = tk := rfl

theorem sumsR_enum : sumsR.tokens = tk := rfl

theorem arith_toR : arith.toR = Tk.toR := rfl

theorem sumsR_toR : sumsR.toR = Tk.toR := rfl

theorem sumsR_cls : arith.cls = sumsR.cls := by
  funext t
  unfold Compiled.cls
  rw [arith_enum, sumsR_enum, arith_toR, sumsR_toR]

theorem sumsR_productive : sumsR.Productive := by
  intro d hd
  have : d.name = "Expr" ∨ d.name = "Term" := by
    rw [show sumsR.defs = sumsRDefs from defs_itemsOf _] at hd
    simp only [sumsRDefs, List.mem_cons, List.not_mem_nil, or_false] at hd
    rcases hd with rfl | rfl <;> simp
  have : ∃ d' ∈ arith.defs, d'.name = d.name := by
    rw [show arith.defs = arithDefs from defs_itemsOf _]
    rcases this with h | h <;> rw [h] <;> simp [arithDefs]
  obtain ⟨d', hd', hn⟩ := this
  obtain ⟨x, hx⟩ := arith_productive d' hd'
  exact ⟨x, hn ▸ (c79_recursion arith_turned).1 hx⟩

theorem sumsR_total : sumsR.Total := by
  unfold Compiled.Total
  rw [show sumsR.defs = sumsRDefs from defs_itemsOf _]
  intro d hm p hp e he env w
  simp only [sumsRDefs, List.mem_cons, List.not_mem_nil, or_false] at hm
  rcases hm with rfl | rfl <;> simp only [List.mem_cons, List.not_mem_nil, or_false] at hp <;>
    rcases hp with rfl | rfl <;> cases he <;> exact fun h => nomatch h

/-- The two programs report the same about every input. -/
example (ep ep' : EntryPoint) (hep : ep ∈ arith.gen.entries) (hep' : ep' ∈ sumsR.gen.entries)
    (hn : ep.name = ep'.name) (input : Nat → Option (Except String Tk)) (w w1 : Log) (o : Outcome Nat String)
    (n : Nat) (h : arith.Returns ep input w o w1 n) :
    ∃ o' w1', sumsR.Returns ep' input w o' w1' n ∧ o'.report = o.report := by
  refine c79_same arith_regular sumsR_regular arith_productive sumsR_productive sumsR_total
    (by rw [arith_enum, sumsR_enum]) hep hep' (fun x => ?_) (fun i => ?_) h ?_ w
  · rw [hn]
    exact c79_recursion arith_turned
  · unfold Compiled.look
    rw [sumsR_cls]
  · rintro f rfl
    exact c06_no_panic hep arith_total h

end Examples

end Parsegen
