import Verif.Proofs.FollowSets
import Verif.Proofs.Valid
import Verif.Proofs.OrderFirst
import Verif.Proofs.Check
import Verif.Props.Generator

/-! # C69: the FOLLOW sets of follow.rs are the textbook's -/

namespace Parsegen

variable {A Ty : Type} {g : Grammar A Ty} {F : FirstTable}

/-- C69. `generate_follow_table` terminates. -/
theorem c69_terminates (hwf : g.WF) (h h' : HashOrder) :
    (followLoop h g (generateFirstTable h' g)).2 = false :=
  followLoop_terminates hwf (generateFirstTable_ok hwf h') h

theorem BeginsTbl.derives (hF : FirstSound g F) {β : List Symbol} {t : Nat} (h : BeginsTbl F β t) :
    ∃ x, g.Derives β (.terminal t :: x) := by
  obtain ⟨u1, s, u2, rfl, hf, hs⟩ := h
  have h1 := Grammar.Derives.nil_of_flagged hF hf
  rcases hs with rfl | ⟨b, rfl, hb⟩
  · exact ⟨u2, by simpa using h1.append_right (.terminal t :: u2)⟩
  · obtain ⟨x, hx⟩ := hF.terminals b t hb
    exact ⟨x ++ u2, by simpa using h1.append (hx.append_right u2)⟩

theorem FollowReason.sound (hF : FirstSound g F) {tbl : FollowTable} {a : Nat} {c : Option Nat}
    (h0 : ∀ a c, tbl.Has a c → ∃ S, (c = none → S = 0) ∧ g.InFollow S a c)
    (h : FollowReason g F tbl a c) : ∃ S, (c = none → S = 0) ∧ g.InFollow S a c := by
  obtain ⟨lhs, p, α, β, hp, ⟨t, rfl, hb⟩ | ⟨hf, hh⟩⟩ := h
  · obtain ⟨x, hx⟩ := hb.derives hF
    refine ⟨lhs, by simp, α, x, ?_⟩
    exact (Grammar.Derives.of_hasProd hp).trans ((hx.cons).append_left α)
  · obtain ⟨S, hS, hi⟩ := h0 lhs c hh
    refine ⟨S, hS, ?_⟩
    have hnil := Grammar.Derives.nil_of_flagged hF hf
    have step : ∀ γ δ, g.Derives [.nonTerminal S] (γ ++ .nonTerminal lhs :: δ) →
        g.Derives [.nonTerminal S] ((γ ++ α) ++ .nonTerminal a :: δ) := by
      intro γ δ hd
      refine (hd.tail (.mk γ δ _ lhs p hp)).trans ?_
      have := ((hnil.append_right δ).cons (s := .nonTerminal a)).append_left (γ ++ α)
      simpa using this
    cases c with
    | none => obtain ⟨γ, hd⟩ := hi; exact ⟨γ ++ α, step γ [] hd⟩
    | some t => obtain ⟨γ, δ, hd⟩ := hi; exact ⟨γ ++ α, δ, step γ (.terminal t :: δ) hd⟩

/-- C69 (sound). A terminal in the FOLLOW set of `a` comes right after `a` in a sentential form of some
non-terminal; if the end of input is in it, a sentential form of non-terminal 0 ends with `a`. -/
theorem c69_sound (hwf : g.WF) (h h' : HashOrder) (h0 : 0 < g.nNonTerminals) (a : Nat) :
    (∀ t, (generateFollowTable h g (generateFirstTable h' g)).Has a (some t) →
      ∃ S, g.InFollow S a (some t)) ∧
    ((generateFollowTable h g (generateFirstTable h' g)).Has a none → g.InFollow 0 a none) := by
  have key := (followTable_spec hwf (generateFirstTable_ok hwf h') h h0
    (fun a c => ∃ S, (c = none → S = 0) ∧ g.InFollow S a c) ⟨0, fun _ => rfl, [], .refl _⟩
    (fun tbl a c hs hr => hr.sound (generateFirstTable_sound h' g) hs)).1
  refine ⟨fun t ht => ?_, fun hn => ?_⟩
  · obtain ⟨S, _, hS⟩ := key a _ ht
    exact ⟨S, hS⟩
  · obtain ⟨S, h1, hS⟩ := key a _ hn
    rw [← h1 rfl]
    exact hS

theorem Grammar.Derives.beginsTbl (hwf : g.WF) (hc : FirstClosed g F) {u v : List Symbol} {t : Nat}
    (h : g.Derives u v) (hu : g.PrivSyms u) : (BeginsTbl F v t → BeginsTbl F u t) ∧
      (AllFlagged F v → AllFlagged F u) ∧ g.PrivSyms v := by
  induction h with
  | refl => exact ⟨id, id, hu⟩
  | tail h s ih =>
    exact ⟨fun hb => ih.1 (hb.of_produces hc.on s ih.2.2.leads), fun hf => ih.2.1 (allFlagged_of_produces hc.on s ih.2.2.leads hf),
      ih.2.2.produces hwf s⟩

/-- In sentential forms, the table has what can follow. -/
theorem follow_form (hwf : g.WF) (hc : FirstClosed g F) {tbl : FollowTable}
    (hT : ∀ lhs p α a β, g.HasProd lhs p (α ++ .nonTerminal a :: β) → FollowCond F tbl a lhs β)
    {S : Nat} {σ : List Symbol} (h : g.Derives [.nonTerminal S] σ) :
    ∀ α a ρ, σ = α ++ .nonTerminal a :: ρ →
      (∀ t x, g.Derives ρ (.terminal t :: x) → tbl.Has a (some t)) ∧
      (g.Derives ρ [] → ∀ c, tbl.Has S c → tbl.Has a c) := by
  induction h with
  | refl =>
    intro α a ρ e
    cases α with
    | cons y α => simp at e
    | nil =>
      simp only [List.nil_append, List.cons.injEq, Symbol.nonTerminal.injEq] at e
      obtain ⟨rfl, rfl⟩ := e
      refine ⟨fun t x hd => ?_, fun _ c hc => hc⟩
      have := hd.nil_inv
      cases this
  | tail hd s ih =>
    obtain ⟨u, v, γ, C, p, hp⟩ := s
    have inside : ∀ γ1 a γ2, γ = γ1 ++ .nonTerminal a :: γ2 →
        (∀ t x, g.Derives v (.terminal t :: x) → tbl.Has C (some t)) →
        (g.Derives v [] → ∀ c, tbl.Has S c → tbl.Has C c) →
        (∀ t x, g.Derives (γ2 ++ v) (.terminal t :: x) → tbl.Has a (some t)) ∧
        (g.Derives (γ2 ++ v) [] → ∀ c, tbl.Has S c → tbl.Has a c) := by
      rintro γ1 a γ2 rfl i1 i2
      obtain ⟨t1, t2⟩ := hT C p γ1 a γ2 hp
      have hpr : g.PrivSyms γ2 := fun b hb => hwf.privSyms hp b (by simp [hb])
      constructor
      · intro t x hx
        obtain ⟨w1, w2, e, d1, d2⟩ := hx.split rfl
        cases w1 with
        | nil =>
          simp only [List.nil_append] at e
          subst e
          exact t2 ((d1.beginsTbl (t := 0) hwf hc hpr).2.1 allFlagged_nil) _ (i1 t x d2)
        | cons y w1 =>
          simp only [List.cons_append, List.cons.injEq] at e
          rw [← e.1] at d1
          exact t1 t ((d1.beginsTbl hwf hc hpr).1 (beginsTbl_cons_term.2 rfl))
      · intro hx c hSc
        obtain ⟨w1, w2, e, d1, d2⟩ := hx.split rfl
        obtain ⟨rfl, rfl⟩ := List.append_eq_nil_iff.1 e.symm
        exact t2 ((d1.beginsTbl (t := 0) hwf hc hpr).2.1 allFlagged_nil) _ (i2 d2 c hSc)
    intro α a ρ e
    have hs : g.Produces (.nonTerminal C :: v) (γ ++ v) := .mk [] v γ C p hp
    rw [List.append_assoc, List.append_eq_append_iff] at e
    rcases e with ⟨u2, rfl, e⟩ | ⟨u2, rfl, e⟩
    · -- `a` is in `γ ++ v`
      rw [List.append_eq_append_iff] at e
      rcases e with ⟨v1, rfl, e⟩ | ⟨v1, rfl, e⟩
      · -- in `v`
        have := ih (u ++ .nonTerminal C :: v1) a ρ (by rw [e]; simp)
        exact this
      · cases v1 with
        | nil =>
          simp only [List.nil_append] at e
          have := ih (u ++ [.nonTerminal C]) a ρ (by rw [← e]; simp)
          exact this
        | cons y γ2 =>
          simp only [List.cons_append, List.cons.injEq] at e
          obtain ⟨rfl, rfl⟩ := e
          obtain ⟨i1, i2⟩ := ih u C v rfl
          exact inside u2 a γ2 rfl i1 i2
    · -- `a` is in `u`
      cases u2 with
      | nil =>
        simp only [List.nil_append] at e
        -- then `a` is at the beginning of `γ ++ v`
        cases γ with
        | nil =>
          simp only [List.nil_append] at e
          exact ih (α ++ [.nonTerminal C]) a ρ (by rw [← e]; simp)
        | cons y γ2 =>
          simp only [List.cons_append, List.cons.injEq] at e
          obtain ⟨rfl, rfl⟩ := e
          obtain ⟨i1, i2⟩ := ih (α ++ []) C v rfl
          exact inside [] a γ2 rfl i1 i2
      | cons y u2 =>
        simp only [List.cons_append, List.cons.injEq] at e
        obtain ⟨rfl, rfl⟩ := e
        obtain ⟨i1, i2⟩ := ih α a (u2 ++ .nonTerminal C :: v) (by simp)
        have hd' : g.Derives (u2 ++ .nonTerminal C :: v) (u2 ++ (γ ++ v)) :=
          (Grammar.Derives.single hs).append_left u2
        exact ⟨fun t x hx => i1 t x (hd'.trans hx), fun hx => i2 (hd'.trans hx)⟩

/-- C69 (complete). If the FIRST sets are complete, everything that can follow is in the table. -/
theorem c69_complete (hwf : g.WF) (h h' : HashOrder) (h0 : 0 < g.nNonTerminals)
    (hc : FirstComplete g (generateFirstTable h' g)) (a : Nat) :
    (∀ S t, g.InFollow S a (some t) →
      (generateFollowTable h g (generateFirstTable h' g)).Has a (some t)) ∧
    (g.InFollow 0 a none → (generateFollowTable h g (generateFirstTable h' g)).Has a none) := by
  obtain ⟨_, h1, h2⟩ := followTable_spec hwf (generateFirstTable_ok hwf h') h h0 (fun _ _ => True) trivial
    (fun _ _ _ _ _ => trivial)
  have hcl := hc.closed (generateFirstTable_sound h' g)
  constructor
  · rintro S t ⟨α, β, hd⟩
    exact (follow_form hwf hcl h2 hd α a _ rfl).1 t β (.refl _)
  · rintro ⟨α, hd⟩
    exact (follow_form hwf hcl h2 hd α a [] rfl).2 (.refl _) none h1

theorem Grammar.Derives.first_step {S : Nat} {σ : List Symbol} (h : g.Derives [.nonTerminal S] σ) :
    σ = [.nonTerminal S] ∨ ∃ p γ, g.HasProd S p γ := by
  induction h with
  | refl => exact Or.inl rfl
  | tail h s ih =>
    rcases ih with rfl | ih
    · right
      generalize hl : [Symbol.nonTerminal S] = l at s
      obtain ⟨u, v, γ, C, p, hp⟩ := s
      cases u with
      | nil => simp at hl; rw [hl.1]; exact ⟨p, γ, hp⟩
      | cons y u => simp at hl
    · exact Or.inr ih

/-- C69 (textbook). If moreover every non-terminal occurs in a sentential form of non-terminal 0, the sets
are exactly the FOLLOW sets for start symbol 0. -/
theorem c69_textbook (hwf : g.WF) (h h' : HashOrder) (h0 : 0 < g.nNonTerminals)
    (hc : FirstComplete g (generateFirstTable h' g))
    (hocc : ∀ nt p α, g.HasProd nt p α → g.Occurs 0 nt) (a : Nat) (c : Option Nat) :
    (generateFollowTable h g (generateFirstTable h' g)).Has a c ↔ g.InFollow 0 a c := by
  cases c with
  | none => exact ⟨(c69_sound hwf h h' h0 a).2, (c69_complete hwf h h' h0 hc a).2⟩
  | some t =>
    refine ⟨fun ht => ?_, (c69_complete hwf h h' h0 hc a).1 0 t⟩
    obtain ⟨S, α, β, hd⟩ := (c69_sound hwf h h' h0 a).1 t ht
    have hS : g.Occurs 0 S := by
      rcases Grammar.Derives.first_step hd with e | ⟨p, γ, hp⟩
      · cases α with
        | nil => simp at e
        | cons y α => simp at e
      · exact hocc S p γ hp
    obtain ⟨γ, δ, hS⟩ := hS
    refine ⟨γ ++ α, β ++ δ, hS.trans ?_⟩
    have := (hd.append_right δ).append_left γ
    simpa using this

/-- C69 (order). The sets do not depend on the iteration orders of hash sets. -/
theorem c69_order (hwf : g.WF) (h1 h2 h1' h2' : HashOrder) (h0 : 0 < g.nNonTerminals) (a : Nat)
    (c : Option Nat) : (generateFollowTable h1 g (generateFirstTable h1' g)).Has a c ↔
      (generateFollowTable h2 g (generateFirstTable h2' g)).Has a c := by
  have key : ∀ h1 h2 h1' h2', (generateFollowTable h1 g (generateFirstTable h1' g)).Has a c →
      (generateFollowTable h2 g (generateFirstTable h2' g)).Has a c := by
    intro h1 h2 h1' h2'
    obtain ⟨_, k1, k2⟩ := followTable_spec hwf (generateFirstTable_ok hwf h2') h2 h0 (fun _ _ => True)
      trivial (fun _ _ _ _ _ => trivial)
    have hsame := generateFirstTable_same h1' h2' g
    refine (followTable_spec hwf (generateFirstTable_ok hwf h1') h1 h0 _ k1 ?_).1 a c
    rintro tbl a c htbl ⟨lhs, p, α, β, hp, hr⟩
    obtain ⟨t1, t2⟩ := k2 lhs p α a β hp
    have hfl : ∀ β, AllFlagged (generateFirstTable h1' g) β → AllFlagged (generateFirstTable h2' g) β := by
      intro β hβ s hs
      obtain ⟨b, rfl, hb⟩ := hβ s hs
      exact ⟨b, rfl, by rw [← hsame.empty b]; exact hb⟩
    rcases hr with ⟨t, rfl, u1, s, u2, rfl, hf, hs⟩ | ⟨hf, hh⟩
    · refine t1 t ⟨u1, s, u2, rfl, hfl _ hf, ?_⟩
      rcases hs with rfl | ⟨b, rfl, hb⟩
      · exact Or.inl rfl
      · exact Or.inr ⟨b, rfl, (hsame.mem b t).1 hb⟩
    · exact t2 (hfl _ hf) c (htbl lhs c hh)
  exact ⟨key _ _ _ _, key _ _ _ _⟩

namespace Examples

/-- The Dragon Book's expression grammar 4.28, with entry point 0:
`E → T E';  E' → + T E' | ε;  T → F T';  T' → * F T' | ε;  F → ( E ) | id`;
non-terminals `E=1, E'=2, T=3, T'=4, F=5`, terminals `+=0, *=1, (=2, )=3, id=4`. -/
def followGrammar : Grammar Unit Unit := .bare
  [(true, [[.nonTerminal 1]]), (false, [[.nonTerminal 3, .nonTerminal 2]]),
    (false, [[.terminal 0, .nonTerminal 3, .nonTerminal 2], []]),
    (false, [[.nonTerminal 5, .nonTerminal 4]]),
    (false, [[.terminal 1, .nonTerminal 5, .nonTerminal 4], []]),
    (false, [[.terminal 2, .nonTerminal 1, .terminal 3], [.terminal 4]])] 5

/-- `S → Z Y;  Z → x;  Y → A b;  A → a | ε` with entry point 0; `S=1, Z=2, Y=3, A=4`, `x=0, a=1, b=2`. -/
def followBug : Grammar Unit Unit := .bare
  [(true, [[.nonTerminal 1]]), (false, [[.nonTerminal 2, .nonTerminal 3]]), (false, [[.terminal 0]]),
    (false, [[.nonTerminal 4, .terminal 2]]), (false, [[.terminal 1], []])] 3

theorem followGrammar_wf : followGrammar.WF := Grammar.wf_of_check (by decide)

theorem followGrammar_complete : FirstComplete followGrammar (generateFirstTable .insertion followGrammar) :=
  FirstClosed.complete followGrammar_wf (firstClosed_of_check (by decide +kernel))

theorem followGrammar_prod {nt p : Nat} {α : List Symbol} (h : followGrammar.HasProd nt p α) : nt < 6 := by
  have := Grammar.lt_of_nProductions h.lt
  simpa [Grammar.nNonTerminals, followGrammar, Grammar.bare] using this

theorem followGrammar_occurs {nt p : Nat} {α : List Symbol} (h : followGrammar.HasProd nt p α) :
    followGrammar.Occurs 0 nt := by
  have p0 : followGrammar.HasProd 0 0 [.nonTerminal 1] := ⟨_, _, rfl, rfl, rfl⟩
  have p1 : followGrammar.HasProd 1 0 [.nonTerminal 3, .nonTerminal 2] := ⟨_, _, rfl, rfl, rfl⟩
  have p3 : followGrammar.HasProd 3 0 [.nonTerminal 5, .nonTerminal 4] := ⟨_, _, rfl, rfl, rfl⟩
  have d1 := Grammar.Derives.of_hasProd p0
  have d2 := d1.trans (Grammar.Derives.of_hasProd p1)
  have d3 := d2.trans (.of_prod (u := []) (v := [.nonTerminal 2]) p3)
  match nt, followGrammar_prod h with
  | 0, _ => exact ⟨[], [], .refl _⟩
  | 1, _ => exact ⟨[], [], d1⟩
  | 2, _ => exact ⟨[.nonTerminal 3], [], d2⟩
  | 3, _ => exact ⟨[], [.nonTerminal 2], d2⟩
  | 4, _ => exact ⟨[.nonTerminal 5], [.nonTerminal 2], d3⟩
  | 5, _ => exact ⟨[], [.nonTerminal 4, .nonTerminal 2], d3⟩

/-- The hypotheses of `c69_textbook` are met by the expression grammar: the FOLLOW set of `F` computed by
the program is the Dragon Book's `{ +, *, ), $ }`, and so is the one of the definition. -/
theorem c69_example : (∀ c, followGrammar.InFollow 0 5 c ↔ c ∈ [none, some 0, some 1, some 3]) := by
  intro c
  rw [← c69_textbook followGrammar_wf .insertion .insertion (by decide) followGrammar_complete
    (fun _ _ _ h => followGrammar_occurs h)]
  have : (generateFollowTable .insertion followGrammar (generateFirstTable .insertion followGrammar)).get 5 =
      ⟨true, [1, 0, 3]⟩ := by decide +kernel
  cases c with
  | none => simp [FollowTable.Has, this]
  | some t => simp [FollowTable.Has, this]; omega

end Examples

/-- Completeness needs the FIRST sets: `Z` can be followed by `a`, but `a` is not in its computed set. -/
theorem c69_counterexample : Examples.followBug.WF ∧ Examples.followBug.InFollow 0 2 (some 1) ∧
    ¬ (generateFollowTable .insertion Examples.followBug
      (generateFirstTable .insertion Examples.followBug)).Has 2 (some 1) := by
  refine ⟨Grammar.wf_of_check (by decide), ⟨[], [.terminal 2], ?_⟩, ?_⟩
  · have p0 : Examples.followBug.HasProd 0 0 [.nonTerminal 1] := ⟨_, _, rfl, rfl, rfl⟩
    have p1 : Examples.followBug.HasProd 1 0 [.nonTerminal 2, .nonTerminal 3] := ⟨_, _, rfl, rfl, rfl⟩
    have p3 : Examples.followBug.HasProd 3 0 [.nonTerminal 4, .terminal 2] := ⟨_, _, rfl, rfl, rfl⟩
    have p4 : Examples.followBug.HasProd 4 0 [.terminal 1] := ⟨_, _, rfl, rfl, rfl⟩
    exact (((Grammar.Derives.of_hasProd p0).trans (.of_hasProd p1)).trans
      (.of_prod (u := [.nonTerminal 2]) (v := []) p3)).trans
      (.of_prod (u := [.nonTerminal 2]) (v := [.terminal 2]) p4)
  · have : (generateFollowTable .insertion Examples.followBug
      (generateFirstTable .insertion Examples.followBug)).get 2 = ⟨false, [2]⟩ := by decide +kernel
    simp [FollowTable.Has, this]

end Parsegen
