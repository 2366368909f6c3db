import Verif.Proofs.PanickingNext
import Verif.Props.Interactive

/-! # C60: panics of `next()` -/

namespace Parsegen

variable {X Ty V W Tok E : Type} [DecidableEq Ty] {P : Compiled X Ty V W Tok} {ep : EntryPoint}
  {next : W → Option (Option (Except E Tok)) × W} {w w' : W} {items : List (Option (Except E Tok))}

omit [DecidableEq Ty] in
theorem iParseLoop_fuel {gen : Generated X} {u : UserCode X V W} {tf : TokenFns Tok V}
    {nx : W → Option (Except E Tok) × W} : ∀ {fuel fuel' : Nat} {s : IState Tok V W E}
      {r : Outcome V E × IState Tok V W E}, iParseLoop gen u tf nx ep fuel s = some r → fuel ≤ fuel' →
      iParseLoop gen u tf nx ep fuel' s = some r
  | 0, _, _, _, h, _ => by cases h
  | fuel + 1, 0, _, _, _, hl => by omega
  | fuel + 1, fuel' + 1, s, r, h, hl => by
    unfold iParseLoop at h ⊢
    cases hs : iParseStep gen u tf nx ep s with
    | done o s' => rw [hs] at h; exact h
    | next s' => rw [hs] at h; exact iParseLoop_fuel h (by omega)

omit [DecidableEq Ty] in
theorem iParseLoop_lexer {gen : Generated X} {u : UserCode X V W} {tf : TokenFns Tok V}
    {nx : W → Option (Except E Tok) × W} {e : E} : ∀ {fuel : Nat} {s s' : IState Tok V W E},
      iParseLoop gen u tf nx ep fuel s = some (.lexerError e, s') →
      ISteps gen u tf nx ep s s' ∧ s'.token = some (.error e)
  | 0, _, _, h => by cases h
  | fuel + 1, s, s', h => by
    unfold iParseLoop at h
    cases hs : iParseStep gen u tf nx ep s with
    | next s1 =>
      rw [hs] at h
      obtain ⟨h1, h2⟩ := iParseLoop_lexer h
      exact ⟨(ISteps.tail (.refl _) hs).trans h1, h2⟩
    | done o s1 =>
      rw [hs] at h
      dsimp only at h
      cases h
      unfold iParseStep at hs
      cases hst : s.states with
      | nil => rw [hst] at hs; cases hs
      | cons q qs =>
        rw [hst] at hs
        dsimp only at hs
        cases ht : s.token with
        | none =>
          exfalso
          rw [ht] at hs
          simp only [lookaheadIdx] at hs
          repeat' split at hs
          all_goals first | cases hs | skip
          rename_i hacc
          injection hs with h1 h2
          unfold acceptStep at h1
          repeat' split at h1
          all_goals cases h1
        | some r =>
          cases r with
          | error e' =>
            rw [ht] at hs
            simp only [lookaheadIdx] at hs
            cases hs
            exact ⟨.refl _, ht⟩
          | ok t =>
            exfalso
            rw [ht] at hs
            simp only [lookaheadIdx] at hs
            repeat' split at hs
            all_goals first | cases hs | skip
            injection hs with h1 h2
            unfold acceptStep at h1
            repeat' split at h1
            all_goals cases h1

/-- How the run with the calm iterator ends. -/
theorem nReturns_cases (fuel : Nat) :
    (nParse P.gen P.code P.tf next ep w fuel = none ∧
      iParse P.gen P.code P.tf (calm next) ep w fuel = none) ∨
    (∃ o w' items s', nParse P.gen P.code P.tf next ep w fuel = some (.ended o, w', items) ∧
      iParse P.gen P.code P.tf (calm next) ep w fuel = some (o.calm, s') ∧ s'.world = w' ∧
      s'.items = items.map calmItem) ∨
    ∃ w' items s', nParse P.gen P.code P.tf next ep w fuel = some (.nextPanicked, w', items) ∧
      iParse P.gen P.code P.tf (calm next) ep w (fuel + 1) = some (.lexerError none, s') ∧
      s'.world = w' ∧ s'.items = items.map calmItem ++ [some (.error none)] := by
  unfold nParse iParse iParseInit
  rw [calm_eq]
  rcases next w with ⟨_ | r, w1⟩
  · refine .inr (.inr ⟨w1, [], ⟨[ep.initState], [], some (.error none), w1, [some (.error none)]⟩,
      rfl, ?_, rfl, rfl⟩)
    dsimp only
    rw [iParseLoop, iParseStep_panicked (by simp) rfl]
  · exact nParseLoop_calm fuel ⟨[ep.initState], [], r, w1, [r]⟩

theorem Outcome.calm_inj {o o' : Outcome V E} (h : o.calm = o'.calm) : o = o' := by
  cases o <;> cases o' <;> simp_all [Outcome.calm]

theorem calmItem_inj : Function.Injective (calmItem (E := E) (Tok := Tok)) := by
  intro a b h
  rcases a with _ | _ | _ <;> rcases b with _ | _ | _ <;> simp_all [calmItem]

/-- **C60.** As long as `next()` does not panic, a call of `parse` is one with an iterator that never
panics; if it panics, that iterator returns a special error instead, and `parse` with it returns that
error right away, in the same world.  So everything that is known about iterators that do not panic
(C51) holds up to the panic. -/
theorem c60_calm :
    (∀ o, P.NReturns ep next w (.ended o) w' items ↔
      P.IReturns ep (calm next) w o.calm w' (items.map calmItem)) ∧
    (P.NReturns ep next w .nextPanicked w' items ↔
      P.IReturns ep (calm next) w (.lexerError none) w' (items.map calmItem ++ [some (.error none)])) ∧
    ∀ O I, P.IReturns ep (calm next) w O w' I →
      (∃ (o : Outcome V E) (l : List (Option (Except E Tok))), O = o.calm ∧ I = l.map calmItem) ∨
      (O = .lexerError none ∧
        ∃ l : List (Option (Except E Tok)), I = l.map calmItem ++ [some (.error none)]) := by
  have det : ∀ {f1 f2 : Nat} {r1 r2 : Outcome V (Option E) × IState Tok V W (Option E)},
      iParse P.gen P.code P.tf (calm next) ep w f1 = some r1 →
      iParse P.gen P.code P.tf (calm next) ep w f2 = some r2 → r1 = r2 := by
    intro f1 f2 r1 r2 h1 h2
    have a := iParseLoop_fuel h1 (Nat.le_max_left f1 f2)
    have b := iParseLoop_fuel h2 (Nat.le_max_right f1 f2)
    rw [a] at b
    exact Option.some.inj b
  have back : ∀ {fuel : Nat} {O : Outcome V (Option E)} {s' : IState Tok V W (Option E)},
      iParse P.gen P.code P.tf (calm next) ep w fuel = some (O, s') →
      (∃ (o : Outcome V E) (l : List (Option (Except E Tok))), O = o.calm ∧
        s'.items = l.map calmItem ∧
        nParse P.gen P.code P.tf next ep w fuel = some (.ended o, s'.world, l)) ∨
      (O = .lexerError none ∧ ∃ l : List (Option (Except E Tok)),
        s'.items = l.map calmItem ++ [some (.error none)] ∧
        nParse P.gen P.code P.tf next ep w fuel = some (.nextPanicked, s'.world, l)) := by
    intro fuel O s' h
    rcases nReturns_cases (P := P) (ep := ep) (next := next) (w := w) fuel with
      ⟨_, h2⟩ | ⟨o, w1, l, t, h1, h2, h3, h4⟩ | ⟨w1, l, t, h1, h2, h3, h4⟩
    · rw [h] at h2; cases h2
    · rw [h] at h2; cases h2
      exact .inl ⟨o, l, rfl, h4, by rw [h1, h3]⟩
    · cases det h h2
      exact .inr ⟨rfl, l, h4, by rw [h1, h3]⟩
  refine ⟨fun o => ⟨?_, ?_⟩, ⟨?_, ?_⟩, ?_⟩
  · rintro ⟨fuel, h⟩
    rcases nReturns_cases (P := P) (ep := ep) (next := next) (w := w) fuel with
      ⟨h1, _⟩ | ⟨o, w1, l, t, h1, h2, h3, h4⟩ | ⟨w1, l, t, h1, _⟩
    · rw [h] at h1; cases h1
    · rw [h] at h1; cases h1
      exact ⟨fuel, t, h2, h3, h4⟩
    · rw [h] at h1; cases h1
  · rintro ⟨fuel, s', h, rfl, hi⟩
    rcases back h with ⟨o', l, h1, h2, h3⟩ | ⟨h1, _⟩
    · cases Outcome.calm_inj h1
      rw [hi] at h2
      cases (List.map_injective_iff.2 calmItem_inj) h2
      exact ⟨fuel, h3⟩
    · cases o <;> cases h1
  · rintro ⟨fuel, h⟩
    rcases nReturns_cases (P := P) (ep := ep) (next := next) (w := w) fuel with
      ⟨h1, _⟩ | ⟨o, w1, l, t, h1, h2, h3, h4⟩ | ⟨w1, l, t, h1, h2, h3, h4⟩
    · rw [h] at h1; cases h1
    · rw [h] at h1; cases h1
    · rw [h] at h1; cases h1
      exact ⟨fuel + 1, t, h2, h3, h4⟩
  · rintro ⟨fuel, s', h, rfl, hi⟩
    rcases back h with ⟨o', l, h1, _⟩ | ⟨h1, l, h2, h3⟩
    · cases o' <;> cases h1
    · rw [hi] at h2
      cases (List.map_injective_iff.2 calmItem_inj) (List.append_inj' h2 rfl).1
      exact ⟨fuel, h3⟩
  · rintro O I ⟨fuel, s', h, rfl, rfl⟩
    rcases back h with ⟨o', l, h1, h2, _⟩ | ⟨h1, l, h2, _⟩
    · exact .inl ⟨o', l, h1, h2⟩
    · exact .inr ⟨h1, l, h2⟩

/-- **C60**, panics: if a call of `next()` panics, `parse` panics then and there.  The calls before
returned tokens that begin a sentence form of the entry point, and nothing else has run than the actions
of complete derivations over these tokens (interleaved evaluation, C51); then `next()` panicked, leaving
world `w'`. -/
theorem c60_panic (hep : ep ∈ P.gen.entries) (h : P.NReturns ep next w .nextPanicked w' items) :
    ∃ toks syms us vals form, items = toks.map (fun t => some (.ok t)) ∧
      (∃ w1, next w1 = (none, w')) ∧
      P.IMeans (calm next) syms toks ((calm next w).2, (calm next w).1) vals (w', some (.error none)) ∧
      syms.map (·.plain) = us.map some ∧ UDerives P.defs [.nt ep.name] (us ++ form) := by
  obtain ⟨fuel, s', h1, rfl, h3⟩ := c60_calm.2.1.1 h
  obtain ⟨h4, h5⟩ := iParseLoop_lexer h1
  obtain ⟨toks, la, syms, us, vals, form, e1, e2, e3, e4⟩ :=
    c51_moment hep ⟨s', h4, rfl, rfl⟩
  rw [h3] at e1
  obtain ⟨e5, e6⟩ := List.append_inj' e1 rfl
  cases e6
  refine ⟨toks, syms, us, vals, form, ?_, ?_, e2, e3, e4⟩
  · refine (List.map_injective_iff.2 calmItem_inj) (e5.trans ?_)
    simp [calmItem]
  · have key : ∀ {s : IState Tok V W (Option E)},
        ISteps P.gen P.code P.tf (calm next) ep (iParseInit (calm next) ep w) s →
        s.token = some (.error none) → ∃ w1, next w1 = (none, s.world) := by
      have hc : ∀ w1, (calm next w1).1 = some (.error none) → next w1 = (none, (calm next w1).2) := by
        intro w1 h
        rw [calm_eq] at h ⊢
        rcases hn : next w1 with ⟨_ | r, w2⟩
        · rfl
        · exfalso
          rw [hn] at h
          rcases r with _ | _ | _ <;> cases h
      intro s hs
      induction hs with
      | refl => intro ht; exact ⟨w, hc w ht⟩
      | @tail s1 s2 _ hn ih =>
        intro ht
        by_cases h0 : s1.token = some (.error none)
        · exfalso
          by_cases hst : s1.states = []
          · unfold iParseStep at hn; rw [hst] at hn; cases hn
          · rw [iParseStep_panicked hst h0] at hn; cases hn
        · unfold iParseStep at hn
          repeat' split at hn
          all_goals cases hn
          · exact ⟨_, hc _ ht⟩
          · exact absurd ht h0
    exact key h4 h5

/-- **C60.** Panics other than those of `next()` are panics of the user's actions. -/
theorem c60_other_panics (hep : ep ∈ P.gen.entries) {f : Fault}
    (h : P.NReturns ep next w (.ended (.fault f)) w' items) :
    f = .userPanic ∧ ∃ name, ∃ i : Nat, ∃ p : AstProduction X, ∃ e toks r1 vals la,
      (userProds P.defs name)[i]? = some p ∧ p.action = .infallible e ∧
      P.IMeans (calm next) p.symbols toks r1 vals (w', la) ∧
      P.code.run e (userEnv p.symbols vals) w' = none :=
  c51_panic hep ((c60_calm.1 _).1 h)

/-- **C60.** `Ok(v)` is returned only if `next()` did not panic, and with the value of C51. -/
theorem c60_value (hep : ep ∈ P.gen.entries) {v : V}
    (h : P.NReturns ep next w (.ended (.ok v)) w' items) :
    ∃ toks, items = toks.map (fun t => some (.ok t)) ++ [none] ∧
      P.IMeans (calm next) [.nonTerminal ep.name] toks ((calm next w).2, (calm next w).1) [.nt v]
        (w', none) := by
  obtain ⟨toks, h1, h2⟩ := c51_value hep ((c60_calm.1 _).1 h)
  refine ⟨toks, ?_, h2⟩
  refine (List.map_injective_iff.2 calmItem_inj) (h1.trans ?_)
  simp [calmItem]

/-- **C60.** For an iterator that does not panic this is what C51 is about. -/
theorem c60_noPanic {nx : W → Option (Except E Tok) × W} {o : Outcome V E} :
    P.NReturns ep (noPanic nx) w (.ended o) w' items ↔ P.IReturns ep nx w o w' items := by
  have step : ∀ s : IState Tok V W E, nParseStep P.gen P.code P.tf (noPanic nx) ep s =
      match iParseStep P.gen P.code P.tf nx ep s with
      | .next s' => .next s'
      | .done o s' => .done o s' := by
    intro s
    unfold nParseStep iParseStep
    cases s.states with
    | nil => rfl
    | cons q qs =>
      dsimp only
      cases lookaheadIdx P.gen P.tf s.token with
      | error e => rfl
      | ok ti =>
        dsimp only
        cases P.gen.action[q]? with
        | none => rfl
        | some row =>
          dsimp only
          rcases row[ti]? with _ | _ | _ | _ | _
          · rfl
          · dsimp only
            cases P.gen.terminalStrs[ti]? <;> cases P.gen.expected[q]? <;> rfl
          · rfl
          · dsimp only
            cases reduceStep P.gen P.code _ _ _ s.core <;> rfl
          · rfl
  have loop : ∀ (fuel : Nat) (s : IState Tok V W E),
      nParseLoop P.gen P.code P.tf (noPanic nx) ep fuel s =
        (iParseLoop P.gen P.code P.tf nx ep fuel s).map fun r => (.ended r.1, r.2.world, r.2.items) := by
    intro fuel
    induction fuel with
    | zero => intro s; rfl
    | succ fuel ih =>
      intro s
      simp only [nParseLoop, iParseLoop, step]
      cases iParseStep P.gen P.code P.tf nx ep s with
      | next s' => exact ih s'
      | done o s' => rfl
  have all : ∀ fuel, nParse P.gen P.code P.tf (noPanic nx) ep w fuel =
      (iParse P.gen P.code P.tf nx ep w fuel).map fun r => (.ended r.1, r.2.world, r.2.items) :=
    fun fuel => loop fuel _
  constructor
  · rintro ⟨fuel, h⟩
    rw [all] at h
    obtain ⟨⟨o', s'⟩, h1, h2⟩ := Option.map_eq_some_iff.1 h
    cases h2
    exact ⟨fuel, s', h1, rfl, rfl⟩
  · rintro ⟨fuel, s', h, rfl, rfl⟩
    exact ⟨fuel, by rw [all, h]; rfl⟩

/-! ## Examples -/

namespace Examples

/-- The lexer of `feedback`, which panics instead of reading a fourth number. -/
def fragile (w : Log) : Option (Option (Except String Tk)) × Log :=
  if (w.filter (·.1 = "Term")).length < 2 then
    (some (feedback none w).1, (feedback none w).2)
  else (none, w ++ [("panic", 0)])

def nrun {W : Type} (P : Compiled (Act W) String Nat W Tk) (i : Nat)
    (next : W → Option (Option (Except String Tk)) × W) (w : W) (fuel : Nat) :
    Option (Option (Outcome Nat String) × W × List (Option (Except String Tk))) :=
  match P.gen.entries[i]? with
  | none => none
  | some ep => (nParse P.gen P.code P.tf next ep w fuel).map fun r =>
      (match r.1 with | .ended o => some o | .nextPanicked => none, r.2)

set_option synthInstance.maxSize 1000 in
set_option synthInstance.maxHeartbeats 200000 in
set_option maxRecDepth 10000 in
theorem arith_fragile : nrun arith 0 fragile [] 100 =
    some (none, [("next", 0), ("next", 1), ("Term", 0), ("Expr", 1), ("next", 2), ("next", 3),
      ("Term", 0), ("Expr", 0), ("panic", 0)],
      [some (.ok (.num 0)), some (.ok .plus), some (.ok (.num 10)), some (.ok .plus)]) := by
  decide +kernel

/-- The hypotheses of `c60_panic`. -/
example : ∃ ep ∈ arith.gen.entries, ∃ w' items,
    arith.NReturns ep fragile [] .nextPanicked w' items ∧ items.length = 4 := by
  have h := arith_fragile
  unfold nrun at h
  split at h
  · cases h
  · next ep hep =>
    obtain ⟨⟨o, w', items⟩, h1, h2⟩ := Option.map_eq_some_iff.1 h
    refine ⟨ep, List.mem_of_getElem? hep, w', items, ?_, ?_⟩
    · cases o with
      | ended o => cases h2
      | nextPanicked => exact ⟨_, h1⟩
    · have := congrArg (fun r => r.2.2.length) h2
      exact this

/-- The hypotheses of `c60_value` and `c60_other_panics`, by `c60_noPanic`. -/
example : (∃ ep ∈ arith.gen.entries, ∃ w' items,
      arith.NReturns ep (noPanic (feedback none)) [] (.ended (.ok 30)) w' items) ∧
    ∃ ep ∈ panicky.gen.entries, ∃ w' items,
      panicky.NReturns ep (noPanic (feedback none)) [] (.ended (.fault .userPanic)) w' items := by
  refine ⟨?_, ?_⟩
  · obtain ⟨ep, hep, _, h⟩ := irun_returns arith_feedback
    exact ⟨ep, hep, _, _, c60_noPanic.2 h⟩
  · obtain ⟨⟨o, w', items⟩, h, h'⟩ := Option.map_eq_some_iff.1 panicky_feedback
    obtain ⟨ep, hep, _, h⟩ := irun_returns h
    cases h'
    exact ⟨ep, hep, _, _, c60_noPanic.2 h⟩

end Examples

end Parsegen
