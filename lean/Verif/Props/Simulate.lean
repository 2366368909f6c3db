import Verif.Proofs.Simulate
import Verif.Props.Actions
import Verif.Props.Entries
import Verif.Props.UserLevel

/-! # C56: the simulator used by the project's tests does what the emitted parser does -/

namespace Parsegen

variable {B X Ty V W Tok E : Type} [DecidableEq Ty] {P : Compiled X Ty V W Tok} {g : Grammar X Ty}
  {ep : EntryPoint} {input : Nat → Option Tok} {w w' : W} {n : Nat} {h : HashOrder} {f : X → B}
  {T : LRTable B}

/-- **C56.** The entry points start in the states 0, 1, ..: one for each `pub` definition, in the order
of the definitions. -/
theorem c56_entry_states (P : Compiled X Ty V W Tok) (hsz : loweredCount P.defs ≤ 4294967296) :
    (P.gen.entries.map fun ep => (ep.name, ep.initState)).Perm
      ((P.defs.filter (·.isPub)).map (·.name)).zipIdx := by
  obtain ⟨g, hlow, hgen, _⟩ := P.stages_ok
  obtain ⟨nts, ts, hl⟩ := lower_ok (by rw [← loweredCount_eq]; exact hsz) hlow
  obtain ⟨a, g', T, hst⟩ := generateParser_ok hgen
  have hs := (generateSemanticActionTable_ok hst.sem).1
  have hent : a.entries = ((g.nonTerminals.zipIdx.filter (·.1.isPublic)).map (·.2)).zipIdx := by
    have := hst.auto
    unfold generateAutomaton at this
    obtain ⟨⟨st, en⟩, h1, h2⟩ := Except.bind_eq_ok.1 this
    simp only at h2
    split at h2
    · cases h2
    · cases h2
      have := initStates_entries _ h1 (by simp) (by
        rw [List.zipIdx_map_snd]
        exact List.nodup_range')
      simpa using this
  have h1 : P.gen.entries.map (fun ep => (some ep.name, ep.initState)) =
      (P.order.iter a.entries).map (fun e => ((g.nonTerminals[e.1]?).map (·.name), e.2)) := by
    have key : ∀ {l : List (Nat × Nat)} {es : List EntryPoint},
        List.Forall₂ (fun e ep => entryPoint g' (semanticActionVariants g) e = .ok ep) l es →
        es.map (fun ep => (some ep.name, ep.initState)) =
          l.map (fun e => ((g.nonTerminals[e.1]?).map (·.name), e.2)) := by
      intro l es h
      induction h with
      | nil => rfl
      | @cons e ep _ _ he _ ih =>
        rw [List.map_cons, List.map_cons, ih]
        congr 1
        unfold entryPoint at he
        replace he := Except.bind_eq_ok.1 he
        obtain ⟨st, hst, he⟩ := he
        split at he
        · next n p k hn _ _ =>
          cases he
          obtain ⟨n0, e1, e2, _⟩ := hs.nt' hn
          rw [e1]
          unfold tryU32 at hst
          split at hst
          · cases hst; simp [e2]
          · cases hst
        · cases he
    exact key hst.entries
  have h2 : a.entries.map (fun e => ((g.nonTerminals[e.1]?).map (·.name), e.2)) =
      ((g.nonTerminals.filter (·.isPublic)).map fun n => some n.name).zipIdx := by
    have e1 : (g.nonTerminals.filter (·.isPublic)).map (fun n => some n.name) =
        ((g.nonTerminals.zipIdx.filter (·.1.isPublic)).map (·.2)).map
          fun i => (g.nonTerminals[i]?).map (·.name) := by
      have e2 : ∀ x ∈ g.nonTerminals.zipIdx.filter (·.1.isPublic),
          (g.nonTerminals[x.2]?).map (·.name) = some x.1.name := by
        intro x hx
        have := List.mem_zipIdx_iff_getElem?.1 (List.mem_filter.1 hx).1
        rw [this]; rfl
      rw [List.map_map (l := g.nonTerminals.zipIdx.filter (·.1.isPublic)),
        List.map_congr_left (f := (fun i => (g.nonTerminals[i]?).map (·.name)) ∘ (·.2))
          (g := fun x : NonTerminal X Ty × Nat => some x.1.name) e2]
      have e3 : g.nonTerminals.filter (·.isPublic) =
          (g.nonTerminals.zipIdx.filter (·.1.isPublic)).map (·.1) := by
        conv_lhs => rw [← List.zipIdx_map_fst 0 g.nonTerminals, List.filter_map]
        rfl
      rw [e3, List.map_map]
      rfl
    rw [hent, e1]
    generalize (g.nonTerminals.zipIdx.filter (·.1.isPublic)).map (·.2) = l
    rw [List.zipIdx_map (l := l)]
    rfl
  have h4 : (g.nonTerminals.filter (·.isPublic)).map (fun n => some n.name) =
      (P.defs.filter (·.isPub)).map (fun d => some d.name) := by
    have h5 := (c24_productions hsz hlow).2.1
    have h6 := congrArg (fun l => (l.filter (fun x => x.2.1)).map (fun x => some x.1)) h5
    simp only [List.filter_map, List.map_map, Function.comp_def] at h6
    rw [h6]
    clear * -
    induction P.defs with
    | nil => rfl
    | cons d ds ih =>
      rw [List.flatMap_cons, List.filter_append, List.map_append, ih]
      cases hd : d.isPub <;> simp [hd]
  have h3 := (P.order.perm a.entries).map fun e => ((g.nonTerminals[e.1]?).map (·.name), e.2)
  rw [← h1, h2, h4] at h3
  have h7 := h3.map fun x => (x.1.getD "", x.2)
  rw [List.map_map] at h7
  have h8 : ((P.defs.filter (·.isPub)).map (·.name)).zipIdx =
      (((P.defs.filter (·.isPub)).map (fun d => some d.name)).zipIdx).map
        fun x => (x.1.getD "", x.2) := by
    rw [show (P.defs.filter (·.isPub)).map (fun d => some d.name) =
      ((P.defs.filter (·.isPub)).map (·.name)).map some by simp]
    generalize (P.defs.filter (·.isPub)).map (·.name) = l
    rw [List.zipIdx_map (l := l), List.map_map]
    simp [Function.comp_def, Prod.map]
  rw [h8]
  exact h7

/-- **C56.** For every grammar the macro accepts, the steps of the project's tests succeed, whatever
the actions are replaced with (the tests use `()`). -/
theorem c56_table (hep : ep ∈ P.gen.entries)
    (hl : lower P.code.mkPath P.defs P.tokens.conversions = .ok g) (h : HashOrder) (f : X → B) :
    ∃ T, testTable h (g.mapA f) = .ok T := by
  obtain ⟨g', nts, ts, a, g1, T1, S⟩ := P.setup hep
  have := S.lower
  rw [hl] at this; cases this
  obtain ⟨T, h1, _⟩ := S.stages.testTable S.wf f h
  exact ⟨T, h1⟩

theorem sim_runs (hep : ep ∈ P.gen.entries) (h0 : ep.initState = 0)
    (hl : lower P.code.mkPath P.defs P.tokens.conversions = .ok g)
    (hT : testTable h (g.mapA f) = .ok T) (w : W) (fuel : Nat) :
    (parse P.gen P.code P.tf (okStream E input) ep w fuel = none ∧
      simulate T (g.mapA f) (idxStream P.tf input) fuel = none) ∨
    (∃ o s' x t', parse P.gen P.code P.tf (okStream E input) ep w fuel = some (o, s') ∧
      simulate T (g.mapA f) (idxStream P.tf input) fuel = some (x, t') ∧ EndRel o x ∧
      t'.calls = s'.calls) ∨
    ∃ s', parse P.gen P.code P.tf (okStream E input) ep w fuel = some (.fault .userPanic, s') ∧
      ∀ x t', simulate T (g.mapA f) (idxStream P.tf input) fuel = some (x, t') →
        s'.calls ≤ t'.calls := by
  obtain ⟨g', nts, ts, a, g1, T1, S⟩ := P.setup hep
  have := S.lower
  rw [hl] at this; cases this
  obtain ⟨T', h1, h2, h3⟩ := S.stages.testTable S.wf f h
  rw [hT] at h1; cases h1
  obtain ⟨e, nt, _, _, _, hE, hat, hext, hsem⟩ := S.run hep
  refine S.sim_loop hE hext hsem h2 h3 fuel (runInv_init hat) ⟨?_, ?_, rfl⟩
  · simp [parseInit, h0]
  · exact lookahead_okStream P.tf 0

/-- **C56.** What the emitted parser of the first `pub` definition does, `simulate` does as well: it ends
normally where the parser returns `Ok`, and with the panic `Stuck! state = ..` where the parser returns
a syntax error, after reading as many tokens. -/
theorem c56_parser (hep : ep ∈ P.gen.entries) (h0 : ep.initState = 0)
    (hl : lower P.code.mkPath P.defs P.tokens.conversions = .ok g)
    (hT : testTable h (g.mapA f) = .ok T) {o : Outcome V E}
    (hr : P.Returns ep (okStream E input) w o w' n) (ho : o ≠ .fault .userPanic) :
    ∃ x, EndRel o x ∧ Simulates T (g.mapA f) (idxStream P.tf input) x n := by
  obtain ⟨fuel, s, h1, rfl, rfl⟩ := hr
  rcases sim_runs (E := E) (input := input) hep h0 hl hT w fuel with
    ⟨h2, _⟩ | ⟨o', s', x, t', h2, h3, h4, h5⟩ | ⟨s', h2, _⟩
  · rw [h1] at h2; cases h2
  · rw [h1] at h2; cases h2
    exact ⟨x, h4, fuel, t', h3, h5⟩
  · rw [h1] at h2; cases h2
    exact absurd rfl ho

/-- **C56.** Conversely, what `simulate` does, the emitted parser does, unless an action panics; in
particular `simulate` has no other panics. -/
theorem c56_simulate (hep : ep ∈ P.gen.entries) (h0 : ep.initState = 0)
    (hl : lower P.code.mkPath P.defs P.tokens.conversions = .ok g)
    (hT : testTable h (g.mapA f) = .ok T) {x : SimEnd}
    (hs : Simulates T (g.mapA f) (idxStream P.tf input) x n) (w : W) :
    (∃ (o : Outcome V E) (w' : W), EndRel o x ∧ P.Returns ep (okStream E input) w o w' n) ∨
    ∃ (w' : W) (m : Nat), m ≤ n ∧
      P.Returns ep (okStream E input) w (.fault .userPanic) w' m := by
  obtain ⟨fuel, t, h1, rfl⟩ := hs
  rcases sim_runs (E := E) (input := input) hep h0 hl hT w fuel with
    ⟨_, h2⟩ | ⟨o', s', x, t', h2, h3, h4, h5⟩ | ⟨s', h2, h3⟩
  · rw [h1] at h2; cases h2
  · rw [h1] at h3; cases h3
    exact .inl ⟨o', _, h4, fuel, s', h2, rfl, h5.symm⟩
  · exact .inr ⟨_, _, h3 _ _ h1, fuel, s', h2, rfl, rfl⟩

/-- **C56.** If no action panics: `simulate` ends normally exactly where the emitted parser returns `Ok`,
is stuck exactly where that returns a syntax error, has no other end, and runs forever exactly where
that does. -/
theorem c56_iff (hep : ep ∈ P.gen.entries) (h0 : ep.initState = 0)
    (hl : lower P.code.mkPath P.defs P.tokens.conversions = .ok g)
    (hT : testTable h (g.mapA f) = .ok T)
    (hu : ∀ d ∈ P.defs, ∀ p ∈ d.productions, ∀ e, p.action = .infallible e →
      ∀ env w, P.code.run e env w ≠ none) (w : W) :
    (∀ n, Simulates T (g.mapA f) (idxStream P.tf input) .done n ↔
      ∃ v w', P.Returns (E := E) ep (okStream E input) w (.ok v) w' n) ∧
    (∀ n, Simulates T (g.mapA f) (idxStream P.tf input) .stuck n ↔
      ∃ f e w', P.Returns (E := E) ep (okStream E input) w (.parserError f e) w' n) ∧
    (∀ x n, Simulates T (g.mapA f) (idxStream P.tf input) x n → x = .done ∨ x = .stuck) ∧
    ((∀ fuel, simulate T (g.mapA f) (idxStream P.tf input) fuel = none) ↔
      ∀ fuel, parse P.gen P.code P.tf (okStream E input) ep w fuel = none) := by
  have key : ∀ {x : SimEnd} {n : Nat}, Simulates T (g.mapA f) (idxStream P.tf input) x n →
      ∃ (o : Outcome V E) (w' : W), EndRel o x ∧ P.Returns ep (okStream E input) w o w' n := by
    intro x n hs
    rcases c56_simulate (E := E) hep h0 hl hT hs w with h | ⟨w', m, _, hr⟩
    · exact h
    · exact absurd hr (c06_no_panic hep hu)
  refine ⟨fun n => ⟨fun hs => ?_, ?_⟩, fun n => ⟨fun hs => ?_, ?_⟩, fun x n hs => ?_, ?_⟩
  · obtain ⟨o, w', hk, hr⟩ := key hs
    cases hk with | ok v => exact ⟨v, w', hr⟩
  · rintro ⟨v, w', hr⟩
    obtain ⟨x, hk, hs⟩ := c56_parser hep h0 hl hT hr (by simp)
    cases hk; exact hs
  · obtain ⟨o, w', hk, hr⟩ := key hs
    cases hk with | stuck f e => exact ⟨f, e, w', hr⟩
  · rintro ⟨f, e, w', hr⟩
    obtain ⟨x, hk, hs⟩ := c56_parser hep h0 hl hT hr (by simp)
    cases hk; exact hs
  · obtain ⟨o, w', hk, hr⟩ := key hs
    cases hk with
    | ok => exact .inl rfl
    | stuck => exact .inr rfl
  · constructor
    · intro hn fuel
      rcases sim_runs (E := E) (input := input) hep h0 hl hT w fuel with
        ⟨h2, _⟩ | ⟨o', s', x, t', h2, h3, h4, h5⟩ | ⟨s', h2, _⟩
      · exact h2
      · rw [hn] at h3; cases h3
      · exact absurd ⟨fuel, s', h2, rfl, rfl⟩ (c06_no_panic hep hu (f := .userPanic))
    · intro hn fuel
      rcases sim_runs (E := E) (input := input) hep h0 hl hT w fuel with
        ⟨_, h2⟩ | ⟨o', s', x, t', h2, h3, h4, h5⟩ | ⟨s', h2, _⟩
      · exact h2
      · rw [hn] at h2; cases h2
      · rw [hn] at h2; cases h2

/-- Every run of the program with erased actions is free of panics. -/
theorem trivial_no_panic (hep : ep ∈ P.gen.entries) {f : Fault} {w w' : Unit}
    {input : Nat → Option (Except E Tok)} :
    ¬ P.trivial.Returns ep input w (.fault f) w' n := by
  refine c06_no_panic (P := P.trivial) hep ?_
  intro d _ p _ e _ env w
  simp [Compiled.trivial, trivialCode]

/-- **C56.** What a passing `simulate` test shows: the tokens are a sentence, and they have all been
read. -/
theorem c56_sound (hep : ep ∈ P.gen.entries) (h0 : ep.initState = 0)
    (hl : lower P.code.mkPath P.defs P.tokens.conversions = .ok g)
    (hT : testTable h (g.mapA f) = .ok T)
    (hs : Simulates T (g.mapA f) (idxStream P.tf input) .done n) :
    ∃ toks : List Tok, (∀ i, i < n → input i = toks[i]?) ∧ n = toks.length + 1 ∧
      P.IsSentence ep.name toks := by
  rcases c56_simulate (P := P.trivial) (ep := ep) (E := Unit) hep h0 hl hT hs () with
    ⟨o, w', hk, hr⟩ | ⟨w', m, _, hr⟩
  · cases hk with
    | ok v =>
      obtain ⟨toks, h1, h2, h3⟩ := c01_sentence (P := P.trivial) hep hr
      obtain ⟨h4, h5⟩ := c13_ok_reads_all (P := P.trivial) hep hr
      obtain ⟨toks', h6, h7⟩ := c13_lazy (P := P.trivial) hep hr
      have hn : n = toks.length + 1 := by
        have a1 : toks.length < n := by
          rcases Nat.lt_or_ge toks.length n with h | h
          · exact h
          · have := h1 (n - 1) _ (List.getElem?_eq_getElem (by omega))
            rw [h4] at this; cases this
        rcases Nat.lt_or_ge toks.length (n - 1) with h | h
        · obtain ⟨t, ht⟩ := h5 _ h
          rw [h2] at ht; cases ht
        · omega
      refine ⟨toks, ?_, hn, h3⟩
      intro i hi
      rcases Nat.lt_or_ge i toks.length with h | h
      · have := h1 i _ (List.getElem?_eq_getElem h)
        rw [List.getElem?_eq_getElem h]
        simp only [okStream] at this
        cases hin : input i with
        | none => rw [hin] at this; cases this
        | some t => rw [hin] at this; cases this; rfl
      · have : i = toks.length := by omega
        subst this
        simp only [okStream] at h2
        cases hin : input toks.length with
        | none => simp
        | some t => rw [hin] at h2; cases h2
  · exact absurd hr (trivial_no_panic hep)

/-- **C56.** For LR(1) grammars without the FIRST gap, a `simulate` test passes exactly for the
sentences. -/
theorem c56_complete (hnd : (P.defs.map (·.name)).Nodup) (hlr : ULR1 P.defs)
    (hh : UHarmless P.defs) (hep : ep ∈ P.gen.entries) (h0 : ep.initState = 0)
    (hl : lower P.code.mkPath P.defs P.tokens.conversions = .ok g)
    (hT : testTable h (g.mapA f) = .ok T) {toks : List Tok} (hin : ∀ i, input i = toks[i]?) :
    (∃ n, Simulates T (g.mapA f) (idxStream P.tf input) .done n) ↔ P.IsSentence ep.name toks := by
  have hE : Ends (okStream Unit input) toks := by
    constructor
    · intro i t ht; simp [okStream, hin, ht]
    · simp [okStream, hin]
  have hu : ∀ d ∈ P.trivial.defs, ∀ p ∈ d.productions, ∀ e, p.action = .infallible e →
      ∀ env w, P.trivial.code.run e env w ≠ none := by
    intro d _ p _ e _ env w
    simp [Compiled.trivial, trivialCode]
  have key := c04_user (P := P.trivial) (w := ()) hnd hlr hh hep hE hu
  constructor
  · rintro ⟨n, hs⟩
    rcases c56_simulate (P := P.trivial) (ep := ep) (E := Unit) hep h0 hl hT hs () with
      ⟨o, w', hk, hr⟩ | ⟨w', m, _, hr⟩
    · cases hk with
      | ok v => exact key.1 ⟨_, _, _, hr⟩
    · exact absurd hr (trivial_no_panic hep)
  · intro hS
    obtain ⟨v, w', n, hr⟩ := key.2 hS
    obtain ⟨x, hx, hs⟩ := c56_parser (P := P.trivial) hep h0 hl hT hr (by simp)
    cases hx
    exact ⟨n, hs⟩

/-! ## Non-vacuity -/

namespace Examples

/-- The simulator on the grammar `arith`, its actions replaced with `()`. -/
def simArith (toks : List Tk) (fuel : Nat) : Option (SimEnd × Nat) :=
  match lower code.mkPath arithDefs tk.conversions with
  | .error _ => none
  | .ok g =>
    match testTable .insertion (g.mapA fun _ => ()) with
    | .error _ => none
    | .ok T => (simulate T (g.mapA fun _ => ()) (idxStream arith.tf (toks[·]?)) fuel).map
        fun r => (r.1, r.2.calls)

set_option maxRecDepth 10000 in
/-- `1 + (2 + 3)`: seven tokens and the end of the input are read. -/
theorem simArith_ok : simArith [.num 1, .plus, .lp, .num 2, .plus, .num 3, .rp] 100 =
    some (.done, 8) := by
  decide +kernel

set_option maxRecDepth 10000 in
/-- `1 + ) 2`: stuck at the third token. -/
theorem simArith_stuck : simArith [.num 1, .plus, .rp, .num 2] 100 = some (.stuck, 3) := by
  decide +kernel

theorem simArith_simulates {toks : List Tk} {fuel n : Nat} {x : SimEnd}
    (h : simArith toks fuel = some (x, n)) :
    ∃ g T, lower arith.code.mkPath arith.defs arith.tokens.conversions = .ok g ∧
      testTable .insertion (g.mapA fun _ => ()) = .ok T ∧
      Simulates T (g.mapA fun _ => ()) (idxStream arith.tf (toks[·]?)) x n := by
  unfold simArith at h
  split at h
  · cases h
  · next g hg =>
    split at h
    · cases h
    · next T hT =>
      obtain ⟨⟨x', s⟩, h1, h2⟩ := Option.map_eq_some_iff.1 h
      cases h2
      exact ⟨g, T, hg, hT, fuel, s, h1, rfl⟩

/-- `Expr` is the entry point that starts in state 0. -/
theorem arith_first : ∃ ep ∈ arith.gen.entries, ep.name = "Expr" ∧ ep.initState = 0 := by
  decide +kernel

/-- The hypotheses of `c56_simulate` and `c56_sound` hold: the simulator accepts, so the tokens are a
sentence, and the emitted parser returns `Ok`. -/
example : arith.IsSentence "Expr" [.num 1, .plus, .lp, .num 2, .plus, .num 3, .rp] := by
  obtain ⟨ep, hep, hn, h0⟩ := arith_first
  obtain ⟨g, T, hl, hT, hs⟩ := simArith_simulates simArith_ok
  exact hn ▸ (c56_complete arith_regular.names arith_ulr1 arith_harmless hep h0 hl hT
    (fun _ => rfl)).1 ⟨_, hs⟩

/-- The simulator is stuck, so the emitted parser reports a syntax error after three calls. -/
example (w : Log) : ∃ ep ∈ arith.gen.entries, ∃ (o : Outcome Nat Unit) (w' : Log) (m : Nat),
    m ≤ 3 ∧ (o = .fault .userPanic ∨ m = 3 ∧ ∃ f e, o = .parserError f e) ∧
    arith.Returns ep (okStream Unit ([Tk.num 1, .plus, .rp, .num 2][·]?)) w o w' m := by
  obtain ⟨ep, hep, hn, h0⟩ := arith_first
  obtain ⟨g, T, hl, hT, hs⟩ := simArith_simulates simArith_stuck
  rcases c56_simulate (E := Unit) hep h0 hl hT hs w with ⟨o, w', hk, hr⟩ | ⟨w', m, hm, hr⟩
  · cases hk with
    | stuck f e => exact ⟨ep, hep, _, w', 3, Nat.le_refl _, .inr ⟨rfl, f, e, rfl⟩, hr⟩
  · exact ⟨ep, hep, _, w', m, hm, .inl rfl, hr⟩

end Examples

end Parsegen
