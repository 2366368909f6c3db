import Verif.Proofs.Functor
import Verif.Props.Interactive

/-! # C52: the actions do not influence parsing -/

namespace Parsegen

variable {X Y Ty V V' W W' Tok E : Type} [DecidableEq Ty] {P : Compiled X Ty V W Tok}
  {Q : Compiled Y Ty V' W' Tok} {ep : EntryPoint} {input : Nat → Option (Except E Tok)} {w w' : W}
  {n : Nat}

/-! ## Erasing the actions -/

omit [DecidableEq Ty] in
theorem sameItem_erase {i : GrammarItem X Ty} {j : GrammarItem Y Ty} (h : SameItem i j) :
    i.mapA (fun _ => ()) = j.mapA (fun _ => ()) := by
  have key : ∀ {l : List (AstProduction X)} {l' : List (AstProduction Y)},
      l.map (·.shape) = l'.map (·.shape) →
      l.map (·.mapA fun _ => ()) = l'.map (·.mapA fun _ => ()) := by
    intro l
    induction l with
    | nil => intro l' h; cases l' with
      | nil => rfl
      | cons => simp at h
    | cons p l ih =>
      intro l' h
      cases l' with
      | nil => simp at h
      | cons q l' =>
        simp only [List.map_cons, List.cons.injEq] at h ⊢
        refine ⟨?_, ih h.2⟩
        obtain ⟨sp, ap⟩ := p
        obtain ⟨sq, aq⟩ := q
        obtain ⟨h1, h2⟩ := Prod.mk.inj h.1
        cases h1
        cases ap <;> cases aq <;> first | rfl | cases h2
  cases h with
  | typeDef => rfl
  | tokenEnum => rfl
  | nonTerminal h =>
    simp only [GrammarItem.mapA, AstNonTerminal.mapA, h.isPub, h.name, h.typeDecl, key h.productions]

omit [DecidableEq Ty] in
theorem sameItems_erase {l : List (GrammarItem X Ty)} {l' : List (GrammarItem Y Ty)}
    (h : List.Forall₂ SameItem l l') :
    l.map (·.mapA fun _ => ()) = l'.map (·.mapA fun _ => ()) := by
  induction h with
  | nil => rfl
  | cons h _ ih => simp [sameItem_erase h, ih]

/-- **C52**, the macro: whether it accepts the input, and with which error it fails, does not depend on
the actions, and neither does what it emits, up to the bodies of the semantic action functions. -/
theorem c52_macro {order : HashOrder} {mk : String → X} {mk' : String → Y}
    {items : List (GrammarItem X Ty)} {items' : List (GrammarItem Y Ty)}
    (h : List.Forall₂ SameItem items items') :
    (∀ e, parserMacro order mk items = .error e ↔ parserMacro order mk' items' = .error e) ∧
    ∀ gen t gen' t', parserMacro order mk items = .ok (gen, t) →
      parserMacro order mk' items' = .ok (gen', t') →
      t = t' ∧ gen.action = gen'.action ∧ gen.goto = gen'.goto ∧ gen.expected = gen'.expected ∧
      gen.terminalStrs = gen'.terminalStrs ∧ gen.nTerminals = gen'.nTerminals ∧
      gen.entries = gen'.entries ∧
      gen.semActions.map (fun s => (s.pops, s.variant)) =
        gen'.semActions.map (fun s => (s.pops, s.variant)) := by
  have h1 := parserMacro_mapA (fun _ : X => ()) order mk items
  have h2 := parserMacro_mapA (fun _ : Y => ()) order mk' items'
  rw [sameItems_erase h] at h1
  have h3 := h1.symm.trans h2
  constructor
  · intro e
    constructor
    · intro h4
      rw [h4] at h3
      cases h5 : parserMacro order mk' items' with
      | error e' => rw [h5] at h3; cases h3; rfl
      | ok r => rw [h5] at h3; cases h3
    · intro h4
      rw [h4] at h3
      cases h5 : parserMacro order mk items with
      | error e' => rw [h5] at h3; cases h3; rfl
      | ok r => rw [h5] at h3; cases h3
  · intro gen t gen' t' h4 h5
    rw [h4, h5] at h3
    have h6 : (gen.mapA (fun _ => ()), t) = (gen'.mapA (fun _ => ()), t') := by
      simpa [Except.map] using h3
    obtain ⟨h7, h8⟩ := Prod.mk.inj h6
    refine ⟨h8, congrArg Generated.action h7, congrArg Generated.goto h7,
      congrArg Generated.expected h7, congrArg Generated.terminalStrs h7,
      congrArg Generated.nTerminals h7, congrArg Generated.entries h7, ?_⟩
    have := congrArg (fun g : Generated Unit => g.semActions.map fun s => (s.pops, s.variant)) h7
    simpa [Generated.mapA, SemFn.mapA, Function.comp_def] using this

/-- The program without its actions. -/
def Compiled.erase (P : Compiled X Ty V W Tok) : Compiled Unit Ty Unit Unit Tok where
  order := P.order
  code := trivialCode fun _ => ()
  items := P.items.map (·.mapA fun _ => ())
  gen := P.gen.mapA fun _ => ()
  tokens := P.tokens
  toR := P.toR
  inj := fun _ => ()
  tf := P.trivial.tf
  accepted := by
    have := parserMacro_mapA (fun _ : X => ()) P.order P.code.mkPath P.items
    rw [P.accepted] at this
    exact this
  idx := P.trivial.idx
  value := P.trivial.value
  simple := P.simple

omit [DecidableEq Ty] in
theorem semFn_erase (f : SemFn X) (mk : String → X) (st : List (SAR Unit)) :
    (f.mapA fun _ => ()).run (trivialCode fun _ => ()) st () = f.run (trivialCode mk) st () := rfl

theorem parseStep_erase (s : PState Tok Unit Unit E) :
    parseStep P.erase.gen P.erase.code P.erase.tf input ep s =
      parseStep P.trivial.gen P.trivial.code P.trivial.tf input ep s := by
  have hsem : ∀ i : Nat, P.erase.gen.semActions[i]? =
      (P.trivial.gen.semActions[i]?).map (SemFn.mapA fun _ => ()) := by
    intro i
    exact List.getElem?_map ..
  have hr : ∀ nt n sem (s : PState Tok Unit Unit E), reduceStep P.erase.gen P.erase.code nt n sem s =
      reduceStep P.trivial.gen P.trivial.code nt n sem s := by
    intro nt n sem s
    unfold reduceStep
    rw [hsem]
    cases P.trivial.gen.semActions[sem]? <;> rfl
  have ha : ∀ k ai (s : PState Tok Unit Unit E), acceptStep P.erase.gen P.erase.code k ai s =
      acceptStep P.trivial.gen P.trivial.code k ai s := by
    intro k ai s
    unfold acceptStep
    rw [hsem]
    cases P.trivial.gen.semActions[ai]? <;> rfl
  unfold parseStep
  simp only [hr, ha]
  rfl

theorem parseLoop_erase : ∀ (fuel : Nat) (s : PState Tok Unit Unit E),
    parseLoop P.erase.gen P.erase.code P.erase.tf input ep fuel s =
      parseLoop P.trivial.gen P.trivial.code P.trivial.tf input ep fuel s
  | 0, s => rfl
  | fuel + 1, s => by
    unfold parseLoop
    rw [parseStep_erase]
    split
    · rfl
    · exact parseLoop_erase fuel _

theorem returns_erase {o : Outcome Unit E} :
    P.erase.Returns ep input () o () n ↔ P.trivial.Returns ep input () o () n := by
  unfold Compiled.Returns parse
  simp only [parseLoop_erase]

theorem Compiled.SameGrammar.symm (h : P.SameGrammar Q) : Q.SameGrammar P := by
  refine ⟨h.order.symm, ?_, h.toR.symm⟩
  have := h.items
  refine this.flip.imp ?_
  intro j i hs
  cases hs with
  | typeDef => exact .typeDef _
  | tokenEnum => exact .tokenEnum _
  | nonTerminal h => exact .nonTerminal ⟨h.isPub.symm, h.name.symm, h.typeDecl.symm, h.productions.symm⟩

theorem Compiled.SameGrammar.erase_eq (h : P.SameGrammar Q) :
    P.erase.gen = Q.erase.gen ∧ P.tokens = Q.tokens ∧ P.erase.tf = Q.erase.tf := by
  have e1 : P.erase.items = Q.erase.items := sameItems_erase h.items
  have a1 := P.erase.accepted
  have a2 := Q.erase.accepted
  have e0 : P.erase.order = Q.erase.order := h.order
  rw [e1, e0] at a1
  have a3 := Except.ok.inj (a1.symm.trans a2)
  obtain ⟨h1, h2⟩ := Prod.mk.inj a3
  have h2' : P.tokens = Q.tokens := h2
  refine ⟨h1, h2', ?_⟩
  have e3 : P.erase.toR = Q.erase.toR := h.toR
  have i1 : P.erase.tf.terminalIdx = Q.erase.tf.terminalIdx := by
    funext t
    have b1 := P.erase.idx t
    have b2 := Q.erase.idx t
    rw [h2, e3, b2] at b1
    exact (Option.some.inj b1).symm
  have i2 : P.erase.tf.value = Q.erase.tf.value := by
    funext t
    have b1 := P.erase.value t
    have b2 := Q.erase.value t
    rw [h2, e3] at b1
    exact Option.some.inj (b1.symm.trans b2)
  cases hp : P.erase.tf
  cases hq : Q.erase.tf
  rw [hp, hq] at i1 i2
  cases i1; cases i2; rfl

/-- **C52**: the entry points do not depend on the actions. -/
theorem c52_entries (h : P.SameGrammar Q) : P.gen.entries = Q.gen.entries :=
  congrArg Generated.entries h.erase_eq.1

/-- **C52**: the classification of tokens does not depend on the actions. -/
theorem c52_cls (h : P.SameGrammar Q) : P.cls = Q.cls := by
  funext t
  unfold Compiled.cls
  rw [h.erase_eq.2.1, h.toR]

/-! ## From a program to the one without actions, and back -/

theorem returns_trivial {o : Outcome V E} (h : P.Returns ep input w o w' n)
    (ho : o ≠ .fault .userPanic) : P.trivial.Returns ep input () o.kind () n := by
  have h1 := c51_control (c51_fixed.1 h) ho
  simp only [List.length_map, List.length_range] at h1
  refine c14_unread_input (fun i hi => ?_) h1
  unfold itemStream
  simp [List.getElem?_range hi]

omit [DecidableEq Ty] in
theorem parseLoop_after {gen : Generated X} {u : UserCode X V W} {tf : TokenFns Tok V} {k : Nat}
    {s s1 : PState Tok V W E} {r : Outcome V E × PState Tok V W E}
    (h : Iterations gen u tf input ep k s s1) {fuel : Nat}
    (hr : parseLoop gen u tf input ep fuel s = some r) :
    ∃ f, fuel = k + (f + 1) ∧ parseLoop gen u tf input ep (f + 1) s1 = some r := by
  induction h with
  | zero =>
    cases fuel with
    | zero => cases hr
    | succ f => exact ⟨f, by omega, hr⟩
  | @succ k s s1 s2 h hn ih =>
    obtain ⟨f, h1, h2⟩ := ih hr
    unfold parseLoop at h2
    rw [hn] at h2
    dsimp only at h2
    cases f with
    | zero => cases h2
    | succ f => exact ⟨f, by omega, h2⟩

omit [DecidableEq Ty] in
theorem parseStep_calls_le {gen : Generated X} {u : UserCode X V W} {tf : TokenFns Tok V}
    {s s' : PState Tok V W E} (h : parseStep gen u tf input ep s = .next s') : s.calls ≤ s'.calls := by
  rcases parseStep_next h with ⟨r, hr, hr'⟩ | ⟨c, hc1, hr, hr', ht⟩ <;> omega

omit [DecidableEq Ty] in
theorem parseLoop_calls_le {gen : Generated X} {u : UserCode X V W} {tf : TokenFns Tok V}
    {o : Outcome V E} {s' : PState Tok V W E} : ∀ {fuel : Nat} {s : PState Tok V W E},
      parseLoop gen u tf input ep fuel s = some (o, s') → s.calls ≤ s'.calls
  | 0, s, h => by cases h
  | fuel + 1, s, h => by
    unfold parseLoop at h
    split at h
    · next hd => cases h; exact Nat.le_of_eq (parseStep_calls hd).symm
    · next s1 hd => exact Nat.le_trans (parseStep_calls_le hd) (parseLoop_calls_le h)

omit [DecidableEq Ty] in
theorem ISteps.iterations {gen : Generated X} {u : UserCode X V W} {tf : TokenFns Tok V}
    {next : W → Option (Except E Tok) × W} {s s' : IState Tok V W E}
    (h : ISteps gen u tf next ep s s') : ∃ k, IIterations gen u tf next ep k s s' := by
  induction h with
  | refl => exact ⟨0, .zero _⟩
  | tail _ hn ih =>
    obtain ⟨k, h⟩ := ih
    exact ⟨k + 1, .succ h hn⟩

/-- Moments of a program on a fixed stream, seen by the program without actions. -/
theorem counted_iterations {k : Nat} {s : IState Tok V (W × Nat) E}
    (h : IIterations P.withCounter.gen P.withCounter.code P.withCounter.tf (counterNext input) ep k
      (iParseInit (counterNext input) ep (w, 0)) s) :
    Iterations P.trivial.gen P.trivial.code P.trivial.tf input ep k (parseInit input ep ()) s.bare ∧
      ∃ s0 : PState Tok V W E, s = s0.counted input := by
  have hs : ∃ s0 : PState Tok V W E, s = s0.counted input := by
    generalize hs0 : (iParseInit (counterNext input) ep (w, 0) : IState Tok V (W × Nat) E) = t at h
    induction h with
    | zero => subst hs0; exact ⟨parseInit input ep w, rfl⟩
    | succ _ hn ih =>
      obtain ⟨s0, rfl⟩ := ih hs0
      have := (iParseStep_counted (P := P) (input := input) P.gen P.tf ep s0).symm.trans hn
      cases hp : parseStep P.gen P.code P.tf input ep s0 with
      | next s1 => rw [hp] at this; cases this; exact ⟨s1, rfl⟩
      | done o s1 => rw [hp] at this; cases this
  refine ⟨?_, hs⟩
  obtain ⟨s0, rfl⟩ := hs
  refine h.bare (P := P.withCounter) ?_
  intro i x hx
  obtain ⟨hi, hx⟩ := List.getElem?_eq_some_iff.1 hx
  simp only [PState.counted, List.getElem_map, List.getElem_range] at hx
  exact hx

theorem trivial_returns {o : Outcome Unit E} (h : P.trivial.Returns ep input () o () n) (w : W) :
    (∃ (o' : Outcome V E) (w' : W), P.Returns ep input w o' w' n ∧ o'.kind = o) ∨
    ∃ (w' : W) (m : Nat), m ≤ n ∧ P.Returns ep input w (.fault .userPanic : Outcome V E) w' m := by
  have h0 := h
  obtain ⟨fuel, st, h, -, rfl⟩ := h
  unfold parse at h
  rcases iParseLoop_or (gen := P.withCounter.gen) (u := P.withCounter.code) (tf := P.withCounter.tf)
    (next := counterNext input) (ep := ep) fuel (iParseInit (counterNext input) ep (w, 0)) with
    ⟨o', s1, s', h1, h2, h3⟩ | ⟨s', h1⟩
  · obtain ⟨k, h1⟩ := h1.iterations
    obtain ⟨h4, s0, rfl⟩ := counted_iterations h1
    obtain ⟨f, _, h5⟩ := parseLoop_after h4 h
    have h6 := parseLoop_calls_le h5
    have hret : P.Returns ep input w o' s'.world.1 s0.calls := by
      have h7 := (iParseLoop_counted (P := P) (input := input) P.gen P.tf ep fuel
        (parseInit input ep w)).symm.trans h2
      obtain ⟨⟨o1, s2⟩, h8, h9⟩ := Option.map_eq_some_iff.1 h7
      cases h9
      refine ⟨fuel, s2, h8, rfl, ?_⟩
      simpa [PState.counted] using congrArg List.length h3
    by_cases ho : o' = .fault .userPanic
    · subst ho
      refine .inr ⟨_, _, ?_, hret⟩
      simpa [IState.bare, PState.counted] using h6
    · have h8 := returns_trivial hret ho
      obtain ⟨h9, _, h10⟩ := returns_unique h8 h0
      exact .inl ⟨o', _, by rw [← h10]; exact hret, h9⟩
  · exfalso
    obtain ⟨f, h2, _⟩ := parseLoop_after (counted_iterations h1).1 h
    omega

/-- **C52.** The actions have no influence on parsing but by panicking: if two programs differ in their
actions only, and one returns on some input after `n` calls of `next()`, then the other one returns on
that input after `n` calls as well, with the same kind of outcome -- `Ok` (with whatever value), the
same lexer error, or a syntax error with the same contents -- unless one of its actions panics
before. -/
theorem c52_actions (h : P.SameGrammar Q) {o : Outcome V E} (hr : P.Returns ep input w o w' n)
    (ho : o ≠ .fault .userPanic) (w1 : W') :
    (∃ (o' : Outcome V' E) (w1' : W'), Q.Returns ep input w1 o' w1' n ∧ o'.kind = o.kind) ∨
    ∃ (w1' : W') (m : Nat), m ≤ n ∧ Q.Returns ep input w1 (.fault .userPanic : Outcome V' E) w1' m := by
  refine trivial_returns (returns_erase.1 ?_) w1
  have h1 := returns_erase.2 (returns_trivial hr ho)
  unfold Compiled.Returns at h1 ⊢
  obtain ⟨e1, _, e3⟩ := h.erase_eq
  rw [e1, e3] at h1
  exact h1

/-- **C52**, for actions that do not panic. -/
theorem c52_no_panic (h : P.SameGrammar Q) (hep : ep ∈ P.gen.entries)
    (hu : ∀ d ∈ Q.defs, ∀ p ∈ d.productions, ∀ e, p.action = .infallible e →
      ∀ env w, Q.code.run e env w ≠ none)
    {o : Outcome V E} (hr : P.Returns ep input w o w' n) (ho : o ≠ .fault .userPanic) (w1 : W') :
    ∃ (o' : Outcome V' E) (w1' : W'), Q.Returns ep input w1 o' w1' n ∧ o'.kind = o.kind := by
  rcases c52_actions h hr ho w1 with h1 | ⟨w1', m, _, h1⟩
  · exact h1
  · rw [c52_entries h] at hep
    exact absurd h1 (c06_no_panic hep hu)

/-- **C52**, for calls that do not return: whatever the actions, all that can end the call is a panic of
an action. -/
theorem c52_diverges (h : P.SameGrammar Q)
    (hd : ∀ (o : Outcome V E) (w' : W) (n : Nat), ¬ P.Returns ep input w o w' n) {o : Outcome V' E}
    {w1 w1' : W'} {m : Nat} (hr : Q.Returns ep input w1 o w1' m) : o = .fault .userPanic := by
  by_contra ho
  rcases c52_actions h.symm hr ho w with ⟨o', w', h1, _⟩ | ⟨w', m', _, h1⟩
  · exact hd _ _ _ h1
  · exact hd _ _ _ h1

/-! ## Example -/

namespace Examples

/-- The grammar of `arith` with actions that count the numbers, without a log, and panic at more than
`max`. -/
def countDefs (max : Nat) : List (AstNonTerminal (Act Nat) String) :=
  let one : AstAction (Act Nat) := .infallible fun _ w => if w < max then some (w + 1, w + 1) else none
  let pass : AstAction (Act Nat) := .infallible fun _ w => some (w, w)
  [ ⟨true, "Expr", "u64",
      [⟨[nm "a" (.nonTerminal "Expr"), .terminal "+", nm "b" (.nonTerminal "Term")], pass⟩,
        ⟨[nm "a" (.nonTerminal "Term")], pass⟩]⟩,
    ⟨true, "Term", "u64",
      [⟨[nm "a" (.terminal "n")], one⟩,
        ⟨[.terminal "(", nm "a" (.nonTerminal "Expr"), .terminal ")"], pass⟩]⟩ ]

/-- The items of `arith` and of the counting program are the same up to the actions. -/
theorem count_same (max : Nat) :
    List.Forall₂ SameItem (itemsOf arithDefs) (itemsOf (countDefs max)) :=
  .cons (.tokenEnum _) (.cons (.nonTerminal ⟨rfl, rfl, rfl, rfl⟩)
    (.cons (.nonTerminal ⟨rfl, rfl, rfl, rfl⟩) .nil))

/-- The macro accepts the counting program, because it accepts `arith`. -/
theorem count_ok (max : Nat) :
    (parserMacro .insertion code.mkPath (itemsOf (countDefs max))).isOk = true := by
  cases h : parserMacro .insertion code.mkPath (itemsOf (countDefs max)) with
  | ok r => rfl
  | error e =>
    have h1 := ((c52_macro (order := .insertion) (mk := code.mkPath) (mk' := code.mkPath)
      (count_same max)).1 e).2 h
    have h2 := arith_ok
    rw [h1] at h2
    cases h2

def count (max : Nat) : Compiled (Act Nat) String Nat Nat Tk := program (countDefs max) (count_ok max)

theorem arith_count (max : Nat) : arith.SameGrammar (count max) := ⟨rfl, count_same max, rfl⟩

/-- The hypotheses of `c52_actions`: `1 + (2 + 3)` is accepted by `arith`, so it is accepted by the
counting program or that one panics. -/
example (max : Nat) : ∃ ep ∈ (count max).gen.entries,
    (∃ v w', (count max).Returns ep (stream [.num 1, .plus, .lp, .num 2, .plus, .num 3, .rp]) 0
      (.ok v) w' 8) ∨
    ∃ w' m, m ≤ 8 ∧ (count max).Returns ep (stream [.num 1, .plus, .lp, .num 2, .plus, .num 3, .rp]) 0
      (.fault .userPanic) w' m := by
  obtain ⟨ep, hep, _, h⟩ := run_returns arith_run
  refine ⟨ep, by rw [← c52_entries (arith_count max)]; exact hep, ?_⟩
  rcases c52_actions (arith_count max) h (by simp) 0 with ⟨o', w', h1, h2⟩ | h1
  · left
    cases o' with
    | ok v => exact ⟨v, w', h1⟩
    | _ => cases h2
  · exact .inr h1

set_option maxRecDepth 10000 in
/-- Both happen. -/
example : run (count 10) 0 (stream [.num 1, .plus, .lp, .num 2, .plus, .num 3, .rp]) 0 100 =
      some (.ok 3, 3, 8) ∧
    run (count 2) 0 (stream [.num 1, .plus, .lp, .num 2, .plus, .num 3, .rp]) 0 100 =
      some (.fault .userPanic, 2, 7) := by decide +kernel

end Examples

end Parsegen
