import Verif.Proofs.InteractiveEval
import Verif.Props.Linear

/-! # C51, C52: iterators that share state with the actions; actions do not influence parsing -/

namespace Parsegen

variable {X Ty V W Tok E : Type} [DecidableEq Ty] {P : Compiled X Ty V W Tok} {ep : EntryPoint}
  {next : W → Option (Except E Tok) × W} {w w' : W} {items : List (Option (Except E Tok))}

/-! ## The value -/

/-- **C51.** If `parse` returns `Ok(v)`, also when what the iterator yields depends on what the actions
have done: the calls of `next()` returned tokens and then `None`, these tokens form a sentence, and `v`
and the final world are those of evaluating a derivation of it interleaved with reading, where each
token is read right after the previous one is consumed and before the actions waiting for it. -/
theorem c51_value (hep : ep ∈ P.gen.entries) {v : V} (h : P.IReturns ep next w (.ok v) w' items) :
    ∃ toks, items = toks.map (fun t => some (.ok t)) ++ [none] ∧
      P.IMeans next [.nonTerminal ep.name] toks ((next w).2, (next w).1) [.nt v] (w', none) := by
  obtain ⟨fuel, s', h, rfl, rfl⟩ := h
  obtain ⟨g, nts, ts, a, g', T, S⟩ := P.setup hep
  obtain ⟨e, nt, h1, h2, h3, he, hini, hext, hsem⟩ := S.run hep
  have hT := S.stages.tables S.wf
  obtain ⟨s1, γ1, toks, hi, hd⟩ := iParseLoop_last S.wf hT S.cons he hext hsem
    (iRunInv_init (w0 := w) hini) h
  obtain ⟨htok, hev⟩ := (iParseStep_spec S.wf hT S.cons he hext hsem hi).2 _ _ hd
  refine ⟨toks, by rw [iParseStep_items.2 _ _ hd, hi.items, htok], ?_⟩
  have := S.lowered.ientry_values P.code S.cls h1 h2 hev
  rw [S.fields, h3] at this
  exact this

/-- **C51**, the converse: in a regular program (C04), if the interleaved evaluation of a derivation
succeeds and ends with the end of input, then `parse` returns its value. -/
theorem c51_complete (hR : P.Regular) (hep : ep ∈ P.gen.entries) {toks : List Tok} {v : V}
    (h : P.IMeans next [.nonTerminal ep.name] toks ((next w).2, (next w).1) [.nt v] (w', none)) :
    P.IReturns ep next w (.ok v) w' (toks.map (fun t => some (.ok t)) ++ [none]) := by
  obtain ⟨g, nts, ts, a, g', T, e, b, R⟩ := hR.get hep
  have S := R.setup
  have hev := S.lowered.user_ieval S.cls (algAgree_values (asts := P.defs) (nts := nts) (ts := ts)
    P.code P.fields) h _ (lowersPlain_nt R.name)
  rw [← S.fields] at hev
  obtain ⟨vs, hvs, hmap⟩ := ieval_ofB (fun nt p α hp => by
    obtain ⟨n, _, h1, _⟩ := hp
    exact semanticActionVariants_some g h1) S.cons hev
  obtain ⟨x, rfl⟩ : ∃ x, vs = [x] := by
    match vs, hvs.length_eq with
    | [x], _ => exact ⟨x, rfl⟩
  obtain ⟨nt, d1, d2, d3⟩ := R.decl
  obtain ⟨fuel, o, s', h1, h2, h3⟩ := icomplete_entry (ep := ep) R.first S.wf (S.stages.tables S.wf)
    S.cons R.pub R.conf R.ext R.sem R.ini R.prod hvs
  simp only [List.map_cons, List.map_nil, List.cons.injEq, and_true] at hmap
  rcases h3 with ⟨y, rfl, h4⟩ | ⟨_, k, y, rfl, h4⟩
  · rw [← hmap, S.lowered.wrapper_node (Tok := Tok) P.code d1 d2 v w'] at h4
    obtain ⟨h5, h6⟩ := Prod.mk.inj (Option.some.inj h4)
    cases h5
    exact ⟨fuel, s', h1, h6.symm, h2⟩
  · exfalso
    have hw := S.lowered.wrapper_node (Tok := Tok) P.code (fields := P.fields) d1 d2 y w'
    have hw' : g.nodeValue P.code e 0 [.nt y] w' = some (.nt y, w') := hw
    obtain ⟨k', hk'⟩ := semanticActionVariants_some g d1
    unfold Grammar.stackAlg at h4
    simp only [List.map_cons, List.map_nil, SAR.toB, hw', hk'] at h4
    cases h4

/-- **C51**, at every moment: all but the last result of `next()` are consumed tokens, the world is that
of the interleaved evaluation of a forest of complete derivations over them, and that forest is the
beginning of a derivation from the entry point. -/
theorem c51_moment (hep : ep ∈ P.gen.entries) (h : P.IDuring ep next w w' items) :
    ∃ toks la syms us vals form, items = toks.map (fun t => some (.ok t)) ++ [la] ∧
      P.IMeans next syms toks ((next w).2, (next w).1) vals (w', la) ∧
      syms.map (·.plain) = us.map some ∧ UDerives P.defs [.nt ep.name] (us ++ form) := by
  obtain ⟨s, hs, rfl, rfl⟩ := h
  obtain ⟨g, nts, ts, a, g', T, S⟩ := P.setup hep
  obtain ⟨e, nt, h1, h2, h3, he, hini, hext, hsem⟩ := S.run hep
  obtain ⟨γ, toks, hi⟩ := iSteps_inv S.wf (S.stages.tables S.wf) S.cons he hext hsem
    (iRunInv_init (w0 := w) hini) hs
  obtain ⟨vs, hev, _⟩ := hi.eval
  obtain ⟨ss, hss⟩ := S.lowered.names_of_ieval S.cls hev hi.priv
  obtain ⟨us, hus, hun⟩ := forall₂_lowersPlain_names hss
  have hm := S.lowered.ieval_user S.cls
    (algAgree_values (asts := P.defs) (nts := nts) (ts := ts) P.code P.tf.fields)
    (ieval_toB S.cons hev) ss hss
  rw [S.fields] at hm
  obtain ⟨form, hd⟩ := S.forest_prefix h1 h2 h3 he hi.live hi.priv (by
    rintro b rest rfl
    cases hev with
    | nt hp' => exact ⟨_, _, hp'⟩) hun
  exact ⟨toks, s.token, ss, us, _, form, hi.items, hm, hus, hd⟩

/-! ## Control -/

theorem Compiled.trivial_value (t : Tok) : P.trivial.tf.value t = bare (P.tf.value t) := rfl

theorem itemStream_agree (i : Nat) (x : Option (Except E Tok)) (h : items[i]? = some x) :
    itemStream items i = x := by
  unfold itemStream
  rw [h]; rfl

theorem bare_init : (iParseInit next ep w : IState Tok V W E).bare =
    parseInit (fun _ => (next w).1) ep () := rfl

theorem parseInit_congr {V' W' : Type} {i1 i2 : Nat → Option (Except E Tok)} {w : W'} (h : i1 0 = i2 0) :
    (parseInit i1 ep w : PState Tok V' W' E) = parseInit i2 ep w := by
  unfold parseInit
  rw [h]

/-- The initial state, seen by the parser with trivial actions. -/
theorem bare_init' (h : [(next w).1] <+: items) :
    (iParseInit next ep w : IState Tok V W E).bare = parseInit (itemStream items) ep () := by
  rw [bare_init]
  apply parseInit_congr
  obtain ⟨r, rfl⟩ := h
  rfl

/-- **C51.** The values and the side effects decide what is read, but nothing else: unless an action
panics, `parse` behaves on the results of `next()` like the parser with the same grammar and actions
that do nothing.  So C08-C14, C40, C41 and C50 apply to the sequence of results of `next()`. -/
theorem c51_control {o : Outcome V E} (h : P.IReturns ep next w o w' items)
    (ho : o ≠ .fault .userPanic) :
    P.trivial.Returns ep (itemStream items) () o.kind () items.length := by
  obtain ⟨fuel, s', h, rfl, rfl⟩ := h
  have h1 := iParseLoop_bare (tf := P.tf) (tf0 := P.trivial.tf) rfl (fun t => rfl) P.code.mkPath h ho
    (input := itemStream s'.items) itemStream_agree
  rw [bare_init' (items := s'.items) (iParseLoop_items h)] at h1
  exact ⟨fuel, s'.bare, h1, rfl, rfl⟩

/-- **C51.** The only panics are those of the user's actions. -/
theorem c51_panic (hep : ep ∈ P.gen.entries) {f : Fault}
    (h : P.IReturns ep next w (.fault f) w' items) :
    f = .userPanic ∧ ∃ name, ∃ i : Nat, ∃ p : AstProduction X, ∃ e toks r1 vals la,
      (userProds P.defs name)[i]? = some p ∧ p.action = .infallible e ∧
      P.IMeans next p.symbols toks r1 vals (w', la) ∧
      P.code.run e (userEnv p.symbols vals) w' = none := by
  have hf : f = .userPanic := by
    by_contra hf
    have h1 := c51_control h (by intro h; cases h; exact hf rfl)
    exact hf (c06_only_user_panics (P := P.trivial) hep h1).1
  refine ⟨hf, ?_⟩
  subst hf
  obtain ⟨fuel, s', h, rfl, rfl⟩ := h
  obtain ⟨g, nts, ts, a, g', T, S⟩ := P.setup hep
  obtain ⟨e, nt, h1, h2, h3, he, hini, hext, hsem⟩ := S.run hep
  have hT := S.stages.tables S.wf
  obtain ⟨s1, γ1, toks, hi, hd⟩ := iParseLoop_last S.wf hT S.cons he hext hsem
    (iRunInv_init (w0 := w) hini) h
  rcases iParseStep_panic S.wf hT S.cons he hext hsem hi hd with
    ⟨hw, b, p, α, us, ts', r1, hp, hpriv, hev, hnode⟩ | ⟨k, x, hnode⟩
  · obtain ⟨name, hn⟩ := S.lowered.name_of_hasProd hp hpriv
    obtain ⟨q, pr, h1, h2, h3, rfl⟩ := S.lowered.hasProd_user hn hp
    rw [← hw] at hev hnode
    refine ⟨name, p, q, pr.action, ts', r1, us.map SAR.toB, s1.token, h1, h2.2, ?_, ?_⟩
    · have := S.lowered.ieval_user S.cls
        (algAgree_values (asts := P.defs) (nts := nts) (ts := ts) P.code P.tf.fields)
        (ieval_toB S.cons hev) _ h2.plain
      rw [S.fields] at this
      exact this
    · rw [← bindEnv_eq_userEnv h2.1]
      unfold Grammar.stackAlg Grammar.nodeValue at hnode
      simp only [h3] at hnode
      cases hr : P.code.run pr.action (bindEnv pr.symbols (us.map SAR.toB)) s'.world with
      | none => rfl
      | some r =>
        exfalso
        rw [hr] at hnode
        obtain ⟨nt', a', h4, _⟩ := S.lowered.prods hn
        obtain ⟨k, hk⟩ := semanticActionVariants_some g h4
        rw [hk] at hnode
        simp at hnode
  · exfalso
    have hw := S.lowered.wrapper_node (Tok := Tok) P.code (fields := P.fields) h1 h2 x s1.world
    have hw' : g.nodeValue P.code e 0 [.nt x] s1.world = some (.nt x, s1.world) := hw
    obtain ⟨k', hk'⟩ := semanticActionVariants_some g h1
    unfold Grammar.stackAlg at hnode
    simp only [List.map_cons, List.map_nil, SAR.toB, hw', hk'] at hnode
    cases hnode

/-! ## Errors -/

theorem reads_itemStream {toks : List Tok} (h : Reads (itemStream items) toks)
    (hn : items.length = toks.length + 1) :
    items = toks.map (fun t => some (.ok t)) ++ [itemStream items toks.length] := by
  apply List.ext_getElem?
  intro i
  rcases Nat.lt_trichotomy i toks.length with hi | hi | hi
  · rw [List.getElem?_append_left (by simpa using hi), List.getElem?_map,
      List.getElem?_eq_getElem hi]
    have h1 := h i _ (List.getElem?_eq_getElem hi)
    have h2 : i < items.length := by omega
    rw [List.getElem?_eq_getElem h2]
    unfold itemStream at h1
    rw [List.getElem?_eq_getElem h2] at h1
    exact congrArg some h1
  · subst hi
    rw [List.getElem?_append_right (by simp)]
    have h2 : toks.length < items.length := by omega
    rw [List.getElem?_eq_getElem h2]
    simp only [List.length_map, Nat.sub_self, List.getElem?_cons_zero, itemStream]
    rw [List.getElem?_eq_getElem h2]
    rfl
  · rw [List.getElem?_eq_none (by omega), List.getElem?_eq_none (by simp; omega)]

/-- **C51**, syntax errors: all but the last result of `next()` are tokens with which a derivation
begins, `found` names the last one (a token, or the end of input), and `expected` lists only terminals
with which a derivation goes on after these tokens. -/
theorem c51_parser_error (hep : ep ∈ P.gen.entries) {found expected : String}
    (h : P.IReturns ep next w (.parserError found expected) w' items) :
    ∃ toks la names, items = toks.map (fun t => some (.ok t)) ++ [la] ∧
      ((∃ t, la = some (.ok t) ∧ found = P.cls t ∧ P.cls t ∉ names) ∨
        (la = none ∧ found = "end-of-input")) ∧
      expected = ", ".intercalate names ∧ names.Sublist (P.tokens.conversions.map (·.from_)) ∧
      (∃ form, UDerives P.defs [.nt ep.name] (P.word toks ++ form)) ∧
      ∀ t ∈ names, ∃ form, UDerives P.defs [.nt ep.name] (P.word toks ++ .term t :: form) := by
  have h1 := c51_control h (by simp)
  obtain ⟨toks, names, h2, h3, h4, h5, h6, h7⟩ := c09_expected_sound (P := P.trivial) hep h1
  obtain ⟨toks', form, h8, h9, h10⟩ := c08_prefix (P := P.trivial) hep h1
  obtain ⟨toks'', h11, h12, h13⟩ := c11_found (P := P.trivial) hep h1
  have e1 := reads_itemStream h2 h3
  have inj : ∀ {l l' : List Tok}, items = l.map (fun t => some (.ok t)) ++ [itemStream items l.length] →
      items = l'.map (fun t => some (.ok t)) ++ [itemStream items l'.length] → l = l' := by
    intro l l' h h'
    have := (List.append_inj' (h.symm.trans h') rfl).1
    exact (List.map_injective_iff.2 (fun a b hab => by simpa using hab)) this
  cases inj e1 (reads_itemStream h8 h9)
  cases inj e1 (reads_itemStream h11 h12)
  refine ⟨toks, _, names, e1, ?_, h4, h5, ⟨form, h10⟩, h7⟩
  rcases h13 with ⟨t, h13, h14⟩ | ⟨h13, h14⟩
  · exact .inl ⟨t, h13, h14, h6 t h13⟩
  · exact .inr ⟨h13, h14⟩

/-- **C51**, syntax errors in a regular program are detected at the first possible moment: the tokens
before the last result of `next()` begin a derivation (above), and with that result no sentence
begins. -/
theorem c51_first_error (hR : P.Regular) (hep : ep ∈ P.gen.entries) {found expected : String}
    (h : P.IReturns ep next w (.parserError found expected) w' items) :
    ∃ toks la, items = toks.map (fun t => some (.ok t)) ++ [la] ∧
      (∀ t, la = some (.ok t) →
        ∀ rest, ¬ USentence P.defs ep.name (toks.map P.cls ++ P.cls t :: rest)) ∧
      (la = none → ¬ P.IsSentence ep.name toks) := by
  have hR' : P.trivial.Regular := ⟨hR.names, hR.lr1, hR.first⟩
  obtain ⟨toks, h1, h2, h3, h4⟩ := c08_first_error (P := P.trivial) hR' hep (c51_control h (by simp))
  exact ⟨toks, _, reads_itemStream h1 h2, h3, h4⟩

/-- **C51**, lexer errors: `parse` returns exactly the error that `next()` returned last, after
tokens only. -/
theorem c51_lexer_error (hep : ep ∈ P.gen.entries) {err : E}
    (h : P.IReturns ep next w (.lexerError err) w' items) :
    ∃ toks form, items = toks.map (fun t => some (.ok t)) ++ [some (.error err)] ∧
      UDerives P.defs [.nt ep.name] (P.word toks ++ form) := by
  have h0 := c51_control h (by simp)
  obtain ⟨toks, h1, h2, h3, _⟩ := c12_lexer_error (P := P.trivial) hep h0
  obtain ⟨toks', form, h8, h9, h10⟩ := c08_prefix (P := P.trivial) hep h0
  have e1 := reads_itemStream h1 h3
  have e2 := reads_itemStream h8 h9
  have := (List.append_inj' (e1.symm.trans e2) rfl).1
  cases (List.map_injective_iff.2 (fun a b hab => by simpa using hab)) this
  rw [h2] at e1
  exact ⟨toks, form, e1, h10⟩

/-! ## Progress -/

omit [DecidableEq Ty] in
theorem IIterations.steps {gen : Generated X} {u : UserCode X V W} {tf : TokenFns Tok V} {k : Nat}
    {s s' : IState Tok V W E} (h : IIterations gen u tf next ep k s s') :
    ISteps gen u tf next ep s s' := by
  induction h with
  | zero => exact .refl _
  | succ _ hn ih => exact .tail ih hn

theorem IIterations.bare {k : Nat} {s s' : IState Tok V W E}
    (h : IIterations P.gen P.code P.tf next ep k s s') {input : Nat → Option (Except E Tok)}
    (hi : ∀ (i : Nat) x, s'.items[i]? = some x → input i = x) :
    Iterations P.trivial.gen P.trivial.code P.trivial.tf input ep k s.bare s'.bare := by
  induction h with
  | zero => exact .zero _
  | @succ k s s1 s2 h hn ih =>
    refine .succ (ih (prefix_agree (iParseStep_items.1 _ hn) hi)) ?_
    exact (iParseStep_bare (tf := P.tf) (tf0 := P.trivial.tf) rfl (fun t => rfl) P.code.mkPath).1 _ hn
      input hi

omit [DecidableEq Ty] in
theorem IIterations.head {gen : Generated X} {u : UserCode X V W} {tf : TokenFns Tok V} {k : Nat}
    {s s' s'' : IState Tok V W E} (hn : iParseStep gen u tf next ep s = .next s')
    (h : IIterations gen u tf next ep k s' s'') : IIterations gen u tf next ep (k + 1) s s'' := by
  generalize h0 : s' = t at h
  induction h with
  | zero => subst h0; exact .succ (.zero _) hn
  | succ _ hn' ih => exact .succ (ih h0) hn'

omit [DecidableEq Ty] in
/-- The loop either ends within `k` iterations or gets through `k` iterations. -/
theorem iParseLoop_or {gen : Generated X} {u : UserCode X V W} {tf : TokenFns Tok V} :
    ∀ (k : Nat) (s : IState Tok V W E),
      (∃ o s1 s', ISteps gen u tf next ep s s1 ∧ iParseLoop gen u tf next ep k s = some (o, s') ∧
        s'.items = s1.items) ∨
      ∃ s', IIterations gen u tf next ep k s s'
  | 0, s => .inr ⟨s, .zero _⟩
  | k + 1, s => by
    unfold iParseLoop
    cases hn : iParseStep gen u tf next ep s with
    | done o s' => exact .inl ⟨o, s, s', .refl _, rfl, iParseStep_items.2 _ _ hn⟩
    | next s1 =>
      rcases iParseLoop_or k s1 with ⟨o, s2, s', h1, h2, h3⟩ | ⟨s', h1⟩
      · exact .inl ⟨o, s2, s', (ISteps.tail (.refl _) hn).trans h1, h2, h3⟩
      · exact .inr ⟨s', h1.head hn⟩

theorem Compiled.Stops.trivial (hS : P.Stops) : P.trivial.Stops := hS

theorem itrivial_bound (hS : P.Stops) : ∃ K : Nat, ∀ {E : Type}, ∀ ep ∈ P.gen.entries,
    ∀ (next : W → Option (Except E Tok) × W) (w : W) (k : Nat) (s : IState Tok V W E),
      IIterations P.gen P.code P.tf next ep k (iParseInit next ep w) s →
      k ≤ K * s.items.length ∧ s.states.length ≤ K * s.items.length ∧
        s.values.length ≤ s.states.length := by
  obtain ⟨K, hK⟩ := exists_linear (P := P.trivial) hS.trivial
  refine ⟨K, ?_⟩
  intro E ep hep next w k s h
  have h1 := h.bare (P := P) (input := itemStream s.items) itemStream_agree
  rw [bare_init' (items := s.items) (iSteps_items h.steps)] at h1
  obtain ⟨h2, h3, h4, _⟩ := hK ep hep _ _ k _ h1
  exact ⟨h2, h3, by simpa [IState.bare] using h4⟩

theorem Compiled.Stops.ilinear (hS : P.Stops) : ∃ K : Nat, ∀ {E : Type}, ∀ ep ∈ P.gen.entries,
    ∀ (next : W → Option (Except E Tok) × W) (w : W) (k m : Nat) (w' : W)
      (items : List (Option (Except E Tok))),
      P.IAfter ep next w k m w' items → k ≤ K * items.length ∧ m ≤ K * items.length := by
  obtain ⟨K, hK⟩ := itrivial_bound hS
  refine ⟨2 * K, ?_⟩
  rintro E ep hep next w k m w' items ⟨s, h1, rfl, -, rfl⟩
  obtain ⟨h2, h3, h4⟩ := hK ep hep next w k s h1
  have : 2 * K * s.items.length = K * s.items.length + K * s.items.length := by ring
  constructor <;> omega

/-- **C51.** If no computed FIRST set is empty, the number of iterations and the size of the stacks are
linear in the number of calls of `next()`, also when its results depend on the actions. -/
theorem c51_linear (hN : P.FirstNonempty) : ∃ K : Nat, ∀ {E : Type}, ∀ ep ∈ P.gen.entries,
    ∀ (next : W → Option (Except E Tok) × W) (w : W) (k m : Nat) (w' : W)
      (items : List (Option (Except E Tok))),
      P.IAfter ep next w k m w' items → k ≤ K * items.length ∧ m ≤ K * items.length :=
  hN.stops.ilinear

theorem Compiled.Stops.iprogress (hS : P.Stops) (hep : ep ∈ P.gen.entries) (n : Nat) :
    (∃ (o : Outcome V E) (w' : W) (items : List (Option (Except E Tok))), items.length ≤ n ∧
      P.IReturns ep next w o w' items) ∨
    ∃ (w' : W) (items : List (Option (Except E Tok))), n < items.length ∧
      P.IDuring ep next w w' items := by
  obtain ⟨K, hK⟩ := itrivial_bound hS
  rcases iParseLoop_or (gen := P.gen) (u := P.code) (tf := P.tf) (next := next) (ep := ep) (K * n + 1)
    (iParseInit next ep w) with ⟨o, s1, s', h1, h2, h3⟩ | ⟨s', h1⟩
  · by_cases hl : s'.items.length ≤ n
    · exact .inl ⟨o, _, _, hl, _, s', h2, rfl, rfl⟩
    · exact .inr ⟨_, _, by rw [← h3]; omega, s1, h1, rfl, rfl⟩
  · refine .inr ⟨_, _, ?_, s', h1.steps, rfl, rfl⟩
    by_contra hl
    have h2 := (hK ep hep next w _ s' h1).1
    have := Nat.mul_le_mul_left K (show s'.items.length ≤ n by omega)
    omega

/-- **C51.** If no computed FIRST set is empty, `parse` does not loop without reading: it returns within
`n` calls of `next()`, or makes more. -/
theorem c51_progress (hN : P.FirstNonempty) (hep : ep ∈ P.gen.entries) (n : Nat) :
    (∃ (o : Outcome V E) (w' : W) (items : List (Option (Except E Tok))), items.length ≤ n ∧
      P.IReturns ep next w o w' items) ∨
    ∃ (w' : W) (items : List (Option (Except E Tok))), n < items.length ∧
      P.IDuring ep next w w' items :=
  hN.stops.iprogress hep n

/-! ## Iterators that do not depend on the actions -/

/-- **C51.** For an iterator that yields the same sequence whatever the actions do, this is what
`P.Returns` of the other properties describes. -/
theorem c51_fixed {input : Nat → Option (Except E Tok)} {o : Outcome V E} {n : Nat} :
    P.Returns ep input w o w' n ↔
      P.withCounter.IReturns ep (counterNext input) (w, 0) o (w', n) ((List.range n).map input) := by
  have e0 : (iParseInit (counterNext input) ep (w, 0) : IState Tok V (W × Nat) E) =
      (parseInit input ep w).counted input := rfl
  have key := fun fuel => iParseLoop_counted (P := P) (input := input) P.gen P.tf ep fuel
    (parseInit input ep w)
  constructor
  · rintro ⟨fuel, s', h, rfl, rfl⟩
    refine ⟨fuel, s'.counted input, ?_, rfl, rfl⟩
    unfold iParse
    rw [e0]
    refine (key fuel).trans ?_
    unfold parse at h
    rw [h]; rfl
  · rintro ⟨fuel, s', h, hw, hi⟩
    unfold iParse at h
    rw [e0] at h
    have h' := (key fuel).symm.trans h
    obtain ⟨⟨o', s1⟩, h1, h2⟩ := Option.map_eq_some_iff.1 h'
    cases h2
    cases hw
    exact ⟨fuel, s1, h1, rfl, rfl⟩

/-! ## Examples -/

namespace Examples

/-- Run an entry point with an iterator that sees the world. -/
def irun {W : Type} (P : Compiled (Act W) String Nat W Tk) (i : Nat)
    (next : W → Option (Except String Tk) × W) (w : W) (fuel : Nat) :
    Option (Outcome Nat String × W × List (Option (Except String Tk))) :=
  match P.gen.entries[i]? with
  | none => none
  | some ep => (iParse P.gen P.code P.tf next ep w fuel).map fun r => (r.1, r.2.world, r.2.items)

theorem irun_returns {W : Type} {P : Compiled (Act W) String Nat W Tk} {i : Nat}
    {next : W → Option (Except String Tk) × W} {w0 : W} {fuel : Nat} {o : Outcome Nat String}
    {w : W} {items : List (Option (Except String Tk))}
    (h : irun P i next w0 fuel = some (o, w, items)) :
    ∃ ep ∈ P.gen.entries, P.gen.entries[i]? = some ep ∧ P.IReturns ep next w0 o w items := by
  unfold irun at h
  split at h
  · cases h
  · next ep hep =>
    obtain ⟨⟨o', s'⟩, h1, h2⟩ := Option.map_eq_some_iff.1 h
    cases h2
    exact ⟨ep, List.mem_of_getElem? hep, hep, fuel, s', h1, rfl, rfl⟩

/-- A lexer that looks at the log written by the actions: numbers and `+` alternate, the numbers are ten
times the number of executions of the actions of `Term`, and after two of them `last` comes instead of
`+`.  It logs its own calls. -/
def feedback (last : Option (Except String Tk)) (w : Log) : Option (Except String Tk) × Log :=
  let calls := (w.filter (·.1 = "next")).length
  let terms := (w.filter (·.1 = "Term")).length
  (if calls % 2 = 0 then some (.ok (.num (10 * terms)))
    else if terms < 2 then some (.ok .plus) else last,
   w ++ [("next", calls)])

set_option maxRecDepth 10000 in
/-- `0 + 10 + 20`: each number is read before the action for the previous one but one. -/
theorem arith_feedback : irun arith 0 (feedback none) [] 100 =
    some (.ok 30, [("next", 0), ("next", 1), ("Term", 0), ("Expr", 1), ("next", 2), ("next", 3),
      ("Term", 0), ("Expr", 0), ("next", 4), ("next", 5), ("Term", 0), ("Expr", 0)],
      [some (.ok (.num 0)), some (.ok .plus), some (.ok (.num 10)), some (.ok .plus),
        some (.ok (.num 20)), none]) := by decide +kernel

set_option maxRecDepth 10000 in
/-- `0 + 10 + 20 (` -/
theorem arith_feedback_syntax : irun arith 0 (feedback (some (.ok .lp))) [] 100 =
    some (.parserError "(" "+", [("next", 0), ("next", 1), ("Term", 0), ("Expr", 1), ("next", 2),
      ("next", 3), ("Term", 0), ("Expr", 0), ("next", 4), ("next", 5)],
      [some (.ok (.num 0)), some (.ok .plus), some (.ok (.num 10)), some (.ok .plus),
        some (.ok (.num 20)), some (.ok .lp)]) := by decide +kernel

set_option maxRecDepth 10000 in
/-- `0 + 10 + 20` and then a lexer error -/
theorem arith_feedback_lexer : (irun arith 0 (feedback (some (.error "bad"))) [] 100).map (·.1) =
    some (.lexerError "bad") := by decide +kernel

set_option maxRecDepth 10000 in
/-- `panicky` fails on the first 0. -/
theorem panicky_feedback : (irun panicky 0 (feedback none) [] 100).map (fun r => (r.1, r.2.1)) =
    some (.fault .userPanic, [("next", 0), ("next", 1)]) := by decide +kernel

/-- The hypotheses of `c51_value` and `c51_complete`: the calls of `next()` above, and the evaluation of
a derivation interleaved with them. -/
example : ∃ ep ∈ arith.gen.entries, ∃ (w' : Log) (toks : List Tk),
    arith.IReturns ep (feedback none) [] (.ok 30) w' (toks.map (fun t => some (.ok t)) ++ [none]) ∧
    arith.IMeans (feedback none) [.nonTerminal ep.name] toks ((feedback none []).2, (feedback none []).1)
      [.nt 30] (w', none) := by
  obtain ⟨ep, hep, _, h⟩ := irun_returns arith_feedback
  obtain ⟨toks, h1, h2⟩ := c51_value hep h
  exact ⟨ep, hep, _, toks, c51_complete arith_regular hep h2, h2⟩

/-- The hypotheses of `c51_parser_error` and `c51_first_error`. -/
example : ∃ ep ∈ arith.gen.entries, ∃ w' items,
    arith.IReturns ep (feedback (some (.ok .lp))) [] (.parserError "(" "+") w' items ∧
    items.length = 6 := by
  obtain ⟨ep, hep, _, h⟩ := irun_returns arith_feedback_syntax
  exact ⟨ep, hep, _, _, h, rfl⟩

/-- The hypotheses of `c51_lexer_error`. -/
example : ∃ ep ∈ arith.gen.entries, ∃ w' items,
    arith.IReturns ep (feedback (some (.error "bad"))) [] (.lexerError "bad") w' items := by
  obtain ⟨⟨o, w', items⟩, h, h'⟩ := Option.map_eq_some_iff.1 arith_feedback_lexer
  obtain ⟨ep, hep, _, h⟩ := irun_returns h
  cases h'
  exact ⟨ep, hep, _, _, h⟩

/-- The hypotheses of `c51_panic`. -/
example : ∃ ep ∈ panicky.gen.entries, ∃ w' items,
    panicky.IReturns ep (feedback none) [] (.fault .userPanic) w' items := by
  obtain ⟨⟨o, w', items⟩, h, h'⟩ := Option.map_eq_some_iff.1 panicky_feedback
  obtain ⟨ep, hep, _, h⟩ := irun_returns h
  cases h'
  exact ⟨ep, hep, _, _, h⟩

/-- The hypotheses of `c51_progress` and `c51_linear`: a lexer that never ends. -/
example : ∃ ep ∈ arith.gen.entries, ∀ n : Nat,
    (∃ (o : Outcome Nat String) (w' : Log) (items : List (Option (Except String Tk))),
      items.length ≤ n ∧ arith.IReturns ep (feedback (some (.ok .plus))) [] o w' items) ∨
    ∃ (w' : Log) (items : List (Option (Except String Tk))), n < items.length ∧
      arith.IDuring ep (feedback (some (.ok .plus))) [] w' items := by
  obtain ⟨ep, hep, _⟩ := irun_returns arith_feedback
  exact ⟨ep, hep, fun n => c51_progress arith_firstNonempty hep n⟩

end Examples

end Parsegen
