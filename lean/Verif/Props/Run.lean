import Verif.Proofs.Observe
import Verif.Proofs.Variants
import Verif.Props.Examples

/-! # Properties of the emitted parsers: C01, C02, C03, C06, C11-C15

All theorems are about an arbitrary compiled `parser!` invocation `P` (`Spec/Compiled.lean`), any of
its entry points `ep` and any iterator `input`.  No theorem here assumes anything about conflicts. -/

namespace Parsegen

variable {X Ty V W Tok E : Type} [DecidableEq Ty] {P : Compiled X Ty V W Tok} {ep : EntryPoint}
  {input input' : Nat → Option (Except E Tok)} {w w' : W} {n : Nat}

/-! ## C02 The returned value is the value of a derivation -/

/-- **C02.** If `parse` returns `Ok(v)`, then the items of the iterator up to the first `None` are
tokens `toks`, and evaluating the user's actions over a derivation of `toks` from the non-terminal
named like the entry point, starting in the world in which `parse` was called, yields `v` and the
world in which `parse` returned. -/
theorem c02_value (hep : ep ∈ P.gen.entries) {v : V} (h : P.Returns ep input w (.ok v) w' n) :
    ∃ toks, Reads input toks ∧ input toks.length = none ∧
      P.Means [.nonTerminal ep.name] toks w [.nt v] w' := by
  obtain ⟨fuel, s', h, rfl, rfl⟩ := h
  obtain ⟨g, nts, ts, a, g', T, e, nt, s, γ, toks, F⟩ := P.final hep h
  cases F.step with
  | @accept b v w2 s'' htok hγ hact hp heval hs =>
    refine ⟨toks, F.inv.reads, by rw [← F.inv.token, htok], ?_⟩
    have := F.setup.lowered.entry_values P.code F.setup.cls F.entry F.pub heval
    rw [F.name, F.setup.fields] at this
    rw [hs]
    exact this

/-- The hypotheses are met: `1 + (2 + 3)` is accepted with value 6 after 8 calls of `next()`, and
what the theorem yields is not trivial. -/
example : ∃ ep ∈ Examples.arith.gen.entries, ∃ toks w',
    Reads (Examples.stream [.num 1, .plus, .lp, .num 2, .plus, .num 3, .rp]) toks ∧
    Examples.arith.Means [.nonTerminal ep.name] toks [] [.nt 6] w' := by
  obtain ⟨ep, hep, _, h⟩ := Examples.run_returns Examples.arith_run
  obtain ⟨toks, h1, _, h3⟩ := c02_value hep h
  exact ⟨ep, hep, toks, _, h1, h3⟩

/-! ## C01 Accepted input is a sentence -/

/-- **C01.** If `parse` returns `Ok`, the items of the iterator up to the first `None` are tokens
that form a sentence of the user's non-terminal named like the entry point. -/
theorem c01_sentence (hep : ep ∈ P.gen.entries) {v : V} (h : P.Returns ep input w (.ok v) w' n) :
    ∃ toks, Reads input toks ∧ input toks.length = none ∧ P.IsSentence ep.name toks := by
  obtain ⟨toks, h1, h2, h3⟩ := c02_value hep h
  exact ⟨toks, h1, h2, h3.sentence⟩

example : ∃ ep ∈ Examples.arith.gen.entries, ∃ toks, Examples.arith.IsSentence ep.name toks := by
  obtain ⟨ep, hep, _, h⟩ := Examples.run_returns Examples.arith_run
  obtain ⟨toks, _, _, h3⟩ := c01_sentence hep h
  exact ⟨ep, hep, toks, h3⟩

/-! ## C03 Actions run exactly once per node, in post-order -/

omit [DecidableEq Ty] in
theorem log_postorder {asts : List (AstNonTerminal X Ty)} {cls : Tok → String}
    {u : UserCode X V W} {fields : Tok → List V} {log : W → List (String × Nat)}
    (hlog : ∀ name i p e env w v w', (userProds asts name)[i]? = some p →
      p.action = .infallible e → u.run e env w = some (v, w') → log w' = log w ++ [(name, i)])
    {ss : List AstSymbol} {toks : List Tok} {w : W} {vs : List (BVal V)} {w' : W}
    (h : UEval asts cls (userValues u fields) ss toks w vs w') :
    ∃ trs, UEval asts cls userTrees ss toks () trs () ∧
      log w' = log w ++ UTree.postorderList trs := by
  induction h with
  | nil w => exact ⟨[], .nil _, by simp [UTree.postorderList]⟩
  | @term s t ss ts w vs w' hs h ih =>
    obtain ⟨trs, h1, h2⟩ := ih
    exact ⟨_, .term hs h1, by simp [h2, userTrees, UTree.postorderList, UTree.postorder]⟩
  | @nt s name i p t1 t2 w us w1 v w2 ss vs w3 hs hp hc ha h ih1 ih2 =>
    obtain ⟨cs, h1, h2⟩ := ih1
    obtain ⟨trs, h3, h4⟩ := ih2
    refine ⟨.node name i cs :: trs, .nt hs hp h1 rfl h3, ?_⟩
    unfold userValues at ha
    simp only at ha
    split at ha
    · next e he =>
      obtain ⟨r, hr, hr'⟩ := Option.map_eq_some_iff.1 ha
      cases hr'
      rw [h4, hlog name i p e _ _ r.1 r.2 hp he hr, h2]
      simp [UTree.postorderList, UTree.postorder]
    · cases ha

/-- **C03.** Let `log` be any part of the world to which every action, when it runs, appends the
production it belongs to.  When `parse` returns `Ok`, the log has grown by exactly the productions
of a derivation tree of the input, each node once, children left to right before their parent. -/
theorem c03_postorder (hep : ep ∈ P.gen.entries) (log : W → List (String × Nat))
    (hlog : ∀ name i p e env w v w', (userProds P.defs name)[i]? = some p →
      p.action = .infallible e → P.code.run e env w = some (v, w') →
      log w' = log w ++ [(name, i)])
    {v : V} (h : P.Returns ep input w (.ok v) w' n) :
    ∃ toks tr, Reads input toks ∧ input toks.length = none ∧
      IsUTree P.defs P.cls ep.name toks tr ∧ log w' = log w ++ tr.postorder := by
  obtain ⟨toks, h1, h2, h3⟩ := c02_value hep h
  obtain ⟨trs, h4, h5⟩ := log_postorder hlog h3
  have : ∃ tr, trs = [tr] := by
    cases h4 with
    | term hs h => cases hs
    | nt hs hp hc ha h => cases h; exact ⟨_, rfl⟩
  obtain ⟨tr, rfl⟩ := this
  exact ⟨toks, tr, h1, h2, h4, by simpa [UTree.postorderList] using h5⟩

/-- The log of `1 + (2 + 3)` is the post-order of a derivation tree. -/
example : ∃ ep ∈ Examples.arith.gen.entries, ∃ toks tr,
    IsUTree Examples.arith.defs Examples.arith.cls ep.name toks tr ∧
    tr.postorder = [("Term", 0), ("Expr", 1), ("Term", 0), ("Expr", 1), ("Term", 0), ("Expr", 0),
        ("Term", 1), ("Expr", 0)] := by
  obtain ⟨ep, hep, _, h⟩ := Examples.run_returns Examples.arith_run
  obtain ⟨toks, tr, _, _, h3, h4⟩ := c03_postorder hep (fun w => w) Examples.arith_logs h
  exact ⟨ep, hep, toks, tr, h3, by simpa using h4.symm⟩

/-! ## C06 The generated parser never panics by itself -/

/-- **C06.** If `parse` panics, then the panic comes from the user's action of some production,
run on the values of its symbols for some tokens, in the world reached so far. -/
theorem c06_only_user_panics (hep : ep ∈ P.gen.entries) {f : Fault}
    (h : P.Returns ep input w (.fault f) w' n) :
    f = .userPanic ∧ ∃ name, ∃ i : Nat, ∃ p : AstProduction X, ∃ e toks w1 vals, (userProds P.defs name)[i]? = some p ∧
      p.action = .infallible e ∧ P.Means p.symbols toks w1 vals w' ∧
      P.code.run e (userEnv p.symbols vals) w' = none := by
  obtain ⟨fuel, s', h, rfl, rfl⟩ := h
  obtain ⟨g, nts, ts, a, g', T, e, nt, s, γ, toks, F⟩ := P.final hep h
  cases F.step with
  | @panic c b p α γ' k hla hact hγ hp hit hpriv hval =>
    refine ⟨rfl, ?_⟩
    obtain ⟨us, rest, ts', w1, hlen, hvals, hev, hnode⟩ := hval
    obtain ⟨name, hn⟩ := F.setup.lowered.name_of_hasProd hp hpriv
    obtain ⟨q, pr, h1, h2, h3, rfl⟩ := F.setup.lowered.hasProd_user hn hp
    refine ⟨name, p, q, pr.action, ts', w1, us.map SAR.toB, h1, h2.2, ?_, ?_⟩
    · exact F.setup.means h2.plain hev
    · rw [← bindEnv_eq_userEnv h2.1]
      unfold Grammar.stackAlg Grammar.nodeValue at hnode
      simp only [h3] at hnode
      cases hr : P.code.run pr.action (bindEnv pr.symbols (us.map SAR.toB)) s'.world with
      | none => rfl
      | some r =>
        exfalso
        rw [hr] at hnode
        obtain ⟨nt', a', h4, _⟩ := F.setup.lowered.prods hn
        obtain ⟨k, hk⟩ := semanticActionVariants_some g h4
        rw [hk] at hnode
        simp at hnode
  | @acceptPanic b us htok hact hγ hp hev hnode =>
    exfalso
    obtain ⟨p, α, us', w1, v, hv, hp', hc, hn⟩ := hev.nt_inv
    subst hv
    obtain ⟨x, k, h1, h2, rfl⟩ := stackAlg_node hn
    have hw := F.setup.lowered.wrapper_node (Tok := Tok) P.code (fields := P.fields) F.entry F.pub x s'.world
    have hw' : g.nodeValue P.code e 0 [.nt x] s'.world = some (.nt x, s'.world) := hw
    obtain ⟨k', hk'⟩ := semanticActionVariants_some g F.entry
    unfold Grammar.stackAlg at hnode
    simp only [List.map_cons, List.map_nil, SAR.toB, hw', hk'] at hnode
    cases hnode

/-- **C06**, for actions that do not panic: `parse` does not panic. -/
theorem c06_no_panic (hep : ep ∈ P.gen.entries)
    (hu : ∀ d ∈ P.defs, ∀ p ∈ d.productions, ∀ e, p.action = .infallible e →
      ∀ env w, P.code.run e env w ≠ none) {f : Fault} :
    ¬ P.Returns ep input w (.fault f) w' n := by
  intro h
  obtain ⟨_, name, i, p, e, toks, w1, vals, h1, h2, _, h4⟩ := c06_only_user_panics hep h
  have hm := List.mem_of_getElem? h1
  unfold userProds at hm
  obtain ⟨d, hd, hp⟩ := List.mem_flatMap.1 hm
  exact hu d (List.mem_filter.1 hd).1 p hp e h2 _ _ h4

/-- A panicking action is reported as such ... -/
example : ∃ ep ∈ Examples.panicky.gen.entries, ∃ w' n, Examples.panicky.Returns ep
    (Examples.stream [.num 1, .plus, .num 0]) [] (.fault .userPanic) w' n := by
  obtain ⟨ep, hep, _, h⟩ := Examples.run_returns Examples.panicky_run
  exact ⟨ep, hep, _, _, h⟩

/-- ... and the hypothesis of `c06_no_panic` is met by `arith`. -/
example {ep : EntryPoint} (hep : ep ∈ Examples.arith.gen.entries)
    (input : Nat → Option (Except String Examples.Tk)) (f : Fault) (w' : Examples.Log) :
    ¬ Examples.arith.Returns ep input [] (.fault f) w' n :=
  c06_no_panic hep Examples.arith_no_panic

/-! ## C11 `found` names the offending token -/

/-- **C11.** The `found` string of a `ParserError` is the declared name of the first token that was
not consumed, or "end-of-input" if the iterator had ended; `n` calls of `next()` means that `n - 1`
tokens were consumed. -/
theorem c11_found (hep : ep ∈ P.gen.entries) {found expected : String}
    (h : P.Returns ep input w (.parserError found expected) w' n) :
    ∃ toks, Reads input toks ∧ n = toks.length + 1 ∧
      ((∃ t, input toks.length = some (.ok t) ∧ found = P.cls t) ∨
        (input toks.length = none ∧ found = "end-of-input")) := by
  obtain ⟨fuel, s', h, rfl, rfl⟩ := h
  obtain ⟨g, nts, ts, a, g', T, e, nt, s, γ, toks, F⟩ := P.final hep h
  cases F.step with
  | @«syntax» c found expected hla hact hf he =>
    refine ⟨toks, F.inv.reads, F.inv.calls, ?_⟩
    rw [← F.inv.token]
    unfold lookahead at hla
    split at hla
    · next ht =>
      cases hla
      refine Or.inr ⟨ht, ?_⟩
      have h1 : (g.terminals ++ ["end-of-input"])[g.terminals.length]? = some "end-of-input" := by
        simp
      have h2 : (g.terminals ++ ["end-of-input"])[g.terminals.length]? = some found := hf
      rw [h1] at h2; cases h2; rfl
    · next t ht =>
      cases hla
      refine Or.inl ⟨t, ht, ?_⟩
      have h1 := F.setup.cls t
      have h2 : (g.terminals ++ ["end-of-input"])[P.tf.terminalIdx t]? = some found := hf
      rw [List.getElem?_append_left (List.getElem?_eq_some_iff.1 h1).1, h1] at h2
      cases h2; rfl
    · cases hla

/-- `1 + )`: found ")" after two consumed tokens. -/
example : ∃ ep ∈ Examples.arith.gen.entries, ∃ expected w', Examples.arith.Returns ep
    (Examples.stream [.num 1, .plus, .rp, .num 2]) [] (.parserError ")" expected) w' 3 := by
  obtain ⟨ep, hep, _, h⟩ := Examples.run_returns Examples.arith_syntax
  exact ⟨ep, hep, _, _, h⟩

/-! ## C13 The iterator is read lazily -/

/-- **C13.** However `parse` ends, it has called `next()` at least once, and every call but the last
returned a token: `next()` is never called again after `None` or `Err`, and never more than one
token ahead of the `n - 1` tokens consumed. -/
theorem c13_lazy (hep : ep ∈ P.gen.entries) {o : Outcome V E} (h : P.Returns ep input w o w' n) :
    ∃ toks, Reads input toks ∧ n = toks.length + 1 := by
  obtain ⟨fuel, s', h, rfl, rfl⟩ := h
  obtain ⟨g, nts, ts, a, g', T, e, nt, s, γ, toks, F⟩ := P.final hep h
  refine ⟨toks, F.inv.reads, ?_⟩
  rw [← F.inv.calls]
  cases F.step with
  | panic => rfl
  | lexer => rfl
  | «syntax» => rfl
  | accept _ _ _ _ _ hs => rw [hs]
  | acceptPanic => rfl

omit [DecidableEq Ty] in
theorem reads_unique_length {t1 t2 : List Tok} (h1 : Reads input t1)
    (e2 : ∀ t, input t2.length ≠ some (.ok t)) : t1.length ≤ t2.length := by
  rcases Nat.lt_or_ge t2.length t1.length with h | h
  · exact absurd (h1 t2.length _ (List.getElem?_eq_getElem h)) (e2 _)
  · exact h

/-- **C13**, for accepted input: the whole stream including the `None` has been read, once. -/
theorem c13_ok_reads_all (hep : ep ∈ P.gen.entries) {v : V}
    (h : P.Returns ep input w (.ok v) w' n) :
    input (n - 1) = none ∧ ∀ i < n - 1, ∃ t, input i = some (.ok t) := by
  obtain ⟨fuel, s', h, rfl, rfl⟩ := h
  obtain ⟨g, nts, ts, a, g', T, e, nt, s, γ, toks, F⟩ := P.final hep h
  cases F.step with
  | accept htok _ _ _ _ hs =>
    subst hs
    simp only [F.inv.calls, Nat.add_sub_cancel]
    refine ⟨by rw [← F.inv.token, htok], ?_⟩
    intro i hi
    exact ⟨_, F.inv.reads i _ (List.getElem?_eq_getElem hi)⟩

/-- `1 + )` is rejected after three calls although there is more input; `1 + (2 + 3)` needs one call
more than it has tokens. -/
example : (∃ ep ∈ Examples.arith.gen.entries, ∃ o w', Examples.arith.Returns ep
      (Examples.stream [.num 1, .plus, .rp, .num 2]) [] o w' 3) ∧
    (∃ ep ∈ Examples.arith.gen.entries, ∃ w', Examples.arith.Returns ep
      (Examples.stream [.num 1, .plus, .lp, .num 2, .plus, .num 3, .rp]) [] (.ok 6) w' 8) := by
  obtain ⟨ep, hep, _, h⟩ := Examples.run_returns Examples.arith_syntax
  obtain ⟨ep', hep', _, h'⟩ := Examples.run_returns Examples.arith_run
  exact ⟨⟨ep, hep, _, _, h⟩, ⟨ep', hep', _, h'⟩⟩

/-! ## C12 Lexer errors -/

/-- **C12.** `LexerError(e)` is returned only for an `Err(e)` the iterator yielded after tokens
`toks`, all of which were consumed; `next()` was not called again, and the only actions that ran
are those for a sequence of symbols deriving all consumed tokens but the last one, i.e. no action
ran after the last token was shifted. -/
theorem c12_lexer_error (hep : ep ∈ P.gen.entries) {err : E}
    (h : P.Returns ep input w (.lexerError err) w' n) :
    ∃ toks, Reads input toks ∧ input toks.length = some (.error err) ∧ n = toks.length + 1 ∧
      ∃ ss vals, P.Means ss toks.dropLast w vals w' := by
  obtain ⟨fuel, s', h, rfl, rfl⟩ := h
  obtain ⟨g, nts, ts, a, g', T, S⟩ := P.setup hep
  obtain ⟨e, nt, h1, h2, h3, he, hini, hext, hsem⟩ := S.run hep
  obtain ⟨γ, toks, hi, htok, hor⟩ := parseLoop_lexer S.wf (S.stages.tables S.wf) S.cons he hext hsem
    (runInv_init hini) (fun _ _ => Or.inl ⟨rfl, rfl⟩) h
  refine ⟨toks, hi.reads, by rw [← hi.token, htok], hi.calls, ?_⟩
  obtain ⟨vs, hev, hvals⟩ := hi.eval
  rcases hor with ⟨rfl, rfl⟩ | ⟨γ', toks', t, rfl, rfl⟩
  · cases hev; exact ⟨[], [], .nil _⟩
  · obtain ⟨t1, t2, us1, us2, w1, e1, e2, hev1, hev2⟩ := hev.split
    have h5 : t1 = toks' ∧ w1 = s'.world := by
      cases hev2 with
      | term ht hn =>
        cases hn
        have := List.append_inj' e1 rfl
        exact ⟨this.1.symm, rfl⟩
    obtain ⟨rfl, rfl⟩ := h5
    obtain ⟨ss, hss⟩ := S.lowered.names_of_eval S.cls hev1
      (fun b hb => hi.priv b (List.mem_append.2 (Or.inl hb)))
    refine ⟨ss, us1.map SAR.toB, ?_⟩
    rw [List.dropLast_concat]
    exact S.means hss hev1

/-- **C12**, the other way round: if the iterator yields the tokens `toks` and then `Err(e)`, then
`parse` returns exactly `LexerError(e)` having consumed all of `toks`, or an error for an earlier
token (in which case `Err(e)` has not even been read), or an action panicked.  It never returns
`Ok` and never another lexer error. -/
theorem c12_error_reached (hep : ep ∈ P.gen.entries) {toks : List Tok} {err : E}
    (hr : Reads input toks) (he : input toks.length = some (.error err)) {o : Outcome V E}
    (h : P.Returns ep input w o w' n) :
    (o = .lexerError err ∧ n = toks.length + 1) ∨
    ((∃ found expected, o = .parserError found expected) ∧ n ≤ toks.length) ∨
    o = .fault .userPanic := by
  have hne : ∀ t, input toks.length ≠ some (.ok t) := by rw [he]; intro t h; cases h
  cases o with
  | ok v =>
    exfalso
    obtain ⟨toks', h1, h2, _⟩ := c02_value hep h
    have hle := reads_unique_length h1 hne
    have hge := reads_unique_length hr (by rw [h2]; intro t h; cases h)
    rw [Nat.le_antisymm hle hge, he] at h2
    cases h2
  | lexerError err' =>
    obtain ⟨toks', h1, h2, h3, _⟩ := c12_lexer_error hep h
    have hle := reads_unique_length h1 hne
    have hge := reads_unique_length hr (by rw [h2]; intro t h; cases h)
    have heq := Nat.le_antisymm hle hge
    rw [heq, he] at h2
    cases h2
    exact Or.inl ⟨rfl, by rw [h3, heq]⟩
  | parserError found expected =>
    right; left
    refine ⟨⟨_, _, rfl⟩, ?_⟩
    obtain ⟨toks', h1, h2, h3⟩ := c11_found hep h
    have hle := reads_unique_length h1 hne
    rcases Nat.lt_or_ge toks'.length toks.length with hlt | hge
    · omega
    · have heq := Nat.le_antisymm hle hge
      rw [heq, he] at h3
      rcases h3 with ⟨t, h3, _⟩ | ⟨h3, _⟩ <;> cases h3
  | fault f =>
    right; right
    rw [(c06_only_user_panics hep h).1]

/-- `1 +` followed by a lexer error. -/
example : ∃ ep ∈ Examples.arith.gen.entries, ∃ w', Examples.arith.Returns ep
    (Examples.streamErr [.num 1, .plus] "bad") [] (.lexerError "bad") w' 3 := by
  obtain ⟨ep, hep, _, h⟩ := Examples.run_returns Examples.arith_lexer
  exact ⟨ep, hep, _, h⟩

/-! ## C14 Input that is not read does not matter -/

/-- **C14.** If `parse` on `input` ends after `n` calls of `next()`, then on every iterator that
agrees with `input` on these `n` items it ends in the same way. -/
theorem c14_unread_input (h : ∀ i < n, input i = input' i) {o : Outcome V E}
    (hr : P.Returns ep input w o w' n) : P.Returns ep input' w o w' n := by
  obtain ⟨fuel, s', h1, rfl, rfl⟩ := hr
  refine ⟨fuel, s', ?_, rfl, rfl⟩
  have : (parseInit input' ep w : PState Tok V W E) = parseInit input ep w := by
    unfold parseInit
    rw [h 0 ?_]
    exact Nat.lt_of_lt_of_le Nat.zero_lt_one (parseLoop_mono h1)
  unfold parse
  rw [this]
  exact parseLoop_congr h1 h

/-- `1 + )` is rejected in the same way whatever follows. -/
example (rest : List Examples.Tk) : ∃ ep ∈ Examples.arith.gen.entries, ∃ o w',
    Examples.arith.Returns ep (Examples.stream ([.num 1, .plus, .rp] ++ rest)) [] o w' 3 := by
  obtain ⟨ep, hep, _, h⟩ := Examples.run_returns Examples.arith_syntax
  refine ⟨ep, hep, _, _, c14_unread_input ?_ h⟩
  intro i hi
  match i, hi with
  | 0, _ => rfl
  | 1, _ => rfl
  | 2, _ => rfl

/-- The result of `parse` is unique: running longer does not change it. -/
theorem returns_unique {o1 o2 : Outcome V E} {w1 w2 : W} {n1 n2 : Nat}
    (h1 : P.Returns ep input w o1 w1 n1) (h2 : P.Returns ep input w o2 w2 n2) :
    o1 = o2 ∧ w1 = w2 ∧ n1 = n2 := by
  obtain ⟨f1, s1, h1, rfl, rfl⟩ := h1
  obtain ⟨f2, s2, h2, rfl, rfl⟩ := h2
  have e1 := parseLoop_fuel h1 (Nat.le_max_left f1 f2)
  have e2 := parseLoop_fuel h2 (Nat.le_max_right f1 f2)
  rw [e1] at e2
  cases e2
  exact ⟨rfl, rfl, rfl⟩

/-! ## C15 Entry points are independent -/

/-- **C15.** Every entry point is named after a `pub` definition, and whatever other entry points
share its tables, it returns only values of that non-terminal on sentences of that non-terminal. -/
theorem c15_entry (hep : ep ∈ P.gen.entries) :
    (∃ d ∈ P.defs, d.isPub = true ∧ d.name = ep.name) ∧
    ∀ {v : V}, P.Returns ep input w (.ok v) w' n →
      ∃ toks, Reads input toks ∧ input toks.length = none ∧ P.IsSentence ep.name toks ∧
        P.Means [.nonTerminal ep.name] toks w [.nt v] w' := by
  constructor
  · obtain ⟨g, nts, ts, a, g', T, S⟩ := P.setup hep
    obtain ⟨e, nt, h1, h2, h3, _⟩ := S.run hep
    obtain ⟨d, b, n', hd, hp, hn, _⟩ := S.lowered.pub h1 h2
    exact ⟨d, hd, hp, by rw [← hn, h3]⟩
  · intro v h
    obtain ⟨toks, h1, h2, h3⟩ := c02_value hep h
    exact ⟨toks, h1, h2, h3.sentence, h3⟩

/-- Two entry points share one table: `(1 + 2)` is accepted by `Term`, `1 + 2` is not (although it
is a sentence of `Expr`). -/
example : ∃ ep, ep ∈ Examples.arith.gen.entries ∧ ep.name = "Term" ∧
    (∃ w', Examples.arith.Returns ep (Examples.stream [.lp, .num 1, .plus, .num 2, .rp]) []
      (.ok 3) w' 6) ∧
    (∃ w', Examples.arith.Returns ep (Examples.stream [.num 1, .plus, .num 2]) []
      (.parserError "+" "") w' 2) := by
  obtain ⟨ep, hep, hi, h⟩ := Examples.run_returns Examples.arith_term
  obtain ⟨ep', hep', hi', h'⟩ := Examples.run_returns Examples.arith_term_err
  rw [hi] at hi'; cases hi'
  refine ⟨ep, hep, ?_, ⟨_, h⟩, ⟨_, h'⟩⟩
  have : (Examples.arith.gen.entries[1]?).map (·.name) = some "Term" := by decide +kernel
  rw [hi] at this
  simpa using this

end Parsegen
