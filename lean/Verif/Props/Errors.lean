import Verif.Proofs.Trace
import Verif.Props.Complete
import Mathlib.Data.List.Sublists
import Mathlib.Tactic.FinCases

/-! # Syntax errors: C08, C09, C10 -/

namespace Parsegen

variable {X Ty V W Tok E : Type} [DecidableEq Ty] {P : Compiled X Ty V W Tok} {ep : EntryPoint}
  {input : Nat → Option (Except E Tok)} {w w' : W} {n : Nat}

/-- The names of tokens as symbols of the user's grammar. -/
def Compiled.word (P : Compiled X Ty V W Tok) (toks : List Tok) : List USym :=
  toks.map fun t => .term (P.cls t)

/-- Every non-terminal derives some string of terminals. -/
def Compiled.Productive (P : Compiled X Ty V W Tok) : Prop :=
  ∀ d ∈ P.defs, ∃ x, USentence P.defs d.name x

/-- The last step of a run, with its trace. -/
structure FinalT (P : Compiled X Ty V W Tok) (ep : EntryPoint)
    (input : Nat → Option (Except E Tok)) (w : W) (o : Outcome V E) (s' : PState Tok V W E)
    (g : Grammar X Ty) (nts ts : AMap String Nat) (a : Automaton) (g' : Grammar Nat Ty)
    (T : LRTable Nat) (e b : Nat) (nt : NonTerminal X Ty) (s : PState Tok V W E) (γ : List Symbol)
    (toks : List Tok) : Prop
    extends Final P ep input w o s' g nts ts a g' T e nt s γ toks where
  trace : Trace g (generateFirstTable P.order g) P.tf e s γ toks
  prod : g.HasProd e 0 [.nonTerminal b]
  named : nts.get? ep.name = some b ∨ ∀ p α, ¬ g.HasProd b p α

theorem Compiled.finalT (P : Compiled X Ty V W Tok) (hep : ep ∈ P.gen.entries)
    {o : Outcome V E} {s' : PState Tok V W E}
    {fuel : Nat} (h : parse P.gen P.code P.tf input ep w fuel = some (o, s')) :
    ∃ g nts ts a g' T e b nt s γ toks, FinalT P ep input w o s' g nts ts a g' T e b nt s γ toks := by
  obtain ⟨g, nts, ts, a, g', T, S⟩ := P.setup hep
  obtain ⟨e, nt, h1, h2, h3, he, hini, hext, hsem⟩ := S.run hep
  obtain ⟨s, γ, toks, hi, ht, hs⟩ := parseLoop_trace S.wf (S.stages.tables S.wf) S.cons he hext hsem
    (runInv_init hini) trace_init h
  obtain ⟨d, b, n', _, _, e3, _, e4, e5, _, _, e6⟩ := S.lowered.pub h1 h2
  refine ⟨g, nts, ts, a, g', T, e, b, nt, s, γ, toks, ⟨S, h1, h2, h3, he, hi, hs⟩, ht,
    ⟨nt, wrapperProd P.code.mkPath b, h1, by rw [e4]; rfl, rfl⟩, ?_⟩
  rcases e6 with e6 | e6
  · left; rw [← h3, e3]; exact e6
  · right
    rintro p α ⟨m, pr, m1, m2, _⟩
    rw [e5] at m1; cases m1
    rw [e6] at m2; simp at m2

/-- What the entry point's non-terminal derives in the lowered grammar, the user's derives. -/
theorem FinalT.user {o : Outcome V E} {s' : PState Tok V W E} {g nts ts a g' T e b nt s γ toks}
    (F : FinalT P ep input w o s' g nts ts a g' T e b nt s γ toks) {x : List Symbol}
    (h : g.Derives [.nonTerminal b] x) (hx : x ≠ [.nonTerminal b]) :
    ∃ y, List.Forall₂ (Names nts ts) y x ∧ UDerives P.defs [.nt ep.name] y := by
  rcases F.named with hn | hn
  · exact F.setup.lowered.derives_user h (.cons hn .nil)
  · exfalso
    apply hx
    induction h with
    | refl => rfl
    | @tail v x hd s ih =>
      have hv : v = [.nonTerminal b] := by
        by_cases hv : v = [.nonTerminal b]
        · exact hv
        · exact ih hv
      subst hv
      generalize hv : [Symbol.nonTerminal b] = v at s
      cases s with
      | mk l r α nt p hp =>
        exfalso
        cases l with
        | nil => simp at hv; rw [← hv.1] at hp; exact hn _ _ hp
        | cons y l => simp at hv

/-! ## C08 Syntax errors are reported at the first impossible token -/

/-- **C08**, first half, for every program and every way in which `parse` may end: the consumed
tokens are the beginning of a sentential form of the entry point's non-terminal. -/
theorem c08_prefix (hep : ep ∈ P.gen.entries) {o : Outcome V E} (h : P.Returns ep input w o w' n) :
    ∃ toks form, Reads input toks ∧ n = toks.length + 1 ∧
      UDerives P.defs [.nt ep.name] (P.word toks ++ form) := by
  obtain ⟨toks0, hr, hn⟩ := c13_lazy hep h
  obtain ⟨fuel, s', h, rfl, rfl⟩ := h
  obtain ⟨g, nts, ts, a, g', T, e, b, nt, s, γ, toks, F⟩ := P.finalT hep h
  have hlen : toks.length = toks0.length := by
    have : s'.calls = s.calls := by
      cases F.step with
      | panic => rfl
      | lexer => rfl
      | «syntax» => rfl
      | accept _ _ _ _ _ hs => rw [hs]
      | acceptPanic => rfl
    rw [this, F.inv.calls] at hn; omega
  by_cases h0 : toks = []
  · subst h0
    have : toks0 = [] := List.length_eq_zero_iff.1 hlen.symm
    subst this
    exact ⟨[], [.nt ep.name], hr, hn, .refl _⟩
  · refine ⟨toks, ?_⟩
    obtain ⟨it, hit⟩ := F.trace.live
    have hF := generateFirstTable_sound P.order g
    have hok := hit.itemOk F.setup.wf (generateFirstTable_ok F.setup.wf P.order) F.isPub
    have hp := Grammar.hasProd_of_lt hok.1
    obtain ⟨z, hz, _⟩ := Grammar.Valid.derives (α := (g.rhs it.nt it.prod).take it.cursor)
      (β := (g.rhs it.nt it.prod).drop it.cursor) (la := it.la) (p := it.prod) (nt := it.nt)
      (by
        have := ItemsAt.valid hF F.setup.wf F.isPub hit
        rw [List.length_take, Nat.min_eq_left hok.2.1]; exact this)
      (by rw [List.take_append_drop]; exact hp)
    obtain ⟨vs, hev, _⟩ := F.inv.eval
    have h1 := hz.trans ((hev.derives.append_right _).append_right _)
    obtain ⟨t, toks', rfl⟩ := List.exists_cons_of_ne_nil h0
    rcases h1.entry_inv F.setup.wf F.isPub F.prod with h2 | h2
    · simp at h2
    · obtain ⟨y, h3, h4⟩ := F.user h2 (by simp)
      rw [List.append_assoc] at h3
      obtain ⟨y1, y2, rfl, h5, h6⟩ := forall₂_append_right h3
      have := F.setup.lowered.names_inj_list (F.setup.lowered.names_toks F.setup.cls (t :: toks')) h5
      subst this
      exact ⟨y2, F.inv.reads, by rw [hn, hlen], h4⟩

omit [DecidableEq Ty] in
theorem reads_take {t1 t2 : List Tok} (h1 : Reads input t1) (h2 : Reads input t2)
    (h : t1.length = t2.length) : t1 = t2 := by
  refine List.ext_getElem? fun i => ?_
  rcases Nat.lt_or_ge i t1.length with hlt | hge
  · have a1 := h1 i _ (List.getElem?_eq_getElem hlt)
    have a2 := h2 i _ (List.getElem?_eq_getElem (h ▸ hlt))
    rw [a1] at a2
    rw [List.getElem?_eq_getElem hlt, List.getElem?_eq_getElem (h ▸ hlt)]
    simpa using a2
  · rw [List.getElem?_eq_none hge, List.getElem?_eq_none (h ▸ hge)]

/-- For regular programs the name of the entry point always is that of the wrapped non-terminal. -/
theorem Compiled.Regular.finalT (hR : P.Regular) (hep : ep ∈ P.gen.entries)
    {o : Outcome V E} {s' : PState Tok V W E}
    {fuel : Nat} (h : parse P.gen P.code P.tf input ep w fuel = some (o, s')) :
    ∃ g nts ts a g' T e b nt s γ toks, FinalT P ep input w o s' g nts ts a g' T e b nt s γ toks ∧
      nts.get? ep.name = some b ∧ NoConflict g (generateFirstTable P.order g) e ∧
      FirstEnough g (generateFirstTable P.order g) := by
  obtain ⟨g, nts, ts, a, g', T, e, b, nt, s, γ, toks, F⟩ := P.finalT hep h
  obtain ⟨b', h1, h2⟩ := F.setup.lowered.entry_name hR.names F.entry F.pub
  have : [Symbol.nonTerminal b'] = [Symbol.nonTerminal b] := h2.rhs_eq.symm.trans F.prod.rhs_eq
  cases this
  exact ⟨g, nts, ts, a, g', T, e, b, nt, s, γ, toks, F, F.name ▸ h1,
    (hR.lr1 g F.setup.lower).noConflict (generateFirstTable_sound P.order g) F.setup.wf F.isPub,
    hR.first g F.setup.lower⟩

theorem forall₂_terms {nts ts : AMap String Nat} : ∀ {l : List String} {x : List Symbol},
    List.Forall₂ (Names nts ts) (l.map .term) x →
    ∃ inp : List Nat, x = inp.map .terminal ∧
      List.Forall₂ (fun (n : String) i => ts.get? n = some i) l inp := by
  intro l
  induction l with
  | nil => intro x h; cases h; exact ⟨[], rfl, .nil⟩
  | cons n l ih =>
    intro x h
    cases h with
    | @cons _ y _ ys h1 h2 =>
      obtain ⟨inp, rfl, h3⟩ := ih h2
      cases y with
      | terminal i => exact ⟨i :: inp, rfl, .cons h1 h3⟩
      | nonTerminal i => exact absurd h1 id

/-- Sentences that start with the consumed tokens, in terms of terminal numbers. -/
theorem FinalT.lift {o : Outcome V E} {s' : PState Tok V W E} {g nts ts a g' T e b nt s γ toks}
    (F : FinalT P ep input w o s' g nts ts a g' T e b nt s γ toks) (hb : nts.get? ep.name = some b)
    {rest : List String} (h : USentence P.defs ep.name (toks.map P.cls ++ rest)) :
    ∃ inp : List Nat, List.Forall₂ (fun (n : String) i => ts.get? n = some i) rest inp ∧
      g.Derives [.nonTerminal b] ((toks.map P.tf.terminalIdx ++ inp).map .terminal) := by
  obtain ⟨x, h1, h2⟩ := F.setup.lowered.user_derives h (α := [.nonTerminal b]) (.cons hb .nil)
  rw [List.map_append] at h1
  obtain ⟨x1, x2, rfl, h3, h4⟩ := forall₂_append_left h1
  have h5 := F.setup.lowered.names_toks F.setup.cls toks
  rw [List.map_map] at h3
  have := names_func h3 h5
  subst this
  obtain ⟨inp, rfl, h6⟩ := forall₂_terms h4
  refine ⟨inp, h6, ?_⟩
  rw [List.map_append, List.map_map]
  exact h2

/-- With no conflicts and complete FIRST sets, an empty cell means that nothing can go on. -/
theorem FinalT.stuck {o : Outcome V E} {s' : PState Tok V W E} {g nts ts a g' T e b nt s γ toks}
    (F : FinalT P ep input w o s' g nts ts a g' T e b nt s γ toks)
    (hn : NoConflict g (generateFirstTable P.order g) e)
    (hF : FirstEnough g (generateFirstTable P.order g)) {c : Option Nat}
    (hla : lookahead P.tf s.token = some c) (hact : P.gen.act (s.states.headD 0) c = some none)
    {inp : List Nat} (hc : c = look id inp) :
    ¬ g.Derives [.nonTerminal b] ((toks.map P.tf.terminalIdx ++ inp).map .terminal) := by
  intro h
  have h1 := F.trace.any inp (by rw [hla, hc])
  obtain ⟨m, hm⟩ := go_on hn hF F.setup.wf F.isPub F.prod h1 h
  obtain ⟨q, sts, hq, hat⟩ := F.inv.stk.top
  rw [hq] at hact
  exact (F.setup.stages.tables F.setup.wf).cell_of_wants F.setup.wf F.isPub hat hm (hc ▸ hact)

/-- **C08**, second half, for regular programs: when `parse` reports a syntax error after consuming
`toks`, no sentence starts with the consumed tokens followed by the offending token, and if the
offender is the end of input, the consumed tokens are not a sentence. -/
theorem c08_first_error (hR : P.Regular) (hep : ep ∈ P.gen.entries) {found expected : String}
    (h : P.Returns ep input w (.parserError found expected) w' n) :
    ∃ toks, Reads input toks ∧ n = toks.length + 1 ∧
      (∀ t, input toks.length = some (.ok t) →
        ∀ rest, ¬ USentence P.defs ep.name (toks.map P.cls ++ P.cls t :: rest)) ∧
      (input toks.length = none → ¬ P.IsSentence ep.name toks) := by
  obtain ⟨fuel, s', h, rfl, rfl⟩ := h
  obtain ⟨g, nts, ts, a, g', T, e, b, nt, s, γ, toks, F, hb, hn, hF⟩ := hR.finalT hep h
  cases F.step with
  | @«syntax» c found expected hla hact hf he =>
    refine ⟨toks, F.inv.reads, F.inv.calls, ?_, ?_⟩
    · intro t ht rest hs
      obtain ⟨inp, h1, h2⟩ := F.lift hb hs
      cases h1 with
      | @cons _ j _ inp hj _ =>
        have hx : ts.get? (P.cls t) = some (P.tf.terminalIdx t) := by
          have := F.setup.lowered.names_toks F.setup.cls [t]
          cases this with
          | cons h _ => exact h
        rw [hx] at hj; cases hj
        refine F.stuck hn hF hla hact ?_ h2
        rw [F.inv.token, ht] at hla
        cases hla; rfl
    · intro ht hs
      obtain ⟨inp, h1, h2⟩ := F.lift (rest := []) hb (by rw [List.append_nil]; exact hs)
      cases h1
      refine F.stuck hn hF hla hact ?_ h2
      rw [F.inv.token, ht] at hla
      cases hla; rfl

/-- `1 + )`: the tokens `1 +` were consumed, and no sentence starts with `1 + )`. -/
example : ∃ ep ∈ Examples.arith.gen.entries, ∀ rest,
    ¬ USentence Examples.arith.defs ep.name ("n" :: "+" :: ")" :: rest) := by
  obtain ⟨ep, hep, _, h⟩ := Examples.run_returns Examples.arith_syntax
  obtain ⟨toks, h1, h2, h3, _⟩ := c08_first_error Examples.arith_regular hep h
  refine ⟨ep, hep, fun rest hs => ?_⟩
  obtain ⟨t1, t2, rfl⟩ : ∃ t1 t2, toks = [t1, t2] := by
    match toks, h2 with
    | [t1, t2], _ => exact ⟨t1, t2, rfl⟩
  have e1 := h1 0 t1 rfl
  have e2 := h1 1 t2 rfl
  simp only [Examples.stream, List.getElem?_cons_zero, List.getElem?_cons_succ, Option.map_some,
    Option.some.injEq, Except.ok.injEq] at e1 e2
  subst e1 e2
  exact h3 .rp rfl rest hs

/-! ## C09 Every terminal listed in `expected` really can come next -/

/-- Names in `expected`. -/
theorem FinalT.expected {o : Outcome V E} {s' : PState Tok V W E} {g nts ts a g' T e b nt s γ toks}
    (F : FinalT P ep input w o s' g nts ts a g' T e b nt s γ toks) {expected : String}
    (he : P.gen.expected[s.states.headD 0]? = some expected) :
    ∃ names, expected = ", ".intercalate names ∧
      names.Sublist (P.tokens.conversions.map (·.from_)) ∧
      (∀ t, t ∈ names ↔ ∃ i : Nat, ts.get? t = some i ∧ i < g.nTerminals ∧
        ∃ x, P.gen.act (s.states.headD 0) (some i) = some (some x)) := by
  obtain ⟨q, sts, hq, hat⟩ := F.inv.stk.top
  rw [hq] at he
  have h1 := (F.setup.stages.tables F.setup.wf).expected F.isPub hat
  have h1' := h1.symm.trans he
  cases h1'
  refine ⟨_, rfl, ?_, ?_⟩
  · rw [← F.setup.lowered.terminals]
    have := (List.filter_sublist (l := g.terminals.zipIdx)
      (p := fun e => ((P.gen.act q (some e.2)).join).isSome)).map (·.1)
    rwa [show g.terminals.zipIdx.map (·.1) = g.terminals from List.zipIdx_map_fst ..] at this
  · intro t
    simp only [List.mem_map, List.mem_filter, hq, List.headD_cons]
    constructor
    · rintro ⟨⟨t', i⟩, ⟨h2, h3⟩, rfl⟩
      have h4 := List.mk_mem_zipIdx_iff_getElem?.1 h2
      refine ⟨i, (F.setup.lowered.tmap ..).2 h4, (List.getElem?_eq_some_iff.1 h4).1, ?_⟩
      obtain ⟨x, hx⟩ := Option.isSome_iff_exists.1 h3
      exact ⟨x, by simpa [Option.join_eq_some_iff] using hx⟩
    · rintro ⟨i, h2, _, x, hx⟩
      have h4 := (F.setup.lowered.tmap ..).1 h2
      exact ⟨(t, i), ⟨List.mk_mem_zipIdx_iff_getElem?.2 h4, by simp [hx]⟩, rfl⟩

theorem forall₂_mem_left {α β : Type} {R : α → β → Prop} {l : List α} {l' : List β}
    (h : List.Forall₂ R l l') {x : α} (hx : x ∈ l) : ∃ y ∈ l', R x y := by
  induction h with
  | nil => simp at hx
  | cons h _ ih =>
    rcases List.mem_cons.1 hx with rfl | hx
    · exact ⟨_, List.mem_cons_self .., h⟩
    · obtain ⟨y, h1, h2⟩ := ih hx
      exact ⟨y, List.mem_cons_of_mem _ h1, h2⟩

/-- A wanted move shows how the input may go on. -/
theorem FinalT.form {o : Outcome V E} {s' : PState Tok V W E} {g nts ts a g' T e b nt s γ toks}
    (F : FinalT P ep input w o s' g nts ts a g' T e b nt s γ toks) {γ1 : List Symbol}
    (hd : g.Derives γ1 (toks.map fun t => .terminal (P.tf.terminalIdx t))) {c : Option Nat} {m : Move}
    (hm : g.Wants (ItemsAt g (generateFirstTable P.order g) e γ1) c m) :
    (∀ t i, ts.get? t = some i → c = some i → ∃ form,
      (∀ n, USym.nt n ∈ form → ∃ d ∈ P.defs, d.name = n) ∧
      UDerives P.defs [.nt ep.name] (P.word toks ++ .term t :: form)) ∧
    (c = none → P.IsSentence ep.name toks) := by
  have hd' : g.Derives γ1 ((toks.map P.tf.terminalIdx).map .terminal) := by
    rw [List.map_map]; exact hd
  obtain ⟨h1, h2⟩ := hm.next (generateFirstTable_sound P.order g) F.setup.wf F.isPub F.prod hd'
  rw [List.map_map] at h1 h2
  refine ⟨?_, ?_⟩
  · intro t i hi hc
    obtain ⟨x, hx⟩ := h1 i hc
    obtain ⟨y, h3, h4⟩ := F.user hx (by
      intro h
      have : Symbol.terminal i ∈ [Symbol.nonTerminal b] := by rw [← h]; simp
      simp at this)
    obtain ⟨y1, y2, rfl, h5, h6⟩ := forall₂_append_right h3
    have := F.setup.lowered.names_inj_list (F.setup.lowered.names_toks F.setup.cls toks) h5
    subst this
    cases h6 with
    | @cons t' _ form _ h7 h8 =>
      have : t' = .term t := F.setup.lowered.names_inj h7 (show Names nts ts (.term t) (.terminal i) from hi)
      subst this
      refine ⟨form, ?_, h4⟩
      intro n hn
      obtain ⟨s, _, hs⟩ := forall₂_mem_left h8 hn
      cases s with
      | terminal => exact absurd hs id
      | nonTerminal j => exact (F.setup.lowered.idx n).1 ⟨j, hs⟩
  · intro hc
    have h3 := h2 hc
    obtain ⟨y, h4, h5⟩ := F.user h3 (by
      intro h
      have : Symbol.nonTerminal b ∈ toks.map (Symbol.terminal ∘ P.tf.terminalIdx) := by rw [h]; simp
      simp at this)
    have := F.setup.lowered.names_inj_list (F.setup.lowered.names_toks F.setup.cls toks) h4
    subst this
    show UDerives _ _ _
    rw [List.map_map]
    exact h5

/-- **C09**, for every program: the `expected` string of a syntax error consists of terminals in
declaration order, separated by ", ".  It does not list the offending token, and every terminal it
lists can come next: the consumed tokens followed by that terminal are the beginning of a sentential
form of the entry point's non-terminal. -/
theorem c09_expected_sound (hep : ep ∈ P.gen.entries) {found expected : String}
    (h : P.Returns ep input w (.parserError found expected) w' n) :
    ∃ toks names, Reads input toks ∧ n = toks.length + 1 ∧ expected = ", ".intercalate names ∧
      names.Sublist (P.tokens.conversions.map (·.from_)) ∧
      (∀ t, input toks.length = some (.ok t) → P.cls t ∉ names) ∧
      ∀ t ∈ names, ∃ form, UDerives P.defs [.nt ep.name] (P.word toks ++ .term t :: form) := by
  obtain ⟨fuel, s', h, rfl, rfl⟩ := h
  obtain ⟨g, nts, ts, a, g', T, e, b, nt, s, γ, toks, F⟩ := P.finalT hep h
  cases F.step with
  | @«syntax» c found expected hla hact hf he =>
    obtain ⟨names, h1, h2, h3⟩ := F.expected he
    refine ⟨toks, names, F.inv.reads, F.inv.calls, h1, h2, ?_, ?_⟩
    · intro t ht hm
      obtain ⟨i, h4, _, x, h5⟩ := (h3 _).1 hm
      have hx : ts.get? (P.cls t) = some (P.tf.terminalIdx t) := by
        have := F.setup.lowered.names_toks F.setup.cls [t]
        cases this with
        | cons h _ => exact h
      rw [hx] at h4; cases h4
      rw [F.inv.token, ht] at hla
      cases hla
      rw [hact] at h5
      cases h5
    · intro t ht
      obtain ⟨i, h4, h5, x, h6⟩ := (h3 _).1 ht
      obtain ⟨q, sts, hq, hat⟩ := F.inv.stk.top
      rw [hq] at h6
      obtain ⟨m, hm⟩ := (F.setup.stages.tables F.setup.wf).wants_of_cell F.setup.wf F.isPub hat
        (fun _ h => by cases h; exact h5) h6
      obtain ⟨vs, hev, _⟩ := F.inv.eval
      obtain ⟨form, _, h7⟩ := (F.form hev.derives hm).1 t i h4 rfl
      exact ⟨form, h7⟩

/-- `1 + )`: `expected` is "n, (". -/
example : ∃ ep ∈ Examples.arith.gen.entries, ∃ w', Examples.arith.Returns ep
    (Examples.stream [.num 1, .plus, .rp, .num 2]) [] (.parserError ")" "n, (") w' 3 := by
  obtain ⟨ep, hep, _, h⟩ := Examples.run_returns Examples.arith_syntax
  exact ⟨ep, hep, _, h⟩

/-! ## C10 `expected` lists every possible next terminal -/

omit [DecidableEq Ty] in
/-- In a productive program sentential forms derive sentences. -/
theorem productive_form {asts : List (AstNonTerminal X Ty)}
    (hP : ∀ d ∈ asts, ∃ x, USentence asts d.name x) (form : List USym)
    (h : ∀ n, USym.nt n ∈ form → ∃ d ∈ asts, d.name = n) :
    ∃ z : List String, UDerives asts form (z.map .term) := by
  induction form with
  | nil => exact ⟨[], .refl _⟩
  | cons s form ih =>
    obtain ⟨z, hz⟩ := ih fun n hn => h n (List.mem_cons_of_mem _ hn)
    cases s with
    | term t => exact ⟨t :: z, hz.append_left [.term t]⟩
    | nt n =>
      obtain ⟨d, hd, rfl⟩ := h n (List.mem_cons_self ..)
      obtain ⟨x, hx⟩ := hP d hd
      refine ⟨x ++ z, ?_⟩
      rw [List.map_append]
      exact (hx.append_right form).trans (hz.append_left _)

/-- **C10**, for regular programs in which every non-terminal derives some sentence: the terminals in
the `expected` string of a syntax error are exactly those that can follow the consumed tokens in a
sentence.  (The end of input is not a terminal and never listed.) -/
theorem c10_expected_complete (hR : P.Regular) (hP : P.Productive) (hep : ep ∈ P.gen.entries)
    {found expected : String} (h : P.Returns ep input w (.parserError found expected) w' n) :
    ∃ toks names, Reads input toks ∧ n = toks.length + 1 ∧ expected = ", ".intercalate names ∧
      names.Sublist (P.tokens.conversions.map (·.from_)) ∧
      ∀ t, t ∈ names ↔ ∃ rest, USentence P.defs ep.name (toks.map P.cls ++ t :: rest) := by
  obtain ⟨toks0, hr0, hn0, hbad, hbadEnd⟩ := c08_first_error hR hep h
  obtain ⟨fuel, s', h, rfl, rfl⟩ := h
  obtain ⟨g, nts, ts, a, g', T, e, b, nt, s, γ, toks, F, hb, hn, hF⟩ := hR.finalT hep h
  cases F.step with
  | @«syntax» c found expected hla hact hf he =>
    have := reads_take hr0 F.inv.reads (by rw [F.inv.calls] at hn0; omega)
    subst this
    obtain ⟨names, h1, h2, h3⟩ := F.expected he
    have sent : ∀ {form}, (∀ n, USym.nt n ∈ form → ∃ d ∈ P.defs, d.name = n) → ∀ {t : String},
        UDerives P.defs [.nt ep.name] (P.word toks0 ++ .term t :: form) →
        ∃ rest, USentence P.defs ep.name (toks0.map P.cls ++ t :: rest) := by
      intro form hform t hd
      obtain ⟨z, hz⟩ := productive_form hP form hform
      refine ⟨z, ?_⟩
      have := hd.trans ((hz.append_left [.term t]).append_left (P.word toks0))
      show UDerives _ _ _
      simpa [Compiled.word, Function.comp_def] using this
    refine ⟨toks0, names, F.inv.reads, F.inv.calls, h1, h2, fun t => ⟨?_, ?_⟩⟩
    · intro ht
      obtain ⟨i, h4, h5, x, h6⟩ := (h3 _).1 ht
      obtain ⟨q, sts, hq, hat⟩ := F.inv.stk.top
      rw [hq] at h6
      obtain ⟨m, hm⟩ := (F.setup.stages.tables F.setup.wf).wants_of_cell F.setup.wf F.isPub hat
        (fun _ h => by cases h; exact h5) h6
      obtain ⟨vs, hev, _⟩ := F.inv.eval
      obtain ⟨form, hform, h7⟩ := (F.form hev.derives hm).1 t i h4 rfl
      exact sent hform h7
    · rintro ⟨rest, hs⟩
      obtain ⟨inp, hi, hd⟩ := F.lift hb hs
      cases hi with
      | @cons _ i _ inp hi _ =>
        obtain ⟨γ1, t1, t2, t3⟩ := F.trace.last
        have hγ : γ = γ1 := by
          rcases t3 with t3 | ⟨c', b', p', t3, t4⟩
          · exact t3
          · exfalso
            rw [hla] at t3; cases t3
            have hform := F.form t2 t4
            cases htok : s'.token with
            | none =>
              have hc : c = none := by rw [htok] at hla; cases hla; rfl
              refine hbadEnd (by rw [← F.inv.token, htok]) (hform.2 hc)
            | some r =>
              cases r with
              | error err => rw [htok] at hla; cases hla
              | ok t' =>
                have hc : c = some (P.tf.terminalIdx t') := by rw [htok] at hla; cases hla; rfl
                have hx : ts.get? (P.cls t') = some (P.tf.terminalIdx t') := by
                  have := F.setup.lowered.names_toks F.setup.cls [t']
                  cases this with
                  | cons h _ => exact h
                obtain ⟨form, hf1, hf2⟩ := hform.1 _ _ hx hc
                obtain ⟨z, hz⟩ := sent hf1 hf2
                exact hbad t' (by rw [← F.inv.token, htok]) z hz
        subst hγ
        obtain ⟨m, hm⟩ := go_on hn hF F.setup.wf F.isPub F.prod (t1 (i :: inp)) hd
        obtain ⟨q, sts, hq, hat⟩ := F.inv.stk.top
        have hlt : i < g.nTerminals := by
          have := (F.setup.lowered.tmap ..).1 hi
          exact (List.getElem?_eq_some_iff.1 this).1
        have hT := F.setup.stages.tables F.setup.wf
        have hne := hT.cell_of_wants F.setup.wf F.isPub hat hm
        obtain ⟨o, ho⟩ := hT.cell (c := some i) F.isPub hat (fun _ h => by cases h; exact hlt)
        refine (h3 t).2 ⟨i, hi, hlt, ?_⟩
        rw [hq, List.headD_cons]
        cases o with
        | none => exact absurd ho hne
        | some x => exact ⟨x, ho⟩

theorem Examples.arith_productive : Examples.arith.Productive := by
  have hd : Examples.arith.defs = Examples.arithDefs := Examples.defs_itemsOf _
  unfold Compiled.Productive
  rw [hd]
  have ht : USentence Examples.arithDefs "Term" ["n"] := by
    refine .tail (.refl _) (UProduces.mk [] [] [.term "n"] "Term" Examples.arithDefs[1].productions[0] ?_ rfl)
    simp [userProds, Examples.arithDefs]
  intro d hd
  have : d.name = "Expr" ∨ d.name = "Term" := by
    simp only [Examples.arithDefs, List.mem_cons, List.not_mem_nil, or_false] at hd
    rcases hd with rfl | rfl <;> simp
  rcases this with h | h
  · rw [h]
    refine ⟨["n"], UDerives.trans (m := [.nt "Term"]) ?_ ht⟩
    refine .tail (.refl _) (UProduces.mk [] [] [.nt "Term"] "Expr" Examples.arithDefs[0].productions[1] ?_ rfl)
    simp [userProds, Examples.arithDefs]
  · rw [h]; exact ⟨_, ht⟩

/-- After `1 +` exactly "n" and "(" can come next, as `expected` said: the theorem proves that no
sum has "+" or ")" there. -/
example : ∃ ep ∈ Examples.arith.gen.entries, ∀ t,
    t ∈ ["n", "("] ↔ ∃ rest, USentence Examples.arith.defs ep.name ("n" :: "+" :: t :: rest) := by
  obtain ⟨ep, hep, _, h⟩ := Examples.run_returns Examples.arith_syntax
  obtain ⟨toks, names, h1, h2, h3, h4, h5⟩ :=
    c10_expected_complete Examples.arith_regular Examples.arith_productive hep h
  refine ⟨ep, hep, ?_⟩
  obtain ⟨t1, t2, rfl⟩ : ∃ t1 t2, toks = [t1, t2] := by
    match toks, h2 with
    | [t1, t2], _ => exact ⟨t1, t2, rfl⟩
  have e1 := h1 0 t1 rfl
  have e2 := h1 1 t2 rfl
  simp only [Examples.stream, List.getElem?_cons_zero, List.getElem?_cons_succ, Option.map_some,
    Option.some.injEq, Except.ok.injEq] at e1 e2
  subst e1 e2
  have hn : names = ["n", "("] := by
    have h4' : names ∈ (["+", "n", "(", ")"] : List String).sublists := by
      rw [List.mem_sublists]; exact h4
    revert h3
    fin_cases h4' <;> decide
  rw [hn] at h5
  exact h5

end Parsegen
