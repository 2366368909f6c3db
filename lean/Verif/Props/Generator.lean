import Verif.Spec.Loops
import Verif.Proofs.Wants
import Verif.Props.Codegen

/-! # C16-C18, C36-C38: FIRST sets, closures and the automaton -/

namespace Parsegen

variable {A X Ty σ : Type}

/-! ## C16 The macro terminates -/

theorem whileUpdated_ends {body : σ → σ × Bool} : ∀ (fuel : Nat) (s : σ),
    (whileUpdated body fuel s).2 = false →
      ∃ n ≤ fuel, LoopEnds body n s (whileUpdated body fuel s).1 := by
  intro fuel
  induction fuel with
  | zero => intro s h; cases h
  | succ fuel ih =>
    intro s h
    unfold whileUpdated at h ⊢
    split
    · next s' hs =>
      rw [hs] at h
      obtain ⟨n, hn, h1⟩ := ih s' h
      exact ⟨n + 1, by omega, .again hs h1⟩
    · next s' hs => exact ⟨1, by omega, .stop hs⟩

theorem closureLoop_ends {h : HashOrder} {g : Grammar A Ty} {F : FirstTable} : ∀ (fuel : Nat)
    (s : List Item × List Item), (closureLoop h g F fuel s).2 = [] →
      ∃ n ≤ fuel, WorkEnds (closureProcess h g F) n s (closureLoop h g F fuel s).1 := by
  intro fuel
  induction fuel with
  | zero =>
    rintro ⟨cl, wl⟩ h
    simp only [closureLoop] at h ⊢
    subst h
    exact ⟨0, by omega, .stop cl⟩
  | succ fuel ih =>
    rintro ⟨cl, wl⟩ h
    cases wl with
    | nil => exact ⟨0, by omega, .stop cl⟩
    | cons it wl =>
      obtain ⟨n, hn, h1⟩ := ih _ h
      exact ⟨n + 1, by omega, .pop h1⟩

/-- **C16.** The FIRST-set loop ends: at most `#non-terminals * (#terminals + 1) + 1` passes. -/
theorem c16_first {g : Grammar A Ty} (hwf : g.WF) (h : HashOrder) :
    ∃ n ≤ g.nNonTerminals * (g.nTerminals + 1) + 1,
      LoopEnds (firstPass h g) n (FirstTable.new g.nNonTerminals) (generateFirstTable h g) :=
  whileUpdated_ends _ _ (firstLoop_terminates hwf h)

/-- **C16.** The closure work list becomes empty: at most `#items + #productions * (#terminals + 1) + 1`
items are popped.  (`hla`: the lookaheads of the given items are terminals of the grammar.) -/
theorem c16_closure {g : Grammar A Ty} (hwf : g.WF) {F : FirstTable} (hF : F.Ok g.nTerminals)
    (h : HashOrder) {items : List Item} (hla : ∀ x ∈ items, ∀ t, x.la = some t → t < g.nTerminals) :
    ∃ n ≤ items.length + g.totalProductions * (g.nTerminals + 1) + 1, ∃ cl,
      WorkEnds (closureProcess h g F) n (items, (h.iter items).reverse) cl ∧
        computeClosure h g F items = btCollect (h.iter cl) := by
  obtain ⟨n, hn, h1⟩ := closureLoop_ends _ _ (closureRun_spec hwf hF h hla).1
  exact ⟨n, hn, _, h1, rfl⟩

/-- **C16.** The automaton loop ends: at most `#non-terminals + 2 ^ #items + 2` passes. -/
theorem c16_automaton {g : Grammar A Ty} (hwf : g.WF) {F : FirstTable} (hF : F.Ok g.nTerminals)
    (h : HashOrder) : ∃ a st0 entries n st, initStates h g F g.nonTerminals.zipIdx (⟨[], []⟩, []) =
        .ok (st0, entries) ∧ n ≤ g.nNonTerminals + 2 ^ g.nItems + 2 ∧
      LoopEnds (autoPass h g F) n st0 st ∧ a.states = st.states ∧ a.entries = entries ∧
      generateAutomaton h g F = .ok a := by
  obtain ⟨a, ha, _⟩ := generateAutomaton_spec hwf hF h
  have ha' := ha
  unfold generateAutomaton at ha
  obtain ⟨⟨st0, entries⟩, h1, h2⟩ := Except.bind_eq_ok.1 ha
  simp only at h2
  split at h2
  · cases h2
  · next hu =>
    obtain ⟨n, hn, h3⟩ := whileUpdated_ends (body := autoPass h g F) (autoFuel g) st0
      (by simpa using hu)
    cases h2
    exact ⟨_, st0, entries, n, _, h1, hn, h3, rfl, rfl, ha'⟩

/-- The hypotheses hold of every lowered grammar, in particular of `arith`, and the FIRST loop really
makes more than one pass. -/
example : ∃ g, lower Examples.code.mkPath Examples.arithDefs Examples.tk.conversions = .ok g ∧
    g.WF ∧ ∃ n, 2 ≤ n ∧
      LoopEnds (firstPass .insertion g) n (FirstTable.new g.nNonTerminals)
        (generateFirstTable .insertion g) := by
  obtain ⟨g, h1, _, h3, _⟩ := Examples.arith_lowered
  refine ⟨g, h1, h3, ?_⟩
  obtain ⟨n, _, h4⟩ := c16_first h3 .insertion
  refine ⟨n, ?_, h4⟩
  by_contra hn
  obtain ⟨g', h5, h6⟩ := Except.ok_of_map
    (x := lower (Examples.code (W := Examples.Log)).mkPath Examples.arithDefs
      Examples.tk.conversions)
    (f := fun g => (firstPass .insertion g (FirstTable.new g.nNonTerminals)).2) (r := true)
    (by decide +kernel)
  have h7 := h1.symm.trans h5
  cases h7
  cases h4 with
  | stop h => rw [h] at h6; cases h6
  | again h t =>
    cases t
    · exact hn (by omega)
    · exact hn (by omega)

/-! ## C17 FIRST sets are sound -/

/-- **C17.** A terminal in the computed FIRST set of `nt` begins a sentential form derived from `nt`;
a non-terminal marked empty derives the empty string. -/
theorem c17_first_sound (h : HashOrder) (g : Grammar A Ty) (nt : Nat) :
    (∀ t, t ∈ ((generateFirstTable h g).get nt).terminals →
      ∃ x, g.Derives [.nonTerminal nt] (.terminal t :: x)) ∧
    (((generateFirstTable h g).get nt).empty = true → g.Derives [.nonTerminal nt] []) :=
  ⟨(generateFirstTable_sound h g).terminals nt, (generateFirstTable_sound h g).empty nt⟩

/-! ## C18 FIRST sets are complete when nullable prefixes are harmless -/

/-- **C18.** Under the side condition `HarmlessNullable` the computed table contains everything. -/
theorem c18_first_complete {g : Grammar A Ty} (hwf : g.WF) (hh : g.HarmlessNullable)
    (h : HashOrder) (nt : Nat) (hlt : nt < g.nNonTerminals) (hpriv : g.isPublic nt = false) :
    (∀ t x, g.Derives [.nonTerminal nt] (.terminal t :: x) →
      t ∈ ((generateFirstTable h g).get nt).terminals) ∧
    (g.Derives [.nonTerminal nt] [] → ((generateFirstTable h g).get nt).empty = true) := by
  have hc := (generateFirstTable_closed hwf hh h).complete hwf
  exact ⟨fun t x hx => hc.terminals nt t hlt hpriv ⟨x, hx⟩, fun hx => hc.empty nt hlt hpriv hx⟩

/-- **C18.** The FIRST sets that matter are those of non-terminals that come after a non-terminal
(`Behind`) and those that these are computed from (`Relevant`): if nullable prefixes are harmless there, the
table contains everything there. -/
theorem c18_first_enough {g : Grammar A Ty} (hwf : g.WF) (hh : g.HarmlessRelevant)
    (h : HashOrder) (nt : Nat) (hnt : g.Relevant nt) :
    (∀ t x, g.Derives [.nonTerminal nt] (.terminal t :: x) →
      t ∈ ((generateFirstTable h g).get nt).terminals) ∧
    (g.Derives [.nonTerminal nt] [] → ((generateFirstTable h g).get nt).empty = true) :=
  ⟨fun t x hx => (generateFirstTable_relevant hwf hh h hnt).1 t ⟨x, hx⟩,
    (generateFirstTable_relevant hwf hh h hnt).2⟩

/-- **C18.** In general the computed table is complete iff it satisfies the FIRST equations. -/
theorem c18_complete_iff {g : Grammar A Ty} (hwf : g.WF) (h : HashOrder) :
    FirstComplete g (generateFirstTable h g) ↔ FirstClosed g (generateFirstTable h g) :=
  ⟨fun hc => hc.closed (generateFirstTable_sound h g), fun hc => hc.complete hwf⟩

/-- A decision procedure for `WF`. -/
def Grammar.wfCheck (g : Grammar A Ty) : Bool :=
  g.nonTerminals.all fun n =>
    (n.productions.all fun p => p.syms.all fun s => match s with
      | .nonTerminal b => decide (b < g.nNonTerminals) && !g.isPublic b
      | .terminal t => decide (t < g.nTerminals)) &&
    (!n.isPublic || match n.productions.map (fun p : Production A => p.syms) with
      | [[Symbol.nonTerminal b]] => decide (b < g.nNonTerminals)
      | _ => false)

theorem Grammar.wf_of_check {g : Grammar A Ty} (h : g.wfCheck = true) : g.WF := by
  unfold Grammar.wfCheck at h
  rw [List.all_eq_true] at h
  have key : ∀ {nt p α s}, g.HasProd nt p α → s ∈ α → (match s with
      | .nonTerminal b => decide (b < g.nNonTerminals) && !g.isPublic b
      | .terminal t => decide (t < g.nTerminals)) = true := by
    rintro nt p α s ⟨n, pr, h1, h2, rfl⟩ hs
    have h3 := h n (List.mem_of_getElem? h1)
    rw [Bool.and_eq_true, List.all_eq_true] at h3
    have h4 := h3.1 pr (List.mem_of_getElem? h2)
    rw [List.all_eq_true] at h4
    exact h4 s hs
  refine ⟨?_, ?_, ?_, ?_⟩
  · intro nt p α b hp hb
    have := key hp hb
    simp only [Bool.and_eq_true, decide_eq_true_eq] at this
    exact this.1
  · intro nt p α b hp hb
    have := key hp hb
    simp only [Bool.and_eq_true, decide_eq_true_eq] at this
    simpa using this.2
  · intro nt p α t hp ht
    have := key hp ht
    simpa using this
  · intro nt hn
    unfold Grammar.isPublic at hn
    split at hn
    · next n hn' =>
      have h3 := h n (List.mem_of_getElem? hn')
      rw [Bool.and_eq_true] at h3
      have h4 := h3.2
      rw [hn, Bool.not_true, Bool.false_or] at h4
      split at h4
      · next b hb =>
        cases hps : n.productions with
        | nil => rw [hps] at hb; simp at hb
        | cons pr l =>
          rw [hps] at hb
          simp at hb
          obtain ⟨hb, rfl⟩ := hb
          refine ⟨by simp [Grammar.nProductions, hn', hps], b, n, pr, hn', by simp [hps], hb.symm⟩
      · cases h4
    · cases hn

/-- A grammar without names, types and actions: for each non-terminal whether it is public and its
right-hand sides. -/
def Grammar.bare (l : List (Bool × List (List Symbol))) (nT : Nat) : Grammar Unit Unit :=
  ⟨l.map fun e => ⟨"", e.2.map fun ss => ⟨ss.map fun s => ⟨none, s⟩, ()⟩, (), e.1⟩,
    List.replicate nT ""⟩

theorem Grammar.Derives.of_prod {g : Grammar A Ty} {u v α : List Symbol} {nt p : Nat}
    (h : g.HasProd nt p α) : g.Derives (u ++ .nonTerminal nt :: v) (u ++ α ++ v) :=
  .single (.mk u v α nt p h)

namespace Examples

/-- `S → x Y;  Y → A b;  A → a | ε` with entry point `E → S`;
non-terminals `S=0, E=1, Y=2, A=3`, terminals `x=0, a=1, b=2`. -/
def firstBug : Grammar Unit Unit := .bare
  [(false, [[.terminal 0, .nonTerminal 2]]), (true, [[.nonTerminal 0]]),
    (false, [[.nonTerminal 3, .terminal 2]]), (false, [[.terminal 1], []])] 3

/-- `S → B;  B → A;  A → ε` with entry point `E → S`: the empty flag is not propagated, because setting
it does not cause another pass and the productions are visited in declaration order. -/
def flagBug : Grammar Unit Unit := .bare
  [(false, [[.nonTerminal 2]]), (true, [[.nonTerminal 0]]), (false, [[.nonTerminal 3]]),
    (false, [[.nonTerminal 4]]), (false, [[]])] 0

/-- The classical expression grammar `S → S + T | T;  T → ε | n T` has a nullable non-terminal in a
harmless place. -/
def harmless : Grammar Unit Unit := .bare
  [(false, [[.terminal 2, .nonTerminal 2]]), (true, [[.nonTerminal 0]]),
    (false, [[], [.nonTerminal 2, .terminal 1]])] 3

end Examples

/-- The unconditional claim is false: `Y` derives `a b`, but `a` is not in its computed FIRST set. -/
theorem c18_counterexample : Examples.firstBug.WF ∧
    Examples.firstBug.Derives [.nonTerminal 2] [.terminal 1, .terminal 2] ∧
    1 ∉ ((generateFirstTable .insertion Examples.firstBug).get 2).terminals := by
  refine ⟨Grammar.wf_of_check (by decide), ?_, by decide⟩
  have h1 : Examples.firstBug.HasProd 2 0 [.nonTerminal 3, .terminal 2] := ⟨_, _, rfl, rfl, rfl⟩
  have h2 : Examples.firstBug.HasProd 3 0 [.terminal 1] := ⟨_, _, rfl, rfl, rfl⟩
  exact Grammar.Derives.trans (.of_hasProd h1) (.of_prod (u := []) (v := [.terminal 2]) h2)

/-- Nor are all nullable non-terminals marked. -/
theorem c18_counterexample_empty : Examples.flagBug.WF ∧
    Examples.flagBug.Derives [.nonTerminal 2] [] ∧
    ((generateFirstTable .insertion Examples.flagBug).get 2).empty = false := by
  refine ⟨Grammar.wf_of_check (by decide), ?_, by decide⟩
  have h1 : Examples.flagBug.HasProd 2 0 [.nonTerminal 3] := ⟨_, _, rfl, rfl, rfl⟩
  have h2 : Examples.flagBug.HasProd 3 0 [.nonTerminal 4] := ⟨_, _, rfl, rfl, rfl⟩
  have h3 : Examples.flagBug.HasProd 4 0 [] := ⟨_, _, rfl, rfl, rfl⟩
  exact Grammar.Derives.trans (.of_hasProd h1) (.trans (.of_hasProd h2) (.of_hasProd h3))

/-- The side condition is met with a nullable non-terminal. -/
example : Examples.harmless.WF ∧ Examples.harmless.HarmlessNullable ∧
    Examples.harmless.Derives [.nonTerminal 2] [] := by
  refine ⟨Grammar.wf_of_check (by decide), ?_, ?_⟩
  · refine .of_self (Grammar.wf_of_check (by decide)) ?_
    intro nt p α1 b α2 hpub hp hα hb
    have h1 := hp.lt
    have h2 := Grammar.lt_of_nProductions h1
    have h3 := hp.rhs_eq
    simp only [Grammar.nNonTerminals, Examples.harmless, Grammar.bare, List.length_map,
      List.length_cons, List.length_nil] at h2
    have hdrop : α1 = [] ∨ ∃ t α, α1 = .terminal t :: α ∨ (∃ c, α1 = .nonTerminal c :: α) := by
      cases α1 with
      | nil => exact .inl rfl
      | cons s α => cases s with
        | terminal t => exact .inr ⟨t, α, .inl rfl⟩
        | nonTerminal c => exact .inr ⟨0, α, .inr ⟨c, rfl⟩⟩
    have hterm : ∀ t α, α1 = .terminal t :: α → False := by
      rintro t α rfl
      obtain ⟨x, hx, _⟩ := hα.term_inv
      cases hx
    match nt, h2 with
    | 0, _ =>
      simp [Examples.harmless, Grammar.bare, Grammar.nProductions] at h1
      subst h1
      exfalso
      cases α1 with
      | nil =>
        have : ([Symbol.terminal 2, .nonTerminal 2] : List Symbol) = .nonTerminal b :: α2 := h3
        cases this
      | cons s α =>
        have : ([Symbol.terminal 2, .nonTerminal 2] : List Symbol) =
          s :: (α ++ .nonTerminal b :: α2) := h3
        exact hterm 2 α (by rw [← (List.cons.inj this).1])
    | 1, _ => cases hpub
    | 2, _ =>
      simp [Examples.harmless, Grammar.bare, Grammar.nProductions] at h1
      match p, h1 with
      | 0, _ =>
        have : ([] : List Symbol) = α1 ++ .nonTerminal b :: α2 := h3
        simp at this
      | 1, _ =>
        have h4 : ([Symbol.nonTerminal 2, .terminal 1] : List Symbol) =
          α1 ++ .nonTerminal b :: α2 := h3
        cases α1 with
        | nil => cases h4; rfl
        | cons s α =>
          cases α with
          | nil => simp at h4
          | cons s' α =>
            have := congrArg List.length h4
            simp at this
  · exact .of_hasProd (p := 0) ⟨_, _, rfl, rfl, rfl⟩

/-! ## C38 Closure -/

/-- **C38.** `compute_lr1_closure` returns exactly the least set of items that contains the given ones
and is closed under prediction (`Clo`, Spec/LR.lean), as a sorted set, whatever the iteration order. -/
theorem c38_closure {g : Grammar A Ty} (hwf : g.WF) {F : FirstTable} (hF : F.Ok g.nTerminals)
    (h : HashOrder) {items : List Item} (hla : ∀ x ∈ items, ∀ t, x.la = some t → t < g.nTerminals) :
    (∀ x, x ∈ computeClosure h g F items ↔ Clo g F (· ∈ items) x) ∧
    (computeClosure h g F items).Pairwise (fun a b => Item.lt a b = true) :=
  ⟨mem_computeClosure hwf hF h hla, computeClosure_sorted h F items⟩

/-- Closure of the entry item of `firstBug`: the lookahead of `S → . x Y` is end of input. -/
example : computeClosure .reversed Examples.firstBug
    (generateFirstTable .insertion Examples.firstBug) [⟨1, 0, 0, none⟩] =
      [⟨0, 0, 0, none⟩, ⟨1, 0, 0, none⟩] ∧
    (generateFirstTable .insertion Examples.firstBug).Ok Examples.firstBug.nTerminals := by
  exact ⟨by decide, generateFirstTable_ok (Grammar.wf_of_check (by decide)) _⟩

/-! ## C36, C37 The automaton -/

/-- Reading `γ` from state `q` in an automaton leads to state `r`. -/
inductive Automaton.Path (a : Automaton) (q : Nat) : List Symbol → Nat → Prop
  | nil : a.Path q [] q
  | snoc {γ r s X st} (h : a.Path q γ r) (hr : a.states[r]? = some st)
      (hs : st.goto.get? X = some s) : a.Path q (γ ++ [X]) s

theorem AutoSpec.path {g : Grammar A Ty} {h : HashOrder} {F : FirstTable} {a : Automaton}
    (hwf : g.WF) (hF : F.Ok g.nTerminals) (ha : AutoSpec h g F a) {E q0 : Nat}
    (hE : g.isPublic E = true) (h0 : a.entries.get? E = some q0) {γ : List Symbol} {q : Nat}
    (hp : a.Path q0 γ q) : StateAt g F a E γ q := by
  induction hp with
  | nil =>
    obtain ⟨s, h1, h2⟩ := ha.ent E q0 h0
    exact ⟨s, h1, h2⟩
  | snoc _ hr hs ih =>
    obtain ⟨s, h1, h2⟩ := ih
    rw [hr] at h1; cases h1
    exact stateAt_goto hwf hF ha hE hr h2 hs

/-- **C36.** The automaton is the canonical collection: there is exactly one entry state per entry point
`E`; reading `γ` from it succeeds iff some item is an LR(1) item for `γ` (`ItemsAt`, Spec/LR.lean), the
state is determined by `γ`, and its item set consists of exactly those items. -/
theorem c36_canonical {g : Grammar A Ty} (hwf : g.WF) (h : HashOrder) :
    ∃ a, generateAutomaton h g (generateFirstTable h g) = .ok a ∧
      (∀ E, (∃ q0, (E, q0) ∈ a.entries) ↔ g.isPublic E = true) ∧
      ∀ E q0, (E, q0) ∈ a.entries →
        (∀ q0', (E, q0') ∈ a.entries → q0' = q0) ∧
        ∀ γ, ((∃ q, a.Path q0 γ q) ↔ ∃ it, ItemsAt g (generateFirstTable h g) E γ it) ∧
          (∀ q q', a.Path q0 γ q → a.Path q0 γ q' → q = q') ∧
          ∀ q, a.Path q0 γ q → ∃ st : LR1State, a.states[q]? = some st ∧
            ∀ it, it ∈ st.items ↔ ItemsAt g (generateFirstTable h g) E γ it := by
  have hF := generateFirstTable_ok hwf h
  obtain ⟨a, ha, has⟩ := generateAutomaton_spec hwf hF h
  refine ⟨a, ha, ?_, ?_⟩
  · intro E
    rw [← has.ent_dom E]
    constructor
    · rintro ⟨q, hq⟩
      rw [(AMap.mem_iff_get? has.ent_nodup).1 hq]; rfl
    · intro hs
      obtain ⟨q, hq⟩ := Option.isSome_iff_exists.1 hs
      exact ⟨q, AMap.mem_of_get? hq⟩
  · intro E q0 hq0
    have h0 := (AMap.mem_iff_get? has.ent_nodup).1 hq0
    have hE := (has.ent_dom E).1 (by rw [h0]; rfl)
    refine ⟨?_, ?_⟩
    · intro q0' hq0'
      have h0' := (AMap.mem_iff_get? has.ent_nodup).1 hq0'
      rw [h0] at h0'; cases h0'; rfl
    · intro γ
      have hat : ∀ q, a.Path q0 γ q → StateAt g (generateFirstTable h g) a E γ q :=
        fun q hq => has.path hwf hF hE h0 hq
      refine ⟨⟨?_, ?_⟩, ?_, ?_⟩
      · rintro ⟨q, hq⟩
        generalize hγ : γ = γ' at hq
        cases hq with
        | nil => subst hγ; exact ⟨_, .entry⟩
        | snoc hp hr hs =>
          next γ1 r X st =>
          subst hγ
          obtain ⟨s', h1, h2⟩ := has.path hwf hF hE h0 hp
          rw [hr] at h1; cases h1
          obtain ⟨hne, _⟩ := has.edge _ _ _ _ hr hs
          obtain ⟨x, hx⟩ := List.exists_mem_of_ne_nil _ hne
          exact ⟨x, (mem_goto_itemsAt hwf hF h hE h2 X x).1 hx⟩
      · rintro ⟨x, hx⟩
        clear hat
        induction γ using List.reverseRecOn generalizing x with
        | nil => exact ⟨q0, .nil⟩
        | append_singleton γ s ih =>
          obtain ⟨nt, p, α, β, la, h1, h2⟩ := hx.prefix
          obtain ⟨q, hq⟩ := ih _ h1
          obtain ⟨st, h3, h4⟩ := has.path hwf hF hE h0 hq
          obtain ⟨r, hr⟩ := goto_isSome hwf hF has hE h3 h4 h1 h2
          exact ⟨r, .snoc hq h3 hr⟩
      · intro q q' hq hq'
        obtain ⟨s, h1, h2⟩ := hat q hq
        obtain ⟨s', h1', h2'⟩ := hat q' hq'
        refine has.distinct q q' s s' h1 h1' ?_
        exact BTSorted.ext (has.sorted _ _ h1) (has.sorted _ _ h1') fun x => by rw [h2, h2']
      · exact hat

/-- **C36.** A transition on `X` exists in the state for `γ` iff some item of it expects `X`. -/
theorem c36_transitions {g : Grammar A Ty} (hwf : g.WF) (h : HashOrder) {a : Automaton}
    (ha : generateAutomaton h g (generateFirstTable h g) = .ok a) {q : Nat} {st : LR1State}
    (hq : a.states[q]? = some st) (X : Symbol) :
    (∃ r, st.goto.get? X = some r) ↔
      ∃ nt p α β la, (⟨nt, p, α.length, la⟩ : Item) ∈ st.items ∧ g.HasProd nt p (α ++ X :: β) := by
  have hF := generateFirstTable_ok hwf h
  obtain ⟨a', ha', has⟩ := generateAutomaton_spec hwf hF h
  rw [ha] at ha'; cases ha'
  obtain ⟨E, γ, hE, hI, _⟩ := has.reach q st hq
  constructor
  · rintro ⟨r, hr⟩
    obtain ⟨hne, _⟩ := has.edge _ _ _ _ hq hr
    obtain ⟨x, hx⟩ := List.exists_mem_of_ne_nil _ hne
    obtain ⟨nt, p, α, β, la, h1, h2⟩ := ((mem_goto_itemsAt hwf hF h hE hI X x).1 hx).prefix
    exact ⟨nt, p, α, β, la, (hI _).2 h1, h2⟩
  · rintro ⟨nt, p, α, β, la, h1, h2⟩
    exact goto_isSome hwf hF has hE hq hI ((hI _).1 h1) h2

/-- **C36.** Every item of the state reached by `γ` is valid for `γ` in the sense of derivations; if the
computed FIRST table is complete where it is looked at (see C18), every valid item is there. -/
theorem c36_valid {g : Grammar A Ty} (hwf : g.WF) (h : HashOrder) {E : Nat}
    (hE : g.isPublic E = true) (γ : List Symbol) (it : Item) :
    (ItemsAt g (generateFirstTable h g) E γ it → g.Valid E γ it) ∧
    (FirstEnough g (generateFirstTable h g) → g.Valid E γ it →
      ItemsAt g (generateFirstTable h g) E γ it) :=
  ⟨fun hi => hi.valid (generateFirstTable_sound h g) hwf hE, fun hc hv => hv.itemsAt hc hwf hE⟩

/-- **C37.** Distinct states have distinct item sets, and every state is reached from the entry state of
some entry point. -/
theorem c37_states {g : Grammar A Ty} (hwf : g.WF) (h : HashOrder) {a : Automaton}
    (ha : generateAutomaton h g (generateFirstTable h g) = .ok a) :
    (∀ (q r : Nat) (s s' : LR1State), a.states[q]? = some s → a.states[r]? = some s' →
      (∀ it, it ∈ s.items ↔ it ∈ s'.items) → q = r) ∧
    ∀ q < a.states.length, ∃ E q0 γ, (E, q0) ∈ a.entries ∧ a.Path q0 γ q := by
  have hF := generateFirstTable_ok hwf h
  obtain ⟨a', ha', has⟩ := generateAutomaton_spec hwf hF h
  rw [ha] at ha'; cases ha'
  refine ⟨?_, ?_⟩
  · intro q r s s' h1 h2 h3
    exact has.distinct q r s s' h1 h2 (BTSorted.ext (has.sorted _ _ h1) (has.sorted _ _ h2) h3)
  · intro q hq
    obtain ⟨E, γ, hE, hI, hne0⟩ := has.reach q _ (List.getElem?_eq_getElem hq)
    obtain ⟨a2, ha2, _, hc⟩ := c36_canonical hwf h
    rw [ha] at ha2; cases ha2
    obtain ⟨q0, hq0⟩ := Option.isSome_iff_exists.1 ((has.ent_dom E).2 hE)
    have hm := AMap.mem_of_get? hq0
    obtain ⟨hex, _, hst⟩ := (hc E q0 hm).2 γ
    -- the state has an item
    have hne : ∃ it, ItemsAt g (generateFirstTable h g) E γ it := by
      obtain ⟨x, hx⟩ := List.exists_mem_of_ne_nil _ hne0
      exact ⟨x, (hI x).1 hx⟩
    obtain ⟨r, hr⟩ := hex.2 hne
    obtain ⟨st, h1, h2⟩ := hst r hr
    have : q = r := has.distinct q r _ _ (List.getElem?_eq_getElem hq) h1
      (BTSorted.ext (has.sorted _ _ (List.getElem?_eq_getElem hq)) (has.sorted _ _ h1)
        fun x => by rw [hI, h2])
    exact ⟨E, q0, γ, hm, this ▸ hr⟩

namespace Examples

/-- `S → a S | b` with entry point `E → S`; non-terminals `S=0, E=1`, terminals `a=0, b=1`. -/
def tailG : Grammar Unit Unit := .bare
  [(false, [[.terminal 0, .nonTerminal 0], [.terminal 1]]), (true, [[.nonTerminal 0]])] 2

theorem tailG_states : (generateAutomaton .reversed tailG (generateFirstTable .reversed tailG)).map
    (fun a => (a.entries, a.states.map fun s => (s.items.length, s.goto.get? (.terminal 0)))) =
      .ok ([(1, 0)], [(3, some 2), (1, none), (3, some 2), (1, none), (1, none)]) := by decide +kernel

/-- C36, C37: `tailG` meets the hypotheses; its automaton has five states, and reading `a` and reading
`a a` lead to the same one, so it has exactly the items of both. -/
example : tailG.WF ∧ tailG.isPublic 1 = true ∧ ∃ a,
    generateAutomaton .reversed tailG (generateFirstTable .reversed tailG) = .ok a ∧
    a.states.length = 5 ∧ a.Path 0 [.terminal 0] 2 ∧ a.Path 0 [.terminal 0, .terminal 0] 2 ∧
    ∀ it, ItemsAt tailG (generateFirstTable .reversed tailG) 1 [.terminal 0] it ↔
      ItemsAt tailG (generateFirstTable .reversed tailG) 1 [.terminal 0, .terminal 0] it := by
  have hwf : tailG.WF := Grammar.wf_of_check (by decide)
  obtain ⟨a, ha, _, hc⟩ := c36_canonical hwf .reversed
  have h := tailG_states
  rw [ha] at h
  simp only [Except.map, Except.ok.injEq, Prod.mk.injEq] at h
  obtain ⟨h1, h2⟩ := h
  have hat : ∀ q : Nat, (a.states[q]?).map (fun (s : LR1State) => (s.items.length, s.goto.get? (.terminal 0))) =
      [(3, some 2), (1, none), (3, some 2), (1, none), (1, none)][q]? := by
    intro q; rw [← h2, List.getElem?_map]
  have hstep : ∀ q, q = 0 ∨ q = 2 → ∃ st : LR1State, a.states[q]? = some st ∧
      st.goto.get? (.terminal 0) = some 2 := by
    intro q hq
    have := hat q
    cases hs : a.states[q]? with
    | none => rw [hs] at this; rcases hq with rfl | rfl <;> cases this
    | some st =>
      rw [hs] at this
      rcases hq with rfl | rfl <;>
        · simp only [Option.map_some, List.getElem?_cons_zero, List.getElem?_cons_succ, Option.some.injEq,
            Prod.mk.injEq] at this
          exact ⟨st, rfl, this.2⟩
  obtain ⟨s0, e0, g0⟩ := hstep 0 (.inl rfl)
  obtain ⟨s2, e2, g2⟩ := hstep 2 (.inr rfl)
  have p1 : a.Path 0 [.terminal 0] 2 := .snoc (γ := []) .nil e0 g0
  have p2 : a.Path 0 [.terminal 0, .terminal 0] 2 := .snoc (γ := [.terminal 0]) p1 e2 g2
  refine ⟨hwf, rfl, a, ha, by simpa using congrArg List.length h2, p1, p2, fun it => ?_⟩
  obtain ⟨-, hx⟩ := hc 1 0 (by rw [h1]; simp)
  obtain ⟨st, k1, k2⟩ := (hx [.terminal 0]).2.2 2 p1
  obtain ⟨st', k3, k4⟩ := (hx [.terminal 0, .terminal 0]).2.2 2 p2
  rw [k1] at k3; cases k3
  rw [← k2, k4]

end Examples

end Parsegen
