import Verif.Spec.Emitted
import Verif.Proofs.Names
import Verif.Proofs.Variants
import Verif.Props.Lower

/-! # Properties of the emitted tables and functions: C30-C34 -/

namespace Parsegen

variable {X Ty V W Tok : Type} [DecidableEq Ty] {h : HashOrder} {g : Grammar X Ty} {gen : Generated X}

omit [DecidableEq Ty] in
theorem kindOf_eq_tagged (variants : List Nat) :
    (KindOf variants : Symbol → SAR V → Prop) = Tagged variants := by
  funext s v; cases s <;> rfl

theorem bound_eq_toB : (SAR.bound : SAR V → BVal V) = SAR.toB := by
  funext v; cases v <;> rfl

/-- An emitted function built from a production implements it. -/
theorem semFor_implements (u : UserCode X V W) {nt : Nat} {pr : Production X} {f : SemFn X}
    (hf : SemFor (semanticActionVariants g) nt pr f) :
    Implements u (semanticActionVariants g) (bindEnv pr.symbols) nt pr.syms pr.action f := by
  refine ⟨f.variant, hf.variant, ?_⟩
  intro vs hvs rest w
  rw [kindOf_eq_tagged] at hvs
  obtain ⟨env', h1, h2⟩ := runPops_spec hf.pops hvs (fun _ => none) rest
  have henv : env' = bindEnv pr.symbols (vs.map SAR.toB) := by
    funext n; rw [h2]; simp
  subst henv
  unfold SemFn.run
  rw [h1, bound_eq_toB, hf.action]
  simp only [Except.bind_ok]
  cases u.run pr.action (bindEnv pr.symbols (vs.map SAR.toB)) w with
  | none => rfl
  | some r => rfl

/-! ## C34 A reduce runs the action of its own production -/

omit [DecidableEq Ty] in
theorem listing_aux (l : List (NonTerminal X Ty)) (off : Nat) :
    ((l.zipIdx off).flatMap fun e => e.1.productions.zipIdx.map fun q => (e.2, q.2, q.1)).length =
        prodBase l l.length ∧
    ∀ (i p : Nat) n pr, l[i]? = some n → n.productions[p]? = some pr →
      ((l.zipIdx off).flatMap fun e => e.1.productions.zipIdx.map fun q => (e.2, q.2, q.1))[
        prodBase l i + p]? = some (off + i, p, pr) := by
  induction l generalizing off with
  | nil => simp [prodBase]
  | cons a l ih =>
    obtain ⟨ih1, ih2⟩ := ih (off + 1)
    simp only [List.zipIdx_cons, List.flatMap_cons]
    constructor
    · rw [List.length_append, ih1]
      simp [prodBase]
    · intro i p n pr hi hp
      cases i with
      | zero =>
        cases hi
        have hlt := (List.getElem?_eq_some_iff.1 hp).1
        rw [List.getElem?_append_left (by simpa [prodBase] using hlt)]
        simp [prodBase, List.getElem?_zipIdx, hp]
      | succ i =>
        have h1 := ih2 i p n pr hi hp
        rw [List.getElem?_append_right (by simp [prodBase]; omega)]
        have : prodBase (a :: l) (i + 1) + p - (a.productions.zipIdx.map
            fun q => (off, q.2, q.1)).length = prodBase l i + p := by
          simp [prodBase]; omega
        rw [this, h1]
        congr 2; omega

omit [DecidableEq Ty] in
theorem listing_get {nt p : Nat} {pr : Production X} (hpr : g.getProduction? nt p = some pr) :
    g.listing[prodBase g.nonTerminals nt + p]? = some (nt, p, pr) := by
  unfold Grammar.getProduction? at hpr
  obtain ⟨n, h1, h2⟩ := Option.bind_eq_some_iff.1 hpr
  have := (listing_aux g.nonTerminals 0).2 nt p n pr h1 h2
  simpa [Grammar.listing] using this

omit [DecidableEq Ty] in
theorem mem_listing {e : Nat × Nat × Production X} (he : e ∈ g.listing) :
    g.getProduction? e.1 e.2.1 = some e.2.2 := by
  unfold Grammar.listing at he
  obtain ⟨⟨n, i⟩, h1, h2⟩ := List.mem_flatMap.1 he
  obtain ⟨⟨q, j⟩, h3, rfl⟩ := List.mem_map.1 h2
  have h1' := List.mem_zipIdx_iff_getElem?.1 h1
  have h3' := List.mem_zipIdx_iff_getElem?.1 h3
  simp only [Grammar.getProduction?] at *
  rw [h1']
  exact h3'

omit [DecidableEq Ty] in
/-- The listing has no duplicates: the position of a production determines it and conversely. -/
theorem listing_index {k nt p : Nat} {pr : Production X} (hk : g.listing[k]? = some (nt, p, pr)) :
    k = prodBase g.nonTerminals nt + p := by
  have hpr := mem_listing (List.mem_of_getElem? hk)
  -- positions of the flattened list
  have key : ∀ (l : List (NonTerminal X Ty)) (off k i p : Nat) pr,
      ((l.zipIdx off).flatMap fun e => e.1.productions.zipIdx.map fun q => (e.2, q.2, q.1))[k]? =
        some (off + i, p, pr) → k = prodBase l i + p := by
    intro l
    induction l with
    | nil => intro off k i p pr hk; simp at hk
    | cons a l ih =>
      intro off k i p pr hk
      simp only [List.zipIdx_cons, List.flatMap_cons] at hk
      rcases Nat.lt_or_ge k a.productions.length with hlt | hge
      · rw [List.getElem?_append_left (by simpa using hlt)] at hk
        simp only [List.getElem?_map, List.getElem?_zipIdx, Option.map_map,
          Option.map_eq_some_iff, Function.comp] at hk
        obtain ⟨q, _, hq⟩ := hk
        simp only [Prod.mk.injEq] at hq
        have : i = 0 := by omega
        subst this
        simp [prodBase]; omega
      · rw [List.getElem?_append_right (by simpa using hge)] at hk
        simp only [List.length_map, List.length_zipIdx] at hk
        cases i with
        | zero =>
          exfalso
          have hm := List.mem_of_getElem? hk
          obtain ⟨⟨n, j⟩, h1, h2⟩ := List.mem_flatMap.1 hm
          obtain ⟨q, _, h3⟩ := List.mem_map.1 h2
          have h4 := List.le_snd_of_mem_zipIdx h1
          simp only [Prod.mk.injEq] at h3
          simp only at h4
          omega
        | succ i =>
          have := ih (off + 1) (k - a.productions.length) i p pr (by
            rw [hk]; congr 2; omega)
          simp only [prodBase, List.take_succ_cons, List.map_cons, List.sum_cons] at this ⊢
          omega
  have := key g.nonTerminals 0 k nt p pr (by simpa [Grammar.listing] using hk)
  exact this

/-- **C34.** There is exactly one semantic action function per production, in declaration order:
`SEMANTIC_ACTIONS[k]` implements the `k`-th production (of the grammar in which every `pub`
definition has its wrapper). -/
theorem c34_actions (u : UserCode X V W) (hg : generateParser h g = .ok gen) :
    gen.semActions.length = g.listing.length ∧
    ∀ (k nt p : Nat) pr, g.listing[k]? = some (nt, p, pr) → ∃ f, gen.semActions[k]? = some f ∧
      f.action = pr.action ∧
      Implements u (semanticActionVariants g) (bindEnv pr.symbols) nt pr.syms pr.action f := by
  obtain ⟨a, g', T, hs⟩ := generateParser_ok hg
  obtain ⟨_, _, h1, h2⟩ := generateSemanticActionTable_ok hs.sem
  constructor
  · rw [h1]
    have := (listing_aux g.nonTerminals 0).1
    simpa [Grammar.listing, Grammar.nNonTerminals] using this.symm
  · intro k nt p pr hk
    have hpr := mem_listing (List.mem_of_getElem? hk)
    obtain ⟨_, f, h3, h4⟩ := h2 nt p pr hpr
    rw [← listing_index hk] at h3
    exact ⟨f, h3, h4.action, semFor_implements u h4⟩

theorem action_rows (hs : GenStages h g gen a g' T) {row : List (Option RtAction)}
    (hrow : row ∈ gen.action) : ∃ q, gen.action[q]? = some row ∧ q < T.nStates ∧
      row.length = g.nTerminals + 1 ∧
      (∀ c, LaOk g.nTerminals c →
        ∃ o, row[laCol g.nTerminals c]? = some o ∧ encodeCell g' (T.getAction q c) = .ok o) ∧
      ∀ o ∈ row, ∃ c, encodeCell g' (T.getAction q c) = .ok o := by
  obtain ⟨q, hq⟩ := List.getElem?_of_mem hrow
  have hlt : q < T.nStates := by
    rw [← hs.action.len]; exact (List.getElem?_eq_some_iff.1 hq).1
  obtain ⟨row', h1, h2, h3⟩ := hs.action.row q hlt
  rw [hq] at h1; cases h1
  refine ⟨q, hq, hlt, h2, h3, ?_⟩
  intro o ho
  obtain ⟨j, hj⟩ := List.getElem?_of_mem ho
  have hjl := (List.getElem?_eq_some_iff.1 hj).1
  rw [h2] at hjl
  rcases Nat.lt_or_ge j g.nTerminals with hl | hl
  · obtain ⟨o', h4, h5⟩ := h3 (some j) (by intro t ht; cases ht; exact hl)
    have : laCol g.nTerminals (some j) = j := rfl
    rw [this, hj] at h4; cases h4
    exact ⟨_, h5⟩
  · have he : j = g.nTerminals := by omega
    obtain ⟨o', h4, h5⟩ := h3 none (by intro t ht; cases ht)
    have : laCol g.nTerminals none = j := he.symm
    rw [this, hj] at h4; cases h4
    exact ⟨_, h5⟩

/-- A `Reduce` in `ACTION` comes from the listing. -/
theorem reduce_listing (hs : GenStages h g gen a g' T) (hwf : g.WF) {row : List (Option RtAction)}
    (hrow : row ∈ gen.action) {nt n k : Nat} (hc : some (.reduce nt n k) ∈ row) :
    ∃ p pr, g.listing[k]? = some (nt, p, pr) ∧ n = pr.symbols.length := by
  obtain ⟨q, _, hlt, _, _, h2⟩ := action_rows hs hrow
  obtain ⟨c, hcell⟩ := h2 _ hc
  cases hact : T.getAction q c with
  | none => rw [hact] at hcell; simp [encodeCell] at hcell
  | some act =>
    rw [hact] at hcell
    cases act with
    | shift r => exact absurd (encodeCell_shift hcell) (by simp)
    | accept => exact absurd (encodeCell_accept hcell) (by simp)
    | reduce nt' p' k' =>
      obtain ⟨pr', h4, h5⟩ := encodeCell_reduce hcell
      cases h5
      have hrow' := (hs.tableSpec hwf).2
      have hq : q < a.states.length := by rw [← hrow'.n]; exact hlt
      have hR := (hrow'.row q _ (List.getElem?_eq_getElem hq)).act
      obtain ⟨it, _, rfl, rfl, _, pr2, h6, h7⟩ := hR.reduce_of _ _ _ _ hact
      rw [h4] at h6; cases h6
      obtain ⟨_, _, _, h8⟩ := generateSemanticActionTable_ok hs.sem
      cases hpr : g.getProduction? it.nt it.prod with
      | none =>
        exfalso
        have := (hs.shape).getProduction it.nt it.prod
        rw [h4, hpr] at this
        cases this
      | some pr =>
        obtain ⟨h9, _⟩ := h8 _ _ _ hpr
        rw [h4] at h9; cases h9
        refine ⟨it.prod, pr, ?_, rfl⟩
        rw [← h7]
        exact listing_get hpr

/-- **C34.** A `Reduce` entry of `ACTION` that pops for non-terminal `nt` names the function of a
production of `nt`, and pops as many states as that production has symbols. -/
theorem c34_reduce (hwf : g.WF) (hg : generateParser h g = .ok gen) {row : List (Option RtAction)}
    (hrow : row ∈ gen.action) {nt n k : Nat} (hc : some (.reduce nt n k) ∈ row) :
    ∃ p pr, g.listing[k]? = some (nt, p, pr) ∧ n = pr.symbols.length := by
  obtain ⟨a, g', T, hs⟩ := generateParser_ok hg
  exact reduce_listing hs hwf hrow hc

/-! ## C33 The emitted arrays represent the tables exactly -/

omit [DecidableEq Ty] in
theorem encodeCell_same {g' : Grammar Nat Ty} {a : Option (LRAction Nat)} {o : Option RtAction}
    (h : encodeCell g' a = .ok o) : SameCell g' a o := by
  cases a with
  | none => rw [encodeCell_none h]; trivial
  | some a =>
    cases a with
    | shift r => rw [encodeCell_shift h]; exact rfl
    | accept => rw [encodeCell_accept h]; trivial
    | reduce nt p k =>
      obtain ⟨pr, h1, rfl⟩ := encodeCell_reduce h
      exact ⟨rfl, rfl, by rw [h1]; rfl⟩

/-- **C33.** There is an LR table `T`, built from the automaton `a` of the grammar, such that: `ACTION`
has one row per state, with a cell for each terminal and a last one for end of input, each saying the
same as the table entry; `GOTO` has one row per state and one cell per non-terminal, equal to the table
entry; `EXPECTED_TERMINALS` has one string per state and `TERMINAL_STRS` one per terminal plus one. -/
theorem c33_arrays (hg : generateParser h g = .ok gen) :
    ∃ (a : Automaton) (g' : Grammar Nat Ty) (T : LRTable Nat), generateAutomaton h g (generateFirstTable h g) = .ok a ∧ SameShape g g' ∧
      buildTable h g' a.states = .ok T ∧ T.nStates = a.states.length ∧
      gen.action.length = a.states.length ∧ gen.goto.length = a.states.length ∧
      gen.expected.length = a.states.length ∧ gen.terminalStrs.length = g.terminals.length + 1 ∧
      gen.nTerminals = g.terminals.length ∧
      (∀ q, q < a.states.length → ∃ row, gen.action[q]? = some row ∧
        row.length = g.terminals.length + 1 ∧
        (∀ t, t < g.terminals.length → ∃ o, row[t]? = some o ∧ SameCell g' (T.getAction q (some t)) o) ∧
        ∃ o, row[g.terminals.length]? = some o ∧ SameCell g' (T.getAction q none) o) ∧
      ∀ q, q < a.states.length → ∃ row, gen.goto[q]? = some row ∧
        row.length = g.nonTerminals.length ∧
        ∀ b, b < g.nonTerminals.length → row[b]? = some (T.getGoto q b) := by
  obtain ⟨a, g', T, hs⟩ := generateParser_ok hg
  have hn := buildTable_nStates hs.table
  refine ⟨a, g', T, hs.auto, hs.shape, hs.table, hn, ?_, ?_, ?_, ?_, ?_, ?_, ?_⟩
  · rw [hs.action.len, hn]
  · rw [hs.goto.len, hn]
  · rw [hs.expected]; simp [generateExpected, hn]
  · rw [hs.strs]; simp [generateTokenText, hs.shape.terms]
  · rw [hs.nT]; rfl
  · intro q hq
    obtain ⟨row, h1, h2, h3⟩ := hs.action.row q (by rw [hn]; exact hq)
    refine ⟨row, h1, h2, ?_, ?_⟩
    · intro t ht
      obtain ⟨o, h4, h5⟩ := h3 (some t) (by intro t' ht'; cases ht'; exact ht)
      exact ⟨o, h4, encodeCell_same h5⟩
    · obtain ⟨o, h4, h5⟩ := h3 none (by intro t' ht'; cases ht')
      exact ⟨o, h4, encodeCell_same h5⟩
  · intro q hq
    obtain ⟨row, h1, h2, h3⟩ := hs.goto.row q (by rw [hn]; exact hq)
    have hl : g'.nNonTerminals = g.nonTerminals.length := hs.shape.nNonTerminals
    rw [hl] at h2 h3
    exact ⟨row, h1, h2, fun b hb => (h3 b hb).1⟩

/-! ## C32 Size limits are enforced, never wrapped -/

/-- **C32.** If the macro succeeds, everything fits the type it is emitted in: at most 65536 semantic
actions; shift targets, goto targets and initial states below 2^32; and in every `Reduce` the
non-terminal, the number of symbols and the action index below 2^16. -/
theorem c32_fits (hwf : g.WF) (hg : generateParser h g = .ok gen) :
    gen.semActions.length ≤ 65536 ∧
    (∀ row ∈ gen.action, ∀ o ∈ row, match o with
      | some (.shift n) => n < 4294967296
      | some (.reduce nt n k) => nt < 65536 ∧ n < 65536 ∧ k < 65536
      | _ => True) ∧
    (∀ row ∈ gen.goto, ∀ r, some r ∈ row → r < 4294967296) ∧
    ∀ ep ∈ gen.entries, ep.initState < 4294967296 ∧ ep.actionIdx < 65536 := by
  obtain ⟨a, g', T, hs⟩ := generateParser_ok hg
  obtain ⟨_, hlen, hlen2, hall⟩ := generateSemanticActionTable_ok hs.sem
  refine ⟨hlen, ?_, ?_, ?_⟩
  · intro row hrow o ho
    obtain ⟨q, _, _, _, _, h2⟩ := action_rows hs hrow
    obtain ⟨c, hcell⟩ := h2 o ho
    cases o with
    | none => trivial
    | some r =>
      cases hact : T.getAction q c with
      | none => rw [hact] at hcell; cases encodeCell_none hcell
      | some act =>
        rw [hact] at hcell
        cases act with
        | shift n =>
          cases encodeCell_shift hcell
          simp only [encodeCell, encodeAction] at hcell
          obtain ⟨r, h3, _⟩ := Except.bind_eq_ok.1 hcell
          obtain ⟨m, h4, _⟩ := Except.bind_eq_ok.1 h3
          exact (tryU32_ok.1 h4).2
        | accept => cases encodeCell_accept hcell; trivial
        | reduce nt p k =>
          obtain ⟨pr, h1, h3⟩ := encodeCell_reduce hcell
          cases h3
          have hk : k < 65536 := by
            obtain ⟨p', pr', h5, _⟩ := reduce_listing hs hwf hrow ho
            have h6 := (List.getElem?_eq_some_iff.1 h5).1
            have h7 : g.listing.length = gen.semActions.length := by
              rw [hlen2]
              have := (listing_aux g.nonTerminals 0).1
              simpa [Grammar.listing, Grammar.nNonTerminals] using this
            omega
          simp only [encodeCell, encodeAction, h1] at hcell
          obtain ⟨r, h4, _⟩ := Except.bind_eq_ok.1 hcell
          obtain ⟨m, h5, h6⟩ := Except.bind_eq_ok.1 h4
          obtain ⟨m', h7, _⟩ := Except.bind_eq_ok.1 h6
          exact ⟨(tryU16_ok.1 h7).2, (tryU16_ok.1 h5).2, hk⟩
  · intro row hrow r hr
    obtain ⟨q, hq⟩ := List.getElem?_of_mem hrow
    have hlt : q < T.nStates := by
      rw [← hs.goto.len]; exact (List.getElem?_eq_some_iff.1 hq).1
    obtain ⟨row', h1, h2, h3⟩ := hs.goto.row q hlt
    rw [hq] at h1; cases h1
    obtain ⟨b, hb⟩ := List.getElem?_of_mem hr
    have hbl : b < g'.nNonTerminals := by rw [← h2]; exact (List.getElem?_eq_some_iff.1 hb).1
    obtain ⟨h4, h5⟩ := h3 b hbl
    rw [hb] at h4
    exact h5 r (Option.some.inj h4).symm
  · intro ep hep
    obtain ⟨i, hi⟩ := List.getElem?_of_mem hep
    obtain ⟨e, _, h2⟩ := forall₂_get' hs.entries hi
    unfold entryPoint at h2
    obtain ⟨st, h3, h4⟩ := Except.bind_eq_ok.1 h2
    split at h4
    · next n p k e1 e2 e3 =>
      cases h4
      obtain ⟨rfl, hlt⟩ := tryU32_ok.1 h3
      refine ⟨hlt, ?_⟩
      cases hpr : g.getProduction? e.1 0 with
      | none =>
        exfalso
        have := (hs.shape).getProduction e.1 0
        rw [e2, hpr] at this
        cases this
      | some pr =>
        obtain ⟨h5, f, h6, _⟩ := hall _ _ _ hpr
        rw [e2] at h5; cases h5
        have := (List.getElem?_eq_some_iff.1 h6).1
        simp only at this ⊢
        omega
    · cases h4

/-- **C32.** A grammar with more than 65536 productions is rejected. -/
theorem c32_too_many (hbig : 65536 < g.listing.length) : ∃ f, generateParser h g = .error f := by
  refine Except.error_of_not_ok ?_
  rintro ⟨gen, hg⟩
  obtain ⟨a, g', T, hs⟩ := generateParser_ok hg
  obtain ⟨_, hlen, h1, _⟩ := generateSemanticActionTable_ok hs.sem
  have h2 : g.listing.length = gen.semActions.length := by
    rw [h1]
    have := (listing_aux g.nonTerminals 0).1
    simpa [Grammar.listing, Grammar.nNonTerminals] using this
  omega

namespace Examples

/-- The lowered grammar of `arith`. -/
theorem arith_lowered : ∃ g, lower code.mkPath arithDefs tk.conversions = .ok g ∧
    generateParser .insertion g = .ok arith.gen ∧ g.WF ∧ g.listing.length = 6 := by
  obtain ⟨g, h1, h2, _⟩ := arith.stages_ok
  have hd : arith.defs = arithDefs := defs_itemsOf _
  rw [hd] at h1
  obtain ⟨nts, ts, hl⟩ := lower_ok (by decide) h1
  refine ⟨g, h1, h2, hl.wf, ?_⟩
  obtain ⟨g', h3, h4⟩ := Except.ok_of_map
    (x := lower (code (W := Log)).mkPath arithDefs tk.conversions)
    (f := fun g => g.listing.length) (r := 6) (by decide +kernel)
  have h5 := h1.symm.trans h3
  cases h5
  exact h4

end Examples

set_option maxRecDepth 10000 in
/-- `arith` has 6 productions with wrappers, 22 states, 4 terminals and 4 non-terminals. -/
example : Examples.arith.gen.semActions.length = 6 ∧ Examples.arith.gen.action.length = 22 ∧
    (Examples.arith.gen.action.map (·.length)) = List.replicate 22 5 ∧
    (Examples.arith.gen.goto.map (·.length)) = List.replicate 22 4 ∧
    (∃ row ∈ Examples.arith.gen.action, some (.reduce 0 3 0) ∈ row) ∧
    Examples.arith.gen.terminalStrs = ["+", "n", "(", ")", "end-of-input"] := by
  decide +kernel

/-! ## C31 Result variants -/

omit [DecidableEq Ty] in
/-- **C31.** Two non-terminals keep their values in the same variant of the stack type iff their
declared types are equal. -/
theorem c31_variants [DecidableEq Ty] {i j : Nat} {n m : NonTerminal X Ty}
    (hi : g.nonTerminals[i]? = some n) (hj : g.nonTerminals[j]? = some m) :
    (semanticActionVariants g)[i]? = (semanticActionVariants g)[j]? ↔ n.returnTy = m.returnTy := by
  obtain ⟨f, h1, h2⟩ := semanticActionVariants_spec g
  rw [h1]
  simp only [List.getElem?_map, hi, hj, Option.map_some, Option.some.injEq]
  exact ⟨fun h => h2 n (List.mem_of_getElem? hi) m (List.mem_of_getElem? hj) h, fun h => by rw [h]⟩

/-- Three types, five non-terminals. -/
example : semanticActionVariants (⟨[⟨"A", [], "u8", false⟩, ⟨"B", [], "u16", false⟩,
    ⟨"C", [], "u8", false⟩, ⟨"D", [], "u32", false⟩, ⟨"E", [], "u16", false⟩], []⟩ :
      Grammar Unit String) = [0, 1, 0, 2, 1] := by decide

/-! ## C30 Binder scoping -/

omit [DecidableEq Ty] in
/-- **C30**, names: `n` is the value of the leftmost symbol whose binder is `n`; a name bound by no
symbol is not in scope. -/
theorem c30_leftmost (ss : List AstSymbol) (vs : List (BVal V)) (hlen : vs.length = ss.length)
    (n : String) (b : BVal V) :
    userEnv ss vs n = some b ↔ ∃ i : Nat, vs[i]? = some b ∧
      (ss[i]?).bind (·.boundName) = some n ∧
      ∀ j, j < i → (ss[j]?).bind (·.boundName) ≠ some n := by
  induction ss generalizing vs with
  | nil =>
    cases vs with
    | nil => simp [userEnv]
    | cons v vs => simp at hlen
  | cons s ss ih =>
    cases vs with
    | nil => simp at hlen
    | cons v vs =>
      simp only [List.length_cons, Nat.add_right_cancel_iff] at hlen
      simp only [userEnv]
      by_cases hs : s.boundName = some n
      · rw [if_pos hs]
        constructor
        · intro h; cases h
          exact ⟨0, rfl, by simpa using hs, by intro j hj; omega⟩
        · rintro ⟨i, h1, h2, h3⟩
          cases i with
          | zero => simpa using h1
          | succ i => exact absurd (by simpa using hs) (h3 0 (by omega))
      · rw [if_neg hs, ih vs hlen]
        constructor
        · rintro ⟨i, h1, h2, h3⟩
          refine ⟨i + 1, by simpa using h1, by simpa using h2, ?_⟩
          intro j hj
          cases j with
          | zero => simpa using hs
          | succ j => simpa using h3 j (by omega)
        · rintro ⟨i, h1, h2, h3⟩
          cases i with
          | zero => exact absurd (by simpa using h2) hs
          | succ i =>
            refine ⟨i, by simpa using h1, by simpa using h2, ?_⟩
            intro j hj
            simpa using h3 (j + 1) (by omega)

/-- The name of a symbol under any number of binders. -/
def binderChain : List Name → AstSymbol → AstSymbol
  | [], s => s
  | b :: bs, s => .named b (binderChain bs s)

/-- **C30**, nesting: of the binders around a terminal or non-terminal only the innermost counts, and
an unbound symbol has no name. -/
theorem c30_innermost (bs : List Name) (s : AstSymbol)
    (hs : (∃ t, s = .terminal t) ∨ ∃ n, s = .nonTerminal n) :
    (binderChain bs s).boundName = (bs.getLast?).map (·.name) := by
  have h0 : s.boundName = none := by rcases hs with ⟨t, rfl⟩ | ⟨n, rfl⟩ <;> rfl
  induction bs with
  | nil => simpa [binderChain] using h0
  | cons b bs ih =>
    rw [binderChain, AstSymbol.boundName, ih]
    cases bs with
    | nil => rfl
    | cons c bs =>
      rw [List.getLast?_cons_cons]
      cases h : (c :: bs).getLast? with
      | none => simp at h
      | some x => rfl

/-- **C30**, in a compiled program: for every production the user wrote there is an emitted function
that removes exactly one value per symbol from the stack (named or not) and runs the user's action
with the names bound as `userEnv` says. -/
theorem c30_actions (P : Compiled X Ty V W Tok) (hsz : loweredCount P.defs ≤ 4294967296)
    {name : String} {i : Nat} {p : AstProduction X} (hp : (userProds P.defs name)[i]? = some p) :
    ∃ (g : Grammar X Ty) (num : String → Option Nat) (k nt : Nat) (f : SemFn X) (q : Production X),
      lower P.code.mkPath P.defs P.tokens.conversions = .ok g ∧ num name = some nt ∧
      SameProduction num g.terminals p q ∧ P.gen.semActions[k]? = some f ∧
      Implements P.code (semanticActionVariants g) (userEnv p.symbols) nt q.syms q.action f := by
  obtain ⟨g, hlow, hgen, _⟩ := P.stages_ok
  obtain ⟨nts, ts, hl⟩ := lower_ok (by rw [← loweredCount_eq]; exact hsz) hlow
  have hm := List.mem_of_getElem? hp
  unfold userProds at hm
  obtain ⟨d, hd, _⟩ := List.mem_flatMap.1 hm
  have hd' := List.mem_filter.1 hd
  obtain ⟨j, hj⟩ := (hl.idx name).2 ⟨d, hd'.1, by simpa using hd'.2⟩
  obtain ⟨pr, h1, h2, _⟩ := hl.user_hasProd hj hp
  obtain ⟨f, h3, _, h4⟩ := (c34_actions P.code hgen).2 _ _ _ _ (listing_get h2)
  refine ⟨g, fun n => nts.get? n, _, j, f, pr, hlow, hj,
    ⟨forall₂_imp (fun s b hsb => lowersSym_same hl.tmap hsb) h1.1, h1.2⟩, h3, ?_⟩
  have : (bindEnv pr.symbols : List (BVal V) → Env V) = userEnv p.symbols := by
    funext vs; exact bindEnv_eq_userEnv h1.1 vs
  rw [← this]; exact h4

/-- `<a:"+"> <a:"n"> <b:<c:"(">> ")"`: `a` is the `+`, `c` the `(`, `b` nothing. -/
example :
    let ss := [Examples.nm "a" (.terminal "+"), Examples.nm "a" (.terminal "n"),
      Examples.nm "b" (Examples.nm "c" (.terminal "(")), .terminal ")"]
    let vs : List (BVal Nat) := [.nt 1, .nt 2, .nt 3, .nt 4]
    userEnv ss vs "a" = some (.nt 1) ∧ userEnv ss vs "b" = none ∧ userEnv ss vs "c" = some (.nt 3) := by
  decide

/-- The second production of `Term` in `arith`. -/
example : ∃ p, (userProds Examples.arith.defs "Term")[1]? = some p ∧ p.symbols.length = 3 := by
  have hd : Examples.arith.defs = Examples.arithDefs := Examples.defs_itemsOf _
  rw [hd]
  exact ⟨_, by simp [userProds, Examples.arithDefs]; rfl, rfl⟩

end Parsegen
