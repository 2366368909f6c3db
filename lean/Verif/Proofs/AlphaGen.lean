import Verif.Proofs.Alpha
import Verif.Proofs.Compiled
import Verif.Props.Lower

/-! # The tables of programs that differ in types, binders and actions -/

namespace Parsegen

variable {X X' Ty Ty' V W Tok E : Type} {u : UserCode X V W} {u' : UserCode X' V W}

theorem prodBase_congr {A B : Type} {l : List (NonTerminal A Ty)} {l' : List (NonTerminal B Ty')}
    (h : l.map (·.productions.length) = l'.map (·.productions.length)) (i : Nat) :
    prodBase l i = prodBase l' i := by
  unfold prodBase
  rw [List.map_take, List.map_take, h]

theorem AlphaGrammar.counts {g : Grammar X Ty} {g' : Grammar X' Ty'} (h : AlphaGrammar u u' g g') :
    g.nonTerminals.map (·.productions.length) = g'.nonTerminals.map (·.productions.length) :=
  forall₂_map_eq' (fun _ _ hn => hn.productions.length_eq) h.nts

theorem AlphaGrammar.isPublic {g : Grammar X Ty} {g' : Grammar X' Ty'} (h : AlphaGrammar u u' g g')
    (i : Nat) : g.isPublic i = g'.isPublic i := by
  unfold Grammar.isPublic
  rcases h.get i with ⟨e1, e2⟩ | ⟨n, n', e1, e2, hn⟩
  · rw [e1, e2]
  · rw [e1, e2]; simp [hn.isPublic]

theorem AlphaGrammar.production {g : Grammar X Ty} {g' : Grammar X' Ty'}
    (h : AlphaGrammar u u' g g') (i p : Nat) :
    (g.getProduction? i p = none ∧ g'.getProduction? i p = none) ∨
    ∃ pr pr', g.getProduction? i p = some pr ∧ g'.getProduction? i p = some pr' ∧
      AlphaProd u u' pr pr' := by
  unfold Grammar.getProduction?
  rcases h.get i with ⟨e1, e2⟩ | ⟨n, n', e1, e2, hn⟩
  · rw [e1, e2]; exact .inl ⟨rfl, rfl⟩
  · rw [e1, e2]
    simp only [Option.bind_some]
    have : ∀ {l : List (Production X)} {l' : List (Production X')},
        List.Forall₂ (AlphaProd u u') l l' → ∀ p : Nat, (l[p]? = none ∧ l'[p]? = none) ∨
          ∃ x x', l[p]? = some x ∧ l'[p]? = some x' ∧ AlphaProd u u' x x' := by
      intro l l' hl
      induction hl with
      | nil => intro p; exact .inl ⟨rfl, rfl⟩
      | cons hx _ ih =>
        intro p
        cases p with
        | zero => exact .inr ⟨_, _, rfl, rfl, hx⟩
        | succ p => simpa using ih p
    exact this hn.productions p

/-- Replacing actions by their numbers. -/
theorem sem_alpha [DecidableEq Ty] [DecidableEq Ty'] {g : Grammar X Ty} {g' : Grammar X' Ty'}
    (h : AlphaGrammar u u' g g') (hwf : g.WF) (hwf' : g'.WF) :
    AlikeRes (fun r r' => r.2.strip = r'.2.strip)
      (generateSemanticActionTable g (semanticActionVariants g))
      (generateSemanticActionTable g' (semanticActionVariants g')) := by
  have hb := prodBase_congr h.counts
  cases e1 : generateSemanticActionTable g (semanticActionVariants g) with
  | error f =>
    obtain ⟨rfl, h1⟩ := generateSemanticActionTable_error hwf e1
    cases e2 : generateSemanticActionTable g' (semanticActionVariants g') with
    | error f' =>
      obtain ⟨rfl, _⟩ := generateSemanticActionTable_error hwf' e2
      exact .inl ⟨_, rfl, rfl⟩
    | ok r' =>
      obtain ⟨_, h2, h3, _⟩ := generateSemanticActionTable_ok (fns := r'.1) (g' := r'.2) e2
      rw [hb, h.length] at h1
      simp only [Grammar.nNonTerminals] at h3
      omega
  | ok r =>
    cases e2 : generateSemanticActionTable g' (semanticActionVariants g') with
    | error f' =>
      obtain ⟨_, h2, h3, _⟩ := generateSemanticActionTable_ok (fns := r.1) (g' := r.2) e1
      obtain ⟨rfl, h1⟩ := generateSemanticActionTable_error hwf' e2
      rw [← hb, ← h.length] at h1
      simp only [Grammar.nNonTerminals] at h3
      omega
    | ok r' =>
      refine .inr ⟨_, _, rfl, rfl, ?_⟩
      unfold generateSemanticActionTable at e1 e2
      obtain ⟨⟨ns, fns⟩, k1, e1⟩ := Except.bind_eq_ok.1 e1
      obtain ⟨⟨ns', fns'⟩, k2, e2⟩ := Except.bind_eq_ok.1 e2
      cases e1; cases e2
      obtain ⟨l1, _, _, _, q1⟩ := semNonTerminals_ok k1
      obtain ⟨l2, _, _, _, q2⟩ := semNonTerminals_ok k2
      dsimp only at l1 l2 q1 q2 ⊢
      simp only [Grammar.strip, h.terms]
      congr 1
      apply List.ext_getElem?
      intro i
      rw [List.getElem?_map, List.getElem?_map]
      rcases h.get i with ⟨z1, z2⟩ | ⟨n, n', z1, z2, hn⟩
      · rw [List.getElem?_eq_none_iff] at z1 z2
        rw [List.getElem?_eq_none (by omega), List.getElem?_eq_none (by omega)]
        rfl
      · obtain ⟨m, m1, m2, _, m3, m4, _⟩ := q1 i n z1
        obtain ⟨m', m1', m2', _, m3', m4', _⟩ := q2 i n' z2
        rw [m1, m1']
        simp only [Option.map_some, Option.some.injEq, NonTerminal.strip, m2, m2', m3, m3', hn.name,
          hn.isPublic, m4, m4']
        congr 1
        have hp := hn.productions
        rw [hb i]
        generalize ([] : List (SemFn X)).length + prodBase g'.nonTerminals i = c
        have : ∀ {l : List (Production X)} {l' : List (Production X')},
            List.Forall₂ (AlphaProd u u') l l' → ∀ k : Nat,
            ((l.zipIdx k).map fun e => (⟨e.1.symbols, c + e.2⟩ : Production Nat)).map (·.strip) =
            ((l'.zipIdx k).map fun e => (⟨e.1.symbols, c + e.2⟩ : Production Nat)).map (·.strip) := by
          intro l l' hl
          induction hl with
          | nil => intro k; rfl
          | @cons x x' l l' hx _ ih =>
            intro k
            simp only [List.zipIdx_cons, List.map_cons, ih (k + 1)]
            congr 1
            have hs := hx.syms
            simp only [Production.syms] at hs
            have h2 := congrArg (List.map fun s => (⟨none, s⟩ : BoundSymbol)) hs
            simp only [Production.strip]
            congr 1
            simpa [Function.comp_def] using h2
        exact this hp 0

/-- Entry points that differ in the method that extracts the result only. -/
structure AlphaEntry (ep ep' : EntryPoint) : Prop where
  name : ep.name = ep'.name
  initState : ep.initState = ep'.initState
  actionIdx : ep.actionIdx = ep'.actionIdx

/-- The same tables. -/
structure AlphaGenerated (gen : Generated X) (gen' : Generated X') : Prop where
  action : gen.action = gen'.action
  goto : gen.goto = gen'.goto
  expected : gen.expected = gen'.expected
  terminalStrs : gen.terminalStrs = gen'.terminalStrs
  nTerminals : gen.nTerminals = gen'.nTerminals
  entries : List.Forall₂ AlphaEntry gen.entries gen'.entries

theorem variants_get [DecidableEq Ty] (g : Grammar X Ty) (i : Nat) :
    (semanticActionVariants g)[i]? = none ↔ g.nonTerminals[i]? = none := by
  simp [semanticActionVariants, variantNames_length]

theorem entryPoint_alpha {g : Grammar Nat Ty} {g' : Grammar Nat Ty'} (h : g.strip = g'.strip)
    {vs vs' : List Nat} (e : Nat × Nat)
    (hv : vs[e.1]? = none ↔ vs'[e.1]? = none) :
    AlikeRes AlphaEntry (entryPoint g vs e) (entryPoint g' vs' e) := by
  simp only [entryPoint]
  refine (AlikeRes.ofEq rfl).bind ?_
  rintro st _ rfl
  have h1 : (g.getNonTerminal? e.1).map (·.name) = (g'.getNonTerminal? e.1).map (·.name) := by
    have := congrArg (fun g : Grammar Nat Unit => (g.nonTerminals[e.1]?).map (·.name)) h
    simpa [Grammar.strip, Grammar.getNonTerminal?, Function.comp_def, NonTerminal.strip] using this
  have h2 : (g.getProduction? e.1 0).map (·.action) = (g'.getProduction? e.1 0).map (·.action) := by
    have := congrArg (fun g : Grammar Nat Unit => (g.getProduction? e.1 0).map (·.action)) h
    simpa [Function.comp_def, Production.strip] using this
  cases h3 : g.getNonTerminal? e.1 with
  | none =>
    rw [h3] at h1
    cases h4 : g'.getNonTerminal? e.1 with
    | some _ => rw [h4] at h1; cases h1
    | none => exact .inl ⟨_, rfl, rfl⟩
  | some n =>
    rw [h3] at h1
    cases h4 : g'.getNonTerminal? e.1 with
    | none => rw [h4] at h1; cases h1
    | some n' =>
      rw [h4] at h1
      cases h5 : g.getProduction? e.1 0 with
      | none =>
        rw [h5] at h2
        cases h6 : g'.getProduction? e.1 0 with
        | some _ => rw [h6] at h2; cases h2
        | none => exact .inl ⟨_, rfl, rfl⟩
      | some p =>
        rw [h5] at h2
        cases h6 : g'.getProduction? e.1 0 with
        | none => rw [h6] at h2; cases h2
        | some p' =>
          rw [h6] at h2
          cases h7 : vs[e.1]? with
          | none => rw [hv.1 h7]; exact .inl ⟨_, rfl, rfl⟩
          | some k =>
            cases h8 : vs'[e.1]? with
            | none => rw [hv.2 h8] at h7; cases h7
            | some k' =>
              exact .inr ⟨_, _, rfl, rfl, Option.some.inj h1, rfl, Option.some.inj h2⟩

/-- The generator emits the same tables. -/
theorem generateParser_alpha [DecidableEq Ty] [DecidableEq Ty'] (o : HashOrder) {g : Grammar X Ty}
    {g' : Grammar X' Ty'} (hg : AlphaGrammar u u' g g') (hwf : g.WF) (hwf' : g'.WF) :
    AlikeRes AlphaGenerated (generateParser o g) (generateParser o g') := by
  have hnT : g.nTerminals = g'.nTerminals := by simp only [Grammar.nTerminals, hg.terms]
  simp only [generateParser, ← hg.first, ← hg.automaton, ← hnT]
  refine (AlikeRes.ofEq rfl).bind ?_
  rintro a _ rfl
  refine (sem_alpha hg hwf hwf').bind ?_
  rintro ⟨fns, g1⟩ ⟨fns', g1'⟩ hb
  dsimp only at hb ⊢
  have ht : g1.terminals = g1'.terminals := congrArg (fun g : Grammar Nat Unit => g.terminals) hb
  have hn : g1.nNonTerminals = g1'.nNonTerminals := by
    rw [← Grammar.nNonTerminals_strip, hb, Grammar.nNonTerminals_strip]
  have f1 : buildTable o g1 a.states = buildTable o g1' a.states := by
    rw [← buildTable_strip, hb, buildTable_strip]
  rw [f1]
  refine (AlikeRes.ofEq rfl).bind ?_
  rintro t _ rfl
  have f2 : actionTableVec g1 t t.nStates = actionTableVec g1' t t.nStates := by
    rw [← actionTableVec_strip, hb, actionTableVec_strip]
  have f3 : ∀ x n m, generateActionArray g1 x n m = generateActionArray g1' x n m := by
    intro x n m
    rw [← generateActionArray_strip, hb, generateActionArray_strip]
  rw [f2, f3, hn]
  refine (AlikeRes.ofEq rfl).bind ?_
  rintro ac _ rfl
  refine (AlikeRes.ofEq rfl).bind ?_
  rintro gv _ rfl
  refine (AlikeRes.ofEq rfl).bind ?_
  rintro go _ rfl
  have hv : ∀ i : Nat, (semanticActionVariants g)[i]? = none ↔ (semanticActionVariants g')[i]? = none := by
    intro i
    rw [variants_get, variants_get, List.getElem?_eq_none_iff, List.getElem?_eq_none_iff, hg.length]
  refine (AlikeRes.mapM (R := AlphaEntry) _ fun e _ => entryPoint_alpha hb e (hv e.1)).bind ?_
  intro es es' hes
  refine .inr ⟨_, _, rfl, rfl, rfl, rfl, ?_, ?_, rfl, hes⟩
  · simp only [generateExpected, expectedTerminals, ht]
  · simp only [generateTokenText, ht]

/-! ## The macro -/

theorem itemNonTerminals_alpha {items : List (GrammarItem X Ty)} {items' : List (GrammarItem X' Ty')}
    (h : List.Forall₂ (AlphaItem u u') items items') :
    List.Forall₂ (AlphaDefinition u u') (itemNonTerminals items) (itemNonTerminals items') := by
  induction h with
  | nil => exact .nil
  | cons h _ ih =>
    cases h with
    | typeDef => exact ih
    | tokenEnum => exact ih
    | nonTerminal h => exact .cons h ih

theorem itemTokenEnums_alpha {items : List (GrammarItem X Ty)} {items' : List (GrammarItem X' Ty')}
    (h : List.Forall₂ (AlphaItem u u') items items') :
    List.Forall₂ (fun t t' => List.Forall₂ AlphaConversion t.conversions t'.conversions)
      (itemTokenEnums items) (itemTokenEnums items') := by
  induction h with
  | nil => exact .nil
  | cons h _ ih =>
    cases h with
    | typeDef => exact ih
    | tokenEnum h => exact .cons h ih
    | nonTerminal h => exact ih

theorem macroItems_alpha {items : List (GrammarItem X Ty)} {items' : List (GrammarItem X' Ty')}
    (h : List.Forall₂ (AlphaItem u u') items items') :
    AlikeRes (fun r r' => List.Forall₂ (AlphaDefinition u u') r.1 r'.1 ∧
      List.Forall₂ AlphaConversion r.2.conversions r'.2.conversions) (macroItems items)
      (macroItems items') := by
  simp only [macroItems]
  refine (AlikeRes.foldlM (R := fun (s : MacroState X Ty) (s' : MacroState X' Ty') =>
    List.Forall₂ (AlphaDefinition u u') s.nonTerminals s'.nonTerminals ∧
    s.stateType.isSome = s'.stateType.isSome ∧
    ((s.tokenEnum = none ∧ s'.tokenEnum = none) ∨ ∃ t t', s.tokenEnum = some t ∧
      s'.tokenEnum = some t' ∧ List.Forall₂ AlphaConversion t.conversions t'.conversions))
    ?_ h {} {} ⟨.nil, rfl, .inl ⟨rfl, rfl⟩⟩).bind ?_
  · rintro s s' i i' ⟨h1, h2, h3⟩ hi
    cases hi with
    | typeDef ty ty' =>
      simp only [macroItem, ← h2]
      split
      · exact .inl ⟨_, rfl, rfl⟩
      · exact .inr ⟨_, _, rfl, rfl, h1, rfl, h3⟩
    | @tokenEnum t t' ht =>
      rcases h3 with ⟨e1, e2⟩ | ⟨x, x', e1, e2, hx⟩
      · simp only [macroItem, e1, e2]
        exact .inr ⟨_, _, rfl, rfl, h1, h2, .inr ⟨_, _, rfl, rfl, ht⟩⟩
      · simp only [macroItem, e1, e2]
        exact .inl ⟨_, rfl, rfl⟩
    | nonTerminal hd =>
      exact .inr ⟨_, _, rfl, rfl, List.rel_append h1 (.cons hd .nil), h2, h3⟩
  · rintro s s' ⟨h1, _, ⟨e1, e2⟩ | ⟨t, t', e1, e2, ht⟩⟩
    · rw [e1, e2]; exact .inl ⟨_, rfl, rfl⟩
    · rw [e1, e2]; exact .inr ⟨_, _, rfl, rfl, h1, ht⟩

theorem loweredCount_alpha {l : List (AstNonTerminal X Ty)} {l' : List (AstNonTerminal X' Ty')}
    (h : List.Forall₂ (AlphaDefinition u u') l l') : loweredCount l = loweredCount l' := by
  induction h with
  | nil => rfl
  | cons h _ ih =>
    unfold loweredCount at ih ⊢
    simp only [List.filter_cons, h.isPub, List.length_cons]
    split <;> (try simp only [List.length_cons]) <;> omega

/-- The macro accepts both, with the same tables, or panics alike. -/
theorem parserMacro_alpha [DecidableEq Ty] [DecidableEq Ty'] (o : HashOrder)
    {items : List (GrammarItem X Ty)} {items' : List (GrammarItem X' Ty')}
    (h : List.Forall₂ (AlphaItem u u') items items')
    (hsz : loweredCount (itemNonTerminals items) ≤ 4294967296) :
    AlikeRes (fun r r' => AlphaGenerated r.1 r'.1 ∧
      List.Forall₂ AlphaConversion r.2.conversions r'.2.conversions)
      (parserMacro o u.mkPath items) (parserMacro o u'.mkPath items') := by
  simp only [parserMacro]
  rcases macroItems_alpha h with ⟨f, e1, e2⟩ | ⟨⟨nts, t⟩, ⟨nts', t'⟩, e1, e2, h1, h2⟩
  · rw [e1, e2]; exact .inl ⟨_, rfl, rfl⟩
  have hn := ((macroItems_iff _ _ _).1 e1).1
  rw [e1, e2]
  dsimp only at h1 h2 ⊢
  rw [← hn] at hsz
  have hsz' : loweredCount nts' ≤ 4294967296 := by rw [← loweredCount_alpha h1]; exact hsz
  show AlikeRes _ (lower u.mkPath nts t.conversions >>= _) (lower u'.mkPath nts' t'.conversions >>= _)
  rcases lower_alpha h1 (h2.imp fun _ _ h => h.from_) with ⟨f, e3, e4⟩ | ⟨g, g', e3, e4, hg⟩
  · rw [e3, e4]; exact .inl ⟨_, rfl, rfl⟩
  rw [e3, e4]
  obtain ⟨_, _, hl⟩ := lower_ok (by rw [← loweredCount_eq]; exact hsz) e3
  obtain ⟨_, _, hl'⟩ := lower_ok (by rw [← loweredCount_eq]; exact hsz') e4
  show AlikeRes _ (generateParser o g >>= _) (generateParser o g' >>= _)
  refine AlikeRes.bind (generateParser_alpha o hg hl.wf hl'.wf) ?_
  intro gen gen' hgen
  exact .inr ⟨_, _, rfl, rfl, hgen, h2⟩

end Parsegen
