import Verif.Proofs.Compiled

/-! # Observing a compiled parser -/

namespace Parsegen

variable {X Ty V W Tok E : Type} [DecidableEq Ty]

section names
variable {asts : List (AstNonTerminal X Ty)} {convs : List (Conversion Ty)} {g : Grammar X Ty}
  {nts ts : AMap String Nat} {mkPath : String → X}

omit [DecidableEq Ty] in
/-- A private non-terminal with a production has a name in the user's grammar. -/
theorem Lowered.name_of_hasProd (hl : Lowered mkPath asts convs g nts ts) {b p : Nat}
    {α : List Symbol} (hp : g.HasProd b p α) (hpriv : g.isPublic b = false) :
    ∃ n, nts.get? n = some b := by
  obtain ⟨nt, pr, h1, h2, _⟩ := hp
  by_cases h : ∃ n, nts.get? n = some b
  · exact h
  · have hpr : nt.isPublic = false := by
      unfold Grammar.isPublic at hpriv; rw [h1] at hpriv; exact hpriv
    have := hl.priv h1 hpr (fun n hn => h ⟨n, hn⟩)
    rw [this] at h2; simp at h2

omit [DecidableEq Ty] in
/-- Symbols that have been evaluated have names in the user's grammar. -/
theorem Lowered.names_of_eval (hl : Lowered mkPath asts convs g nts ts) {ti : Tok → Nat}
    {cls : Tok → String} (hcls : ClassName g ti cls) {Val : Type} {alg : Alg Tok Val W}
    {α : List Symbol} {toks : List Tok} {w : W} {vs : List Val} {w' : W}
    (h : Eval g ti alg α toks w vs w') (hpriv : ∀ b, .nonTerminal b ∈ α → g.isPublic b = false) :
    ∃ ss, List.Forall₂ (LowersPlain nts ts) ss α := by
  induction h with
  | nil => exact ⟨[], .nil⟩
  | @term t i ss ts' w vs w' ht h ih =>
    obtain ⟨ss', h'⟩ := ih (fun b hb => hpriv b (List.mem_cons_of_mem _ hb))
    refine ⟨.terminal (cls t) :: ss', .cons (Or.inr ⟨cls t, i, rfl, ?_, rfl⟩) h'⟩
    rw [← ht]
    exact (hl.tmap (cls t) (ti t)).2 (hcls t)
  | @nt b p α t1 t2 w us w1 v w2 ss vs w3 hp hc ha h _ ih =>
    obtain ⟨ss', h'⟩ := ih (fun b hb => hpriv b (List.mem_cons_of_mem _ hb))
    obtain ⟨n, hn⟩ := hl.name_of_hasProd hp (hpriv b (by simp))
    exact ⟨.nonTerminal n :: ss', .cons (Or.inl ⟨n, b, rfl, hn, rfl⟩) h'⟩

end names

/-- The last step of a run, with everything known about the program. -/
structure Final (P : Compiled X Ty V W Tok) (ep : EntryPoint)
    (input : Nat → Option (Except E Tok)) (w : W) (o : Outcome V E) (s' : PState Tok V W E)
    (g : Grammar X Ty) (nts ts : AMap String Nat) (a : Automaton) (g' : Grammar Nat Ty)
    (T : LRTable Nat) (e : Nat) (nt : NonTerminal X Ty) (s : PState Tok V W E) (γ : List Symbol)
    (toks : List Tok) : Prop where
  setup : Setup P g nts ts a g' T
  entry : g.nonTerminals[e]? = some nt
  pub : nt.isPublic = true
  name : nt.name = ep.name
  isPub : g.isPublic e = true
  inv : RunInv g P.code P.tf (StateAt g (generateFirstTable P.order g) a) e input w s γ toks
  step : StepSpec g (generateFirstTable P.order g) P.gen P.code P.tf
    (StateAt g (generateFirstTable P.order g) a) e input w ep s γ toks (.done o s')

theorem Compiled.final (P : Compiled X Ty V W Tok) {ep : EntryPoint} (hep : ep ∈ P.gen.entries)
    {input : Nat → Option (Except E Tok)} {w : W} {o : Outcome V E} {s' : PState Tok V W E}
    {fuel : Nat} (h : parse P.gen P.code P.tf input ep w fuel = some (o, s')) :
    ∃ g nts ts a g' T e nt s γ toks, Final P ep input w o s' g nts ts a g' T e nt s γ toks := by
  obtain ⟨g, nts, ts, a, g', T, S⟩ := P.setup hep
  obtain ⟨e, nt, h1, h2, h3, he, hini, hext, hsem⟩ := S.run hep
  obtain ⟨s, γ, toks, hi, hs⟩ :=
    parse_spec S.wf (S.stages.tables S.wf) S.cons he hini hext hsem h
  exact ⟨g, nts, ts, a, g', T, e, nt, s, γ, toks, S, h1, h2, h3, he, hi, hs⟩

/-- Evaluation in the lowered grammar is evaluation in the user's. -/
theorem Setup.means {P : Compiled X Ty V W Tok} {g nts ts a g' T} (S : Setup P g nts ts a g' T)
    {ss : List AstSymbol} {α : List Symbol} (hs : List.Forall₂ (LowersPlain nts ts) ss α)
    {toks : List Tok} {w : W} {vs : List (SAR V)} {w' : W}
    (h : Eval g P.tf.terminalIdx (g.stackAlg P.code P.tf) α toks w vs w') :
    P.Means ss toks w (vs.map SAR.toB) w' := by
  have h1 := eval_toB S.cons h
  have h2 := S.lowered.eval_user S.cls
    (algAgree_values (asts := P.defs) (nts := nts) (ts := ts) P.code P.tf.fields) h1 ss hs
  rw [S.fields] at h2
  exact h2

end Parsegen
