import Verif.Props.Rearrange
import Verif.Props.UserGrammar

/-! # C07, C41, C50, C51 for LR(1) grammars

Nothing is assumed about the FIRST sets the macro computes, which may be too small (C18): the emitted
parser may then reject sentences, but it still ends. -/

namespace Parsegen

variable {X Ty V W Tok E : Type} [DecidableEq Ty] {P : Compiled X Ty V W Tok} {ep : EntryPoint}
  {input : Nat → Option (Except E Tok)} {w w' : W} {n : Nat}

theorem Compiled.stops_of_lr1 (hnd : (P.defs.map (·.name)).Nodup) (hlr : ULR1 P.defs)
    (hP : ∀ d ∈ P.defs, ∃ x, USentence P.defs d.name x) : P.Stops := by
  intro g nts ts a g' T h hl hs e c γ he hc
  refine stop_lr1 hl.wf ((hl.lr1_iff hl.wf hnd).2 hlr) ?_ (generateFirstTable_sound P.order g)
    (hs.tables hl.wf) he hc γ
  have hF := (Grammar.justFirst_closed hl.wf).complete hl.wf
  refine FirstNonemptyAll.some hl.wf fun b hb hpriv => ?_
  obtain ⟨nt, h1⟩ : ∃ nt, g.nonTerminals[b]? = some nt := ⟨_, List.getElem?_eq_getElem hb⟩
  obtain ⟨n, hn⟩ := hl.named hnd h1 (by simpa [Grammar.isPublic, h1] using hpriv)
  obtain ⟨d, hd, rfl⟩ := (hl.idx n).1 ⟨b, hn⟩
  obtain ⟨x, hx⟩ := hP d hd
  obtain ⟨y, h1, h2⟩ := hl.user_derives hx (α := [.nonTerminal b]) (.cons hn .nil)
  obtain ⟨inp, rfl, _⟩ := forall₂_terms h1
  cases inp with
  | nil => exact Or.inl (hF.empty b hb hpriv h2)
  | cons t inp => exact Or.inr ⟨t, hF.terminals b t hb hpriv ⟨inp.map .terminal, h2⟩⟩

/-- **C07** for LR(1) grammars without repeated names in which every non-terminal derives something:
`parse` ends on every stream that ends or fails at some point, whatever the computed FIRST sets. -/
theorem c07_lr1 (hnd : (P.defs.map (·.name)).Nodup) (hlr : ULR1 P.defs)
    (hP : ∀ d ∈ P.defs, ∃ x, USentence P.defs d.name x) (hep : ep ∈ P.gen.entries) {k : Nat}
    (hk : ∀ t, input k ≠ some (.ok t)) : ∃ o w' n, P.Returns ep input w o w' n :=
  (Compiled.stops_of_lr1 hnd hlr hP).terminates hep hk

/-- **C41** for LR(1) grammars: the parser returns within `n` calls of `next()`, or makes more. -/
theorem c41_lr1 (hnd : (P.defs.map (·.name)).Nodup) (hlr : ULR1 P.defs)
    (hP : ∀ d ∈ P.defs, ∃ x, USentence P.defs d.name x) (hep : ep ∈ P.gen.entries) (n : Nat) :
    (∃ (o : Outcome V E) (w' : W) (m : Nat), m ≤ n ∧ P.Returns ep input w o w' m) ∨
    ∃ (w' : W) (m : Nat), n < m ∧ P.During ep input w w' m :=
  (Compiled.stops_of_lr1 hnd hlr hP).progress hep n

/-- **C50** for LR(1) grammars: at every moment of every call, the number of iterations and the size of
the stacks are at most `K` times the number of calls of `next()`. -/
theorem c50_lr1 (hnd : (P.defs.map (·.name)).Nodup) (hlr : ULR1 P.defs)
    (hP : ∀ d ∈ P.defs, ∃ x, USentence P.defs d.name x) :
    ∃ K : Nat, ∀ {E : Type}, ∀ ep ∈ P.gen.entries,
    ∀ (input : Nat → Option (Except E Tok)) (w : W) (k m : Nat) (w' : W) (n : Nat),
      P.After ep input w k m w' n → k ≤ K * n ∧ m ≤ K * n :=
  (Compiled.stops_of_lr1 hnd hlr hP).linear

/-- **C50** for LR(1) grammars: on a stream that ends or fails after `n` tokens, `parse` returns within
`K * (n + 1)` iterations. -/
theorem c50_lr1_time (hnd : (P.defs.map (·.name)).Nodup) (hlr : ULR1 P.defs)
    (hP : ∀ d ∈ P.defs, ∃ x, USentence P.defs d.name x) :
    ∃ K : Nat, ∀ {E : Type}, ∀ ep ∈ P.gen.entries,
    ∀ (input : Nat → Option (Except E Tok)) (w : W) (n : Nat), (∀ t, input n ≠ some (.ok t)) →
      ∃ o w' i, i ≤ n + 1 ∧ P.ReturnsWithin ep input w (K * (n + 1)) o w' i :=
  (Compiled.stops_of_lr1 hnd hlr hP).time

/-- **C51** for LR(1) grammars: progress, when what `next()` returns depends on the actions. -/
theorem c51_lr1_progress (hnd : (P.defs.map (·.name)).Nodup) (hlr : ULR1 P.defs)
    (hP : ∀ d ∈ P.defs, ∃ x, USentence P.defs d.name x) (hep : ep ∈ P.gen.entries)
    {next : W → Option (Except E Tok) × W} (n : Nat) :
    (∃ (o : Outcome V E) (w' : W) (items : List (Option (Except E Tok))), items.length ≤ n ∧
      P.IReturns ep next w o w' items) ∨
    ∃ (w' : W) (items : List (Option (Except E Tok))), n < items.length ∧
      P.IDuring ep next w w' items :=
  (Compiled.stops_of_lr1 hnd hlr hP).iprogress hep n

/-! ## A concrete case -/

namespace Examples

/-- The program of `c55_unused_matters`, whose parser rejects the sentence `( )`. -/
def unused : Compiled (Act Unit) String Nat Unit Tk := program unusedDefs unused_ok

set_option maxRecDepth 10000 in
theorem unused_first :
    (match lower unused.code.mkPath unusedDefs tk.conversions with
      | .error _ => false
      | .ok g => decide ((g.getProduction? 4 0).map (·.syms) =
            some [.nonTerminal 3, .nonTerminal 0, .terminal 3]) &&
          decide ((generateFirstTable .insertion g).get 0 = ⟨false, []⟩)) = true := by
  decide +kernel

/-- One of its computed FIRST sets is empty, so `c07_terminates` and `c07_user` do not apply. -/
theorem unused_not_nonempty : ¬ unused.FirstNonempty := by
  intro hN
  have h := unused_first
  have hd : unused.defs = unusedDefs := defs_itemsOf _
  split at h
  · cases h
  · next g hg =>
    simp only [Bool.and_eq_true, decide_eq_true_eq] at h
    obtain ⟨pr, h1, h2⟩ := Option.map_eq_some_iff.1 h.1
    have hp : g.HasProd 4 0 ([] ++ .nonTerminal 3 :: ([] ++ .nonTerminal 0 :: [.terminal 3])) :=
      hasProd_getProduction.2 ⟨pr, h1, h2.symm⟩
    have := hN g (by rw [hd]; exact hg) _ _ _ _ _ _ _ hp allFlagged_nil
    have ho : unused.order = .insertion := rfl
    rw [ho, h.2] at this
    simp at this

theorem unused_names : (unused.defs.map (·.name)).Nodup := by
  have hd : unused.defs = unusedDefs := defs_itemsOf _
  rw [hd]; decide

set_option maxRecDepth 10000 in
theorem unused_ulr1 : ULR1 unused.defs := by
  obtain ⟨ep, hep, _⟩ := run_returns (c55_unused_matters.1)
  obtain ⟨g, nts, ts, a, g', T, S⟩ := unused.setup hep
  exact (S.lowered.lr1_iff S.wf unused_names).1
    (lr1_of_check [⟨true, []⟩, ⟨true, []⟩, ⟨true, []⟩, ⟨false, [2]⟩, ⟨false, [2]⟩, ⟨false, [2]⟩]
      (by decide +kernel) S.lower S.wf)

theorem unused_productive : ∀ d ∈ unused.defs, ∃ x, USentence unused.defs d.name x := by
  have hd : unused.defs = unusedDefs := defs_itemsOf _
  rw [hd]
  have mk : ∀ {name : String} {p : AstProduction (Act Unit)} (rhs : List USym),
      p ∈ userProds unusedDefs name → p.symbols.map (·.plain) = rhs.map some →
      UDerives unusedDefs [.nt name] rhs := by
    intro name p rhs h1 h2
    have := UProduces.mk [] [] rhs name p h1 h2
    exact .tail (.refl _) (by simpa using this)
  have hC : UDerives unusedDefs [.nt "C"] [] :=
    mk (p := unusedDefs[2].productions[0]) [] (by simp [userProds, unusedDefs]) rfl
  have hB : UDerives unusedDefs [.nt "B"] [] :=
    (mk (p := unusedDefs[1].productions[0]) [.nt "C"] (by simp [userProds, unusedDefs]) rfl).trans hC
  have hA : UDerives unusedDefs [.nt "A"] [] :=
    (mk (p := unusedDefs[0].productions[0]) [.nt "B"] (by simp [userProds, unusedDefs]) rfl).trans hB
  have hX : UDerives unusedDefs [.nt "X"] [.term "("] :=
    mk (p := unusedDefs[3].productions[0]) [.term "("] (by simp [userProds, unusedDefs]) rfl
  have hS : UDerives unusedDefs [.nt "S"] [.term "(", .term ")"] :=
    (mk (p := unusedDefs[4].productions[0]) [.nt "X", .nt "A", .term ")"]
      (by simp [userProds, unusedDefs]) rfl).trans
      ((hX.append_right [.nt "A", .term ")"]).trans
        ((hA.append_right [.term ")"]).append_left [.term "("]))
  intro d hd
  have : d.name ∈ ["A", "B", "C", "X", "S"] := by
    simp only [unusedDefs, List.mem_cons, List.not_mem_nil, or_false] at hd
    rcases hd with rfl | rfl | rfl | rfl | rfl <;> simp
  simp only [List.mem_cons, List.not_mem_nil, or_false] at this
  rcases this with h | h | h | h | h <;> rw [h]
  · exact ⟨[], hA⟩
  · exact ⟨[], hB⟩
  · exact ⟨[], hC⟩
  · exact ⟨["("], hX⟩
  · exact ⟨["(", ")"], hS⟩

/-- The hypotheses of `c07_lr1`, `c41_lr1`, `c50_lr1` and `c51_lr1_progress` hold for `unused`. -/
example {ep : EntryPoint} (hep : ep ∈ unused.gen.entries) (toks : List Tk) :
    ∃ (o : Outcome Nat String) (w' : Unit) (n : Nat), unused.Returns ep (stream toks) () o w' n :=
  c07_lr1 unused_names unused_ulr1 unused_productive hep (k := toks.length) (by simp [stream])

example : ∃ K : Nat, ∀ {E : Type}, ∀ ep ∈ unused.gen.entries,
    ∀ (input : Nat → Option (Except E Tk)) (w : Unit) (n : Nat), (∀ t, input n ≠ some (.ok t)) →
      ∃ o w' i, i ≤ n + 1 ∧ unused.ReturnsWithin ep input w (K * (n + 1)) o w' i :=
  c50_lr1_time unused_names unused_ulr1 unused_productive

/-- ```
A: u64 = { => 0 }   Z: u64 = { "n" => 0 }   pub S: u64 = { A S => 0, Z D => 0 }   D: u64 = { D ")" => 0 }
```
`D` and `S` derive nothing. -/
def emptyDefs : List (AstNonTerminal (Act Unit) String) :=
  [ ⟨false, "A", "u64", [⟨[], unitAct⟩]⟩,
    ⟨false, "Z", "u64", [⟨[.terminal "n"], unitAct⟩]⟩,
    ⟨true, "S", "u64", [⟨[.nonTerminal "A", .nonTerminal "S"], unitAct⟩,
      ⟨[.nonTerminal "Z", .nonTerminal "D"], unitAct⟩]⟩,
    ⟨false, "D", "u64", [⟨[.nonTerminal "D", .terminal ")"], unitAct⟩]⟩ ]

set_option maxRecDepth 10000 in
theorem empty_ok : (parserMacro .insertion code.mkPath (itemsOf emptyDefs)).isOk = true := by
  decide +kernel

set_option maxRecDepth 10000 in
theorem empty_tables : LoopTables (program emptyDefs empty_ok).gen := by decide +kernel

set_option maxRecDepth 10000 in
/-- In `c07_lr1` it does not suffice that the grammar is LR(1) without repeated names: if some
non-terminal derives nothing, `parse` can loop. -/
theorem c07_lr1_counterexample : ((program emptyDefs empty_ok).defs.map (·.name)).Nodup ∧
    ULR1 (program emptyDefs empty_ok).defs ∧
    ∃ ep ∈ (program emptyDefs empty_ok).gen.entries, ep.name = "S" ∧
      ∀ o w' n, ¬ (program emptyDefs empty_ok).Returns (E := String) ep (stream [.num 1]) () o w' n := by
  have hd : (program emptyDefs empty_ok).defs = emptyDefs := defs_itemsOf _
  have hnd : ((program emptyDefs empty_ok).defs.map (·.name)).Nodup := by rw [hd]; decide
  obtain ⟨ep, hep, h⟩ := never_returns empty_tables (by decide +kernel)
  refine ⟨hnd, ?_, ep, hep, h⟩
  obtain ⟨g, nts, ts, a, g', T, S⟩ := (program emptyDefs empty_ok).setup hep
  exact (S.lowered.lr1_iff S.wf hnd).1
    (lr1_of_check [⟨true, []⟩, ⟨false, [1]⟩, ⟨false, [1]⟩, ⟨false, [1]⟩, ⟨false, []⟩]
      (by decide +kernel) S.lower S.wf)

end Examples

end Parsegen
