import Verif.Proofs.Stops
import Verif.Props.Errors

/-! # Termination: C07 -/

namespace Parsegen

variable {X Ty V W Tok E : Type} [DecidableEq Ty] {P : Compiled X Ty V W Tok} {ep : EntryPoint}
  {input : Nat → Option (Except E Tok)} {w : W}

/-- Every FIRST set the macro looks at (those of non-terminals that come after another one) contains
something: a terminal or the mark for the empty string. -/
def Compiled.FirstNonempty (P : Compiled X Ty V W Tok) : Prop :=
  ∀ g, lower P.code.mkPath P.defs P.tokens.conversions = .ok g →
    Parsegen.FirstNonempty g (generateFirstTable P.order g)

theorem Compiled.FirstNonempty.stops (hN : P.FirstNonempty) : P.Stops := fun _ _ _ _ _ _ h hl hs _ _ γ he hc =>
  stop_all hl.wf (generateFirstTable_justified P.order _) (hN _ h) (hs.tables hl.wf) he hc γ

theorem Compiled.Stops.terminates (hS : P.Stops) (hep : ep ∈ P.gen.entries) {k : Nat}
    (hk : ∀ t, input k ≠ some (.ok t)) : ∃ o w' n, P.Returns ep input w o w' n := by
  obtain ⟨g, nts, ts, a, g', T, S⟩ := P.setup hep
  obtain ⟨e, nt, h1, h2, h3, he, hini, hext, hsem⟩ := S.run hep
  obtain ⟨fuel, ⟨o, s'⟩, h⟩ := parseLoop_terminates (u := P.code) (w0 := w) S.wf
    (S.stages.tables S.wf) (fun c γ => hS S.lower S.lowered S.stages e c γ he) S.cons he hext hsem hk k (by omega)
    (runInv_init hini)
  exact ⟨o, s'.world, s'.calls, fuel, s', h, rfl, rfl⟩

/-- **C07.** If no FIRST set that is looked at is empty, `parse` ends on every stream that ends or fails at
some point, whether or not the grammar had conflicts that were silently resolved. -/
theorem c07_terminates (hN : P.FirstNonempty) (hep : ep ∈ P.gen.entries) {k : Nat}
    (hk : ∀ t, input k ≠ some (.ok t)) : ∃ o w' n, P.Returns ep input w o w' n :=
  hN.stops.terminates hep hk

omit [DecidableEq Ty] in
/-- Without repeated names, every lowered non-terminal other than the entry points has a name. -/
theorem Lowered.named {mkPath : String → X} {asts : List (AstNonTerminal X Ty)}
    {convs : List (Conversion Ty)} {g : Grammar X Ty} {nts ts : AMap String Nat}
    (hl : Lowered mkPath asts convs g nts ts) (hnd : (asts.map (·.name)).Nodup) {b : Nat}
    {nt : NonTerminal X Ty} (h1 : g.nonTerminals[b]? = some nt) (hpriv : nt.isPublic = false) :
    ∃ n, nts.get? n = some b := by
  let priv : List Nat := (g.nonTerminals.zipIdx.filter fun e => !e.1.isPublic).map (·.2)
  let idx : List Nat := asts.map fun a => (nts.get? a.name).getD 0
  have hidx : ∀ a ∈ asts, nts.get? a.name = some ((nts.get? a.name).getD 0) := by
    intro a ha
    obtain ⟨j, hj⟩ := (hl.idx a.name).2 ⟨a, ha, rfl⟩
    rw [hj]; rfl
  have hlen : priv.length = idx.length := by
    have h2 := congrArg (fun l => (l.filter fun d => !d.2.1).length) hl.decls
    have h3 : priv.length = (g.nonTerminals.filter fun n => !n.isPublic).length := by
      have : g.nonTerminals = g.nonTerminals.zipIdx.map (·.1) := (List.zipIdx_map_fst ..).symm
      conv => rhs; rw [this, List.filter_map, List.length_map]
      simp only [priv, List.length_map, Function.comp_def]
    have h4 : idx.length = asts.length := by simp [idx]
    rw [h3, h4]
    rw [List.filter_map, List.length_map] at h2
    simp only [Function.comp_def] at h2
    rw [h2]
    clear h2 h3 h4 hidx hl hnd h1
    induction asts with
    | nil => rfl
    | cons a asts ih =>
      rw [List.flatMap_cons, List.filter_append, List.length_append, ih]
      cases a.isPub <;> simp <;> omega
  have hnd' : idx.Nodup := by
    have h5 : asts.Pairwise fun a b => a.name ≠ b.name := by
      rw [List.Nodup, List.pairwise_map] at hnd; exact hnd
    rw [List.Nodup, List.pairwise_map]
    refine h5.imp_of_mem ?_
    intro a c ha hc hne he
    exact hne (hl.inj (hidx a ha) (he ▸ hidx c hc))
  have hsub : idx ⊆ priv := by
    intro j hj
    obtain ⟨a, ha, rfl⟩ := List.mem_map.1 hj
    obtain ⟨nt', _, h5, _, _, _, h6, _⟩ := hl.prods (hidx a ha)
    refine List.mem_map.2 ⟨(nt', _), List.mem_filter.2 ⟨List.mk_mem_zipIdx_iff_getElem?.2 h5, ?_⟩, rfl⟩
    simp [h6]
  have hperm := (List.subperm_of_subset hnd' hsub).perm_of_length_le (Nat.le_of_eq hlen)
  have hb : b ∈ priv := List.mem_map.2
    ⟨(nt, b), List.mem_filter.2 ⟨List.mk_mem_zipIdx_iff_getElem?.2 h1, by simp [hpriv]⟩, rfl⟩
  obtain ⟨a, ha, rfl⟩ := List.mem_map.1 (hperm.mem_iff.2 hb)
  exact ⟨a.name, hidx a ha⟩

/-- The condition of **C07** in terms of the grammar, for programs whose FIRST table is complete:
every non-terminal derives something. -/
theorem Compiled.Productive.firstNonempty (hP : P.Productive) (hep : ep ∈ P.gen.entries)
    (hnd : (P.defs.map (·.name)).Nodup)
    (hF : ∀ g, lower P.code.mkPath P.defs P.tokens.conversions = .ok g →
      FirstEnough g (generateFirstTable P.order g)) : P.FirstNonempty := by
  intro g hg
  obtain ⟨g1, nts, ts, a, g', T, S⟩ := P.setup hep
  have : g1 = g := by have := S.lower.symm.trans hg; cases this; rfl
  subst this
  intro nt p α c l b r hp hl
  have hB : g1.Behind b := ⟨nt, p, α, c, l, r, hp, .nil_of_flagged (generateFirstTable_sound _ _) hl⟩
  obtain ⟨hb, hpriv⟩ := hB.priv S.wf
  have hn : ∃ n, nts.get? n = some b := by
    obtain ⟨nt, h1⟩ : ∃ nt, g1.nonTerminals[b]? = some nt := ⟨_, List.getElem?_eq_getElem hb⟩
    exact S.lowered.named hnd h1 (by simpa [Grammar.isPublic, h1] using hpriv)
  obtain ⟨n, hn⟩ := hn
  obtain ⟨d, hd, rfl⟩ := (S.lowered.idx n).1 ⟨b, hn⟩
  obtain ⟨x, hx⟩ := hP d hd
  obtain ⟨y, h1, h2⟩ := S.lowered.user_derives hx (α := [.nonTerminal b]) (.cons hn .nil)
  obtain ⟨inp, rfl, _⟩ := forall₂_terms h1
  cases inp with
  | nil => exact Or.inl ((hF g1 hg).empty b hB h2)
  | cons t inp => exact Or.inr ⟨t, (hF g1 hg).terminals b t hB ⟨inp.map .terminal, h2⟩⟩

/-- **C07**, in terms of the user's grammar: if no non-terminal is defined twice, the FIRST table is
complete (C18) and every non-terminal derives something, `parse` ends on every stream that does. -/
theorem c07_productive (hP : P.Productive) (hnd : (P.defs.map (·.name)).Nodup)
    (hF : ∀ g, lower P.code.mkPath P.defs P.tokens.conversions = .ok g →
      FirstEnough g (generateFirstTable P.order g)) (hep : ep ∈ P.gen.entries) {k : Nat}
    (hk : ∀ t, input k ≠ some (.ok t)) : ∃ o w' n, P.Returns ep input w o w' n :=
  c07_terminates (hP.firstNonempty hep hnd hF) hep hk

/-- The hypotheses are met: `arith` ends on every finite stream. -/
example {ep : EntryPoint} (hep : ep ∈ Examples.arith.gen.entries) (toks : List Examples.Tk) :
    ∃ o w' n, Examples.arith.Returns ep (Examples.stream toks) [] o w' n :=
  c07_productive Examples.arith_productive Examples.arith_regular.names Examples.arith_regular.first
    hep (k := toks.length) (by simp [Examples.stream])

/-! ## Without the condition it is false -/

namespace Examples

/-- An action. -/
def unitAct : AstAction (Act Unit) := .infallible fun _ w => some (0, w)

/-- ```
A: u64 = { => 0 }   Z: u64 = { "n" => 0 }   pub S: u64 = { A S => 0, Z D => 0 }
D: u64 = { Y => 0 }   Y: u64 = { N => 0 }   N: u64 = { => 0 }
```
The single token `n` is a sentence, but the FIRST set computed for `D` is empty. -/
def loopDefs : List (AstNonTerminal (Act Unit) String) :=
  [ ⟨false, "A", "u64", [⟨[], unitAct⟩]⟩,
    ⟨false, "Z", "u64", [⟨[.terminal "n"], unitAct⟩]⟩,
    ⟨true, "S", "u64", [⟨[.nonTerminal "A", .nonTerminal "S"], unitAct⟩,
      ⟨[.nonTerminal "Z", .nonTerminal "D"], unitAct⟩]⟩,
    ⟨false, "D", "u64", [⟨[.nonTerminal "Y"], unitAct⟩]⟩,
    ⟨false, "Y", "u64", [⟨[.nonTerminal "N"], unitAct⟩]⟩,
    ⟨false, "N", "u64", [⟨[], unitAct⟩]⟩ ]

set_option maxRecDepth 10000 in
theorem loop_ok : (parserMacro .insertion code.mkPath (itemsOf loopDefs)).isOk = true := by
  decide +kernel

def loop : Compiled (Act Unit) String Nat Unit Tk := program loopDefs loop_ok

/-- The tables of a parser that reduces `A` forever on the token `n`. -/
def LoopTables (gen : Generated (Act Unit)) : Prop :=
  gen.action[0]? = some [none, some (.reduce 0 0 0), none, none, none] ∧
  gen.action[1]? = some [none, some (.reduce 0 0 0), none, none, none] ∧
  gen.goto[0]?.map (·[0]?) = some (some (some 1)) ∧
  gen.goto[1]?.map (·[0]?) = some (some (some 1)) ∧
  gen.semActions[0]?.map (fun f => (f.pops.isEmpty, (f.action (fun _ => none) ()).isSome)) =
    some (true, true) ∧
  gen.entries[0]?.map (fun e => (e.name, e.initState)) = some ("S", 0)

instance (gen : Generated (Act Unit)) : Decidable (LoopTables gen) := by
  unfold LoopTables; infer_instance

set_option maxRecDepth 10000 in
theorem loop_tables : LoopTables loop.gen := by decide +kernel

/-- What the loop looks like after any number of iterations. -/
def Looping (s : PState Tk Nat Unit String) : Prop :=
  (∃ rest, s.states = 0 :: rest ∨ s.states = 1 :: rest) ∧ s.token = some (.ok (.num 1))

theorem looping_step {gen : Generated (Act Unit)} {tf : TokenFns Tk Nat} (hT : LoopTables gen)
    (hidx : tf.terminalIdx (.num 1) = 1) {s : PState Tk Nat Unit String} (h : Looping s) (ep : EntryPoint)
    (input : Nat → Option (Except String Tk)) :
    ∃ s', parseStep gen code tf input ep s = .next s' ∧ Looping s' := by
  obtain ⟨t1, t2, t3, t4, t5, _⟩ := hT
  obtain ⟨⟨rest, hst⟩, htok⟩ := h
  obtain ⟨f, hf, hf'⟩ := Option.map_eq_some_iff.1 t5
  simp only [Prod.mk.injEq, List.isEmpty_iff] at hf'
  obtain ⟨⟨v, w⟩, hv⟩ := Option.isSome_iff_exists.1 hf'.2
  have hrun : f.run code s.values s.world = .ok (.nonTerminal f.variant v :: s.values, w) := by
    unfold SemFn.run
    rw [hf'.1]
    simp only [runPops]
    have : code.run f.action (fun _ => none) s.world = some (v, w) := hv
    simp only [bind, Except.bind, this]
  have key : ∀ st : Nat, st :: rest = s.states →
      gen.action[st]? = some [none, some (.reduce 0 0 0), none, none, none] →
      gen.goto[st]?.map (·[0]?) = some (some (some 1)) →
      ∃ s', parseStep gen code tf input ep s = .next s' ∧ Looping s' := by
    intro st hs ha hg
    obtain ⟨row, hrow, hrow'⟩ := Option.map_eq_some_iff.1 hg
    refine ⟨{ s with states := 1 :: st :: rest, values := .nonTerminal f.variant v :: s.values,
                      world := w }, ?_, ⟨st :: rest, Or.inr rfl⟩, htok⟩
    unfold parseStep
    simp only [← hs, htok, lookaheadIdx, hidx, ha, List.getElem?_cons_succ, List.getElem?_cons_zero]
    unfold reduceStep
    simp only [hf, hrun, bind, Except.bind, ← hs, List.length_cons, Nat.not_lt_zero, if_false,
      List.drop_zero, hrow, hrow', htok]
  rcases hst with hst | hst
  · exact key 0 hst.symm t1 t3
  · exact key 1 hst.symm t2 t4

theorem looping_forever {gen : Generated (Act Unit)} {tf : TokenFns Tk Nat} (hT : LoopTables gen)
    (hidx : tf.terminalIdx (.num 1) = 1) {s : PState Tk Nat Unit String} (h : Looping s) (ep : EntryPoint)
    (input : Nat → Option (Except String Tk)) (fuel : Nat) :
    parseLoop gen code tf input ep fuel s = none := by
  induction fuel generalizing s with
  | zero => rfl
  | succ fuel ih =>
    obtain ⟨s', h1, h2⟩ := looping_step hT hidx h ep input
    unfold parseLoop
    rw [h1]
    exact ih h2

theorem loop_productive : loop.Productive := by
  have hd : loop.defs = loopDefs := defs_itemsOf _
  unfold Compiled.Productive
  rw [hd]
  have mk : ∀ {name : String} {p : AstProduction (Act Unit)} (rhs : List USym),
      p ∈ userProds loopDefs name → p.symbols.map (·.plain) = rhs.map some →
      UDerives loopDefs [.nt name] rhs := by
    intro name p rhs h1 h2
    have := UProduces.mk [] [] rhs name p h1 h2
    exact .tail (.refl _) (by simpa using this)
  have hA : UDerives loopDefs [.nt "A"] [] :=
    mk (p := loopDefs[0].productions[0]) [] (by simp [userProds, loopDefs]) rfl
  have hZ : UDerives loopDefs [.nt "Z"] [.term "n"] :=
    mk (p := loopDefs[1].productions[0]) [.term "n"] (by simp [userProds, loopDefs]) rfl
  have hN : UDerives loopDefs [.nt "N"] [] :=
    mk (p := loopDefs[5].productions[0]) [] (by simp [userProds, loopDefs]) rfl
  have hY : UDerives loopDefs [.nt "Y"] [] :=
    (mk (p := loopDefs[4].productions[0]) [.nt "N"] (by simp [userProds, loopDefs]) rfl).trans hN
  have hD : UDerives loopDefs [.nt "D"] [] :=
    (mk (p := loopDefs[3].productions[0]) [.nt "Y"] (by simp [userProds, loopDefs]) rfl).trans hY
  have hS : UDerives loopDefs [.nt "S"] [.term "n"] :=
    (mk (p := loopDefs[2].productions[1]) [.nt "Z", .nt "D"] (by simp [userProds, loopDefs]) rfl).trans
      ((hZ.append_right [.nt "D"]).trans (hD.append_left [.term "n"]))
  intro d hd
  have : d.name ∈ ["A", "Z", "S", "D", "Y", "N"] := by
    simp only [loopDefs, List.mem_cons, List.not_mem_nil, or_false] at hd
    rcases hd with rfl | rfl | rfl | rfl | rfl | rfl <;> simp
  simp only [List.mem_cons, List.not_mem_nil, or_false] at this
  rcases this with h | h | h | h | h | h <;> rw [h]
  · exact ⟨[], hA⟩
  · exact ⟨["n"], hZ⟩
  · exact ⟨["n"], hS⟩
  · exact ⟨[], hD⟩
  · exact ⟨[], hY⟩
  · exact ⟨[], hN⟩

theorem never_returns {defs : List (AstNonTerminal (Act Unit) String)}
    {ok : (parserMacro .insertion code.mkPath (itemsOf defs)).isOk = true}
    (hT : LoopTables (program defs ok).gen) (hidx : (program defs ok).tf.terminalIdx (.num 1) = 1) :
    ∃ ep ∈ (program defs ok).gen.entries, ep.name = "S" ∧
      ∀ o w' n, ¬ (program defs ok).Returns (E := String) ep (stream [.num 1]) () o w' n := by
  obtain ⟨_, _, _, _, _, t6⟩ := id hT
  obtain ⟨ep, he, he'⟩ := Option.map_eq_some_iff.1 t6
  simp only [Prod.mk.injEq] at he'
  refine ⟨ep, List.mem_of_getElem? he, he'.1, ?_⟩
  rintro o w' n ⟨fuel, s', h, _⟩
  have h2 := looping_forever hT hidx (ep := ep) (input := stream [.num 1]) (fuel := fuel)
    (s := parseInit (stream [.num 1]) ep ()) ⟨⟨[], Or.inl (by simp [parseInit, he'.2])⟩, rfl⟩
  cases h2.symm.trans h

/-- The macro accepts `loop`, all its non-terminals derive something, and yet its parser never ends
on the one-token input `n`. -/
theorem c07_counterexample : loop.Productive ∧ ∃ ep ∈ loop.gen.entries, ep.name = "S" ∧
    ∀ o w' n, ¬ loop.Returns ep (stream [.num 1]) () o w' n :=
  ⟨loop_productive, never_returns loop_tables (by decide +kernel)⟩

end Examples

end Parsegen
