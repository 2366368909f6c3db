import Verif.Proofs.Immediate
import Verif.Props.UserGrammar

/-! # C63: errors are detected before any further action is run -/

namespace Parsegen

variable {X Ty V W Tok E : Type} [DecidableEq Ty] {P : Compiled X Ty V W Tok} {ep : EntryPoint}
  {w w' : W} {n : Nat}

section Interactive

variable {next : W → Option (Except E Tok) × W} {items : List (Option (Except E Tok))}

/-- **C63.** When `parse` returns a syntax error, the state is the one in which the last call of `next()`
left it: no action has run since the offending token (or the end of input) was read.  `w1` is the state
in which that call was made: the initial one, or that of a moment of the run with one call less. -/
theorem c63_syntax_error (hN : P.FirstNonempty) (hep : ep ∈ P.gen.entries) {found expected : String}
    (h : P.IReturns ep next w (.parserError found expected) w' items) :
    ∃ w1 la before, items = before ++ [la] ∧ next w1 = (la, w') ∧
      ((before = [] ∧ w1 = w) ∨ P.IDuring ep next w w1 before) := by
  obtain ⟨fuel, s', h, rfl, rfl⟩ := h
  obtain ⟨g, nts, ts, a, g', T, S⟩ := P.setup hep
  obtain ⟨e, nt, h1, h2, h3, he, hini, hext, hsem⟩ := S.run hep
  obtain ⟨w1, h4, h5⟩ := iParseLoop_fresh S.wf (generateFirstTable_justified P.order g) (hN g S.lower)
    (S.stages.tables S.wf) S.cons he (iRunInv_init (w0 := w) hini) (.refl _)
    (.inl ⟨w, rfl, .inl ⟨rfl, rfl⟩⟩) h
  rcases h5 with ⟨rfl, h5⟩ | ⟨s0, h5, rfl, h6⟩
  · exact ⟨_, _, [], h5, h4, .inl ⟨rfl, rfl⟩⟩
  · exact ⟨_, _, _, h6, h4, .inr ⟨s0, h5, rfl, rfl⟩⟩

omit [DecidableEq Ty] in
/-- **C63**, lexer errors, for every accepted grammar: no action has run since the error was read. -/
theorem c63_lexer_error [DecidableEq Ty] {P : Compiled X Ty V W Tok} {err : E}
    (h : P.IReturns ep next w (.lexerError err) w' items) :
    ∃ w1 la before, items = before ++ [la] ∧ next w1 = (la, w') ∧
      ((before = [] ∧ w1 = w) ∨ P.IDuring ep next w w1 before) := by
  obtain ⟨fuel, s', h, rfl, rfl⟩ := h
  obtain ⟨w1, h4, h5⟩ := iParseLoop_lexerFresh (.refl _) (.inl ⟨w, rfl, .inl ⟨rfl, rfl⟩⟩) h
  rcases h5 with ⟨rfl, h5⟩ | ⟨s0, h5, rfl, h6⟩
  · exact ⟨_, _, [], h5, h4, .inl ⟨rfl, rfl⟩⟩
  · exact ⟨_, _, _, h6, h4, .inr ⟨s0, h5, rfl, rfl⟩⟩

/-- **C63** with conditions on the user's grammar only. -/
theorem c63_user (hnd : (P.defs.map (·.name)).Nodup) (hh : UHarmless P.defs)
    (hP : ∀ d ∈ P.defs, ∃ x, USentence P.defs d.name x) (hep : ep ∈ P.gen.entries)
    {found expected : String} (h : P.IReturns ep next w (.parserError found expected) w' items) :
    ∃ w1 la before, items = before ++ [la] ∧ next w1 = (la, w') ∧
      ((before = [] ∧ w1 = w) ∨ P.IDuring ep next w w1 before) :=
  c63_syntax_error (Compiled.firstNonempty_of_user hep hnd hh hP) hep h

end Interactive

/-- **C63** for iterators that do not share state with the actions: if in place of the offending token
(or of the end of input) the iterator had failed, so that there was nothing to parse any more, the
actions would have done the same. -/
theorem c63_replaced (hN : P.FirstNonempty) (hep : ep ∈ P.gen.entries)
    {input input' : Nat → Option (Except E Tok)} {found expected : String} {err : E}
    (h : P.Returns ep input w (.parserError found expected) w' n)
    (hin : ∀ i, i + 1 < n → input' i = input i) (herr : input' (n - 1) = some (.error err)) :
    P.Returns ep input' w (.lexerError err) w' n := by
  obtain ⟨fuel, s', h, rfl, rfl⟩ := h
  obtain ⟨g, nts, ts, a, g', T, S⟩ := P.setup hep
  obtain ⟨e, nt, h1, h2, h3, he, hini, hext, hsem⟩ := S.run hep
  obtain ⟨k1, _, k3, k4⟩ := parseLoop_replaced S.wf (generateFirstTable_justified P.order g)
    (hN g S.lower) (S.stages.tables S.wf) S.cons he hext hsem (runInv_init (w0 := w) hini) h hin herr
  have hc : (parseInit input ep w : PState Tok V W E).calls = 1 := rfl
  rcases Nat.lt_or_ge (parseInit input ep w : PState Tok V W E).calls s'.calls with h5 | h5
  · obtain ⟨f', s2, h6, h7, h8⟩ := k4 h5
    refine ⟨f', s2, ?_, h7, h8⟩
    unfold parse
    have : (parseInit input' ep w : PState Tok V W E) = parseInit input ep w := by
      unfold parseInit
      rw [hin 0 (by omega)]
    rw [this]
    exact h6
  · have h6 := k3 (by omega)
    refine ⟨1, parseInit input' ep w, ?_, by rw [h6]; rfl, by rw [h6]; rfl⟩
    rw [h6] at herr
    have h7 : input' 0 = some (.error err) := herr
    unfold parse parseLoop parseStep
    simp only [parseInit, h7, lookaheadIdx]

/-! ## Concrete cases -/

namespace Examples

set_option maxRecDepth 10000 in
theorem arith_paren : run arith 0 (stream [.num 1, .plus, .num 2, .rp]) [] 100 =
    some (.parserError ")" "+", [("Term", 0), ("Expr", 1)], 4) := by
  decide +kernel

/-- `1 + 2 )`: the error at `)` leaves the state that a lexer error there would have left. -/
example : ∃ ep ∈ arith.gen.entries, ∃ w' found expected,
    arith.Returns ep (stream [.num 1, .plus, .num 2, .rp]) [] (.parserError found expected) w' 4 ∧
    arith.Returns ep (streamErr [.num 1, .plus, .num 2] "bad") [] (.lexerError "bad") w' 4 := by
  obtain ⟨ep, hep, _, h⟩ := run_returns arith_paren
  refine ⟨ep, hep, _, _, _, h, c63_replaced arith_firstNonempty hep h ?_ rfl⟩
  intro i hi
  match i, hi with
  | 0, _ => rfl
  | 1, _ => rfl
  | 2, _ => rfl

/-- `deadDefs` with actions that leave a trace. -/
def deadLogDefs : List (AstNonTerminal (Act Log) String) :=
  [ ⟨false, "X", "u64", [⟨[.terminal "+"], logged (fun _ => 0) "X" 0⟩]⟩,
    ⟨false, "Y", "u64", [⟨[.terminal "+"], logged (fun _ => 0) "Y" 0⟩]⟩,
    ⟨false, "C", "u64", [⟨[.terminal "n"], logged (fun _ => 0) "C" 0⟩]⟩,
    ⟨false, "U", "u64", [⟨[.nonTerminal "U", .terminal "+"], logged (fun _ => 0) "U" 0⟩]⟩,
    ⟨false, "D", "u64", [⟨[.nonTerminal "C", .nonTerminal "U"], logged (fun _ => 0) "D" 0⟩]⟩,
    ⟨true, "S", "u64", [⟨[.nonTerminal "X", .nonTerminal "D"], logged (fun _ => 0) "S" 0⟩,
      ⟨[.nonTerminal "Y", .terminal "("], logged (fun _ => 0) "S" 1⟩]⟩ ]

set_option maxRecDepth 10000 in
theorem deadLog_ok : (parserMacro .insertion code.mkPath (itemsOf deadLogDefs)).isOk = true := by
  decide +kernel

set_option maxRecDepth 10000 in
/-- Without the condition on FIRST sets **C63** is false: in the grammar of `c10_counterexample` the
action of `X` runs although the token after it, which has been read, can only be an error. -/
theorem c63_counterexample :
    run (program deadLogDefs deadLog_ok) 0 (stream [.plus, .num 1]) [] 100 =
      some (.parserError "n" "", [("X", 0)], 2) ∧
    run (program deadLogDefs deadLog_ok) 0 (streamErr [.plus] "bad") [] 100 =
      some (.lexerError "bad", [], 2) := by
  constructor <;> decide +kernel

end Examples

end Parsegen
