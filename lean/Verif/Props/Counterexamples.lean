import Verif.Props.Terminate

/-! # Programs that show that the conditions of C04, C05, C08 and C10 are needed

Every program here is accepted by the macro. -/

namespace Parsegen.Examples

/-- A derivation in one step. -/
theorem step1 {defs : List (AstNonTerminal (Act Unit) String)} {name : String}
    {p : AstProduction (Act Unit)} (rhs : List USym) (h1 : p ∈ userProds defs name)
    (h2 : p.symbols.map (·.plain) = rhs.map some) : UDerives defs [.nt name] rhs := by
  have := UProduces.mk [] [] rhs name p h1 h2
  exact .tail (.refl _) (by simpa using this)

/-! ## An incomplete FIRST set makes the parser reject a sentence -/

/-- ```
A: u64 = { "n" => 0, => 0 }   Y: u64 = { A ")" => 0 }   X: u64 = { "(" => 0 }
pub S: u64 = { X Y => 0 }
```
The FIRST set computed for `Y` lacks `n`. -/
def gapDefs : List (AstNonTerminal (Act Unit) String) :=
  [ ⟨false, "A", "u64", [⟨[.terminal "n"], unitAct⟩, ⟨[], unitAct⟩]⟩,
    ⟨false, "Y", "u64", [⟨[.nonTerminal "A", .terminal ")"], unitAct⟩]⟩,
    ⟨false, "X", "u64", [⟨[.terminal "("], unitAct⟩]⟩,
    ⟨true, "S", "u64", [⟨[.nonTerminal "X", .nonTerminal "Y"], unitAct⟩]⟩ ]

set_option maxRecDepth 10000 in
theorem gap_ok : (parserMacro .insertion code.mkPath (itemsOf gapDefs)).isOk = true := by
  decide +kernel

def gap : Compiled (Act Unit) String Nat Unit Tk := program gapDefs gap_ok

set_option maxRecDepth 10000 in
theorem gap_run : run gap 0 (stream [.lp, .num 1, .rp]) () 100 =
    some (.parserError "n" ")", (), 2) := by decide +kernel

set_option maxRecDepth 10000 in
theorem gap_entry : (gap.gen.entries[0]?).map (·.name) = some "S" := by decide +kernel

theorem gap_sentence : USentence gapDefs "S" ["(", "n", ")"] := by
  have hA : UDerives gapDefs [.nt "A"] [.term "n"] :=
    step1 (p := gapDefs[0].productions[0]) _ (by simp [userProds, gapDefs]) rfl
  have hY : UDerives gapDefs [.nt "Y"] [.term "n", .term ")"] :=
    (step1 (p := gapDefs[1].productions[0]) [.nt "A", .term ")"] (by simp [userProds, gapDefs]) rfl).trans
      (hA.append_right [.term ")"])
  have hX : UDerives gapDefs [.nt "X"] [.term "("] :=
    step1 (p := gapDefs[2].productions[0]) _ (by simp [userProds, gapDefs]) rfl
  exact (step1 (p := gapDefs[3].productions[0]) [.nt "X", .nt "Y"] (by simp [userProds, gapDefs]) rfl).trans
    ((hX.append_right [.nt "Y"]).trans (hY.append_left [.term "("]))

set_option maxRecDepth 10000 in
theorem gap_lr1 (g : Grammar (Act Unit) String)
    (hg : lower gap.code.mkPath gap.defs gap.tokens.conversions = .ok g) : g.IsLR1 := by
  obtain ⟨ep, hep, _⟩ := run_returns gap_run
  obtain ⟨g1, nts, ts, a, g', T, S⟩ := gap.setup hep
  have e : g1 = g := by have := S.lower; rw [hg] at this; cases this; rfl
  subst e
  refine lr1_of_check [⟨true, [1]⟩, ⟨false, [1, 3]⟩, ⟨false, [2]⟩, ⟨false, [2]⟩, ⟨false, [2]⟩] ?_ hg S.wf
  decide +kernel

/-- **C04** does not hold of every accepted LR(1) grammar: here the FIRST set of `Y` is incomplete, and the
parser rejects the sentence `( n )` at the token `n`, claiming that only `)` is possible there.
(So **C08** and **C10** do not hold of every accepted program either.) -/
theorem c04_counterexample_first :
    (∀ g, lower gap.code.mkPath gap.defs gap.tokens.conversions = .ok g → g.IsLR1) ∧ ∃ ep ∈ gap.gen.entries, ep.name = "S" ∧
    gap.IsSentence "S" [.lp, .num 1, .rp] ∧
    gap.Returns ep (stream [.lp, .num 1, .rp]) () (.parserError "n" ")") () 2 := by
  refine ⟨gap_lr1, ?_⟩
  obtain ⟨ep, hep, he, h⟩ := run_returns gap_run
  have hn := gap_entry
  rw [he] at hn
  refine ⟨ep, hep, by simpa using hn, ?_, h⟩
  have hd : gap.defs = gapDefs := defs_itemsOf _
  unfold Compiled.IsSentence
  rw [hd]
  exact gap_sentence

/-! ## A silently resolved conflict makes the parser reject a sentence -/

/-- ```
A: u64 = { "+" => 0 }   B: u64 = { "+" "+" => 0 }   pub S: u64 = { A "+" "n" => 0, B => 0 }
```
The reduction of `A` before `+` is overwritten by a shift. -/
def lostDefs : List (AstNonTerminal (Act Unit) String) :=
  [ ⟨false, "A", "u64", [⟨[.terminal "+"], unitAct⟩]⟩,
    ⟨false, "B", "u64", [⟨[.terminal "+", .terminal "+"], unitAct⟩]⟩,
    ⟨true, "S", "u64", [⟨[.nonTerminal "A", .terminal "+", .terminal "n"], unitAct⟩,
      ⟨[.nonTerminal "B"], unitAct⟩]⟩ ]

set_option maxRecDepth 10000 in
theorem lost_ok : (parserMacro .insertion code.mkPath (itemsOf lostDefs)).isOk = true := by
  decide +kernel

def lost : Compiled (Act Unit) String Nat Unit Tk := program lostDefs lost_ok

set_option maxRecDepth 10000 in
theorem lost_run : run lost 0 (stream [.plus, .plus, .num 1]) () 100 =
    some (.parserError "n" "", (), 3) := by decide +kernel

set_option maxRecDepth 10000 in
theorem lost_entry : (lost.gen.entries[0]?).map (·.name) = some "S" := by decide +kernel

theorem lost_sentence : USentence lostDefs "S" ["+", "+", "n"] := by
  have hA : UDerives lostDefs [.nt "A"] [.term "+"] :=
    step1 (p := lostDefs[0].productions[0]) _ (by simp [userProds, lostDefs]) rfl
  exact (step1 (p := lostDefs[2].productions[0]) [.nt "A", .term "+", .term "n"]
    (by simp [userProds, lostDefs]) rfl).trans (hA.append_right [.term "+", .term "n"])

set_option maxRecDepth 10000 in
/-- **C04** does not hold of every accepted program, even when no non-terminal derives the empty
string: the shift/reduce conflict of this grammar is not reported (C21), and the parser rejects the
sentence `+ + n`. -/
theorem c04_counterexample_shift : (lostDefs.all fun d => d.productions.all fun p =>
      !p.symbols.isEmpty) = true ∧
    ∃ ep ∈ lost.gen.entries, ep.name = "S" ∧ lost.IsSentence "S" [.plus, .plus, .num 1] ∧
      lost.Returns ep (stream [.plus, .plus, .num 1]) () (.parserError "n" "") () 3 := by
  refine ⟨by decide, ?_⟩
  obtain ⟨ep, hep, he, h⟩ := run_returns lost_run
  have hn := lost_entry
  rw [he] at hn
  refine ⟨ep, hep, by simpa using hn, ?_, h⟩
  have hd : lost.defs = lostDefs := defs_itemsOf _
  unfold Compiled.IsSentence
  rw [hd]
  exact lost_sentence

/-! ## An ambiguous grammar is accepted -/

/-- `pub S: u64 = { "(" S => 0, "(" S ")" S => 0, "n" => 0 }`: the dangling else. -/
def elseDefs : List (AstNonTerminal (Act Unit) String) :=
  [ ⟨true, "S", "u64", [⟨[.terminal "(", .nonTerminal "S"], unitAct⟩,
      ⟨[.terminal "(", .nonTerminal "S", .terminal ")", .nonTerminal "S"], unitAct⟩,
      ⟨[.terminal "n"], unitAct⟩]⟩ ]

set_option maxRecDepth 10000 in
theorem else_ok : (parserMacro .insertion code.mkPath (itemsOf elseDefs)).isOk = true := by
  decide +kernel

def dangling : Compiled (Act Unit) String Nat Unit Tk := program elseDefs else_ok

set_option maxRecDepth 10000 in
theorem else_entry : (dangling.gen.entries[0]?).map (·.name) = some "S" := by decide +kernel

/-- **C05** does not hold of every accepted program: the macro accepts the dangling-else grammar,
in which `( ( n ) n` has two derivation trees. -/
theorem c05_counterexample : ∃ ep ∈ dangling.gen.entries, ep.name = "S" ∧
    ∃ tr tr' : UTree Tk, tr ≠ tr' ∧
      IsUTree dangling.defs dangling.cls "S" [.lp, .lp, .num 1, .rp, .num 1] tr ∧
      IsUTree dangling.defs dangling.cls "S" [.lp, .lp, .num 1, .rp, .num 1] tr' := by
  have he := else_entry
  obtain ⟨ep, h1, h2⟩ := Option.map_eq_some_iff.1 he
  refine ⟨ep, List.mem_of_getElem? h1, h2, ?_⟩
  have hd : dangling.defs = elseDefs := defs_itemsOf _
  rw [hd]
  have p0 : (userProds elseDefs "S")[0]? = some elseDefs[0].productions[0] := rfl
  have p1 : (userProds elseDefs "S")[1]? = some elseDefs[0].productions[1] := rfl
  have p2 : (userProds elseDefs "S")[2]? = some elseDefs[0].productions[2] := rfl
  have hN : ∀ (ss : List AstSymbol) (ts : List Tk) (vs : List (UTree Tk)),
      UEval elseDefs dangling.cls userTrees ss ts () vs () →
      UEval elseDefs dangling.cls userTrees (.nonTerminal "S" :: ss) (.num 1 :: ts) ()
        (.node "S" 2 [.leaf (.num 1)] :: vs) () := by
    intro ss ts vs h
    exact UEval.nt (s := .nonTerminal "S") (name := "S") (t1 := [Tk.num 1]) rfl p2
      (UEval.term (s := .terminal "n") (t := Tk.num 1) rfl (.nil ())) rfl h
  have hL : ∀ (i : Nat) (p : AstProduction (Act Unit)) (ss : List AstSymbol) (ts : List Tk)
      (us : List (UTree Tk)), (userProds elseDefs "S")[i]? = some p → p.symbols = .terminal "(" :: ss →
      UEval elseDefs dangling.cls userTrees ss ts () us () →
      ∀ (ss' : List AstSymbol) (ts' : List Tk) (vs : List (UTree Tk)),
        UEval elseDefs dangling.cls userTrees ss' ts' () vs () →
        UEval elseDefs dangling.cls userTrees (.nonTerminal "S" :: ss') (.lp :: ts ++ ts') ()
          (.node "S" i (.leaf .lp :: us) :: vs) () := by
    intro i p ss ts us h1 h2 h3 ss' ts' vs h4
    refine UEval.nt (s := .nonTerminal "S") (name := "S") (t1 := Tk.lp :: ts) (us := .leaf Tk.lp :: us) (w1 := ())
      rfl h1 ?_ rfl h4
    rw [h2]
    exact UEval.term (s := .terminal "(") (t := Tk.lp) rfl h3
  refine ⟨.node "S" 0 [.leaf .lp, .node "S" 1 [.leaf .lp, .node "S" 2 [.leaf (.num 1)], .leaf .rp,
      .node "S" 2 [.leaf (.num 1)]]],
    .node "S" 1 [.leaf .lp, .node "S" 0 [.leaf .lp, .node "S" 2 [.leaf (.num 1)]], .leaf .rp,
      .node "S" 2 [.leaf (.num 1)]], by simp, ?_, ?_⟩
  · exact hL 0 _ _ _ _ p0 rfl (hL 1 _ _ _ _ p1 rfl (hN _ _ _ (.term rfl (hN _ _ _ (.nil ()))))
      _ _ _ (.nil ())) _ _ _ (.nil ())
  · exact hL 1 _ _ _ _ p1 rfl (hL 0 _ _ _ _ p0 rfl (hN _ _ _ (.nil ())) _ _ _
      (.term rfl (hN _ _ _ (.nil ())))) _ _ _ (.nil ())

/-! ## A non-terminal that derives no token string makes `expected` incomplete -/

/-- ```
X: u64 = { "+" => 0 }   Y: u64 = { "+" => 0 }   C: u64 = { "n" => 0 }   U: u64 = { U "+" => 0 }
D: u64 = { C U => 0 }   pub S: u64 = { X D => 0, Y "(" => 0 }
``` -/
def deadDefs : List (AstNonTerminal (Act Unit) String) :=
  [ ⟨false, "X", "u64", [⟨[.terminal "+"], unitAct⟩]⟩,
    ⟨false, "Y", "u64", [⟨[.terminal "+"], unitAct⟩]⟩,
    ⟨false, "C", "u64", [⟨[.terminal "n"], unitAct⟩]⟩,
    ⟨false, "U", "u64", [⟨[.nonTerminal "U", .terminal "+"], unitAct⟩]⟩,
    ⟨false, "D", "u64", [⟨[.nonTerminal "C", .nonTerminal "U"], unitAct⟩]⟩,
    ⟨true, "S", "u64", [⟨[.nonTerminal "X", .nonTerminal "D"], unitAct⟩,
      ⟨[.nonTerminal "Y", .terminal "("], unitAct⟩]⟩ ]

set_option maxRecDepth 10000 in
theorem dead_ok : (parserMacro .insertion code.mkPath (itemsOf deadDefs)).isOk = true := by
  decide +kernel

def dead : Compiled (Act Unit) String Nat Unit Tk := program deadDefs dead_ok

set_option maxRecDepth 10000 in
theorem dead_run : run dead 0 (stream [.plus, .num 1]) () 100 =
    some (.parserError "n" "", (), 2) := by decide +kernel

set_option maxRecDepth 10000 in
theorem dead_entry : (dead.gen.entries[0]?).map (·.name) = some "S" := by decide +kernel

set_option maxRecDepth 10000 in
theorem dead_regular : dead.Regular := by
  obtain ⟨ep, hep, _⟩ := run_returns dead_run
  refine dead.regular_of_check hep ?_ ?_
  · decide +kernel
  · decide +kernel

theorem dead_sentence : USentence deadDefs "S" ["+", "("] := by
  have hY : UDerives deadDefs [.nt "Y"] [.term "+"] :=
    step1 (p := deadDefs[1].productions[0]) _ (by simp [userProds, deadDefs]) rfl
  exact (step1 (p := deadDefs[5].productions[1]) [.nt "Y", .term "("]
    (by simp [userProds, deadDefs]) rfl).trans (hY.append_right [.term "("])

/-- **C10** needs more than a regular program: here `U` derives no token string, and the error
reported on `+ n` lists no expected terminal although `+ (` is a sentence. -/
theorem c10_counterexample : dead.Regular ∧ ∃ ep ∈ dead.gen.entries, ep.name = "S" ∧
    dead.Returns ep (stream [.plus, .num 1]) () (.parserError "n" "") () 2 ∧
    dead.IsSentence "S" [.plus, .lp] := by
  refine ⟨dead_regular, ?_⟩
  obtain ⟨ep, hep, he, h⟩ := run_returns dead_run
  have hn := dead_entry
  rw [he] at hn
  refine ⟨ep, hep, by simpa using hn, h, ?_⟩
  have hd : dead.defs = deadDefs := defs_itemsOf _
  unfold Compiled.IsSentence
  rw [hd]
  exact dead_sentence

end Parsegen.Examples
