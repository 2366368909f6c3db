import Verif.Spec.Messages
import Verif.Props.UserLevel
import Verif.Props.Order

/-! # C57: the macro's error messages -/

namespace Parsegen

variable {X Ty : Type} [DecidableEq Ty] {h : HashOrder} {mkPath : String → X}
  {items : List (GrammarItem X Ty)} {f : Fault}

omit [DecidableEq Ty] in
theorem Lowered.numberOf {asts : List (AstNonTerminal X Ty)} {convs : List (Conversion Ty)}
    {g : Grammar X Ty} {nts ts : AMap String Nat} (hl : Lowered mkPath asts convs g nts ts)
    {n : String} {j : Nat} (h : nts.get? n = some j) : NumberOf asts j n := by
  obtain ⟨l1, a, l2, h1, h2, _, h3⟩ := hl.num h
  exact ⟨l1, a, l2, h1, h2, by rw [h3, loweredCount_eq]⟩

omit [DecidableEq Ty] in
/-- How a lookahead is printed. -/
theorem Lowered.showTok {asts : List (AstNonTerminal X Ty)} {convs : List (Conversion Ty)}
    {g : Grammar X Ty} {nts ts : AMap String Nat} (hl : Lowered mkPath asts convs g nts ts)
    {u : Option String} {c : Option Nat} (h : NamesLa ts u c) (dbg : String → String) :
    Parsegen.showTok dbg (convs.map (·.from_)) c = laText dbg u ∧
      ∀ t ∈ u, t ∈ convs.map (·.from_) := by
  cases u with
  | none =>
    cases c with
    | none => exact ⟨rfl, nofun⟩
    | some _ => exact h.elim
  | some t =>
    cases c with
    | none => exact h.elim
    | some i =>
      have hi : (convs.map (·.from_))[i]? = some t := by rw [← hl.terminals]; exact (hl.tmap t i).1 h
      refine ⟨?_, fun t' ht => ?_⟩
      · simp only [Parsegen.showTok, showTerm, hi, laText]
      · cases ht; exact List.mem_of_getElem? hi

/-- **C57.** What the text of a panic says is true of the macro's input.  (For conflict messages:
no two definitions have the same name.) -/
theorem c57_truth (hsz : loweredCount (itemNonTerminals items) ≤ 4294967296)
    (hnd : f.IsConflict → ((itemNonTerminals items).map (·.name)).Nodup)
    (dbg : String → String) {terms : List String}
    (hterms : ∀ e, itemTokenEnums items = [e] → terms = e.conversions.map (·.from_))
    (he : parserMacro h mkPath items = .error f) {text : String}
    (htext : f.message dbg terms = some text) : TrueText items dbg text := by
  cases c39_panics hsz he with
  | states h => cases htext; exact .states h
  | enums h => cases htext; exact .enums h
  | noEnum h => cases htext; exact .noEnum h
  | defs ht hc =>
    cases f <;> try exact hc.elim
    · obtain ⟨l1, c, l2, h1, rfl, c', h2, h3⟩ := hc
      cases htext; exact .terminal ht h1 h2 h3
    · obtain ⟨⟨s, h1, h2⟩, h3⟩ := hc
      cases htext; exact .nonTerminal h1 h2 h3
    · obtain ⟨⟨s, h1, h2⟩, h3⟩ := hc
      cases htext; exact .unknown ht h1 h2 h3
    · obtain ⟨s, h1, h2⟩ := hc
      cases htext; exact .repeated h1 h2
    · obtain ⟨a, h1, p, h2, e, h3⟩ := hc
      cases htext; exact .fallible h1 h2 h3
    · cases htext
  | size ht hl ha hb => cases f <;> first | exact hb.elim | cases htext
  | @conflict t g _ ht hlow hc =>
    have hf : f.IsConflict := by cases hc with | @mk _ _ _ _ _ _ m => cases m <;> trivial
    replace hnd := hnd hf
    have := hterms t ht
    subst this
    refine .conflict ht ?_
    obtain ⟨nts, ts, hl⟩ := lower_ok (by rw [← loweredCount_eq]; exact hsz) hlow
    have hwf := hl.wf
    cases hc with
    | @mk a E γ q c r m nt p ha hE hq hr hfirst hc hm hp =>
      obtain ⟨ent, e1, e2⟩ : ∃ ent, g.nonTerminals[E]? = some ent ∧ ent.isPublic = true := by
        unfold Grammar.isPublic at hE
        cases hn : g.nonTerminals[E]? with
        | none => rw [hn] at hE; cases hE
        | some ent => rw [hn] at hE; exact ⟨ent, rfl, hE⟩
      obtain ⟨b, hb1, hb2⟩ := hl.entry_name hnd e1 e2
      obtain ⟨d, _, _, hd, hdp, hdn, _⟩ := hl.pub e1 e2
      rw [hdn] at hb1
      obtain ⟨uγ, uc, um, a1, a2, a3, a4⟩ := hl.wants_user hwf hE hb2 hb1 hm
      obtain ⟨uγ', uc', um', b1, b2, b3, b4⟩ := hl.wants_user hwf hE hb2 hb1 hp
      have := hl.names_inj_list a1 b1
      subst this
      have := hl.la_inj a2 b2
      subst this
      cases um' with
      | shift => exact b3.elim
      | accept => exact b3.elim
      | reduce name i =>
        obtain ⟨b3, rfl⟩ := b3
        cases m with
        | shift =>
          cases um with
          | reduce => exact a3.elim
          | accept => exact a3.elim
          | shift =>
            obtain ⟨_, _, _, _, _, t, _, _, _, _, _, h6⟩ := id a4
            subst h6
            obtain ⟨s1, s2⟩ := hl.showTok a2 dbg
            rw [show text = conflictText q (laText dbg (some t)) ("Shift(" ++ toString r ++ ")")
                (reduceText nt i) by
              cases htext
              rw [s1]
              simp only [conflictText, reduceText, String.append_assoc]
              rfl]
            exact .shift hd hdp (s2 _ rfl) (hl.numberOf b3) a4 b4
        | accept =>
          cases um with
          | reduce => exact a3.elim
          | shift => exact a3.elim
          | accept =>
            obtain ⟨h5, h6⟩ := id a4
            subst h5 h6
            cases c with
            | some _ => exact a2.elim
            | none =>
              rw [show text = conflictText q (laText dbg none) "Accept action" (reduceText nt i) by
                cases htext
                simp only [conflictText, reduceText, String.append_assoc, showTok, laText]
                rfl]
              exact .accept hd hdp (hl.numberOf b3) b4
        | reduce nt' p' =>
          cases um with
          | accept => exact a3.elim
          | shift => exact a3.elim
          | reduce name' i' =>
            obtain ⟨a3, rfl⟩ := a3
            have hne := hc.ne
            obtain ⟨s1, s2⟩ := hl.showTok a2 dbg
            rw [show text = conflictText q (laText dbg uc) (reduceText nt' i' ++ " action")
                (reduceText nt i) by
              cases htext
              rw [s1]
              simp only [conflictText, reduceText, String.append_assoc]
              rfl]
            refine .reduce hd hdp s2 (hl.numberOf b3) (hl.numberOf a3) ?_ ?_ a4 b4
            · obtain ⟨it, it', _, _, h3, ⟨α, h4, h5, _⟩, ⟨β, h6, h7, _⟩⟩ := hc
              subst h4 h6
              unfold Item.Before at h3
              simp only at h3
              rcases h3 with h3 | ⟨h3, h3' | ⟨h3', h8⟩⟩
              · exact .inl h3
              · exact .inr ⟨h3, h3'⟩
              · subst h3 h3'
                exact absurd rfl hne
            · by_contra hcon
              simp only [not_or, not_not] at hcon
              obtain ⟨rfl, rfl⟩ := hcon
              rw [a3] at b3; cases b3
              exact hne rfl

/-- **C57.** Every panic of the macro has a text that the code writes, except those for sizes. -/
theorem c57_text (hsz : loweredCount (itemNonTerminals items) ≤ 4294967296) (dbg : String → String)
    (terms : List String) (he : parserMacro h mkPath items = .error f) :
    f.message dbg terms = none ↔ f = .u16Overflow ∨ f = .u32Overflow := by
  constructor
  · intro hm
    cases c39_panics hsz he with
    | states => cases hm
    | enums => cases hm
    | noEnum => cases hm
    | defs ht hc => cases f <;> first | exact hc.elim | exact .inl rfl | exact .inr rfl | cases hm
    | size ht hl ha hb =>
      cases f <;> first | exact hb.elim | exact .inl rfl | exact .inr rfl
    | conflict ht hl hc =>
      cases hc with
      | @mk _ _ _ _ _ _ m => cases m <;> cases hm
  · rintro (rfl | rfl) <;> rfl

/-- **C57.** The message does not depend on hash iteration orders: compiling again gives the same one. -/
theorem c57_stable (hsz : loweredCount (itemNonTerminals items) ≤ 4294967296) (h h' : HashOrder)
    (he : parserMacro h mkPath items = .error f) : parserMacro h' mkPath items = .error f :=
  (c19_error hsz h h' f).1 he

section Examples

open Examples

set_option maxRecDepth 10000 in
/-- The message for the ambiguous `twoWays`: state 4, at the end of the input, `A -> "+"` (definition 2,
since `pub S` counts twice) against `B -> "+"`. -/
theorem twoWays_panics : parserMacro .insertion code.mkPath (itemsOf twoWays) =
    .error (.reduceOverReduce 4 none 2 0 3 0) := by
  have h : isPanic (parserMacro .insertion code.mkPath (itemsOf twoWays))
      (.reduceOverReduce 4 none 2 0 3 0) = true := by
    decide +kernel
  cases he : parserMacro .insertion code.mkPath (itemsOf twoWays) with
  | ok _ => rw [he] at h; cases h
  | error f =>
    rw [he] at h
    simp only [isPanic, decide_eq_true_eq] at h
    rw [h]

example : (Fault.reduceOverReduce 4 none 2 0 3 0).message (fun s => "\"" ++ s ++ "\"") ["+"] =
    some "(4, None): Overriding Reduce(2, 0) action with Reduce(3, 0)" := by decide

/-- `twoWays` meets the hypotheses of `c57_truth`, `c57_text` and `c57_stable`. -/
example (h : HashOrder) (dbg : String → String) :
    TrueText (itemsOf twoWays) dbg
      "(4, None): Overriding Reduce(2, 0) action with Reduce(3, 0)" ∧
    parserMacro h code.mkPath (itemsOf twoWays) = .error (.reduceOverReduce 4 none 2 0 3 0) := by
  have hsz : loweredCount (itemNonTerminals (itemsOf twoWays)) ≤ 4294967296 := by
    rw [defs_itemsOf]; decide
  refine ⟨?_, c57_stable hsz _ _ twoWays_panics⟩
  refine c57_truth hsz (fun _ => by rw [defs_itemsOf]; decide) dbg
    (terms := tk.conversions.map (·.from_)) (fun e he => ?_) twoWays_panics rfl
  have h2 : itemTokenEnums (itemsOf twoWays) = [tk] := rfl
  rw [h2] at he; cases he; rfl

/-- The number is that of the definition of `A`. -/
example : NumberOf twoWays 2 "A" := ⟨[twoWays[0]], twoWays[1], [twoWays[2]], rfl, rfl, rfl⟩

/-- An optional `"+"` before another one: `A -> ` may be reduced when the next token is `"+"`, and `"+"`
may be shifted. -/
def optPlus : List (AstNonTerminal (Act Log) String) :=
  [ ⟨true, "S", "u64", [⟨[nm "a" (.nonTerminal "A"), .terminal "+"], logged (fun _ => 0) "S" 0⟩]⟩,
    ⟨false, "A", "u64", [⟨[.terminal "+"], logged (fun _ => 0) "A" 0⟩,
      ⟨[], logged (fun _ => 1) "A" 1⟩]⟩ ]

set_option maxRecDepth 10000 in
/-- What the user sees for `optPlus`. -/
example : (match parserMacro .insertion code.mkPath (itemsOf optPlus) with
      | .error f => f.message (fun s => "\"" ++ s ++ "\"") (tk.conversions.map Conversion.from_)
      | .ok _ => none) =
    some "(0, Some(\"+\")): Overriding Shift(3) with Reduce(2, 1)" := by decide +kernel

end Examples

end Parsegen
