import Verif.Props.Run
import Verif.Props.Tokens

/-! # C29, end to end: captured token fields reach the user's actions in pattern order -/

namespace Parsegen

variable {X Ty V W Tok E : Type} [DecidableEq Ty]

/-- The values an action may observe of a token: the sub-values at the `<T>` positions of some
declared pattern that matches the token and carries the name the token is classified under, left to
right, one per declared type. -/
def ArrivesAs (P : Compiled X Ty V W Tok) (t : Tok) (fs : List V) : Prop :=
  ∃ c ∈ P.tokens.conversions, c.from_ = P.cls t ∧ ∃ l, Picks c.to (P.toR t) l ∧
    patternTypes c.to = l.map (·.1) ∧ fs = l.map fun x => P.inj x.2

/-- The fields of every token arrive. -/
theorem arrivesAs_fields (P : Compiled X Ty V W Tok) (t : Tok) : ArrivesAs P t (P.fields t) := by
  have h := P.idx t
  rw [tokenTerminalIdx_eq P.tokens.conversions] at h
  obtain ⟨j, h1, h2⟩ := Option.map_eq_some_iff.1 h
  obtain ⟨c, caps, h3, h4, h5⟩ := classify_firstMatch h1
  obtain ⟨l, h6, h7, h8⟩ := capture_picks _ _ _ h4
  refine ⟨c, List.mem_of_getElem? h3, by simp [Compiled.cls, h5], l, h6, h7.symm, ?_⟩
  simp [Compiled.fields, h5, ← h8, Function.comp_def]

omit [DecidableEq Ty] in
/-- A sequence of terminals evaluates to the leaves of its tokens, leaving the world unchanged. -/
theorem UEval.terminals {Val : Type} {asts : List (AstNonTerminal X Ty)} {cls : Tok → String}
    {alg : UAlg X Tok Val W} {ss : List AstSymbol} {toks : List Tok} {w w' : W} {vs : List Val}
    (h : UEval asts cls alg ss toks w vs w') (ht : ∀ s ∈ ss, ∃ t, s.plain = some (.term t)) :
    vs = toks.map alg.leaf ∧ w' = w ∧ ss.map (·.plain) = toks.map fun t => some (.term (cls t)) := by
  induction h with
  | nil => exact ⟨rfl, rfl, rfl⟩
  | term hs _ ih =>
    obtain ⟨h1, h2, h3⟩ := ih fun s hs => ht s (List.mem_cons_of_mem _ hs)
    exact ⟨by rw [h1]; rfl, h2, by simp [hs, h3]⟩
  | nt hs =>
    obtain ⟨t, h1⟩ := ht _ List.mem_cons_self
    rw [hs] at h1; cases h1

/-- **C29**, end to end.  If the right-hand sides of the entry point consist of terminals, a
successful `parse` ran the action of one of them exactly once, in the world in which `parse` was
called, with each binder bound to the values captured from the token at its position: the sub-values
at the `<T>` positions of the pattern, left to right, one per declared type. -/
theorem c29_arrives {P : Compiled X Ty V W Tok} {ep : EntryPoint} (hep : ep ∈ P.gen.entries)
    (ht : ∀ p ∈ userProds P.defs ep.name, ∀ s ∈ p.symbols, ∃ t, s.plain = some (.term t))
    {input : Nat → Option (Except E Tok)} {w w' : W} {v : V} {n : Nat}
    (h : P.Returns ep input w (.ok v) w' n) :
    ∃ toks vals p e, Reads input toks ∧ input toks.length = none ∧
      p ∈ userProds P.defs ep.name ∧ p.action = .infallible e ∧
      p.symbols.map (·.plain) = toks.map (fun t => some (.term (P.cls t))) ∧
      List.Forall₂ (ArrivesAs P) toks vals ∧
      P.code.run e (userEnv p.symbols (vals.map .tok)) w = some (v, w') := by
  obtain ⟨toks, h1, h2, h3⟩ := c02_value hep h
  generalize hss : [AstSymbol.nonTerminal ep.name] = ss at h3
  generalize hvs : [BVal.nt v] = vs at h3
  cases h3 with
  | nil => cases hss
  | term hs => cases hss; simp [AstSymbol.plain] at hs
  | @nt s name i p t1 t2 _ us w1 _ w2 _ _ _ hs hp hc ha hr =>
    cases hss; cases hvs
    simp only [AstSymbol.plain, Option.some.injEq, USym.nt.injEq] at hs
    subst hs
    have hp' := List.mem_of_getElem? hp
    obtain ⟨h4, h5, h6⟩ := UEval.terminals hc (ht p hp')
    cases hr
    subst h4 h5
    rw [List.append_nil] at h1 h2
    simp only [userValues] at ha
    split at ha
    · next e he =>
      obtain ⟨⟨v', w'⟩, h7, h8⟩ := Option.map_eq_some_iff.1 ha
      cases h8
      refine ⟨t1, t1.map P.fields, p, e, h1, h2, hp', he, h6, ?_, ?_⟩
      · rw [List.forall₂_map_right_iff]
        exact List.forall₂_same.2 fun t _ => arrivesAs_fields P t
      · rw [List.map_map]; exact h7
    · cases ha

namespace Examples

/-- Tokens with two captured fields. -/
inductive Pt where
  | pt (a b : Nat)
  | semi
deriving DecidableEq, Repr

/-- Their Rust values: `Tok::Pt { x, y }` and `Tok::Semi`. -/
def Pt.toR : Pt → RVal
  | .pt a b => .record "Tok::Pt" [("x", .tuple (List.replicate a (.lit "1"))),
      ("y", .tuple (List.replicate b (.lit "1")))]
  | .semi => .ctor "Tok::Semi" []

/-- `enum Tok { "pt" => Tok::Pt { y: <u64>, x: <u64> }, ";" => Tok::Semi }` -/
def ptTk : TokenEnum String :=
  { typeName := "Tok"
    conversions :=
      [⟨"pt", .struct "Tok::Pt" [("y", .choose "u64"), ("x", .choose "u64")] false⟩,
        ⟨";", .path "Tok::Semi"⟩] }

theorem ptTk_simple : ∀ c ∈ ptTk.conversions, NoOneTuple c.to := by
  intro c hc
  simp only [ptTk, List.mem_cons, List.not_mem_nil, or_false] at hc
  rcases hc with rfl | rfl <;> simp [NoOneTuple, NoOneTupleFields]

theorem ptTk_total (t : Pt) : (classify ptTk.conversions t.toR).isSome = true := by
  cases t <;> simp [ptTk, Pt.toR, classify, capture, captureFields, List.lookup]

/-- Ten times the first field of `p` plus the second. -/
def ptAct : Act Unit := fun env w =>
  match env "p" with
  | some (.tok [a, b]) => some (10 * a + b, w)
  | _ => none

/-- `pub A: u64 = { <p:"pt"> ";" => 10 * p.0 + p.1 };` -/
def ptDefs : List (AstNonTerminal (Act Unit) String) :=
  [⟨true, "A", "u64", [⟨[nm "p" (.terminal "pt"), .terminal ";"], .infallible ptAct⟩]⟩]

def ptItems : List (GrammarItem (Act Unit) String) := .tokenEnum ptTk :: ptDefs.map .nonTerminal

set_option maxRecDepth 10000 in
theorem pt_ok : (parserMacro .insertion code.mkPath ptItems).isOk = true := by
  decide +kernel

/-- The compiled program. -/
def pt : Compiled (Act Unit) String Nat Unit Pt :=
  .ofItems .insertion code ptItems ptTk Pt.toR inj pt_ok (by simp [ptItems, itemTokenEnums,
    List.filterMap_map]) ptTk_simple ptTk_total

set_option maxRecDepth 10000 in
/-- The hypotheses of `c29_arrives` are met by parsing `Pt { x: 2, y: 3 } ;`: the pattern lists `y`
first, and the result is `32`. -/
example : ∃ ep ∈ pt.gen.entries,
    (∀ p ∈ userProds pt.defs ep.name, ∀ s ∈ p.symbols, ∃ t, s.plain = some (.term t)) ∧
    ∃ n, pt.Returns ep (fun i => ([Pt.pt 2 3, Pt.semi][i]?).map (Except.ok (ε := String))) ()
      (.ok 32) () n := by
  have h : (match pt.gen.entries[0]? with
      | none => none
      | some ep => (parse pt.gen pt.code pt.tf
          (fun i => ([Pt.pt 2 3, Pt.semi][i]?).map (Except.ok (ε := String))) ep () 100).map
            fun r => (ep.name, r.1, r.2.calls)) = some ("A", .ok 32, 3) := by decide +kernel
  split at h
  · cases h
  · next ep hep =>
    obtain ⟨⟨o, s⟩, h1, h2⟩ := Option.map_eq_some_iff.1 h
    simp only [Prod.mk.injEq] at h2
    obtain ⟨h3, rfl, h4⟩ := h2
    refine ⟨ep, List.mem_of_getElem? hep, ?_, s.calls, 100, s, h1, rfl, rfl⟩
    intro p hp s hs
    rw [h3] at hp
    have hd : pt.defs = ptDefs := by
      show itemNonTerminals ptItems = _
      simp [itemNonTerminals, ptItems, List.filterMap_map]
    rw [hd] at hp
    simp [userProds, ptDefs] at hp
    subst hp
    simp [nm] at hs
    rcases hs with rfl | rfl <;> simp [AstSymbol.plain]

end Examples

end Parsegen
