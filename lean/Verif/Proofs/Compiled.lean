import Verif.Proofs.Macro
import Verif.Proofs.Parse
import Verif.Proofs.Transfer
import Verif.Proofs.Size
import Verif.Proofs.Tokens

/-! # From a compiled program to the facts used by the property theorems -/

namespace Parsegen

variable {X Ty V W Tok E : Type} [DecidableEq Ty]

/-- Everything that follows from a parser being emitted. -/
structure Setup (P : Compiled X Ty V W Tok) (g : Grammar X Ty) (nts ts : AMap String Nat)
    (a : Automaton) (g' : Grammar Nat Ty) (T : LRTable Nat) : Prop where
  lower : lower P.code.mkPath P.defs P.tokens.conversions = .ok g
  lowered : Lowered P.code.mkPath P.defs P.tokens.conversions g nts ts
  stages : GenStages P.order g P.gen a g' T
  wf : g.WF
  cons : P.tf.Consistent g.nTerminals
  cls : ClassName g P.tf.terminalIdx P.cls
  fields : P.tf.fields = P.fields

theorem Compiled.stages_ok (P : Compiled X Ty V W Tok) :
    ∃ g, Parsegen.lower P.code.mkPath P.defs P.tokens.conversions = .ok g ∧
      generateParser P.order g = .ok P.gen ∧ itemTokenEnums P.items = [P.tokens] := by
  have h := P.accepted
  unfold parserMacro at h
  obtain ⟨⟨nts, t⟩, h1, h⟩ := Except.bind_eq_ok.1 h
  obtain ⟨g, h2, h⟩ := Except.bind_eq_ok.1 h
  obtain ⟨gen, h3, h⟩ := Except.bind_eq_ok.1 h
  obtain ⟨e1, e2, _⟩ := (macroItems_iff _ _ _).1 h1
  simp only [Except.ok.injEq, Prod.mk.injEq] at h
  obtain ⟨rfl, rfl⟩ := h
  rw [e1] at h2
  exact ⟨g, h2, h3, e2⟩

theorem Compiled.classified (P : Compiled X Ty V W Tok) (t : Tok) :
    ∃ c caps, P.tokens.conversions[P.tf.terminalIdx t]? = some c ∧
      capture c.to (P.toR t) = some caps ∧
      classify P.tokens.conversions (P.toR t) = some (c.from_, caps) ∧
      P.tf.value t = .token (P.tf.terminalIdx t) (caps.map P.inj) := by
  have h1 := P.idx t
  rw [tokenTerminalIdx_eq] at h1
  obtain ⟨k, hk, hk'⟩ := Option.map_eq_some_iff.1 h1
  obtain ⟨c, caps, h2, h3, h4⟩ := classify_firstMatch hk
  have h5 := P.value t
  rw [tokenValue_eq _ P.simple, hk, h4] at h5
  simp only [Nat.add_zero] at hk'
  subst hk'
  simp only [Option.bind_some, Option.map_some, Option.some.injEq, SAR.map] at h5
  exact ⟨c, caps, h2, h3, h4, h5.symm⟩

theorem Compiled.setup (P : Compiled X Ty V W Tok) {ep : EntryPoint} (hep : ep ∈ P.gen.entries) :
    ∃ g nts ts a g' T, Setup P g nts ts a g' T := by
  obtain ⟨g, h1, h2, _⟩ := P.stages_ok
  have hsz := generateParser_size h2 (List.ne_nil_of_mem hep)
  rw [lower_length h1] at hsz
  obtain ⟨nts, ts, hl⟩ := lower_ok hsz h1
  obtain ⟨a, g', T, hs⟩ := generateParser_ok h2
  have hcls : ClassName g P.tf.terminalIdx P.cls := by
    intro t
    obtain ⟨c, caps, h3, _, h5, _⟩ := P.classified t
    rw [hl.terminals, List.getElem?_map, h3]
    simp [Compiled.cls, h5]
  refine ⟨g, nts, ts, a, g', T, h1, hl, hs, hl.wf, ⟨?_, ?_⟩, hcls, ?_⟩
  · intro t
    exact (List.getElem?_eq_some_iff.1 (hcls t)).1
  · intro t
    obtain ⟨c, caps, _, _, _, h6⟩ := P.classified t
    simp [TokenFns.fields, h6]
  · funext t
    obtain ⟨c, caps, _, _, h5, h6⟩ := P.classified t
    simp [TokenFns.fields, h6, Compiled.fields, h5]

/-- The run ends in a state described by the invariant and the last step. -/
theorem Setup.run {P : Compiled X Ty V W Tok} {g nts ts a g' T} (S : Setup P g nts ts a g' T)
    {ep : EntryPoint} (hep : ep ∈ P.gen.entries) :
    ∃ e nt, g.nonTerminals[e]? = some nt ∧ nt.isPublic = true ∧ nt.name = ep.name ∧
      g.isPublic e = true ∧
      StateAt g (generateFirstTable P.order g) a e [] ep.initState ∧
      (semanticActionVariants g)[e]? = some ep.extract ∧ P.gen.IsSem g ep.actionIdx e 0 := by
  have hT := S.stages.tables S.wf
  obtain ⟨e, he, hini, hname, hext, hsem⟩ := hT.entry ep hep
  obtain ⟨nt, hnt, hn⟩ := Option.map_eq_some_iff.1 hname
  refine ⟨e, nt, hnt, ?_, hn, he, hini, hext, hsem⟩
  unfold Grammar.isPublic at he
  rw [hnt] at he; exact he

/-! ## Building compiled programs -/

omit [DecidableEq Ty] in
theorem ok_of_isOk {α : Type} {e : Except Fault α} (h : e.isOk = true) : ∃ a, e = .ok a := by
  cases e with
  | ok a => exact ⟨a, rfl⟩
  | error => cases h

/-- The value of a computation that does not fail. -/
def okVal {α : Type} : (e : Except Fault α) → e.isOk = true → α
  | .ok a, _ => a

omit [DecidableEq Ty] in
theorem okVal_eq {α : Type} (e : Except Fault α) (h : e.isOk = true) : e = .ok (okVal e h) := by
  cases e with
  | ok a => rfl
  | error => cases h

theorem parserMacro_tokens {order : HashOrder} {mkPath : String → X}
    {items : List (GrammarItem X Ty)} {r : Generated X × TokenEnum Ty}
    (h : parserMacro order mkPath items = .ok r) : itemTokenEnums items = [r.2] := by
  unfold parserMacro at h
  obtain ⟨⟨nts, t⟩, h1, h⟩ := Except.bind_eq_ok.1 h
  obtain ⟨g, h2, h⟩ := Except.bind_eq_ok.1 h
  obtain ⟨gen, h3, h⟩ := Except.bind_eq_ok.1 h
  obtain ⟨e1, e2, _⟩ := (macroItems_iff _ _ _).1 h1
  cases h
  exact e2

/-- Whenever the macro accepts and the declared patterns cover every token, there is a compiled
program: `Compiled` asks for nothing else. -/
def Compiled.ofItems (order : HashOrder) (code : UserCode X V W) (items : List (GrammarItem X Ty))
    (te : TokenEnum Ty) (toR : Tok → RVal) (inj : RVal → V)
    (hok : (parserMacro order code.mkPath items).isOk = true) (hte : itemTokenEnums items = [te])
    (simple : ∀ c ∈ te.conversions, NoOneTuple c.to)
    (total : ∀ t, (classify te.conversions (toR t)).isSome = true) : Compiled X Ty V W Tok where
  order := order
  code := code
  items := items
  gen := (okVal _ hok).1
  tokens := te
  toR := toR
  inj := inj
  tf :=
    { terminalIdx := fun t => (tokenTerminalIdx te.conversions 0 (toR t)).getD 0
      value := fun t => ((tokenValue te.conversions 0 (toR t)).map (SAR.map inj)).getD (.token 0 []) }
  accepted := by
    have h := okVal_eq _ hok
    have h2 : (okVal _ hok).2 = te := by
      have := parserMacro_tokens h
      rw [hte] at this
      simpa using this.symm
    exact h.trans (congrArg Except.ok (Prod.ext rfl h2))
  idx := by
    intro t
    obtain ⟨r, hr⟩ := Option.isSome_iff_exists.1 (total t)
    obtain ⟨k, hk⟩ := firstMatch_isSome hr
    simp only
    rw [tokenTerminalIdx_eq, hk]; rfl
  value := by
    intro t
    obtain ⟨r, hr⟩ := Option.isSome_iff_exists.1 (total t)
    obtain ⟨k, hk⟩ := firstMatch_isSome hr
    simp only
    rw [tokenValue_eq _ simple, hk, hr]; rfl
  simple := simple

end Parsegen
