import Verif.Proofs.LeftRecDerive
import Verif.Spec.LeftRecursion
import Verif.Props.Knuth
import Verif.Props.TerminateLR1

/-! # C72: hidden left recursion and cycles are conflicts -/

namespace Parsegen

variable {X Ty V W Tok E : Type}

section lowered
variable {asts : List (AstNonTerminal X Ty)} {convs : List (Conversion Ty)} {g : Grammar X Ty}
  {nts ts : AMap String Nat} {mkPath : String → X}

theorem Lowered.allProductive (hl : Lowered mkPath asts convs g nts ts)
    (hnd : (asts.map (·.name)).Nodup) (hP : ∀ d ∈ asts, ∃ x, USentence asts d.name x) :
    g.AllProductive := by
  intro b hb hpriv
  obtain ⟨nt, h1⟩ : ∃ nt, g.nonTerminals[b]? = some nt := ⟨_, List.getElem?_eq_getElem hb⟩
  obtain ⟨n, hn⟩ := hl.named hnd h1 (by simpa [Grammar.isPublic, h1] using hpriv)
  obtain ⟨d, hd, rfl⟩ := (hl.idx n).1 ⟨b, hn⟩
  obtain ⟨x, hx⟩ := hP d hd
  obtain ⟨y, h1, h2⟩ := hl.user_derives hx (α := [.nonTerminal b]) (.cons hn .nil)
  obtain ⟨inp, rfl, _⟩ := forall₂_terms h1
  exact ⟨inp, h2⟩

theorem Lowered.uproductive (hl : Lowered mkPath asts convs g nts ts)
    (hP : ∀ d ∈ asts, ∃ x, USentence asts d.name x) : UProductive asts := by
  intro A i rhs B h hB
  obtain ⟨p, h1, h2⟩ := h
  obtain ⟨d, hd, hn⟩ : ∃ d ∈ asts, d.name = A := by
    have := List.mem_of_getElem? h1
    simp only [userProds, List.mem_flatMap, List.mem_filter, beq_iff_eq] at this
    obtain ⟨d, ⟨hd, hn⟩, _⟩ := this
    exact ⟨d, hd, hn⟩
  obtain ⟨j, hj⟩ := (hl.idx A).2 ⟨d, hd, hn⟩
  obtain ⟨α, h3, _⟩ := hl.uhasProd_names hj ⟨p, h1, h2⟩
  obtain ⟨s, _, hs⟩ := forall₂_mem_left h3 hB
  cases s with
  | terminal t => cases hs
  | nonTerminal b =>
    obtain ⟨d', hd', rfl⟩ := (hl.idx B).1 ⟨b, hs⟩
    exact hP d' hd'

/-- An entry point without conflicts in the user's grammar has none in the lowered one. -/
theorem Lowered.lr1At (hl : Lowered mkPath asts convs g nts ts) {e b : Nat} {S : String}
    (he : g.isPublic e = true) (hb : g.HasProd e 0 [.nonTerminal b]) (hS : nts.get? S = some b)
    (h : ∀ γ c m m', ¬ UConflict asts S γ c m m') : LR1At g e := by
  intro γ c m m' h1 h2
  obtain ⟨uγ, uc, um, a1, a2, a3, a4⟩ := hl.wants_user hl.wf he hb hS h1
  obtain ⟨uγ', uc', um', b1, b2, b3, b4⟩ := hl.wants_user hl.wf he hb hS h2
  have := hl.names_inj_list a1 b1
  subst this
  have := hl.la_inj a2 b2
  subst this
  have : um = um' := by
    by_contra hne
    exact h uγ uc um um' ⟨hne, a4, b4⟩
  subst this
  exact a3.func b3

theorem Lowered.left_recursion (hl : Lowered mkPath asts convs g nts ts)
    (hnd : (asts.map (·.name)).Nodup) (hP : ∀ d ∈ asts, ∃ x, USentence asts d.name x)
    {d : AstNonTerminal X Ty} (hd : d ∈ asts) (hp : d.isPub = true) {x : String}
    (hr : UReaches asts d.name x) (hx : UHiddenLeftRecursive asts x ∨ UCyclic asts x) :
    ∃ γ c m m', UConflict asts d.name γ c m m' := by
  by_contra hno
  have hno : ∀ γ c m m', ¬ UConflict asts d.name γ c m m' :=
    fun γ c m m' h => hno ⟨γ, c, m, m', h⟩
  have hPg := hl.allProductive hnd hP
  obtain ⟨l1, l2, rfl⟩ := List.append_of_mem hd
  obtain ⟨e, nt, b, n', e1, e2, e3, _⟩ := hl.pub_mk rfl hp
  obtain ⟨b, hb1, hb2⟩ := hl.entry_name hnd e1 e2
  rw [e3] at hb1
  have he : g.isPublic e = true := by unfold Grammar.isPublic; rw [e1]; exact e2
  have hlr := hl.lr1At he hb2 hb1 hno
  obtain ⟨uα, uβ, hr⟩ := hr
  obtain ⟨ρ, h1, h2⟩ := hl.user_derives hr (α := [.nonTerminal b]) (.cons hb1 .nil)
  obtain ⟨α, β', rfl, h3, h4⟩ := forall₂_append_left h1
  cases h4 with
  | @cons _ s _ β h5 h6 =>
  cases s with
  | terminal t => cases h5
  | nonTerminal j =>
  have hreach : g.Derives [.nonTerminal e] (α ++ .nonTerminal j :: β) :=
    ((Grammar.Derives.refl _).tail (by simpa using Grammar.Produces.mk [] [] _ _ _ hb2)).trans h2
  obtain ⟨k1, k2⟩ := hlr.derives hl.wf he hPg hreach
  rcases hx with ⟨uμ, uν, x1, x2, x3⟩ | ⟨uw, x1, x2⟩
  · obtain ⟨σ, y1, y2⟩ := hl.user_derives x1 (α := [.nonTerminal j]) (.cons h5 .nil)
    obtain ⟨μ, ν', rfl, y3, y4⟩ := forall₂_append_left y1
    cases y4 with
    | @cons _ s _ ν y5 y6 =>
    have := names_func (.cons y5 .nil) (.cons h5 .nil)
    cases this
    obtain ⟨τ, z1, z2⟩ := hl.user_derives x2 y3
    cases z1
    have := k1 y2 z2
    subst this
    cases y3
    exact x3 rfl
  · obtain ⟨σ, y1, y2⟩ := hl.user_produces x1 (α := [.nonTerminal j]) (.cons h5 .nil)
    obtain ⟨τ, z1, z2⟩ := hl.user_derives x2 y1
    have := names_func z1 (.cons h5 .nil)
    subst this
    exact k2 y2 z2

end lowered

/-- **C72**: in a grammar the macro can lower, with distinct names and in which every non-terminal
derives some string, a non-terminal reachable from a `pub` one that is left-recursive behind symbols that
derive the empty string, or that derives itself, makes two moves of the `pub` non-terminal's parser
compete. -/
theorem c72_conflict {mkPath : String → X} {defs : List (AstNonTerminal X Ty)}
    {convs : List (Conversion Ty)} {g : Grammar X Ty} (hsz : loweredCount defs ≤ 4294967296)
    (hl : lower mkPath defs convs = .ok g) (hnd : (defs.map (·.name)).Nodup)
    (hP : ∀ d ∈ defs, ∃ x, USentence defs d.name x)
    {d : AstNonTerminal X Ty} (hd : d ∈ defs) (hp : d.isPub = true) {x : String}
    (hr : UReaches defs d.name x) (hx : UHiddenLeftRecursive defs x ∨ UCyclic defs x) :
    ∃ γ c m m', UConflict defs d.name γ c m m' := by
  obtain ⟨nts, ts, hL⟩ := lower_ok (by rw [← loweredCount_eq]; exact hsz) hl
  exact hL.left_recursion hnd hP hd hp hr hx

/-- **C72**: such a grammar is not LR(1) by Knuth's definition. -/
theorem c72_not_knuth {mkPath : String → X} {defs : List (AstNonTerminal X Ty)}
    {convs : List (Conversion Ty)} {g : Grammar X Ty} (hsz : loweredCount defs ≤ 4294967296)
    (hl : lower mkPath defs convs = .ok g) (hnd : (defs.map (·.name)).Nodup)
    (hP : ∀ d ∈ defs, ∃ x, USentence defs d.name x)
    {d : AstNonTerminal X Ty} (hd : d ∈ defs) (hp : d.isPub = true) {x : String}
    (hr : UReaches defs d.name x) (hx : UHiddenLeftRecursive defs x ∨ UCyclic defs x) :
    ¬ KnuthLR1 defs d.name := by
  intro hK
  obtain ⟨nts, ts, hL⟩ := lower_ok (by rw [← loweredCount_eq]; exact hsz) hl
  obtain ⟨γ, c, m, m', hne, h1, h2⟩ := hL.left_recursion hnd hP hd hp hr hx
  exact hne (moves_of_knuth (hL.uproductive hP) hK γ c m m' h1 h2)

variable [DecidableEq Ty]

/-- **C72**: if the macro accepts such a grammar and has computed FIRST sets that are not too small (C18),
it has silently dropped a reduction that is right, in favour of a shift or of accepting. -/
theorem c72_accepted {P : Compiled X Ty V W Tok} {ep : EntryPoint}
    (hnd : (P.defs.map (·.name)).Nodup) (hP : ∀ d ∈ P.defs, ∃ x, USentence P.defs d.name x)
    (hF : ∀ g, lower P.code.mkPath P.defs P.tokens.conversions = .ok g →
      FirstEnough g (generateFirstTable P.order g)) (hep : ep ∈ P.gen.entries) {x : String}
    (hr : UReaches P.defs ep.name x) (hx : UHiddenLeftRecursive P.defs x ∨ UCyclic P.defs x) :
    ∃ γ c name i m, UWants P.defs ep.name γ c (.reduce name i) ∧ UWants P.defs ep.name γ c m ∧
      (m = .shift ∨ m = .accept) := by
  obtain ⟨g, nts, ts, a, g', T, S⟩ := P.setup hep
  obtain ⟨E, nt, e1, e2, e3, _⟩ := S.run hep
  obtain ⟨b, hb1, hb2⟩ := S.lowered.entry_name hnd e1 e2
  obtain ⟨d, _, _, hd, hdp, hdn, _⟩ := S.lowered.pub e1 e2
  rw [hdn] at e3
  obtain ⟨γ, c, m, m', hne, h1, h2⟩ := S.lowered.left_recursion hnd hP hd hdp (e3 ▸ hr) hx
  rw [e3] at h1 h2
  cases m with
  | reduce A i =>
    cases m' with
    | shift => exact ⟨γ, c, A, i, _, h1, h2, .inl rfl⟩
    | accept => exact ⟨γ, c, A, i, _, h1, h2, .inr rfl⟩
    | reduce B j =>
      have hE : g.isPublic E = true := by unfold Grammar.isPublic; rw [e1]; exact e2
      rw [hdn, e3] at hb1
      have hF := hF g S.lower
      obtain ⟨γ1, c1, m1, a1, a2, a3, a4⟩ := S.lowered.user_wants hE hb2 hb1 h1
      obtain ⟨γ2, c2, m2, b1, b2, b3, b4⟩ := S.lowered.user_wants hE hb2 hb1 h2
      cases names_func a1 b1
      cases a2.func b2
      have h1 := a4.mono fun x hx => hx.itemsAt hF S.wf hE
      have h2 := b4.mono fun x hx => hx.itemsAt hF S.wf hE
      cases m1 with
      | shift => exact absurd a3 (by simp [NamesMove])
      | accept => exact absurd a3 (by simp [NamesMove])
      | reduce n1 i1 =>
        cases m2 with
        | shift => exact absurd b3 (by simp [NamesMove])
        | accept => exact absurd b3 (by simp [NamesMove])
        | reduce n2 i2 =>
          obtain ⟨ρ1, h3, h4, h5⟩ := h1
          obtain ⟨ρ2, h6, h7, h8⟩ := h2
          by_cases heq : (n1, i1) = (n2, i2)
          · cases heq
            exact absurd (S.lowered.move_inj a3 b3) hne
          · obtain ⟨f, hf⟩ := c20_reduce_reduce S.wf hE heq h3 h4 h6 h7 h5 h8
            obtain ⟨g2, l1, l2, _⟩ := P.stages_ok
            rw [S.lower] at l1
            cases l1
            rw [l2] at hf
            cases hf
  | shift =>
    cases m' with
    | shift => exact absurd rfl hne
    | accept =>
      obtain ⟨_, rfl⟩ := h2
      obtain ⟨_, _, _, _, _, _, _, _, _, _, _, h⟩ := h1
      cases h
    | reduce B j => exact ⟨γ, c, B, j, _, h2, h1, .inl rfl⟩
  | accept =>
    cases m' with
    | accept => exact absurd rfl hne
    | shift =>
      obtain ⟨_, rfl⟩ := h1
      obtain ⟨_, _, _, _, _, _, _, _, _, _, _, h⟩ := h2
      cases h
    | reduce B j => exact ⟨γ, c, B, j, _, h2, h1, .inr rfl⟩

/-! ## Concrete cases -/

namespace Examples

/-- ```
A: u64 = { => 0 }   pub S: u64 = { A S ")" => 0, "n" => 0 }
```
The grammar `hidden_left_recursion` of test_grammars.rs:406-432 with `A` written first. -/
def hiddenRecDefs : List (AstNonTerminal (Act Unit) String) :=
  [ ⟨false, "A", "u64", [⟨[], unitAct⟩]⟩,
    ⟨true, "S", "u64", [⟨[.nonTerminal "A", .nonTerminal "S", .terminal ")"], unitAct⟩,
      ⟨[.terminal "n"], unitAct⟩]⟩ ]

/-- ```
B: u64 = { S => 0 }   pub S: u64 = { B => 0, "n" => 0 }
```
-/
def cycleDefs : List (AstNonTerminal (Act Unit) String) :=
  [ ⟨false, "B", "u64", [⟨[.nonTerminal "S"], unitAct⟩]⟩,
    ⟨true, "S", "u64", [⟨[.nonTerminal "B"], unitAct⟩, ⟨[.terminal "n"], unitAct⟩]⟩ ]

set_option maxRecDepth 10000 in
theorem hiddenRec_ok : (parserMacro .insertion code.mkPath (itemsOf hiddenRecDefs)).isOk = true := by
  decide +kernel

set_option maxRecDepth 10000 in
theorem cycle_ok : (parserMacro .insertion code.mkPath (itemsOf cycleDefs)).isOk = true := by
  decide +kernel

theorem user_step {defs : List (AstNonTerminal (Act Unit) String)} {name : String}
    {p : AstProduction (Act Unit)} (rhs : List USym) (h1 : p ∈ userProds defs name)
    (h2 : p.symbols.map (·.plain) = rhs.map some) : UProduces defs [.nt name] rhs := by
  simpa using UProduces.mk [] [] rhs name p h1 h2

theorem hiddenRec_recursive : UHiddenLeftRecursive hiddenRecDefs "S" :=
  ⟨[.nt "A"], [.term ")"],
    .tail (.refl _) (user_step (p := hiddenRecDefs[1].productions[0]) [.nt "A", .nt "S", .term ")"]
      (by simp [userProds, hiddenRecDefs]) rfl),
    .tail (.refl _) (user_step (p := hiddenRecDefs[0].productions[0]) []
      (by simp [userProds, hiddenRecDefs]) rfl), by simp⟩

theorem cycle_cyclic : UCyclic cycleDefs "S" :=
  ⟨[.nt "B"], user_step (p := cycleDefs[1].productions[0]) [.nt "B"] (by simp [userProds, cycleDefs]) rfl,
    .tail (.refl _) (user_step (p := cycleDefs[0].productions[0]) [.nt "S"]
      (by simp [userProds, cycleDefs]) rfl)⟩

theorem hiddenRec_productive : ∀ d ∈ hiddenRecDefs, ∃ x, USentence hiddenRecDefs d.name x := by
  intro d hd
  simp only [hiddenRecDefs, List.mem_cons, List.not_mem_nil, or_false] at hd
  rcases hd with rfl | rfl
  · exact ⟨[], .tail (.refl _) (user_step (p := hiddenRecDefs[0].productions[0]) []
      (by simp [userProds, hiddenRecDefs]) rfl)⟩
  · exact ⟨["n"], .tail (.refl _) (user_step (p := hiddenRecDefs[1].productions[1]) [.term "n"]
      (by simp [userProds, hiddenRecDefs]) rfl)⟩

theorem cycle_productive : ∀ d ∈ cycleDefs, ∃ x, USentence cycleDefs d.name x := by
  have h : UDerives cycleDefs [.nt "S"] [.term "n"] :=
    .tail (.refl _) (user_step (p := cycleDefs[1].productions[1]) [.term "n"]
      (by simp [userProds, cycleDefs]) rfl)
  intro d hd
  simp only [cycleDefs, List.mem_cons, List.not_mem_nil, or_false] at hd
  rcases hd with rfl | rfl
  · exact ⟨["n"], (UDerives.tail (.refl _) (user_step (p := cycleDefs[0].productions[0]) [.nt "S"]
      (by simp [userProds, cycleDefs]) rfl)).trans h⟩
  · exact ⟨["n"], h⟩

/-- What of `c72_accepted` can be computed. -/
def completeOk (defs : List (AstNonTerminal (Act Unit) String)) : Bool :=
  match lower (code (W := Unit)).mkPath defs tk.conversions with
  | .error _ => true
  | .ok g => closedCheck g (generateFirstTable .insertion g) && g.wfCheck

theorem complete_of {defs : List (AstNonTerminal (Act Unit) String)}
    (h : completeOk defs = true) (g : Grammar (Act Unit) String)
    (hg : lower (code (W := Unit)).mkPath defs tk.conversions = .ok g) :
    FirstEnough g (generateFirstTable .insertion g) := by
  simp only [completeOk, hg, Bool.and_eq_true] at h
  exact (FirstClosed.complete (Grammar.wf_of_check h.2) (firstClosed_of_check h.1)).enough
    (Grammar.wf_of_check h.2)

set_option maxRecDepth 10000 in
theorem hiddenRec_complete : completeOk hiddenRecDefs = true := by decide +kernel

set_option maxRecDepth 10000 in
theorem cycle_complete : completeOk cycleDefs = true := by decide +kernel

set_option maxRecDepth 10000 in
example : (program hiddenRecDefs hiddenRec_ok).gen.entries.map (·.name) = ["S"] ∧
    (program cycleDefs cycle_ok).gen.entries.map (·.name) = ["S"] := by decide +kernel

/-- The macro accepts both grammars; in each of them it has dropped a reduction that is right. -/
theorem c72_hidden_example {ep : EntryPoint} (hep : ep ∈ (program hiddenRecDefs hiddenRec_ok).gen.entries)
    (hn : ep.name = "S") :
    ∃ γ c name i m, UWants hiddenRecDefs "S" γ c (.reduce name i) ∧ UWants hiddenRecDefs "S" γ c m ∧
      (m = .shift ∨ m = .accept) := by
  have hd : (program hiddenRecDefs hiddenRec_ok).defs = hiddenRecDefs := defs_itemsOf _
  have := c72_accepted (P := program hiddenRecDefs hiddenRec_ok) (ep := ep) (x := "S")
    (by rw [hd]; decide) (by rw [hd]; exact hiddenRec_productive)
    (by rw [hd]; exact complete_of hiddenRec_complete) hep
    (by rw [hd, hn]; exact ⟨[], [], .refl _⟩) (by rw [hd]; exact .inl hiddenRec_recursive)
  rw [hd, hn] at this
  exact this

@[inherit_doc c72_hidden_example]
theorem c72_cycle_example {ep : EntryPoint} (hep : ep ∈ (program cycleDefs cycle_ok).gen.entries)
    (hn : ep.name = "S") :
    ∃ γ c name i m, UWants cycleDefs "S" γ c (.reduce name i) ∧ UWants cycleDefs "S" γ c m ∧
      (m = .shift ∨ m = .accept) := by
  have hd : (program cycleDefs cycle_ok).defs = cycleDefs := defs_itemsOf _
  have := c72_accepted (P := program cycleDefs cycle_ok) (ep := ep) (x := "S")
    (by rw [hd]; decide) (by rw [hd]; exact cycle_productive)
    (by rw [hd]; exact complete_of cycle_complete) hep
    (by rw [hd, hn]; exact ⟨[], [], .refl _⟩) (by rw [hd]; exact .inr cycle_cyclic)
  rw [hd, hn] at this
  exact this

/-- `c72_not_knuth` applies to the first grammar, whatever the action code. -/
example {g : Grammar (Act Unit) String}
    (hl : lower (code (W := Unit)).mkPath hiddenRecDefs tk.conversions = .ok g) :
    ¬ KnuthLR1 hiddenRecDefs "S" :=
  c72_not_knuth (by decide) hl (by decide) hiddenRec_productive (d := hiddenRecDefs[1])
    (by simp [hiddenRecDefs]) rfl ⟨[], [], .refl _⟩ (.inl hiddenRec_recursive)

end Examples

end Parsegen
