import Verif.Proofs.PubRun
import Verif.Props.Rearrange

/-! # C67: `pub` and the order of token declarations never matter

Unlike C55, nothing is assumed about the FIRST sets here: the claims hold of grammars whose FIRST sets
are computed wrongly, too. -/

namespace Parsegen

variable {X Ty V W Tok E : Type} [DecidableEq Ty] {P P' : Compiled X Ty V W Tok}

/-- **C67.** Two programs whose definitions differ in `pub` only, and that classify tokens in the same
way: entry points of the same name behave the same. -/
theorem c67_behaviour (hcode : P'.code = P.code) (hnd : (P.defs.map (·.name)).Nodup)
    (hd : SameButPub P.defs P'.defs)
    (hcls : ∀ t, P'.cls t = P.cls t) (hfields : ∀ t, P'.fields t = P.fields t)
    {ep ep' : EntryPoint} (hep : ep ∈ P.gen.entries) (hep' : ep' ∈ P'.gen.entries)
    (hname : ep'.name = ep.name) : SameBehaviour P P' ep ep' := by
  obtain ⟨g, nts, ts, a, g1, T1, S⟩ := P.setup hep
  obtain ⟨g', nts', ts', a', g1', T1', S'⟩ := P'.setup hep'
  exact S.sameBehaviour S' (S.genCorr_pub S' hcode hnd hd) hcode hcls hfields hep hep' hname

/-- **C67**, for programs: toggle `pub`s and put the token declarations in any order (if no token
matches two token patterns).  The entry points are those of the `pub` definitions, and those the
programs have in common behave the same. -/
theorem c67_items (hi : SameButPubItems P.items P'.items) (hcode : P'.code = P.code)
    (htoR : P'.toR = P.toR) (hinj : P'.inj = P.inj)
    (hone : ∀ t, ∀ c ∈ P.tokens.conversions, ∀ c' ∈ P.tokens.conversions,
      capture c.to (P.toR t) ≠ none → capture c'.to (P.toR t) ≠ none → c = c')
    (hnd : (P.defs.map (·.name)).Nodup) {ep ep' : EntryPoint} (hep : ep ∈ P.gen.entries)
    (hep' : ep' ∈ P'.gen.entries) (hname : ep'.name = ep.name) : SameBehaviour P P' ep ep' := by
  have hconv : P'.tokens.conversions.Perm P.tokens.conversions := by
    obtain ⟨t, t', h1, h2, h3⟩ := hi.tokens
    rw [P.itemTokens] at h1; rw [P'.itemTokens] at h2
    cases h1; cases h2; exact h3
  have hcl : ∀ t, classify P'.tokens.conversions (P'.toR t) =
      classify P.tokens.conversions (P.toR t) := by
    intro t
    rw [htoR]
    exact classify_perm hconv (hone t)
  have hcls : ∀ t, P'.cls t = P.cls t := by intro t; simp only [Compiled.cls, hcl]
  have hfields : ∀ t, P'.fields t = P.fields t := by intro t; simp only [Compiled.fields, hcl, hinj]
  intro E input w w' n
  exact c67_behaviour hcode hnd hi.defs hcls hfields hep hep' hname input w w' n

/-- **C67**, adding `pub`s: every entry point is still there and behaves the same. -/
theorem c67_more (hcode : P'.code = P.code) (hnd : (P.defs.map (·.name)).Nodup)
    (hd : SameButPub P.defs P'.defs) (hmore : FewerPub P'.defs P.defs)
    (hcls : ∀ t, P'.cls t = P.cls t) (hfields : ∀ t, P'.fields t = P.fields t)
    (hsz : loweredCount P'.defs ≤ 4294967296) {ep : EntryPoint} (hep : ep ∈ P.gen.entries) :
    ∃ ep' ∈ P'.gen.entries, ep'.name = ep.name ∧ SameBehaviour P P' ep ep' := by
  obtain ⟨g, nts, ts, a, g1, T1, S⟩ := P.setup hep
  obtain ⟨e, nt, h1, h2, h3, _⟩ := S.run hep
  obtain ⟨d, _, _, hdm, hp, hn, _⟩ := S.lowered.pub h1 h2
  obtain ⟨i, hi⟩ := List.mem_iff_getElem?.1 hdm
  obtain ⟨d', h4, h5⟩ := forall₂_getElem? hd hi
  obtain ⟨d2, h6, h7⟩ := forall₂_getElem?' hmore hi
  rw [h4] at h6; cases h6
  have : ep.name ∈ (P'.defs.filter (·.isPub)).map (·.name) :=
    List.mem_map.2 ⟨d', List.mem_filter.2 ⟨List.mem_of_getElem? h4, h7 hp⟩,
      by rw [h5.name, ← hn, h3]⟩
  rw [← (c15_entries P' hsz).mem_iff] at this
  obtain ⟨ep', hep', hname⟩ := List.mem_map.1 this
  exact ⟨ep', hep', hname, c67_behaviour hcode hnd hd hcls hfields hep hep' hname⟩

omit [DecidableEq Ty] in
theorem FewerPub.width_le {defs defs' : List (AstNonTerminal X Ty)} (h : FewerPub defs defs') :
    loweredCount defs' ≤ loweredCount defs ∧
    (defs'.filter (·.isPub)).length ≤ (defs.filter (·.isPub)).length := by
  unfold FewerPub at h
  unfold loweredCount
  induction h with
  | nil => simp
  | @cons d d' l l' h1 _ ih =>
    cases e : d.isPub <;> cases e' : d'.isPub <;> simp [e, e'] at ih ⊢
    · omega
    · have := h1 e'; rw [e] at this; cases this
    · omega
    · omega

omit [DecidableEq Ty] in
theorem SameButPubItems.small {items items' : List (GrammarItem X Ty)} (hi : SameButPubItems items items')
    (hfew : FewerPub (itemNonTerminals items) (itemNonTerminals items')) (h : SmallItems items) :
    SmallItems items' where
  nonTerminals := Nat.le_trans hfew.width_le.1 h.nonTerminals
  productions := by
    have h1 : (itemNonTerminals items).map (·.productions.length) =
        (itemNonTerminals items').map (·.productions.length) :=
      forall₂_map_eq (fun _ _ h => by rw [h.productions]) hi.defs
    have := h.productions
    have := hfew.width_le.2
    rw [← h1]; omega
  symbols := by
    intro d' hd' p hp
    obtain ⟨i, hi'⟩ := List.mem_iff_getElem?.1 hd'
    obtain ⟨d, h1, h2⟩ := forall₂_getElem?' hi.defs hi'
    exact h.symbols d (List.mem_of_getElem? h1) p (by rw [← h2.productions]; exact hp)
  terminals := by
    intro t' ht'
    obtain ⟨t, t1, h1, h2, h3⟩ := hi.tokens
    rw [h2] at ht'
    simp only [List.mem_singleton] at ht'
    subst ht'
    rw [h3.length_eq]
    exact h.terminals t (by rw [h1]; simp)

/-- **C67**, acceptance: removing `pub`s and putting the token declarations in another order does not
make the macro reject a (small) program. -/
theorem c67_accepted {o o' : HashOrder} {mkPath : String → X} {items items' : List (GrammarItem X Ty)}
    (hi : SameButPubItems items items')
    (hfew : FewerPub (itemNonTerminals items) (itemNonTerminals items')) (hsm : SmallItems items)
    (hnd : ((itemNonTerminals items).map (·.name)).Nodup)
    (h : ∃ r, parserMacro o mkPath items = .ok r) : ∃ r, parserMacro o' mkPath items' = .ok r := by
  obtain ⟨r, h⟩ := h
  unfold parserMacro at h
  obtain ⟨⟨nts, t⟩, h1, h⟩ := Except.bind_eq_ok.1 h
  obtain ⟨g, h2, h⟩ := Except.bind_eq_ok.1 h
  obtain ⟨gen, h3, h⟩ := Except.bind_eq_ok.1 h
  obtain ⟨e1, e2, e3⟩ := (macroItems_iff _ _ _).1 h1
  rw [e1] at h2
  obtain ⟨t0, t', ht, ht', hperm⟩ := hi.tokens
  rw [e2] at ht; cases ht
  have hsm' := hi.small hfew hsm
  have hsz := hsm.nonTerminals
  have hszt := hsm.terminals t (by rw [e2]; simp)
  obtain ⟨g', h2'⟩ : ∃ g', lower mkPath (itemNonTerminals items') t'.conversions = .ok g' := by
    have hsz' := hsm'.nonTerminals
    obtain ⟨k1, k2⟩ := (lower_ok_iff (by rw [← Parsegen.loweredCount_eq]; omega) hszt).1 ⟨g, h2⟩
    refine (lower_ok_iff (by rw [← Parsegen.loweredCount_eq]; omega)
      (by rw [hperm.length_eq]; exact hszt)).2 ⟨(hperm.map _).nodup_iff.2 k1, ?_⟩
    intro d' hd' p hp
    obtain ⟨i, hi'⟩ := List.mem_iff_getElem?.1 hd'
    obtain ⟨d, m1, m2⟩ := forall₂_getElem?' hi.defs hi'
    obtain ⟨k3, k4⟩ := k2 d (List.mem_of_getElem? m1) p (by rw [← m2.productions]; exact hp)
    refine ⟨k3, fun s hs => ?_⟩
    rcases k4 s hs with ⟨n, k5, b, hb, rfl⟩ | ⟨x, k5, c, hc', rfl⟩
    · obtain ⟨j, hj⟩ := List.mem_iff_getElem?.1 hb
      obtain ⟨b', n1, n2⟩ := forall₂_getElem? hi.defs hj
      exact .inl ⟨_, k5, b', List.mem_of_getElem? n1, n2.name⟩
    · exact .inr ⟨_, k5, c, hperm.mem_iff.2 hc', rfl⟩
  obtain ⟨gen', h3'⟩ := generateParser_pub (o' := o') hi.defs hfew hnd
    hsm'.nonTerminals hsm'.productions hsm'.symbols (by omega) h2 h2' h3
  have h1' : macroItems items' = .ok (itemNonTerminals items', t') :=
    (macroItems_iff _ _ _).2 ⟨rfl, ht', by rw [hi.states.length_eq]; exact e3⟩
  refine ⟨(gen', t'), ?_⟩
  simp only [parserMacro, h1', h2', h3', bind, Except.bind]

omit [DecidableEq Ty] in
theorem SameButPubItems.symm {items items' : List (GrammarItem X Ty)} (h : SameButPubItems items items') :
    SameButPubItems items' items where
  defs := h.defs.symm
  states := h.states.symm
  tokens := by
    obtain ⟨t, t', h1, h2, h3⟩ := h.tokens
    exact ⟨t', t, h2, h1, h3.symm⟩

/-- **C67**, acceptance and tokens: with the same `pub`s, the order of the token declarations has no
influence on whether the macro accepts the program. -/
theorem c67_tokens {o o' : HashOrder} {mkPath : String → X} {items items' : List (GrammarItem X Ty)}
    (hi : SameButPubItems items items')
    (hsame : (itemNonTerminals items').map (·.isPub) = (itemNonTerminals items).map (·.isPub))
    (hsm : SmallItems items) (hnd : ((itemNonTerminals items).map (·.name)).Nodup) :
    (∃ r, parserMacro o mkPath items = .ok r) ↔ ∃ r, parserMacro o' mkPath items' = .ok r := by
  have key : ∀ {l l' : List (AstNonTerminal X Ty)}, l'.map (·.isPub) = l.map (·.isPub) →
      FewerPub l l' := by
    intro l
    induction l with
    | nil =>
      intro l' h
      cases l' with
      | nil => exact .nil
      | cons _ _ => cases h
    | cons d l ih =>
      intro l' h
      cases l' with
      | nil => cases h
      | cons d' l' =>
        simp only [List.map_cons, List.cons.injEq] at h
        exact .cons (fun e => by rw [← h.1]; exact e) (ih h.2)
  refine ⟨c67_accepted hi (key hsame) hsm hnd, c67_accepted hi.symm (key hsame.symm)
    (hi.small (key hsame) hsm) ?_⟩
  rw [hi.defs.names]; exact hnd

/-! ## Concrete cases -/

namespace Examples

/-- `unusedDefs`, whose FIRST sets are wrong, with two more `pub`s:
```
pub A: u64 = { B => 0 }   B: u64 = { C => 0 }   C: u64 = { => 0 }   pub X: u64 = { "(" => 0 }
pub S: u64 = { X A ")" => 0 }
``` -/
def unusedPub : List (AstNonTerminal (Act Unit) String) :=
  [ ⟨true, "A", "u64", [⟨[.nonTerminal "B"], unitAct⟩]⟩,
    ⟨false, "B", "u64", [⟨[.nonTerminal "C"], unitAct⟩]⟩,
    ⟨false, "C", "u64", [⟨[], unitAct⟩]⟩,
    ⟨true, "X", "u64", [⟨[.terminal "("], unitAct⟩]⟩,
    ⟨true, "S", "u64", [⟨[.nonTerminal "X", .nonTerminal "A", .terminal ")"], unitAct⟩]⟩ ]

/-- The token declarations in another order, too. -/
def unusedPubItems : List (GrammarItem (Act Unit) String) :=
  unusedPub.map .nonTerminal ++ [.tokenEnum tkR]

theorem unused_sameButPub : SameButPubItems (itemsOf unusedDefs) unusedPubItems where
  defs := by
    refine .cons ⟨rfl, rfl, rfl⟩ (.cons ⟨rfl, rfl, rfl⟩ (.cons ⟨rfl, rfl, rfl⟩
      (.cons ⟨rfl, rfl, rfl⟩ (.cons ⟨rfl, rfl, rfl⟩ .nil))))
  states := .refl _
  tokens := ⟨tk, tkR, rfl, rfl, List.reverse_perm tk.conversions⟩

theorem unusedPub_fewer : FewerPub (itemNonTerminals unusedPubItems)
    (itemNonTerminals (itemsOf unusedDefs)) := by
  refine .cons ?_ (.cons ?_ (.cons ?_ (.cons ?_ (.cons ?_ .nil)))) <;> simp

theorem unusedPub_small : SmallItems unusedPubItems := by
  refine ⟨by decide, by decide, ?_, ?_⟩
  · intro d hd p hp
    replace hd : d ∈ unusedPub := hd
    simp only [unusedPub, List.mem_cons, List.not_mem_nil, or_false] at hd
    rcases hd with rfl | rfl | rfl | rfl | rfl <;>
      simp only [List.mem_cons, List.not_mem_nil, or_false] at hp <;> rcases hp with rfl <;> simp
  · intro t ht
    replace ht : t ∈ [tkR] := ht
    simp only [List.mem_singleton] at ht
    subst ht
    decide

set_option maxRecDepth 10000 in
theorem unusedPub_ok : (parserMacro .insertion code.mkPath unusedPubItems).isOk = true := by
  decide +kernel

/-- The program with more `pub`s. -/
def unusedPubProgram : Compiled (Act Unit) String Nat Unit Tk :=
  .ofItems .insertion code unusedPubItems tkR Tk.toR inj unusedPub_ok rfl
    (fun c hc => tk_simple c (by simp only [tkR, tk, List.mem_cons] at hc ⊢; tauto)) tkR_total

/-- The hypotheses of `c67_accepted` hold, from the program with more `pub`s to the one with fewer. -/
theorem unused_accepted : ∃ r, parserMacro .insertion code.mkPath (itemsOf unusedDefs) = .ok r :=
  c67_accepted unused_sameButPub.symm unusedPub_fewer unusedPub_small
    (by decide) ⟨_, unusedPubProgram.accepted⟩

theorem unused_nodup : (unusedDefs.map (·.name)).Nodup := by decide

theorem unused_one : ∀ t : Tk, ∀ c ∈ tk.conversions, ∀ c' ∈ tk.conversions,
    capture c.to t.toR ≠ none → capture c'.to t.toR ≠ none → c = c' := by
  intro t c hc c' hc' h1 h2
  replace hc : c ∈ tk.conversions := hc
  replace hc' : c' ∈ tk.conversions := hc'
  replace h1 : capture c.to t.toR ≠ none := h1
  replace h2 : capture c'.to t.toR ≠ none := h2
  simp only [tk, List.mem_cons, List.not_mem_nil, or_false] at hc hc'
  rcases hc with rfl | rfl | rfl | rfl <;> rcases hc' with rfl | rfl | rfl | rfl <;>
    first
    | rfl
    | (exfalso; cases t <;> first | exact h1 rfl | exact h2 rfl)

/-- The hypotheses of `c67_items` hold: `S` behaves the same in both programs, on every input.
(Compare `c55_unused_matters`: adding definitions to this grammar does change `S`.) -/
theorem unusedPub_same : ∀ ep ∈ (program unusedDefs unused_ok).gen.entries,
    ∀ ep' ∈ unusedPubProgram.gen.entries, ep'.name = ep.name →
      SameBehaviour (program unusedDefs unused_ok) unusedPubProgram ep ep' := by
  intro ep hep ep' hep' hname
  have hone : ∀ t, ∀ c ∈ (program unusedDefs unused_ok).tokens.conversions,
      ∀ c' ∈ (program unusedDefs unused_ok).tokens.conversions,
      capture c.to ((program unusedDefs unused_ok).toR t) ≠ none →
      capture c'.to ((program unusedDefs unused_ok).toR t) ≠ none → c = c' := unused_one
  have hnd : ((program unusedDefs unused_ok).defs.map (·.name)).Nodup := unused_nodup
  intro E input w w' n
  exact c67_items (P := program unusedDefs unused_ok) (P' := unusedPubProgram) unused_sameButPub
    rfl rfl rfl hone hnd hep hep' hname input w w' n

set_option maxRecDepth 10000 in
/-- `S` is entry point 0 of the first and entry point 2 of the second program; on `( )` both report the
same wrong error. -/
theorem unusedPub_runs :
    (program unusedDefs unused_ok).gen.entries.map (·.name) = ["S"] ∧
    unusedPubProgram.gen.entries.map (·.name) = ["A", "X", "S"] ∧
    run (program unusedDefs unused_ok) 0 (stream [.lp, .rp]) () 100 =
      some (.parserError "(" "", (), 1) ∧
    run unusedPubProgram 2 (stream [.lp, .rp]) () 100 = some (.parserError "(" "", (), 1) := by
  refine ⟨by decide +kernel, by decide +kernel, by decide +kernel, by decide +kernel⟩

/-- ```
pub S: u64 = { "+" => 0 }   D: u64 = { D D => 0, "n" => 0, "n" => 0 }
```
with or without a `pub` before `D`. -/
def hiddenDefs (b : Bool) : List (AstNonTerminal (Act Unit) String) :=
  [ ⟨true, "S", "u64", [⟨[.terminal "+"], unitAct⟩]⟩,
    ⟨b, "D", "u64", [⟨[.nonTerminal "D", .nonTerminal "D"], unitAct⟩, ⟨[.terminal "n"], unitAct⟩,
      ⟨[.terminal "n"], unitAct⟩]⟩ ]

set_option maxRecDepth 10000 in
/-- Adding a `pub` can make the macro reject a program: the conflicts of a definition that is not used
are not looked for. -/
theorem c67_adding : SameButPub (hiddenDefs false) (hiddenDefs true) ∧
    (parserMacro .insertion (code (W := Unit)).mkPath (itemsOf (hiddenDefs false))).isOk = true ∧
    (parserMacro .insertion (code (W := Unit)).mkPath (itemsOf (hiddenDefs true))).isOk = false :=
  ⟨.cons ⟨rfl, rfl, rfl⟩ (.cons ⟨rfl, rfl, rfl⟩ .nil), by decide +kernel, by decide +kernel⟩

end Examples

end Parsegen
