import Verif.Proofs.CorrAccept
import Verif.Props.Examples
import Verif.Props.Counterexamples

/-! # C55: the order of definitions, and definitions that are not used, do not matter -/

namespace Parsegen

variable {X Ty V W Tok E : Type} [DecidableEq Ty] {P P' : Compiled X Ty V W Tok}

/-- **C55.** Two programs that define the names they have in common in the same way, up to the order of
productions, and classify tokens in the same way: entry points of the same name behave the same.  The
definitions may come in any order and each program may have definitions and tokens the other does not
have.  (Both grammars have to be harmless, see `c55_order_matters`.) -/
theorem c55_common (hcode : P'.code = P.code) (hnd : (P.defs.map (·.name)).Nodup)
    (hnd' : (P'.defs.map (·.name)).Nodup) (hsd : SameDefinitions P.defs P'.defs)
    (hh : UHarmless P.defs) (hh' : UHarmless P'.defs)
    (hcls : ∀ t, P'.cls t = P.cls t) (hfields : ∀ t, P'.fields t = P.fields t)
    {ep ep' : EntryPoint} (hep : ep ∈ P.gen.entries) (hep' : ep' ∈ P'.gen.entries)
    (hname : ep'.name = ep.name) : SameBehaviour P P' ep ep' := by
  obtain ⟨g, nts, ts, a, g1, T1, S⟩ := P.setup hep
  obtain ⟨g', nts', ts', a', g1', T1', S'⟩ := P'.setup hep'
  exact S.sameBehaviour S' (S.genCorr S' hcode hnd hnd' hsd hh hh') hcode hcls hfields hep hep' hname

/-- **C55**, adding definitions: if all definitions of `P` are among those of `P'`, every entry point of
`P` is one of `P'` as well, and behaves the same there. -/
theorem c55_extend (hcode : P'.code = P.code) (hnd' : (P'.defs.map (·.name)).Nodup)
    (hnd : (P.defs.map (·.name)).Nodup)
    (hinc : Includes P.defs P'.defs) (hh' : UHarmless P'.defs)
    (hcls : ∀ t, P'.cls t = P.cls t) (hfields : ∀ t, P'.fields t = P.fields t)
    (hsz : loweredCount P'.defs ≤ 4294967296) {ep : EntryPoint} (hep : ep ∈ P.gen.entries) :
    ∃ ep' ∈ P'.gen.entries, ep'.name = ep.name ∧ SameBehaviour P P' ep ep' := by
  have hsd := hinc.sameDefinitions hnd hnd'
  obtain ⟨g, nts, ts, a, g1, T1, S⟩ := P.setup hep
  obtain ⟨e, nt, h1, h2, h3, _⟩ := S.run hep
  obtain ⟨d, _, _, hd, hp, hn, _⟩ := S.lowered.pub h1 h2
  obtain ⟨d', hd', hs⟩ := hinc d hd
  have : ep.name ∈ (P'.defs.filter (·.isPub)).map (·.name) :=
    List.mem_map.2 ⟨d', List.mem_filter.2 ⟨hd', by rw [hs.isPub, hp]⟩, by rw [hs.name, ← hn, h3]⟩
  rw [← (c15_entries P' hsz).mem_iff] at this
  obtain ⟨ep', hep', hname⟩ := List.mem_map.1 this
  exact ⟨ep', hep', hname, c55_common hcode hnd hnd' hsd (hinc.harmless hnd' hh') hh' hcls hfields
    hep hep' hname⟩

omit [DecidableEq Ty] in
theorem classify_some {cs : List (Conversion Ty)} {v : RVal} {r : String × List RVal}
    (h : classify cs v = some r) : ∃ c ∈ cs, capture c.to v = some r.2 ∧ c.from_ = r.1 := by
  induction cs with
  | nil => cases h
  | cons c cs ih =>
    unfold classify at h
    split at h
    · next caps hc => cases h; exact ⟨c, by simp, hc, rfl⟩
    · obtain ⟨c', h1, h2⟩ := ih h
      exact ⟨c', by simp [h1], h2⟩

omit [DecidableEq Ty] in
theorem classify_isSome {cs : List (Conversion Ty)} {v : RVal} {c : Conversion Ty} (hc : c ∈ cs)
    (h : capture c.to v ≠ none) : ∃ r, classify cs v = some r := by
  induction cs with
  | nil => cases hc
  | cons c' cs ih =>
    unfold classify
    split
    · exact ⟨_, rfl⟩
    · next hn =>
      rcases List.mem_cons.1 hc with rfl | hc
      · exact absurd hn h
      · exact ih hc

omit [DecidableEq Ty] in
/-- If at most one pattern matches, the order of the token declarations does not matter. -/
theorem classify_perm {cs cs' : List (Conversion Ty)} (hp : cs'.Perm cs) {v : RVal}
    (he : ∀ c ∈ cs, ∀ c' ∈ cs, capture c.to v ≠ none → capture c'.to v ≠ none → c = c') :
    classify cs' v = classify cs v := by
  cases h : classify cs v with
  | none =>
    cases h' : classify cs' v with
    | none => rfl
    | some r =>
      obtain ⟨c, h1, h2, _⟩ := classify_some h'
      obtain ⟨r', h3⟩ := classify_isSome (hp.mem_iff.1 h1) (by rw [h2]; simp)
      rw [h] at h3; cases h3
  | some r =>
    obtain ⟨c, h1, h2, h3⟩ := classify_some h
    obtain ⟨r', h4⟩ := classify_isSome (hp.mem_iff.2 h1) (by rw [h2]; simp : capture c.to v ≠ none)
    obtain ⟨c', h5, h6, h7⟩ := classify_some h4
    obtain rfl := he c h1 c' (hp.mem_iff.1 h5) (by rw [h2]; simp) (by rw [h6]; simp)
    rw [h4]
    rw [h2] at h6
    have e1 := Option.some.inj h6
    have e2 := h3.symm.trans h7
    rw [Prod.ext e2.symm e1.symm]

theorem Compiled.itemTokens (P : Compiled X Ty V W Tok) : itemTokenEnums P.items = [P.tokens] :=
  P.stages_ok.choose_spec.2.2

/-- **C55**, rearranging declarations: items, productions within a definition and token declarations
can be put in any order (if no token matches two token patterns): the program has the same entry
points, and they behave the same. -/
theorem c55_rearranged (hr : RearrangedItems P.items P'.items) (hcode : P'.code = P.code)
    (htoR : P'.toR = P.toR) (hinj : P'.inj = P.inj)
    (hone : ∀ t, ∀ c ∈ P.tokens.conversions, ∀ c' ∈ P.tokens.conversions,
      capture c.to (P.toR t) ≠ none → capture c'.to (P.toR t) ≠ none → c = c')
    (hnd : (P.defs.map (·.name)).Nodup) (hh : UHarmless P.defs)
    (hsz : loweredCount P.defs ≤ 4294967296) :
    (P'.gen.entries.map (·.name)).Perm (P.gen.entries.map (·.name)) ∧
    ∀ ep ∈ P.gen.entries, ∀ ep' ∈ P'.gen.entries, ep'.name = ep.name → SameBehaviour P P' ep ep' := by
  have hd : Rearranged P.defs P'.defs := hr.defs
  have hnd' : (P'.defs.map (·.name)).Nodup :=
    (hd.map_perm (·.name) fun d d' hs => hs.name.symm).nodup_iff.1 hnd
  have hconv : P'.tokens.conversions.Perm P.tokens.conversions := by
    obtain ⟨t, t', h1, h2, h3⟩ := hr.tokens
    rw [P.itemTokens] at h1; rw [P'.itemTokens] at h2
    cases h1; cases h2; exact h3
  have hcl : ∀ t, classify P'.tokens.conversions (P'.toR t) =
      classify P.tokens.conversions (P.toR t) := by
    intro t
    rw [htoR]
    exact classify_perm hconv (hone t)
  refine ⟨?_, fun ep hep ep' hep' hname => c55_common hcode hnd hnd'
    (hd.includes.sameDefinitions hnd hnd') hh (hd.symm.includes.harmless hnd hh) ?_ ?_ hep hep' hname⟩
  · exact ((c15_entries P' (by rw [hd.loweredCount_eq]; exact hsz)).trans hd.symm.pub_perm).trans
      (c15_entries P hsz).symm
  · intro t; simp only [Compiled.cls, hcl]
  · intro t; simp only [Compiled.fields, hcl, hinj]

omit [DecidableEq Ty] in
theorem SameOutcome.eq {terms : List String} {o o' : Outcome V E}
    (h : SameOutcome terms terms o o') : o = o' := by
  cases o <;> cases o' <;> simp only [SameOutcome] at h
  · rw [h]
  · rw [h]
  · obtain ⟨rfl, Q, _, rfl, rfl⟩ := h; rfl
  · rw [h]

/-- **C55**: if the token declarations are left in their order, even the error messages are the same. -/
theorem c55_messages {ep ep' : EntryPoint} (h : SameBehaviour P P' ep ep')
    (ht : P'.terms = P.terms) (input : Nat → Option (Except E Tok)) (w : W) (o : Outcome V E) (w' : W)
    (n : Nat) : P'.Returns ep' input w o w' n ↔ P.Returns ep input w o w' n := by
  obtain ⟨h1, h2⟩ := h input w w' n
  rw [ht] at h1 h2
  refine ⟨fun hr => ?_, fun hr => ?_⟩
  · obtain ⟨o', h3, h4⟩ := h2 o hr
    rwa [h3.eq] at h4
  · obtain ⟨o', h3, h4⟩ := h1 o hr
    rwa [← h3.eq] at h4

/-- **C55**: whether the macro accepts a (harmless, small) LR(1) grammar does not depend on the order of
declarations, either. -/
theorem c55_accepted {o o' : HashOrder} {mkPath : String → X} {items items' : List (GrammarItem X Ty)}
    (hr : RearrangedItems items items') (hsm : SmallItems items)
    (hnd : ((itemNonTerminals items).map (·.name)).Nodup) (hlr : ULR1 (itemNonTerminals items))
    (hh : UHarmless (itemNonTerminals items)) (h : ∃ r, parserMacro o mkPath items = .ok r) :
    ∃ r, parserMacro o' mkPath items' = .ok r := by
  obtain ⟨r, h⟩ := h
  unfold parserMacro at h
  obtain ⟨⟨nts, t⟩, h1, h⟩ := Except.bind_eq_ok.1 h
  obtain ⟨g, h2, h⟩ := Except.bind_eq_ok.1 h
  obtain ⟨gen, h3, h⟩ := Except.bind_eq_ok.1 h
  obtain ⟨e1, e2, e3⟩ := (macroItems_iff _ _ _).1 h1
  rw [e1] at h2
  obtain ⟨t0, t', ht, ht', hperm⟩ := hr.tokens
  rw [e2] at ht; cases ht
  have hsm' := hsm.rearranged hr
  have hnd' : ((itemNonTerminals items').map (·.name)).Nodup :=
    (hr.defs.map_perm (·.name) fun d d' hs => hs.name.symm).nodup_iff.1 hnd
  have hsz := hsm.nonTerminals
  obtain ⟨g', h2'⟩ := lower_rearranged (mkPath := mkPath) hr.defs hperm (by omega)
    (hsm.terminals t (by rw [e2]; simp)) ⟨g, h2⟩
  obtain ⟨gen', h3'⟩ := generateParser_rearranged (o' := o') hr.defs hnd hnd' hlr hh
    hsm'.nonTerminals hsm'.productions hsm'.symbols h2 h2' h3
  have h1' : macroItems items' = .ok (itemNonTerminals items', t') :=
    (macroItems_iff _ _ _).2 ⟨rfl, ht', by rw [hr.states.length_eq]; exact e3⟩
  refine ⟨(gen', t'), ?_⟩
  simp only [parserMacro, h1', h2', h3', bind, Except.bind]

/-! ## Concrete cases -/

namespace Examples

/-- The token declarations in another order. -/
def tkR : TokenEnum String :=
  { typeName := "Tok"
    conversions :=
      [⟨")", .path "Tok::RP"⟩, ⟨"(", .path "Tok::LP"⟩, ⟨"n", .enum "Tok::Num" [.choose "u64"]⟩,
        ⟨"+", .path "Tok::Plus"⟩] }

/-- `arith` in another order: the second definition first, with its productions exchanged, then the
token enum, and then the first definition. -/
def arithItemsR : List (GrammarItem (Act Log) String) :=
  [ .nonTerminal ⟨true, "Term", "u64",
      [⟨[.terminal "(", nm "a" (.nonTerminal "Expr"), .terminal ")"],
          logged (fun e => num e "a") "Term" 1⟩,
        ⟨[nm "a" (.terminal "n")], logged (fun e => num e "a") "Term" 0⟩]⟩,
    .tokenEnum tkR,
    .nonTerminal ⟨true, "Expr", "u64",
      [⟨[nm "a" (.nonTerminal "Expr"), .terminal "+", nm "b" (.nonTerminal "Term")],
          logged (fun e => num e "a" + num e "b") "Expr" 0⟩,
        ⟨[nm "a" (.nonTerminal "Term")], logged (fun e => num e "a") "Expr" 1⟩]⟩ ]

theorem arith_rearranged : RearrangedItems arith.items arithItemsR where
  defs := ⟨(itemNonTerminals arithItemsR).reverse,
    .cons ⟨rfl, rfl, rfl, .refl _⟩ (.cons ⟨rfl, rfl, rfl, List.Perm.swap _ _ _⟩ .nil),
    (List.reverse_perm _).symm⟩
  states := .refl _
  tokens := ⟨tk, tkR, rfl, rfl, List.reverse_perm tk.conversions⟩

theorem arith_small : SmallItems arith.items := by
  refine ⟨by decide, by decide, ?_, ?_⟩
  · intro d hd p hp
    replace hd : d ∈ arithDefs := hd
    simp only [arithDefs, List.mem_cons, List.not_mem_nil, or_false] at hd
    rcases hd with rfl | rfl <;> simp only [List.mem_cons, List.not_mem_nil, or_false] at hp <;>
      rcases hp with rfl | rfl <;> simp
  · intro t ht
    replace ht : t ∈ [tk] := ht
    simp only [List.mem_singleton] at ht
    subst ht
    decide

/-- The macro accepts `arithItemsR`, by `c55_accepted`. -/
theorem arithR_ok : ∃ r, parserMacro .insertion (code (W := Log)).mkPath arithItemsR = .ok r :=
  c55_accepted arith_rearranged arith_small arith_regular.names arith_ulr1 arith_harmless
    ⟨_, arith.accepted⟩

theorem tkR_total (t : Tk) : (classify tkR.conversions t.toR).isSome = true := by
  cases t <;> rfl

/-- The rearranged program. -/
def arithR : Compiled (Act Log) String Nat Log Tk :=
  .ofItems .insertion code arithItemsR tkR Tk.toR inj
    (by obtain ⟨r, h⟩ := arithR_ok; rw [h]; rfl) rfl
    (fun c hc => tk_simple c (by simp only [tkR, tk, List.mem_cons] at hc ⊢; tauto)) tkR_total

/-- The hypotheses of `c55_rearranged` hold for `arith` and `arithR`; on every input they do the same. -/
theorem arithR_same : (arithR.gen.entries.map (·.name)).Perm (arith.gen.entries.map (·.name)) ∧
    ∀ ep ∈ arith.gen.entries, ∀ ep' ∈ arithR.gen.entries, ep'.name = ep.name →
      SameBehaviour arith arithR ep ep' := by
  refine c55_rearranged arith_rearranged rfl rfl rfl ?_ arith_regular.names arith_harmless (by decide)
  intro t c hc c' hc' h1 h2
  replace hc : c ∈ tk.conversions := hc
  replace hc' : c' ∈ tk.conversions := hc'
  replace h1 : capture c.to t.toR ≠ none := h1
  replace h2 : capture c'.to t.toR ≠ none := h2
  simp only [tk, List.mem_cons, List.not_mem_nil, or_false] at hc hc'
  rcases hc with rfl | rfl | rfl | rfl <;> rcases hc' with rfl | rfl | rfl | rfl <;>
    first
    | rfl
    | (exfalso; cases t <;> first | exact h1 rfl | exact h2 rfl)

set_option maxRecDepth 10000 in
/-- The message lists the expected terminals in the new order; compare `arith_syntax`. -/
theorem arithR_syntax : run arithR 1 (stream [.num 1, .plus, .rp, .num 2]) [] 100 =
    some (.parserError ")" "(, n", [("Term", 0), ("Expr", 1)], 3) := by decide +kernel

/-- An additional definition. -/
def arithMoreDefs : List (AstNonTerminal (Act Log) String) :=
  ⟨true, "Both", "u64",
    [⟨[.nonTerminal "Term", .nonTerminal "Term"], logged (fun _ => 0) "Both" 0⟩]⟩ :: arithDefs

set_option maxRecDepth 10000 in
theorem arithMore_ok : (parserMacro .insertion code.mkPath (itemsOf arithMoreDefs)).isOk = true := by
  decide +kernel

def arithMore : Compiled (Act Log) String Nat Log Tk := program arithMoreDefs arithMore_ok

theorem arithMore_harmless : UHarmless arithMore.defs :=
  .of_no_empty (defs := arithMoreDefs) (by
    intro d hd p hp
    simp only [arithMoreDefs, arithDefs, List.mem_cons, List.not_mem_nil, or_false] at hd
    rcases hd with rfl | rfl | rfl <;>
      simp only [List.mem_cons, List.not_mem_nil, or_false] at hp <;>
      rcases hp with rfl | rfl <;> simp)

/-- The hypotheses of `c55_extend` hold for `arith` and `arithMore`. -/
example {ep : EntryPoint} (hep : ep ∈ arith.gen.entries) : ∃ ep' ∈ arithMore.gen.entries,
    ep'.name = ep.name ∧ SameBehaviour arith arithMore ep ep' := by
  have hd : arith.defs = arithDefs := rfl
  have hd' : arithMore.defs = arithMoreDefs := rfl
  refine c55_extend (P := arith) (P' := arithMore) rfl ?_ arith_regular.names ?_ arithMore_harmless
    (fun _ => rfl) (fun _ => rfl) ?_ hep
  · rw [hd']; decide
  · rw [hd, hd']
    exact fun d hd => ⟨d, List.mem_cons_of_mem _ hd, rfl, rfl, rfl, .refl _⟩
  · rw [hd']; decide

/-! ### The condition on empty productions is needed -/

/-- ```
D: u64 = { => 0 }   A: u64 = { "n" => 0, D => 0 }   Y: u64 = { A ")" => 0 }   X: u64 = { "(" => 0 }
pub S: u64 = { X Y => 0 }
``` -/
def orderDefs : List (AstNonTerminal (Act Unit) String) :=
  [ ⟨false, "D", "u64", [⟨[], unitAct⟩]⟩,
    ⟨false, "A", "u64", [⟨[.terminal "n"], unitAct⟩, ⟨[.nonTerminal "D"], unitAct⟩]⟩,
    ⟨false, "Y", "u64", [⟨[.nonTerminal "A", .terminal ")"], unitAct⟩]⟩,
    ⟨false, "X", "u64", [⟨[.terminal "("], unitAct⟩]⟩,
    ⟨true, "S", "u64", [⟨[.nonTerminal "X", .nonTerminal "Y"], unitAct⟩]⟩ ]

/-- The same with the first two definitions exchanged. -/
def orderDefs' : List (AstNonTerminal (Act Unit) String) :=
  [ ⟨false, "A", "u64", [⟨[.terminal "n"], unitAct⟩, ⟨[.nonTerminal "D"], unitAct⟩]⟩,
    ⟨false, "D", "u64", [⟨[], unitAct⟩]⟩,
    ⟨false, "Y", "u64", [⟨[.nonTerminal "A", .terminal ")"], unitAct⟩]⟩,
    ⟨false, "X", "u64", [⟨[.terminal "("], unitAct⟩]⟩,
    ⟨true, "S", "u64", [⟨[.nonTerminal "X", .nonTerminal "Y"], unitAct⟩]⟩ ]

set_option maxRecDepth 10000 in
theorem order_ok : (parserMacro .insertion code.mkPath (itemsOf orderDefs)).isOk = true := by
  decide +kernel

set_option maxRecDepth 10000 in
theorem order_ok' : (parserMacro .insertion code.mkPath (itemsOf orderDefs')).isOk = true := by
  decide +kernel

set_option maxRecDepth 10000 in
/-- Exchanging two definitions of this grammar, which is not harmless (first.rs:79-82), changes the
language of the emitted parser: `( n )` is accepted by one and rejected by the other. -/
theorem c55_order_matters : Rearranged orderDefs orderDefs' ∧
    run (program orderDefs order_ok) 0 (stream [.lp, .num 1, .rp]) () 100 =
      some (.parserError "n" ")", (), 2) ∧
    run (program orderDefs' order_ok') 0 (stream [.lp, .num 1, .rp]) () 100 = some (.ok 0, (), 4) := by
  refine ⟨⟨orderDefs, ?_, List.Perm.swap _ _ _⟩, by decide +kernel, by decide +kernel⟩
  have : ∀ l : List (AstNonTerminal (Act Unit) String), List.Forall₂ AstNonTerminal.SameAs l l := by
    intro l
    induction l with
    | nil => exact .nil
    | cons d l ih => exact .cons ⟨rfl, rfl, rfl, .refl _⟩ ih
  exact this _

/-- ```
A: u64 = { B => 0 }   B: u64 = { C => 0 }   C: u64 = { => 0 }   X: u64 = { "(" => 0 }
pub S: u64 = { X A ")" => 0 }
``` -/
def unusedDefs : List (AstNonTerminal (Act Unit) String) :=
  [ ⟨false, "A", "u64", [⟨[.nonTerminal "B"], unitAct⟩]⟩,
    ⟨false, "B", "u64", [⟨[.nonTerminal "C"], unitAct⟩]⟩,
    ⟨false, "C", "u64", [⟨[], unitAct⟩]⟩,
    ⟨false, "X", "u64", [⟨[.terminal "("], unitAct⟩]⟩,
    ⟨true, "S", "u64", [⟨[.nonTerminal "X", .nonTerminal "A", .terminal ")"], unitAct⟩]⟩ ]

/-- Three definitions that are not used. -/
def unusedMore : List (AstNonTerminal (Act Unit) String) :=
  [ ⟨false, "U", "u64", [⟨[.nonTerminal "V"], unitAct⟩]⟩,
    ⟨false, "V", "u64", [⟨[.nonTerminal "Z"], unitAct⟩]⟩,
    ⟨false, "Z", "u64", [⟨[.terminal "+"], unitAct⟩]⟩ ]

set_option maxRecDepth 10000 in
theorem unused_ok : (parserMacro .insertion code.mkPath (itemsOf unusedDefs)).isOk = true := by
  decide +kernel

set_option maxRecDepth 10000 in
theorem unusedMore_ok :
    (parserMacro .insertion code.mkPath (itemsOf (unusedDefs ++ unusedMore))).isOk = true := by
  decide +kernel

set_option maxRecDepth 10000 in
/-- Adding definitions that are not used to this grammar, which is not harmless (first.rs:97), changes
the language of the emitted parser: `( )` is rejected by one and accepted by the other. -/
theorem c55_unused_matters :
    run (program unusedDefs unused_ok) 0 (stream [.lp, .rp]) () 100 =
      some (.parserError "(" "", (), 1) ∧
    run (program (unusedDefs ++ unusedMore) unusedMore_ok) 0 (stream [.lp, .rp]) () 100 =
      some (.ok 0, (), 3) :=
  ⟨by decide +kernel, by decide +kernel⟩

/-- ```
C: u64 = { D => 0 }   B: u64 = { B "+" => 0, C => 0 }   D: u64 = { => 0 }   X: u64 = { "(" => 0 }
pub S: u64 = { X B ")" => 0 }
``` -/
def prodDefs : List (AstNonTerminal (Act Unit) String) :=
  [ ⟨false, "C", "u64", [⟨[.nonTerminal "D"], unitAct⟩]⟩,
    ⟨false, "B", "u64", [⟨[.nonTerminal "B", .terminal "+"], unitAct⟩, ⟨[.nonTerminal "C"], unitAct⟩]⟩,
    ⟨false, "D", "u64", [⟨[], unitAct⟩]⟩,
    ⟨false, "X", "u64", [⟨[.terminal "("], unitAct⟩]⟩,
    ⟨true, "S", "u64", [⟨[.nonTerminal "X", .nonTerminal "B", .terminal ")"], unitAct⟩]⟩ ]

/-- The same with the two productions of `B` exchanged. -/
def prodDefs' : List (AstNonTerminal (Act Unit) String) :=
  [ ⟨false, "C", "u64", [⟨[.nonTerminal "D"], unitAct⟩]⟩,
    ⟨false, "B", "u64", [⟨[.nonTerminal "C"], unitAct⟩, ⟨[.nonTerminal "B", .terminal "+"], unitAct⟩]⟩,
    ⟨false, "D", "u64", [⟨[], unitAct⟩]⟩,
    ⟨false, "X", "u64", [⟨[.terminal "("], unitAct⟩]⟩,
    ⟨true, "S", "u64", [⟨[.nonTerminal "X", .nonTerminal "B", .terminal ")"], unitAct⟩]⟩ ]

set_option maxRecDepth 10000 in
theorem prod_ok : (parserMacro .insertion code.mkPath (itemsOf prodDefs)).isOk = true := by
  decide +kernel

set_option maxRecDepth 10000 in
theorem prod_ok' : (parserMacro .insertion code.mkPath (itemsOf prodDefs')).isOk = true := by
  decide +kernel

set_option maxRecDepth 10000 in
/-- The order of the productions within one definition can matter as well: `( + )` is rejected by one of
these parsers and accepted by the other. -/
theorem c55_production_order_matters : Rearranged prodDefs prodDefs' ∧
    run (program prodDefs prod_ok) 0 (stream [.lp, .plus, .rp]) () 100 =
      some (.parserError "+" ")", (), 2) ∧
    run (program prodDefs' prod_ok') 0 (stream [.lp, .plus, .rp]) () 100 = some (.ok 0, (), 4) := by
  refine ⟨⟨prodDefs', ?_, .refl _⟩, by decide +kernel, by decide +kernel⟩
  exact .cons ⟨rfl, rfl, rfl, .refl _⟩ (.cons ⟨rfl, rfl, rfl, List.Perm.swap _ _ _⟩
    (.cons ⟨rfl, rfl, rfl, .refl _⟩ (.cons ⟨rfl, rfl, rfl, .refl _⟩ (.cons ⟨rfl, rfl, rfl, .refl _⟩ .nil))))

/-! ### `c55_accepted` needs an LR(1) grammar -/

/-- ```
pub S: u64 = { A "+" => 0, B => 0 }   A: u64 = { "+" => 0 }   B: u64 = { "+" "+" => 0 }
``` -/
def clashDefs : List (AstNonTerminal (Act Unit) String) :=
  [ ⟨true, "S", "u64",
      [⟨[.nonTerminal "A", .terminal "+"], unitAct⟩, ⟨[.nonTerminal "B"], unitAct⟩]⟩,
    ⟨false, "A", "u64", [⟨[.terminal "+"], unitAct⟩]⟩,
    ⟨false, "B", "u64", [⟨[.terminal "+", .terminal "+"], unitAct⟩]⟩ ]

/-- The same with the last two definitions exchanged. -/
def clashDefs' : List (AstNonTerminal (Act Unit) String) :=
  [ ⟨true, "S", "u64",
      [⟨[.nonTerminal "A", .terminal "+"], unitAct⟩, ⟨[.nonTerminal "B"], unitAct⟩]⟩,
    ⟨false, "B", "u64", [⟨[.terminal "+", .terminal "+"], unitAct⟩]⟩,
    ⟨false, "A", "u64", [⟨[.terminal "+"], unitAct⟩]⟩ ]

set_option maxRecDepth 10000 in
/-- Whether a shift/reduce conflict is reported (C21) depends on the order of definitions: one of these
grammars is accepted, the other is not. -/
theorem c55_conflict_order : Rearranged clashDefs clashDefs' ∧
    (parserMacro .insertion (code (W := Unit)).mkPath (itemsOf clashDefs)).isOk = true ∧
    (parserMacro .insertion (code (W := Unit)).mkPath (itemsOf clashDefs')).isOk = false := by
  refine ⟨⟨clashDefs, ?_, .cons _ (List.Perm.swap _ _ _)⟩, by decide +kernel, by decide +kernel⟩
  exact .cons ⟨rfl, rfl, rfl, .refl _⟩
    (.cons ⟨rfl, rfl, rfl, .refl _⟩ (.cons ⟨rfl, rfl, rfl, .refl _⟩ .nil))

end Examples

end Parsegen
