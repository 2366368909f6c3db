import Verif.Proofs.Rename
import Verif.Props.Lower
import Verif.Props.Examples

/-! # C59: the names of non-terminals and terminals do not matter -/

namespace Parsegen

variable {X Ty V W Tok E : Type} [DecidableEq Ty] {ρ σ : String → String}

/-! ## The emitted code -/

omit [DecidableEq Ty] in
theorem classify_rename (σ : String → String) (cs : List (Conversion Ty)) (v : RVal) :
    classify (cs.map (·.rename σ)) v = (classify cs v).map fun r => (σ r.1, r.2) := by
  induction cs with
  | nil => rfl
  | cons c cs ih =>
    have e : (c.rename σ).to = c.to := rfl
    simp only [List.map_cons, classify, e, ih]
    cases capture c.to v <;> rfl

omit [DecidableEq Ty] in
theorem tokenTerminalIdx_rename (σ : String → String) : ∀ (cs : List (Conversion Ty)) (i : Nat)
    (v : RVal), tokenTerminalIdx (cs.map (·.rename σ)) i v = tokenTerminalIdx cs i v
  | [], i, v => rfl
  | c :: cs, i, v => by
    have e : (c.rename σ).to = c.to := rfl
    simp only [List.map_cons, tokenTerminalIdx, e, tokenTerminalIdx_rename σ cs]

omit [DecidableEq Ty] in
theorem tokenValue_rename (σ : String → String) : ∀ (cs : List (Conversion Ty)) (i : Nat)
    (v : RVal), tokenValue (cs.map (·.rename σ)) i v = tokenValue cs i v
  | [], i, v => rfl
  | c :: cs, i, v => by
    have e : (c.rename σ).to = c.to := rfl
    simp only [List.map_cons, tokenValue, e, tokenValue_rename σ cs]

omit [DecidableEq Ty] in
/-- One step of the two emitted parsers. -/
theorem RenGenerated.step {terms : List String} {gen gen' : Generated X}
    (h : RenGenerated ρ σ terms gen gen') (u : UserCode X V W) (tf : TokenFns Tok V)
    (input : Nat → Option (Except E Tok)) {ep ep' : EntryPoint} (he : RenEntry ρ ep ep')
    (s : PState Tok V W E) :
    (∃ s', parseStep gen u tf input ep s = .next s' ∧ parseStep gen' u tf input ep' s = .next s') ∨
    ∃ o o' s', parseStep gen u tf input ep s = .done o s' ∧
      parseStep gen' u tf input ep' s = .done o' s' ∧ RenamedOutcome σ terms o o' := by
  have hl : lookaheadIdx gen' tf s.token = lookaheadIdx gen tf s.token := by
    unfold lookaheadIdx; rw [h.nTerminals]
  have hacc : acceptStep gen' u ep'.extract ep'.actionIdx s =
      acceptStep gen u ep.extract ep.actionIdx s := by
    unfold acceptStep; rw [h.semActions, he.extract, he.actionIdx]
  have hred : ∀ nt n sem, reduceStep gen' u nt n sem s = reduceStep gen u nt n sem s := by
    intro nt n sem; unfold reduceStep; rw [h.semActions, h.goto]
  unfold parseStep
  cases s.states with
  | nil => exact .inr ⟨_, _, _, rfl, rfl, rfl⟩
  | cons q qs =>
    simp only [hl, h.action, hred, hacc]
    cases lookaheadIdx gen tf s.token with
    | error e => exact .inr ⟨_, _, _, rfl, rfl, rfl⟩
    | ok ti =>
      dsimp only
      cases gen.action[q]? with
      | none => exact .inr ⟨_, _, _, rfl, rfl, rfl⟩
      | some row =>
        dsimp only
        cases row[ti]? with
        | none => exact .inr ⟨_, _, _, rfl, rfl, rfl⟩
        | some cell =>
          cases cell with
          | none =>
            obtain ⟨L, hL, hL1, hL2⟩ := h.expected
            dsimp only
            rw [h.strs, h.strs', hL1, hL2, List.getElem?_map, List.getElem?_map]
            cases hq : L[q]? with
            | none =>
              simp only [Option.map_none]
              refine .inr ⟨.fault .indexOutOfBounds, .fault .indexOutOfBounds, s, ?_, ?_, rfl⟩ <;>
                split <;> simp_all
            | some l =>
              simp only [Option.map_some]
              rcases Nat.lt_trichotomy ti terms.length with hlt | rfl | hgt
              · rw [List.getElem?_append_left hlt, List.getElem?_append_left (by simpa using hlt),
                  List.getElem?_map, List.getElem?_eq_getElem hlt]
                exact .inr ⟨_, _, _, rfl, rfl, .inl ⟨List.getElem_mem hlt, rfl⟩, l,
                  hL l (List.mem_of_getElem? hq), rfl, rfl⟩
              · rw [List.getElem?_concat_length]
                have : (terms.map σ ++ ["end-of-input"])[terms.length]? = some "end-of-input" := by
                  have := List.getElem?_concat_length (l := terms.map σ) (a := "end-of-input")
                  rwa [List.length_map] at this
                rw [this]
                exact .inr ⟨_, _, _, rfl, rfl, .inr ⟨rfl, rfl⟩, l,
                  hL l (List.mem_of_getElem? hq), rfl, rfl⟩
              · rw [List.getElem?_eq_none (by simp; omega), List.getElem?_eq_none (by simp; omega)]
                exact .inr ⟨_, _, _, rfl, rfl, rfl⟩
          | some a =>
            cases a with
            | shift nx => exact .inl ⟨_, rfl, rfl⟩
            | reduce nt n sem =>
              dsimp only
              cases reduceStep gen u nt n sem s with
              | error e => exact .inr ⟨_, _, _, rfl, rfl, rfl⟩
              | ok s' => exact .inl ⟨_, rfl, rfl⟩
            | accept =>
              refine .inr ⟨_, _, _, rfl, rfl, ?_⟩
              unfold acceptStep
              repeat' split
              all_goals rfl

omit [DecidableEq Ty] in
theorem RenGenerated.loop {terms : List String} {gen gen' : Generated X}
    (h : RenGenerated ρ σ terms gen gen') (u : UserCode X V W) (tf : TokenFns Tok V)
    (input : Nat → Option (Except E Tok)) {ep ep' : EntryPoint} (he : RenEntry ρ ep ep') :
    ∀ (fuel : Nat) (s : PState Tok V W E),
    (parseLoop gen u tf input ep fuel s = none ∧ parseLoop gen' u tf input ep' fuel s = none) ∨
    ∃ o o' s', parseLoop gen u tf input ep fuel s = some (o, s') ∧
      parseLoop gen' u tf input ep' fuel s = some (o', s') ∧ RenamedOutcome σ terms o o'
  | 0, s => .inl ⟨rfl, rfl⟩
  | fuel + 1, s => by
    simp only [parseLoop]
    rcases h.step u tf input he s with ⟨s', e1, e2⟩ | ⟨o, o', s', e1, e2, ho⟩
    · rw [e1, e2]; exact RenGenerated.loop h u tf input he fuel s'
    · rw [e1, e2]; exact .inr ⟨o, o', s', rfl, rfl, ho⟩

/-! ## C59 -/

/-- **C59.** Two programs that differ in the names of their non-terminals and terminals only: they have
the same entry points, renamed, in the same order, and each of them behaves the same, up to the names
of terminals in error messages. -/
theorem c59_rename (hρ : Function.Injective ρ) (hσ : Function.Injective σ)
    {P P' : Compiled X Ty V W Tok} (hitems : P'.items = P.items.map (·.rename ρ σ))
    (horder : P'.order = P.order) (hcode : P'.code = P.code) (htoR : P'.toR = P.toR)
    (hinj : P'.inj = P.inj) :
    List.Forall₂ (fun ep ep' => ep'.name = ρ ep.name ∧ RenamedBehaviour σ P P' ep ep')
      P.gen.entries P'.gen.entries := by
  have hacc := P.accepted
  have hacc' := P'.accepted
  rw [hitems, horder, hcode] at hacc'
  rcases parserMacro_ren hρ hσ P.order P.code.mkPath P.items with
    ⟨f, f', e1, _⟩ | ⟨gen, gen', t, e1, e2, hr⟩
  · rw [hacc] at e1; cases e1
  rw [hacc] at e1
  rw [hacc'] at e2
  obtain ⟨e3, e4⟩ := Prod.mk.inj (Except.ok.inj e1)
  obtain ⟨e5, e6⟩ := Prod.mk.inj (Except.ok.inj e2)
  subst e3 e4 e5
  have htf : P'.tf = P.tf := by
    have i1 : P'.tf.terminalIdx = P.tf.terminalIdx := by
      funext t
      have := P'.idx t
      rw [e6, htoR] at this
      simp only [TokenEnum.rename, tokenTerminalIdx_rename] at this
      rw [P.idx t] at this
      exact (Option.some.inj this).symm
    have i2 : P'.tf.value = P.tf.value := by
      funext t
      have := P'.value t
      rw [e6, htoR, hinj] at this
      simp only [TokenEnum.rename, tokenValue_rename] at this
      rw [P.value t] at this
      exact (Option.some.inj this).symm
    cases h1 : P.tf; cases h2 : P'.tf
    rw [h1, h2] at i1 i2
    dsimp only at i1 i2
    rw [i1, i2]
  refine hr.entries.imp fun ep ep' he => ⟨he.name, ?_⟩
  intro E input w w' n
  have hinit : parseInit (V := V) input ep' w = parseInit input ep w := by
    unfold parseInit; rw [he.initState]
  refine ⟨?_, ?_⟩
  · rintro o ⟨fuel, s, h1, h2, h3⟩
    unfold parse at h1
    rcases hr.loop P.code P.tf input he fuel (parseInit input ep w) with
      ⟨h4, _⟩ | ⟨o1, o', s', h4, h5, h6⟩
    · rw [h1] at h4; cases h4
    · rw [h1] at h4; cases h4
      exact ⟨o', h6, fuel, s, by unfold parse; rw [hcode, htf, hinit]; exact h5, h2, h3⟩
  · rintro o ⟨fuel, s, h1, h2, h3⟩
    unfold parse at h1
    rw [hcode, htf, hinit] at h1
    rcases hr.loop P.code P.tf input he fuel (parseInit input ep w) with
      ⟨_, h4⟩ | ⟨o1, o', s', h4, h5, h6⟩
    · rw [h1] at h4; cases h4
    · rw [h1] at h5; cases h5
      exact ⟨o1, h6, fuel, s, h4, h2, h3⟩

/-- **C59**, the renamed program compiles: whatever names are chosen, as long as different names stay
different. -/
theorem c59_compiles (hρ : Function.Injective ρ) (hσ : Function.Injective σ)
    (P : Compiled X Ty V W Tok) : ∃ P' : Compiled X Ty V W Tok,
      P'.items = P.items.map (·.rename ρ σ) ∧ P'.order = P.order ∧ P'.code = P.code ∧
      P'.toR = P.toR ∧ P'.inj = P.inj ∧ P'.tf = P.tf ∧
      ∀ t, P'.cls t = σ (P.cls t) ∧ P'.fields t = P.fields t := by
  rcases parserMacro_ren hρ hσ P.order P.code.mkPath P.items with
    ⟨f, f', e1, _⟩ | ⟨gen, gen', t, e1, e2, hr⟩
  · rw [P.accepted] at e1; cases e1
  rw [P.accepted] at e1
  obtain ⟨_, e4⟩ := Prod.mk.inj (Except.ok.inj e1)
  subst e4
  refine ⟨⟨P.order, P.code, _, gen', _, P.toR, P.inj, P.tf, e2, ?_, ?_, ?_⟩, rfl, rfl, rfl, rfl, rfl,
    rfl, ?_⟩
  · intro t
    simp only [TokenEnum.rename, tokenTerminalIdx_rename]
    exact P.idx t
  · intro t
    simp only [TokenEnum.rename, tokenValue_rename]
    exact P.value t
  · intro c hc
    obtain ⟨c, hc', rfl⟩ := List.mem_map.1 hc
    exact P.simple c hc'
  · intro t
    simp only [Compiled.cls, Compiled.fields, TokenEnum.rename, classify_rename, Option.map_map]
    have : (classify P.tokens.conversions (P.toR t)).isSome = true := by
      have := P.idx t
      rw [tokenTerminalIdx_eq] at this
      obtain ⟨c, caps, _, _, hc⟩ := classify_firstMatch (by simpa using this)
      rw [hc]; rfl
    obtain ⟨r, hr⟩ := Option.isSome_iff_exists.1 this
    rw [hr]
    exact ⟨rfl, rfl⟩

/-- **C59**, acceptance and panics: the macro panics on the renamed input exactly if it does on the
original, for the same reason, about the renamed name. -/
theorem c59_panics (hρ : Function.Injective ρ) (hσ : Function.Injective σ) {h : HashOrder}
    {mkPath : String → X} {items : List (GrammarItem X Ty)}
    (hsz : loweredCount (itemNonTerminals items) ≤ 4294967296) (f' : Fault) :
    parserMacro h mkPath (items.map (·.rename ρ σ)) = .error f' ↔
      ∃ f, parserMacro h mkPath items = .error f ∧ f' = f.rename ρ σ := by
  rcases parserMacro_ren hρ hσ h mkPath items with ⟨f, f1, e1, e2, h3, h4⟩ | ⟨gen, gen', t, e1, e2, hr⟩
  · have hf : f1 = f.rename ρ σ := by
      by_contra hne
      obtain ⟨nts, t, g, m1, m2, m3⟩ := h4 hne
      have hfe : f1 = f := h3.resolve_right hne
      apply hne
      rw [hfe]
      obtain ⟨n1, _, _⟩ := (macroItems_iff _ _ _).1 m1
      subst n1
      obtain ⟨nts, ts, hl⟩ := lower_ok (by rw [← loweredCount_eq]; exact hsz) m2
      obtain ⟨a, _, hs | ⟨q, st, hst, hc, _⟩⟩ := generateParser_error hl.wf m3
      · rcases hs with ⟨rfl, _⟩ | ⟨rfl, _⟩ <;> rfl
      · obtain ⟨it, _, it', _, _, _, hcf⟩ := hc
        rcases hcf with ⟨_, rfl, _⟩ | ⟨rfl, _⟩ | ⟨rfl, _⟩ <;> rfl
    rw [e1, e2]
    constructor
    · intro h; cases h; exact ⟨f, rfl, hf⟩
    · rintro ⟨_, h, rfl⟩; cases h; rw [hf]
  · rw [e1, e2]
    constructor
    · intro h; cases h
    · rintro ⟨_, h, _⟩; cases h

/-! ## Concrete case

`Term` becomes `Expr1`, which is also the name lower.rs:47 makes up for the definition of the public
non-terminal `Expr`; the terminal `"n"` becomes `"end-of-input"`, which is also the name of the end of
the input in error messages (codegen.rs:507). -/

namespace Examples

/-- Exchange two names. -/
def exchange (a b s : String) : String := if s = a then b else if s = b then a else s

theorem exchange_inj (a b : String) : Function.Injective (exchange a b) := by
  intro s s' h
  unfold exchange at h
  split at h <;> split at h <;> (try split at h) <;> (try split at h) <;> simp_all

def newNt : String → String := exchange "Term" "Expr1"
def newTerm : String → String := exchange "n" "end-of-input"

theorem newNt_inj : Function.Injective newNt := exchange_inj _ _
theorem newTerm_inj : Function.Injective newTerm := exchange_inj _ _

/-- The renamed program compiles and all its entry points behave the same. -/
theorem arithRen : ∃ P' : Compiled (Act Log) String Nat Log Tk,
    P'.items = arith.items.map (·.rename newNt newTerm) ∧
    List.Forall₂ (fun ep ep' => ep'.name = newNt ep.name ∧ RenamedBehaviour newTerm arith P' ep ep')
      arith.gen.entries P'.gen.entries := by
  obtain ⟨P', h1, h2, h3, h4, h5, _⟩ := c59_compiles newNt_inj newTerm_inj arith
  exact ⟨P', h1, c59_rename newNt_inj newTerm_inj h1 h2 h3 h4 h5⟩

/-- `arith` with the new names. -/
def arithRenItems : List (GrammarItem (Act Log) String) := arith.items.map (·.rename newNt newTerm)

set_option maxRecDepth 10000 in
/-- The emitted parser for the new names, computed. -/
theorem arithRen_names :
    ((parserMacro .insertion (code (W := Log)).mkPath arithRenItems).toOption.map fun r =>
      (r.1.entries.map (·.name), r.1.terminalStrs, r.1.expected.head?)) =
    some (["Expr", "Expr1"], ["+", "end-of-input", "(", ")", "end-of-input"],
      some "end-of-input, (") := by decide +kernel

set_option maxRecDepth 10000 in
/-- A panic about a name (`c59_panics`): the grammar uses a non-terminal that is not defined. -/
theorem undefRen_panics : parserMacro .insertion (code (W := Log)).mkPath
    ((itemsOf [⟨true, "Expr", "u64", [⟨[.nonTerminal "Term"], logged (fun _ => 0) "Expr" 0⟩]⟩]).map
      (·.rename newNt newTerm)) = .error (.undefinedNonTerminal "Expr1") := by
  rw [c59_panics newNt_inj newTerm_inj (by decide)]
  refine ⟨.undefinedNonTerminal "Term", ?_, by decide⟩
  rfl

end Examples

end Parsegen
