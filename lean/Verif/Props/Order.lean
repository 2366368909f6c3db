import Verif.Proofs.Order
import Verif.Props.Conflicts

/-! # C19: nothing depends on the iteration order of hash containers -/

namespace Parsegen

variable {X A Ty V W Tok E : Type}

/-! ## The stages of the generator -/

/-- **C19.** The FIRST sets. -/
theorem c19_first (h h' : HashOrder) (g : Grammar A Ty) (nt t : Nat) :
    (t ∈ ((generateFirstTable h g).get nt).terminals ↔
      t ∈ ((generateFirstTable h' g).get nt).terminals) ∧
    ((generateFirstTable h g).get nt).empty = ((generateFirstTable h' g).get nt).empty :=
  ⟨(generateFirstTable_same h h' g).mem nt t, (generateFirstTable_same h h' g).empty nt⟩

/-- **C19.** The closure of a set of items, each computed with its own FIRST table. -/
theorem c19_closure {g : Grammar A Ty} (hwf : g.WF) (h h' : HashOrder) {items : List Item}
    (hla : ∀ x ∈ items, ∀ t, x.la = some t → t < g.nTerminals) :
    computeClosure h g (generateFirstTable h g) items =
      computeClosure h' g (generateFirstTable h' g) items :=
  computeClosure_same hwf (generateFirstTable_ok hwf h) (generateFirstTable_ok hwf h')
    (generateFirstTable_same h h' g) h h' hla

/-- **C19.** The automaton: the same states under the same numbers, with the same transitions and entry
points. -/
theorem c19_automaton {g : Grammar A Ty} (hwf : g.WF) (h h' : HashOrder) :
    generateAutomaton h g (generateFirstTable h g) =
      generateAutomaton h' g (generateFirstTable h' g) :=
  generateAutomaton_same hwf (generateFirstTable_ok hwf h) (generateFirstTable_ok hwf h')
    (generateFirstTable_same h h' g) h h'

/-! ## The macro -/

variable [DecidableEq Ty]

theorem parserMacro_same {mkPath : String → X} {items : List (GrammarItem X Ty)}
    (hsz : loweredCount (itemNonTerminals items) ≤ 4294967296) (h h' : HashOrder) :
    ExRel (fun a b => Generated.Same a.1 b.1 ∧ b.2 = a.2) (parserMacro h mkPath items)
      (parserMacro h' mkPath items) := by
  unfold parserMacro
  rcases hm : macroItems items with f | ⟨nts, te⟩
  · exact .error f
  obtain ⟨rfl, ht, _⟩ := (macroItems_iff _ _ _).1 hm
  rw [Except.bind_ok, Except.bind_ok]
  dsimp only
  rcases hl : lower mkPath (itemNonTerminals items) te.conversions with f | g
  · exact .error f
  rw [Except.bind_ok, Except.bind_ok]
  obtain ⟨nts, ts, hl'⟩ := lower_ok (by rw [← loweredCount_eq]; exact hsz) hl
  exact (generateParser_same hl'.wf h h').bind fun a b hab => .ok ⟨hab, rfl⟩

/-- **C19.** Whether the macro accepts, and the panic if it does not, is the same for every iteration
order. -/
theorem c19_error {mkPath : String → X} {items : List (GrammarItem X Ty)}
    (hsz : loweredCount (itemNonTerminals items) ≤ 4294967296) (h h' : HashOrder) (f : Fault) :
    parserMacro h mkPath items = .error f ↔ parserMacro h' mkPath items = .error f := by
  have key : ∀ h h' : HashOrder, parserMacro h mkPath items = .error f →
      parserMacro h' mkPath items = .error f := by
    intro h h' he
    have := parserMacro_same (mkPath := mkPath) hsz h h'
    rw [he] at this
    generalize hb : parserMacro h' mkPath items = b at this
    cases this; rfl
  exact ⟨key h h', key h' h⟩

/-- **C19.** The emitted code is the same for every iteration order, up to the order in which the parser
structs are written (lr_codegen.rs:75 iterates over a hash map): the tables, semantic actions, messages
and token functions are equal, and the parser structs are the same with the same constants. -/
theorem c19_ok {mkPath : String → X} {items : List (GrammarItem X Ty)}
    (hsz : loweredCount (itemNonTerminals items) ≤ 4294967296) (h h' : HashOrder)
    {gen : Generated X} {te : TokenEnum Ty} (hg : parserMacro h mkPath items = .ok (gen, te)) :
    ∃ entries', parserMacro h' mkPath items = .ok ({ gen with entries := entries' }, te) ∧
      entries'.Perm gen.entries := by
  have := parserMacro_same (mkPath := mkPath) hsz h h'
  rw [hg] at this
  generalize hb : parserMacro h' mkPath items = b at this
  cases this with
  | ok hr =>
    next b =>
    obtain ⟨gen', te'⟩ := b
    obtain ⟨⟨h1, h2⟩, h3⟩ := hr
    dsimp only at h1 h2 h3
    subst h3
    exact ⟨gen'.entries, by rw [← h1], h2⟩

/-- **C19.** The parsers behave the same: for every iteration order the same parser structs exist, and
each returns the same outcome, leaves the same world and makes the same calls on every input. -/
theorem c19_behaviour {mkPath : String → X} {items : List (GrammarItem X Ty)}
    (hsz : loweredCount (itemNonTerminals items) ≤ 4294967296) (h h' : HashOrder)
    {gen : Generated X} {te : TokenEnum Ty} (hg : parserMacro h mkPath items = .ok (gen, te)) :
    ∃ gen', parserMacro h' mkPath items = .ok (gen', te) ∧
      (∀ ep, ep ∈ gen'.entries ↔ ep ∈ gen.entries) ∧
      ∀ (u : UserCode X V W) (tf : TokenFns Tok V) (input : Nat → Option (Except E Tok))
        (ep : EntryPoint) (w : W) (fuel : Nat),
        parse gen' u tf input ep w fuel = parse gen u tf input ep w fuel := by
  obtain ⟨en, h1, h2⟩ := c19_ok hsz h h' hg
  refine ⟨_, h1, fun ep => h2.mem_iff, ?_⟩
  intro u tf input ep w fuel
  have hstep : ∀ s : PState Tok V W E, parseStep { gen with entries := en } u tf input ep s =
      parseStep gen u tf input ep s := fun s => rfl
  have hloop : ∀ (n : Nat) (s : PState Tok V W E),
      parseLoop { gen with entries := en } u tf input ep n s = parseLoop gen u tf input ep n s := by
    intro n
    induction n with
    | zero => intro s; rfl
    | succ n ih =>
      intro s
      unfold parseLoop
      rw [hstep]
      split
      · rfl
      · exact ih _
  exact hloop fuel _

namespace Examples

set_option maxRecDepth 10000 in
/-- The hypotheses are met by `arith`, whose parser structs do come in another order when the hash
containers are iterated in reverse. -/
example : loweredCount (itemNonTerminals (itemsOf arithDefs)) ≤ 4294967296 ∧
    ((parserMacro .insertion code.mkPath (itemsOf arithDefs)).toOption.map
      fun r => r.1.entries.map (·.name)) = some ["Expr", "Term"] ∧
    ((parserMacro .reversed code.mkPath (itemsOf arithDefs)).toOption.map
      fun r => r.1.entries.map (·.name)) = some ["Term", "Expr"] := by
  refine ⟨by decide, by decide +kernel, by decide +kernel⟩

end Examples

end Parsegen
