import Verif.Proofs.Names
import Verif.Props.Run

/-! # Properties of lowering: C24-C27, and of the macro's treatment of its items: C35 -/

namespace Parsegen

variable {X Ty Tok V W : Type} {mkPath : String → X} {asts : List (AstNonTerminal X Ty)}
  {convs : List (Conversion Ty)} {g : Grammar X Ty}

theorem loweredCount_eq : loweredCount asts = (asts.map (·.width)).sum := by
  unfold loweredCount
  induction asts with
  | nil => rfl
  | cons a l ih =>
    simp only [List.map_cons, List.sum_cons, List.length_cons, List.filter_cons]
    by_cases hp : a.isPub = true
    · have : a.width = 2 := by simp [AstNonTerminal.width, hp]
      simp only [hp, if_true, List.length_cons]; omega
    · have : a.width = 1 := by simp [AstNonTerminal.width, hp]
      simp only [hp]; simp only [Bool.false_eq_true, if_false]; omega

/-- Read off a computed result. -/
theorem Except.ok_of_map {α β : Type} {x : Except Fault α} {f : α → β} {r : β}
    (h : x.toOption.map f = some r) : ∃ a, x = .ok a ∧ f a = r := by
  cases x with
  | error e => cases h
  | ok a => exact ⟨a, rfl, by simpa [Except.toOption] using h⟩

theorem lowersSym_same {nts ts : AMap String Nat} {terms : List String} (ht : TermMap terms ts)
    {s : AstSymbol} {b : BoundSymbol} (h : LowersSym nts ts s b) :
    SameSymbol (fun n => nts.get? n) terms s b := by
  refine ⟨h.1, ?_⟩
  rcases h.2 with ⟨n, i, h1, h2, h3⟩ | ⟨n, i, h1, h2, h3⟩
  · rw [h1, h3]; exact h2
  · rw [h1, h3]; exact (ht _ _).1 h2

theorem forall₂_imp {α β : Type} {R S : α → β → Prop} {a : List α} {b : List β}
    (hi : ∀ x y, R x y → S x y) (h : List.Forall₂ R a b) : List.Forall₂ S a b := by
  induction h with
  | nil => exact .nil
  | cons h _ ih => exact .cons (hi _ _ h) ih

/-! ## C24 Lowering preserves the user's grammar -/

/-- **C24**, productions.  The lowered terminals are the declared ones in order; every user
non-terminal gets its own number, and under that number the lowered grammar has exactly the user's
productions for that name, in order, with symbols resolved by name, names bound and actions kept.
The declared names, types and visibilities appear in order. -/
theorem c24_productions (hsz : loweredCount asts ≤ 4294967296)
    (h : lower mkPath asts convs = .ok g) :
    g.terminals = convs.map (·.from_) ∧
    g.nonTerminals.map (fun n => (n.name, n.isPublic, n.returnTy)) = (asts.flatMap fun a =>
      if a.isPub then [(a.name ++ "1", false, a.typeDecl), (a.name, true, a.typeDecl)]
      else [(a.name, false, a.typeDecl)]) ∧
    ∃ num : String → Option Nat,
      (∀ n, (∃ j, num n = some j) ↔ ∃ a ∈ asts, a.name = n) ∧
      (∀ n m j, num n = some j → num m = some j → n = m) ∧
      ∀ n j, num n = some j → ∃ nt, g.nonTerminals[j]? = some nt ∧ nt.isPublic = false ∧
        List.Forall₂ (SameProduction num g.terminals) (userProds asts n) nt.productions := by
  obtain ⟨nts, ts, hl⟩ := lower_ok (by rw [← loweredCount_eq]; exact hsz) h
  refine ⟨hl.terminals, hl.decls, fun n => nts.get? n, hl.idx, fun n m j => hl.inj, ?_⟩
  intro n j hn
  obtain ⟨nt, a, h1, _, _, _, h2, h3⟩ := hl.prods hn
  exact ⟨nt, h1, h2, forall₂_imp
    (fun p q hpq => ⟨forall₂_imp (fun s b hsb => lowersSym_same hl.tmap hsb) hpq.1, hpq.2⟩) h3⟩

/-- **C24**, language and values.  For every `pub` definition `a` (not redefined later, see C27)
there is an entry point `E` named after it which derives exactly the sentences of the user's
non-terminal and gives each derivation exactly the user's value and effects. -/
theorem c24_language (u : UserCode X V W) (hsz : loweredCount asts ≤ 4294967296)
    (h : lower u.mkPath asts convs = .ok g) {l1 l2 : List (AstNonTerminal X Ty)}
    {a : AstNonTerminal X Ty} (hasts : asts = l1 ++ a :: l2) (hpub : a.isPub = true)
    (hlast : ∀ b ∈ l2, b.name ≠ a.name) :
    ∃ E nt, g.nonTerminals[E]? = some nt ∧ nt.isPublic = true ∧ nt.name = a.name ∧
      ∀ (ti : Tok → Nat) (cls : Tok → String), (∀ t, g.terminals[ti t]? = some (cls t)) →
        ∀ toks : List Tok,
          (g.Sentence E (toks.map ti) ↔ USentence asts a.name (toks.map cls)) ∧
          ∀ (fields : Tok → List V) (w : W) (v : V) (w' : W),
            Eval g ti (g.alg u fields) [.nonTerminal E] toks w [.nt v] w' ↔
              UEval asts cls (userValues u fields) [.nonTerminal a.name] toks w [.nt v] w' := by
  obtain ⟨nts, ts, hl⟩ := lower_ok (by rw [← loweredCount_eq]; exact hsz) h
  obtain ⟨E, nt, b, n', h1, h2, h3, h4, h5, h6, _⟩ := hl.pub_mk hasts hpub
  have hb := h6 hlast
  have hprod : ∀ p α, g.HasProd E p α → p = 0 ∧ α = [.nonTerminal b] := by
    rintro p α ⟨n, pr, e1, e2, rfl⟩
    rw [h1] at e1; cases e1
    rw [h4] at e2
    cases p with
    | zero => cases e2; exact ⟨rfl, rfl⟩
    | succ p => simp at e2
  have hw : g.HasProd E 0 [.nonTerminal b] := ⟨nt, wrapperProd u.mkPath b, h1, by rw [h4]; rfl, rfl⟩
  refine ⟨E, nt, h1, h2, h3, ?_⟩
  intro ti cls hcls toks
  constructor
  · rw [hl.sentence_iff hcls hb]
    have : g.Sentence E (toks.map ti) ↔ g.Yields ti [.nonTerminal E] toks := by
      rw [Grammar.yields_iff_derives]; unfold Grammar.Sentence; rw [List.map_map]; rfl
    rw [this]
    constructor
    · rintro ⟨vs, hev⟩
      obtain ⟨p, α, us, w1, v, _, hp, hc, _⟩ := hev.nt_inv
      obtain ⟨_, rfl⟩ := hprod p α hp
      exact hc.yields
    · intro hy; exact hy.nt hw
  · intro fields w v w'
    constructor
    · intro hev
      rw [← h3]
      exact hl.entry_values u hcls h1 h2 hev
    · intro hev
      have hc := hl.user_eval hcls (algAgree_values u fields) hev _ (lowersPlain_nt hb)
      exact Eval.single_nt hw hc (hl.wrapper_node u h1 h2 v w')

/-- The two entry points of `arith`. -/
example : ∃ g, lower Examples.code.mkPath Examples.arithDefs Examples.tk.conversions = .ok g ∧
    g.nonTerminals.map (·.name) = ["Expr1", "Expr", "Term1", "Term"] ∧
    loweredCount Examples.arithDefs ≤ 4294967296 := by
  obtain ⟨g, h1, h2⟩ := Except.ok_of_map
    (x := lower Examples.code.mkPath Examples.arithDefs Examples.tk.conversions)
    (f := fun g => g.nonTerminals.map (·.name)) (r := ["Expr1", "Expr", "Term1", "Term"])
    (by decide +kernel)
  exact ⟨g, h1, h2, by decide⟩

/-! ## C25 Entry wrappers are well formed -/

/-- **C25.** In a lowered grammar every public non-terminal has exactly one production, consisting of
the non-terminal declared just before it, whose name is the public name followed by `1`; public
non-terminals occur on no right-hand side; all indices on right-hand sides are in range. -/
theorem c25_wrappers (hsz : loweredCount asts ≤ 4294967296) (h : lower mkPath asts convs = .ok g) :
    (∀ (E : Nat) nt, g.nonTerminals[E]? = some nt → nt.isPublic = true →
      ∃ (b : Nat) (n' : NonTerminal X Ty), E = b + 1 ∧ nt.productions.map (·.syms) = [[.nonTerminal b]] ∧
        g.nonTerminals[b]? = some n' ∧ n'.name = nt.name ++ "1" ∧ n'.isPublic = false) ∧
    ∀ nt ∈ g.nonTerminals, ∀ p ∈ nt.productions, ∀ s ∈ p.syms,
      match s with
      | .nonTerminal b => ∃ n, g.nonTerminals[b]? = some n ∧ n.isPublic = false
      | .terminal t => t < g.terminals.length := by
  obtain ⟨nts, ts, hl⟩ := lower_ok (by rw [← loweredCount_eq]; exact hsz) h
  have hwf := hl.wf
  have hpriv : ∀ {nt}, nt ∈ g.nonTerminals → ∀ {p}, p ∈ nt.productions → ∀ {b}, .nonTerminal b ∈ p.syms →
      ∃ n, g.nonTerminals[b]? = some n ∧ n.isPublic = false := by
    intro nt hnt p hp b hb
    obtain ⟨i, hi⟩ := List.getElem?_of_mem hnt
    obtain ⟨j, hj⟩ := List.getElem?_of_mem hp
    have hh : g.HasProd i j p.syms := ⟨nt, p, hi, hj, rfl⟩
    have h1 := hwf.nt_lt hh hb
    have h2 := hwf.nt_priv hh hb
    refine ⟨_, List.getElem?_eq_getElem h1, ?_⟩
    unfold Grammar.isPublic at h2
    rw [List.getElem?_eq_getElem h1] at h2
    exact h2
  constructor
  · intro E nt hE hp
    obtain ⟨h1, h2, n', h3, h4⟩ := hl.wrapped hE hp
    obtain ⟨n, hn, hnp⟩ := hpriv (List.mem_of_getElem? hE) (p := wrapperProd mkPath (E - 1))
      (by rw [h2]; simp) (b := E - 1) (by simp [wrapperProd, Production.syms])
    rw [h3] at hn; cases hn
    exact ⟨E - 1, n', by omega, by rw [h2]; rfl, h3, h4, hnp⟩
  · intro nt hnt p hp s hs
    cases s with
    | nonTerminal b => exact hpriv hnt hp hs
    | terminal t =>
      obtain ⟨i, hi⟩ := List.getElem?_of_mem hnt
      obtain ⟨j, hj⟩ := List.getElem?_of_mem hp
      exact hwf.term_lt ⟨nt, p, hi, hj, rfl⟩ hs

/-- `Expr` wraps `Expr1` and `Term` wraps `Term1`. -/
example : ∃ g, lower Examples.code.mkPath Examples.arithDefs Examples.tk.conversions = .ok g ∧
    g.nonTerminals.map (fun n => (n.name, n.isPublic, n.productions.length)) =
      [("Expr1", false, 2), ("Expr", true, 1), ("Term1", false, 2), ("Term", true, 1)] := by
  exact Except.ok_of_map
    (x := lower Examples.code.mkPath Examples.arithDefs Examples.tk.conversions)
    (f := fun g => g.nonTerminals.map (fun n => (n.name, n.isPublic, n.productions.length)))
    (r := [("Expr1", false, 2), ("Expr", true, 1), ("Term1", false, 2), ("Term", true, 1)])
    (by decide +kernel)

/-! ## C26 Ill-formed grammars are rejected, and only those -/

/-- **C26.** Lowering succeeds iff terminal names are distinct, every action is infallible, and every
symbol is, under its binders, a declared terminal or a defined non-terminal (so in particular no
repetition).  Otherwise the macro panics. -/
theorem c26_rejects_iff (hsz : loweredCount asts ≤ 4294967296) (hszt : convs.length ≤ 4294967296) :
    (∃ g, lower mkPath asts convs = .ok g) ↔
      (convs.map (·.from_)).Nodup ∧
      ∀ a ∈ asts, ∀ p ∈ a.productions, (∃ e, p.action = .infallible e) ∧
        ∀ s ∈ p.symbols, (∃ n, s.plain = some (.nt n) ∧ ∃ b ∈ asts, b.name = n) ∨
          (∃ t, s.plain = some (.term t) ∧ ∃ c ∈ convs, c.from_ = t) :=
  lower_ok_iff (by rw [← loweredCount_eq]; exact hsz) hszt

/-- An undefined non-terminal, an undeclared terminal, a repetition, a fallible action and a duplicate
terminal are each rejected. -/
example :
    let d (ss : List AstSymbol) (a : AstAction (Examples.Act Unit)) :
        List (AstNonTerminal (Examples.Act Unit) String) := [⟨true, "S", "()", [⟨ss, a⟩]⟩]
    let a : AstAction (Examples.Act Unit) := .infallible (fun _ w => some (0, w))
    let f : AstAction (Examples.Act Unit) := .fallible (fun _ w => some (0, w))
    let cs := Examples.tk.conversions
    (lower Examples.code.mkPath (d [.nonTerminal "T"] a) cs).isOk = false ∧
    (lower Examples.code.mkPath (d [.terminal "-"] a) cs).isOk = false ∧
    (lower Examples.code.mkPath (d [.repeat_ .plus (.terminal "+")] a) cs).isOk = false ∧
    (lower Examples.code.mkPath (d [.terminal "+"] f) cs).isOk = false ∧
    (lower Examples.code.mkPath (d [.terminal "+"] a) (cs ++ cs)).isOk = false ∧
    (lower Examples.code.mkPath (d [.terminal "+", .nonTerminal "S"] a) cs).isOk = true := by
  decide +kernel

/-! ## C27 Repeated definitions are merged -/

/-- **C27.** Definitions with the same name are not rejected: the lowered non-terminal for that name
has the productions of the first definition followed by those of the second (and nothing else). -/
theorem c27_merged (hsz : loweredCount asts ≤ 4294967296) (h : lower mkPath asts convs = .ok g)
    {l1 l2 l3 : List (AstNonTerminal X Ty)} {a b : AstNonTerminal X Ty}
    (hasts : asts = l1 ++ a :: l2 ++ b :: l3) (hab : a.name = b.name)
    (honly : ∀ c ∈ l1 ++ l2 ++ l3, c.name ≠ a.name) :
    ∃ (num : String → Option Nat) (j : Nat) (nt : NonTerminal X Ty), num a.name = some j ∧ g.nonTerminals[j]? = some nt ∧
      List.Forall₂ (SameProduction num g.terminals) (a.productions ++ b.productions)
        nt.productions := by
  obtain ⟨_, _, num, h1, h2, h3⟩ := c24_productions hsz h
  obtain ⟨j, hj⟩ := (h1 a.name).2 ⟨a, by rw [hasts]; simp, rfl⟩
  obtain ⟨nt, h4, _, h5⟩ := h3 _ _ hj
  refine ⟨num, j, nt, hj, h4, ?_⟩
  have : userProds asts a.name = a.productions ++ b.productions := by
    have hf : ∀ l : List (AstNonTerminal X Ty), (∀ c ∈ l, c.name ≠ a.name) →
        l.filter (fun c => c.name == a.name) = [] := by
      intro l hl
      rw [List.filter_eq_nil_iff]
      intro c hc; simpa using hl c hc
    unfold userProds
    rw [hasts]
    simp only [List.filter_append, List.filter_cons, hf l1 (fun c hc => honly c (by simp [hc])),
      hf l2 (fun c hc => honly c (by simp [hc])), hf l3 (fun c hc => honly c (by simp [hc]))]
    simp [hab]
  rw [← this]; exact h5

variable {E : Type} [DecidableEq Ty] {P : Compiled X Ty V W Tok}

/-- **C27**, consequence: if a `pub` definition is redefined later, its entry point is still emitted
but accepts nothing at all. -/
theorem c27_redefined_entry {l1 l2 : List (AstNonTerminal X Ty)} {a : AstNonTerminal X Ty}
    (hasts : P.defs = l1 ++ a :: l2) (hpub : a.isPub = true) (hre : ∃ c ∈ l2, c.name = a.name)
    (hsz : loweredCount P.defs ≤ 4294967296) :
    ∃ ep ∈ P.gen.entries, ep.name = a.name ∧
      ∀ (input : Nat → Option (Except E Tok)) w v w' n, ¬ P.Returns ep input w (.ok v) w' n := by
  obtain ⟨g, hlow, hgen, _⟩ := P.stages_ok
  obtain ⟨nts, ts, hl⟩ := lower_ok (by rw [← loweredCount_eq]; exact hsz) hlow
  obtain ⟨a', g', T, hst⟩ := generateParser_ok hgen
  have hT := hst.tables hl.wf
  obtain ⟨e, nt, b, n', h1, h2, h3, h4, h5, _, h7⟩ := hl.pub_mk hasts hpub
  have hpe : g.isPublic e = true := by unfold Grammar.isPublic; rw [h1]; exact h2
  obtain ⟨ep, hep, hat, hname, hext, hsem⟩ := hT.entry_mk e hpe
  rw [h1] at hname
  refine ⟨ep, hep, by simpa [h3] using hname.symm, ?_⟩
  intro input w v w' n hr
  obtain ⟨fuel, s', hr, rfl, rfl⟩ := hr
  obtain ⟨g2, nts2, ts2, a2, g2', T2, S⟩ := P.setup hep
  have hg : g2 = g := by have := S.lower; rw [hlow] at this; cases this; rfl
  subst hg
  obtain ⟨s1, γ1, toks1, hi, hstep⟩ := parse_spec hl.wf hT S.cons hpe hat hext hsem hr
  cases hstep with
  | @accept b' _ w' s' htok hγ hact hp heval hs =>
    obtain ⟨p, α, us, w1, v', _, hp', hc, _⟩ := heval.nt_inv
    obtain ⟨n1, pr, e1, e2, rfl⟩ := hp'
    rw [h1] at e1; cases e1
    rw [h4] at e2
    cases p with
    | succ p => simp at e2
    | zero =>
      cases e2
      obtain ⟨p2, α2, us2, w2, v2, _, hp2, _, _⟩ := Eval.nt_inv (b := b) hc
      obtain ⟨n1, pr, e1, e2, _⟩ := hp2
      rw [h5] at e1; cases e1
      rw [h7 hre] at e2
      simp at e2

namespace Examples

/-- ```
pub A: u64 = { "n" => 1 }
A: u64 = { "+" => 2 }
``` -/
def redefDefs : List (AstNonTerminal (Act Unit) String) :=
  [ ⟨true, "A", "u64", [⟨[.terminal "n"], .infallible fun _ w => some (1, w)⟩]⟩,
    ⟨false, "A", "u64", [⟨[.terminal "+"], .infallible fun _ w => some (2, w)⟩]⟩ ]

set_option maxRecDepth 10000 in
theorem redef_ok : (parserMacro .insertion code.mkPath (itemsOf redefDefs)).isOk = true := by
  decide +kernel

def redef : Compiled (Act Unit) String Nat Unit Tk := program redefDefs redef_ok

end Examples

/-- The macro accepts `pub A = "n"; A = "+"` and emits an entry point `A` that accepts nothing. -/
example : ∃ ep ∈ Examples.redef.gen.entries, ep.name = "A" ∧
    ∀ (input : Nat → Option (Except String Examples.Tk)) w v w' n,
      ¬ Examples.redef.Returns ep input w (.ok v) w' n := by
  have hd : Examples.redef.defs = [] ++ Examples.redefDefs[0] :: [Examples.redefDefs[1]] :=
    Examples.defs_itemsOf _
  refine c27_redefined_entry hd rfl ⟨_, List.mem_singleton.2 rfl, rfl⟩ ?_
  rw [hd]; decide

/-! ## C35 Top-level items -/

omit [DecidableEq Ty] in
/-- Removing `Except`: a computation that is not `ok` is an error. -/
theorem Except.error_of_not_ok {α : Type} {x : Except Fault α} (h : ¬ ∃ r, x = .ok r) :
    ∃ f, x = .error f := by
  cases x with
  | error f => exact ⟨f, rfl⟩
  | ok r => exact absurd ⟨r, rfl⟩ h

/-- **C35.** If there is not exactly one `enum Token`, or more than one `type State`, the macro
panics, whatever else the items are. -/
theorem c35_rejects (h : HashOrder) (mkPath : String → X) (items : List (GrammarItem X Ty))
    (hbad : (itemTokenEnums items).length ≠ 1 ∨ 1 < (itemTypeDefs items).length) :
    ∃ f, parserMacro h mkPath items = .error f := by
  refine Except.error_of_not_ok ?_
  rintro ⟨⟨gen, t⟩, hr⟩
  unfold parserMacro at hr
  obtain ⟨⟨nts, t'⟩, h1, _⟩ := Except.bind_eq_ok.1 hr
  obtain ⟨_, h2, h3⟩ := (macroItems_iff _ _ _).1 h1
  rw [h2] at hbad
  rcases hbad with hb | hb
  · exact hb rfl
  · omega

/-- **C35.** Otherwise the result (the emitted code or the panic) depends only on the token enum and
the sequence of non-terminal definitions: neither the `type State` item nor the interleaving
matters. -/
theorem c35_order (h : HashOrder) (mkPath : String → X) (items items' : List (GrammarItem X Ty))
    (h1 : (itemTypeDefs items).length ≤ 1) (h2 : (itemTypeDefs items').length ≤ 1)
    (ht : itemTokenEnums items = itemTokenEnums items') (ht1 : (itemTokenEnums items).length = 1)
    (hn : itemNonTerminals items = itemNonTerminals items') :
    parserMacro h mkPath items = parserMacro h mkPath items' := by
  obtain ⟨t, ht2⟩ := List.length_eq_one_iff.1 ht1
  have e1 := (macroItems_iff items _ t).2 ⟨rfl, ht2, h1⟩
  have e2 := (macroItems_iff items' _ t).2 ⟨rfl, by rw [← ht]; exact ht2, h2⟩
  unfold parserMacro
  rw [e1, e2, hn]

/-- The token enum may come last. -/
example : parserMacro .insertion Examples.code.mkPath (Examples.itemsOf Examples.arithDefs) =
    parserMacro .insertion Examples.code.mkPath
      (Examples.arithDefs.map .nonTerminal ++ [.typeDef "S", .tokenEnum Examples.tk]) := by
  apply c35_order <;> first | rfl | decide

/-- Two token enums. -/
example : ∃ f, parserMacro .insertion (Examples.code (W := Unit)).mkPath
    [.tokenEnum Examples.tk, .tokenEnum Examples.tk] = .error f :=
  c35_rejects _ _ _ (Or.inl (by decide))

end Parsegen
