import Verif.Spec.Calculator
import Verif.Props.Layered
import Verif.Props.Reports

/-! # C86: calculators are correct -/

namespace Parsegen

variable {X Ty V W Tok E : Type} [DecidableEq Ty] {P : Compiled X Ty V W Tok} {c : Calculator V Tok}
  {atom : String} {ep : EntryPoint} {input : Nat → Option (Except E Tok)}

theorem means_term {s : AstSymbol} {ss : List AstSymbol} {t : String} (hs : s.plain = some (.term t))
    {toks : List Tok} {w w' : W} {us : List (BVal V)} (h : P.Means (s :: ss) toks w us w') :
    ∃ tk rest vs, toks = tk :: rest ∧ P.cls tk = t ∧ us = .tok (P.fields tk) :: vs ∧ P.Means ss rest w vs w' := by
  cases h with
  | term h2 h3 => rw [hs] at h2; cases h2; exact ⟨_, _, _, rfl, rfl, rfl, h3⟩
  | nt h2 => rw [hs] at h2; cases h2

theorem means_nt {s : AstSymbol} {ss : List AstSymbol} {A : String} (hs : s.plain = some (.nt A))
    {toks : List Tok} {w w' : W} {us : List (BVal V)} (h : P.Means (s :: ss) toks w us w') :
    ∃ t rest a vs w1, toks = t ++ rest ∧ us = .nt a :: vs ∧ P.Phrase A t w a w1 ∧ P.Means ss rest w1 vs w' := by
  obtain ⟨t, t', v, v', w1, rfl, rfl, h1, h2⟩ := UEval.split_syms (ss := [s]) h
  obtain ⟨a, rfl, ha⟩ := means_value hs h1
  exact ⟨t, t', a, v', w1, rfl, rfl, ha, h2⟩

theorem means_plain {ss : List AstSymbol} {toks : List Tok} {w w' : W} {us : List (BVal V)}
    (h : P.Means ss toks w us w') : ∃ rhs : List USym, ss.map (·.plain) = rhs.map some := by
  unfold Compiled.Means at h
  induction h with
  | nil => exact ⟨[], rfl⟩
  | term hs _ ih =>
    obtain ⟨rhs, h⟩ := ih
    exact ⟨_ :: rhs, by rw [List.map_cons, List.map_cons, hs, h]⟩
  | nt hs _ _ _ _ _ ih =>
    obtain ⟨rhs, h⟩ := ih
    exact ⟨_ :: rhs, by rw [List.map_cons, List.map_cons, hs, h]⟩

theorem phrase_make {A : String} {p : AstProduction X} (hm : p ∈ userProds P.defs A) {e : X}
    (he : p.action = .infallible e) {toks : List Tok} {w w1 w' : W} {us : List (BVal V)} {v : V}
    (h : P.Means p.symbols toks w us w1) (hr : P.code.run e (userEnv p.symbols us) w1 = some (v, w')) :
    P.Phrase A toks w v w' := by
  obtain ⟨i, hi⟩ := List.mem_iff_getElem?.1 hm
  have : P.Means [.nonTerminal A] (toks ++ []) w [.nt v] w' := by
    refine UEval.nt rfl hi h ?_ (.nil _)
    simp only [userValues, he, hr]
    rfl
  simpa [Compiled.Phrase] using this

theorem means_nil {toks : List Tok} {w w' : W} {us : List (BVal V)} (h : P.Means [] toks w us w') :
    toks = [] ∧ us = [] ∧ w' = w := by
  cases h
  exact ⟨rfl, rfl, rfl⟩

omit [DecidableEq Ty] in
theorem Layered.same {defs : List (AstNonTerminal X Ty)} {ls : List (Level V)} {leaves pres : List String}
    {lp rp : String} (h : Layered defs ls atom leaves pres lp rp) {B : String} {p p' : AstProduction X}
    (hp : p ∈ userProds defs B) (hp' : p' ∈ userProds defs B) {rhs : List USym}
    (e : p.symbols.map (·.plain) = rhs.map some) (e' : p'.symbols.map (·.plain) = rhs.map some) : p = p' := by
  obtain ⟨i, hi⟩ := List.mem_iff_getElem?.1 hp
  obtain ⟨i', hi'⟩ := List.mem_iff_getElem?.1 hp'
  have := h.once B i i' rhs ⟨p, hi, e⟩ ⟨p', hi', e'⟩
  subst this
  rw [hi] at hi'
  exact Option.some.inj hi'

omit [DecidableEq Ty] in
theorem Layered.atom_rules {defs : List (AstNonTerminal X Ty)} {ls : List (Level V)} {leaves pres : List String}
    {lp rp : String} (h : Layered defs ls atom leaves pres lp rp) {p : AstProduction X}
    (hp : p ∈ userProds defs atom) {rhs : List USym} (e : p.symbols.map (·.plain) = rhs.map some) :
    (∃ t ∈ leaves, rhs = [.term t]) ∨ (∃ t ∈ pres, rhs = [.term t, .nt atom]) ∨
      rhs = [.term lp, .nt (Levels.name atom ls), .term rp] := by
  obtain ⟨i, hi⟩ := List.mem_iff_getElem?.1 hp
  rcases layeredRules_mem ((h.rules atom rhs).1 ⟨i, p, hi, e⟩) with ⟨i, l, hl, h1, -⟩ | ⟨-, h1⟩
  · have hi := (List.getElem?_eq_some_iff.1 hl).1
    have := h.numbered.inj i ls.length (by omega) (by omega) (by simpa [Levels.name] using h1.symm)
    omega
  · exact h1

theorem infix_written (hc : P.IsCalculator c atom) {ops : List String} (hops : ops = Levels.ops c.levels) {n : Nat}
    (ih : ∀ (t : List Tok) (w : W) (v : V) (w' : W), t.length ≤ n → P.Phrase atom t w v w' →
      w' = w ∧ ∃ x : Operand Tok, x.Ok c ∧ t = x.tokens ∧ v = x.val c)
    {toks : List Tok} {w w' : W} {x : V} {r : List (String × V)}
    (h : Infix P.cls (P.Phrase atom) ops toks w x r w') (hn : toks.length ≤ n) :
    w' = w ∧ ∃ y : Written Tok, y.Ok c ∧ toks = y.tokens ∧ (x, r) = y.parts c := by
  induction h with
  | one h =>
    obtain ⟨h1, y, h2, h3, h4⟩ := ih _ _ _ _ hn h
    exact ⟨h1, .one y, h2, h3, by rw [h4]; rfl⟩
  | @more toks s rest w x w1 y r w' h hs _ ih' =>
    simp only [List.length_append, List.length_cons] at hn
    obtain ⟨rfl, z, h2, rfl, rfl⟩ := ih _ _ _ _ (by omega) h
    obtain ⟨rfl, zs, h5, rfl, h6⟩ := ih' (by omega)
    refine ⟨rfl, .more z s zs, ⟨h2, ?_, h5⟩, rfl, ?_⟩
    · rw [← hc.cls, ← hops]; exact hs
    · simp only [Written.parts, ← h6, hc.cls]

theorem operand_sound (hc : P.IsCalculator c atom) (n : Nat) :
    ∀ (toks : List Tok) (w : W) (v : V) (w' : W), toks.length ≤ n → P.Phrase atom toks w v w' →
      w' = w ∧ ∃ x : Operand Tok, x.Ok c ∧ toks = x.tokens ∧ v = x.val c := by
  induction n with
  | zero =>
    intro toks w v w' hn h
    obtain ⟨p, hp, e, us, w1, he, hm, hr⟩ := means_inv h
    obtain ⟨rhs, hs⟩ := means_plain hm
    have : ∃ s ss t, p.symbols = s :: ss ∧ s.plain = some (.term t) := by
      rcases hc.layered.atom_rules hp hs with ⟨t, _, rfl⟩ | ⟨t, _, rfl⟩ | rfl <;>
        obtain ⟨s, ss, e1, e2, -⟩ := List.map_eq_cons_iff.1 hs <;> exact ⟨_, _, _, e1, e2⟩
    obtain ⟨s, ss, t, e1, e2⟩ := this
    rw [e1] at hm
    obtain ⟨_, _, _, rfl, _⟩ := means_term e2 hm
    simp at hn
  | succ n ih =>
    intro toks w v w' hn h
    obtain ⟨p, hp, e, us, w1, he, hm, hr⟩ := means_inv h
    obtain ⟨rhs, hs⟩ := means_plain hm
    rcases hc.layered.atom_rules hp hs with ⟨t, ht, rfl⟩ | ⟨t, ht, rfl⟩ | rfl
    · obtain ⟨p', hp', hs', e', he', hf⟩ := hc.leaf t ht
      obtain rfl := hc.layered.same hp hp' hs hs'
      rw [he] at he'
      cases he'
      obtain ⟨s, ss, e1, e2, e3⟩ := List.map_eq_cons_iff.1 hs
      obtain rfl : ss = [] := List.map_eq_nil_iff.1 e3
      rw [e1] at hm
      obtain ⟨tk, rest, vs, rfl, hk, rfl, hm1⟩ := means_term e2 hm
      obtain ⟨rfl, rfl, rfl⟩ := means_nil hm1
      rw [hf _ _ hk] at hr
      cases hr
      exact ⟨rfl, .leaf tk, by rw [Operand.Ok, ← hc.cls, hk]; exact ht, rfl, rfl⟩
    · obtain ⟨p', hp', hs', e', he', hf⟩ := hc.pre t ht
      obtain rfl := hc.layered.same hp hp' hs hs'
      rw [he] at he'
      cases he'
      obtain ⟨s, ss, e1, e2, e3⟩ := List.map_eq_cons_iff.1 hs
      obtain ⟨s2, ss2, rfl, e4, e5⟩ := List.map_eq_cons_iff.1 e3
      obtain rfl : ss2 = [] := List.map_eq_nil_iff.1 e5
      rw [e1] at hm
      obtain ⟨tk, rest, vs, rfl, hk, rfl, hm1⟩ := means_term e2 hm
      obtain ⟨t1, t2, a, vs, w2, rfl, rfl, ha, hm2⟩ := means_nt e4 hm1
      obtain ⟨rfl, rfl, rfl⟩ := means_nil hm2
      rw [hf _ _ _ hk] at hr
      cases hr
      obtain ⟨rfl, x, h1, h2, rfl⟩ := ih _ _ _ _ (by simp at hn ⊢; omega) ha
      refine ⟨rfl, .pre tk x, ⟨by rw [← hc.cls, hk]; exact ht, h1⟩, by simpa [Operand.tokens] using h2, ?_⟩
      rw [Operand.val, ← hc.cls, hk]
    · obtain ⟨p', hp', hs', e', he', hf⟩ := hc.parens
      obtain rfl := hc.layered.same hp hp' hs hs'
      rw [he] at he'
      cases he'
      obtain ⟨s, ss, e1, e2, e3⟩ := List.map_eq_cons_iff.1 hs
      obtain ⟨s2, ss2, rfl, e4, e5⟩ := List.map_eq_cons_iff.1 e3
      obtain ⟨s3, ss3, rfl, e6, e7⟩ := List.map_eq_cons_iff.1 e5
      obtain rfl : ss3 = [] := List.map_eq_nil_iff.1 e7
      rw [e1] at hm
      obtain ⟨tk, rest, vs, rfl, hk, rfl, hm1⟩ := means_term e2 hm
      obtain ⟨t1, t2, a, vs, w2, rfl, rfl, ha, hm2⟩ := means_nt e4 hm1
      obtain ⟨tk', rest, vs, rfl, hk', rfl, hm3⟩ := means_term e6 hm2
      obtain ⟨rfl, rfl, rfl⟩ := means_nil hm3
      rw [hf _ _ _ _ hk hk'] at hr
      cases hr
      obtain ⟨x, r, h1, h2⟩ := (c84_value hc.tower).1 ha
      obtain ⟨rfl, y, h3, rfl, h4⟩ := infix_written hc rfl ih h1 (by simp at hn ⊢; omega)
      refine ⟨rfl, .paren tk y tk', ⟨by rw [← hc.cls, hk], h3, by rw [← hc.cls, hk']⟩, rfl, ?_⟩
      rw [Operand.val, ← h4, h2]

mutual

theorem operand_complete (hc : P.IsCalculator c atom) (w : W) : ∀ x : Operand Tok, x.Ok c →
    P.Phrase atom x.tokens w (x.val c) w
  | .leaf t => by
    intro h
    rw [Operand.Ok, ← hc.cls] at h
    obtain ⟨p, hp, hs, e, he, hf⟩ := hc.leaf _ h
    obtain ⟨s, ss, e1, e2, e3⟩ := List.map_eq_cons_iff.1 hs
    obtain rfl : ss = [] := List.map_eq_nil_iff.1 e3
    refine phrase_make hp he (us := [.tok (P.fields t)]) ?_ (hf t w rfl)
    rw [e1]
    exact .term e2 (.nil _)
  | .pre s x => by
    intro h
    obtain ⟨h, hx⟩ := h
    rw [← hc.cls] at h
    obtain ⟨p, hp, hs, e, he, hf⟩ := hc.pre _ h
    obtain ⟨s1, ss, e1, e2, e3⟩ := List.map_eq_cons_iff.1 hs
    obtain ⟨s2, ss2, rfl, e4, e5⟩ := List.map_eq_cons_iff.1 e3
    obtain rfl : ss2 = [] := List.map_eq_nil_iff.1 e5
    have h1 := operand_complete hc w x hx
    refine phrase_make hp he (us := [.tok (P.fields s), .nt (x.val c)]) ?_ (by rw [Operand.val, ← hc.cls]; exact hf s _ w rfl)
    rw [e1]
    exact .term e2 (UEval.replain (by rw [e4]; rfl) h1)
  | .paren l x r => by
    intro h
    obtain ⟨hl, hx, hr⟩ := h
    rw [← hc.cls] at hl hr
    obtain ⟨p, hp, hs, e, he, hf⟩ := hc.parens
    obtain ⟨s1, ss, e1, e2, e3⟩ := List.map_eq_cons_iff.1 hs
    obtain ⟨s2, ss2, rfl, e4, e5⟩ := List.map_eq_cons_iff.1 e3
    obtain ⟨s3, ss3, rfl, e6, e7⟩ := List.map_eq_cons_iff.1 e5
    obtain rfl : ss3 = [] := List.map_eq_nil_iff.1 e7
    have h1 : P.Phrase (Levels.name atom c.levels) x.tokens w (x.val c) w :=
      (c84_value hc.tower).2 ⟨_, _, written_complete hc w x hx, rfl⟩
    have h2 : P.Means [s2] x.tokens w [.nt (x.val c)] w := UEval.replain (by rw [e4]; rfl) h1
    refine phrase_make hp he (us := [.tok (P.fields l), .nt (x.val c), .tok (P.fields r)]) ?_ (hf l _ r w hl hr)
    rw [e1]
    rw [← hl] at e2
    rw [← hr] at e6
    exact .term e2 (UEval.append h2 (.term e6 (.nil _)))

theorem written_complete (hc : P.IsCalculator c atom) (w : W) : ∀ x : Written Tok, x.Ok c →
    Infix P.cls (P.Phrase atom) (Levels.ops c.levels) x.tokens w (x.parts c).1 (x.parts c).2 w
  | .one x => fun h => .one (operand_complete hc w x h)
  | .more x s rest => by
    intro ⟨h1, h2, h3⟩
    have := Infix.more (s := s) (operand_complete hc w x h1) (by rw [hc.cls]; exact h2) (written_complete hc w rest h3)
    rw [congrFun hc.cls s] at this
    exact this

end

/-- **C86.** The sentences of a calculator are the expressions as they are written, and the value of one is
what it means. -/
theorem c86_value (hc : P.IsCalculator c atom) {toks : List Tok} {w w' : W} {v : V} :
    P.Means [.nonTerminal (Levels.name atom c.levels)] toks w [.nt v] w' ↔
      w' = w ∧ ∃ x : Written Tok, x.Ok c ∧ toks = x.tokens ∧ v = x.val c := by
  rw [c84_value hc.tower]
  constructor
  · rintro ⟨x, r, h, rfl⟩
    obtain ⟨h1, y, h2, h3, h4⟩ := infix_written hc rfl (operand_sound hc _) h (Nat.le_refl _)
    exact ⟨h1, y, h2, h3, by rw [Written.val, ← h4]⟩
  · rintro ⟨rfl, x, h, rfl, rfl⟩
    exact ⟨_, _, written_complete hc w' x h, rfl⟩

/-- **C86.** `parse` of a calculator returns `Ok(v)` exactly if the input is an expression, and `v` is its
value; the user's state is as it was. -/
theorem c86_parse (hc : P.IsCalculator c atom) (hep : ep ∈ P.gen.entries)
    (hn : ep.name = Levels.name atom c.levels) {w w' : W} {v : V} :
    (∃ n, P.Returns ep input w (.ok v) w' n) ↔
      w' = w ∧ ∃ x : Written Tok, x.Ok c ∧ Ends input x.tokens ∧ v = x.val c := by
  rw [c85_parse hc.layered hc.tower hep hn]
  constructor
  · rintro ⟨toks, y, r, h1, h2, h3⟩
    obtain ⟨h4, x, h5, rfl, h6⟩ := (c86_value hc).1 ((c84_value hc.tower).2 ⟨y, r, h2, h3⟩)
    exact ⟨h4, x, h5, h1, h6⟩
  · rintro ⟨h4, x, h5, h1, h6⟩
    obtain ⟨y, r, h2, h3⟩ := (c84_value hc.tower).1 ((c86_value (w := w) (w' := w') (v := v) hc).2 ⟨h4, x, h5, rfl, h6⟩)
    exact ⟨_, y, r, h1, h2, h3⟩

/-- What comes next is not an operator. -/
def NoOp (c : Calculator V Tok) (a : List Tok) : Prop := ∀ s a', a = s :: a' → c.cls s ∉ Levels.ops c.levels

set_option linter.unusedSectionVars false in
mutual

theorem operand_inj {defs : List (AstNonTerminal X Ty)}
    (h : Layered defs c.levels atom c.leaves c.pres c.lp c.rp) : ∀ (x y : Operand Tok) (a b : List Tok),
    x.Ok c → y.Ok c → x.tokens ++ a = y.tokens ++ b → x = y ∧ a = b
  | .leaf t, y, a, b => by
    intro hx hy e
    cases y with
    | leaf t' =>
      simp only [Operand.tokens, List.cons_append, List.nil_append, List.cons.injEq] at e
      exact ⟨by rw [e.1], e.2⟩
    | pre s z =>
      simp only [Operand.tokens, List.cons_append, List.nil_append, List.cons.injEq] at e
      obtain ⟨rfl, -⟩ := e
      exact absurd hx (h.numbered.pre_leaf _ hy.1)
    | paren l z r =>
      simp only [Operand.tokens, List.cons_append, List.nil_append, List.cons.injEq] at e
      obtain ⟨rfl, -⟩ := e
      rw [Operand.Ok, hy.1] at hx
      exact absurd hx h.numbered.leaf_lp
  | .pre s x, y, a, b => by
    intro hx hy e
    cases y with
    | leaf t' =>
      simp only [Operand.tokens, List.cons_append, List.nil_append, List.cons.injEq] at e
      obtain ⟨rfl, -⟩ := e
      exact absurd hy (h.numbered.pre_leaf _ hx.1)
    | pre s' z =>
      simp only [Operand.tokens, List.cons_append, List.cons.injEq] at e
      obtain ⟨rfl, e⟩ := e
      obtain ⟨rfl, rfl⟩ := operand_inj h x z a b hx.2 hy.2 e
      exact ⟨rfl, rfl⟩
    | paren l z r =>
      simp only [Operand.tokens, List.cons_append, List.cons.injEq] at e
      obtain ⟨rfl, -⟩ := e
      have := hx.1
      rw [hy.1] at this
      exact absurd this h.numbered.pre_lp
  | .paren l x r, y, a, b => by
    intro hx hy e
    cases y with
    | leaf t' =>
      simp only [Operand.tokens, List.cons_append, List.nil_append, List.cons.injEq] at e
      obtain ⟨rfl, -⟩ := e
      rw [Operand.Ok, hx.1] at hy
      exact absurd hy h.numbered.leaf_lp
    | pre s' z =>
      simp only [Operand.tokens, List.cons_append, List.cons.injEq] at e
      obtain ⟨rfl, -⟩ := e
      have := hy.1
      rw [hx.1] at this
      exact absurd this h.numbered.pre_lp
    | paren l' z r' =>
      simp only [Operand.tokens, List.cons_append, List.cons.injEq, List.append_assoc, List.nil_append] at e
      obtain ⟨rfl, e⟩ := e
      have hrp : c.rp ∉ Levels.ops c.levels := by
        intro hm
        obtain ⟨l, hl, ho⟩ := List.mem_flatMap.1 hm
        obtain ⟨i, hi⟩ := List.mem_iff_getElem?.1 hl
        exact h.numbered.op_rp i ⟨l, hi, ho⟩
      obtain ⟨rfl, e2⟩ := written_inj h x z (r :: a) (r' :: b) hx.2.1 hy.2.1
        (fun s a' e => by cases e; rw [hx.2.2]; exact hrp) (fun s a' e => by cases e; rw [hy.2.2]; exact hrp) e
      cases e2
      exact ⟨rfl, rfl⟩

theorem written_inj {defs : List (AstNonTerminal X Ty)}
    (h : Layered defs c.levels atom c.leaves c.pres c.lp c.rp) : ∀ (x y : Written Tok) (a b : List Tok),
    x.Ok c → y.Ok c → NoOp c a → NoOp c b → x.tokens ++ a = y.tokens ++ b → x = y ∧ a = b
  | .one x, y, a, b => by
    intro hx hy ha hb e
    cases y with
    | one y =>
      obtain ⟨rfl, rfl⟩ := operand_inj h x y a b hx hy e
      exact ⟨rfl, rfl⟩
    | more y s rest =>
      simp only [Written.tokens, List.append_assoc, List.cons_append] at e
      obtain ⟨-, rfl⟩ := operand_inj h x y a _ hx hy.1 e
      exact absurd hy.2.1 (ha _ _ rfl)
  | .more x s rest, y, a, b => by
    intro hx hy ha hb e
    cases y with
    | one y =>
      simp only [Written.tokens, List.append_assoc, List.cons_append] at e
      obtain ⟨-, rfl⟩ := operand_inj h x y _ b hx.1 hy e
      exact absurd hx.2.1 (hb _ _ rfl)
    | more y s' rest' =>
      simp only [Written.tokens, List.append_assoc, List.cons_append] at e
      obtain ⟨rfl, e2⟩ := operand_inj h x y _ _ hx.1 hy.1 e
      obtain ⟨rfl, e3⟩ := List.cons.inj e2
      obtain ⟨rfl, rfl⟩ := written_inj h rest rest' a b hx.2.2 hy.2.2 ha hb e3
      exact ⟨rfl, rfl⟩

end

/-- **C86.** An input is an expression in one way only. -/
theorem c86_unique {defs : List (AstNonTerminal X Ty)}
    (h : Layered defs c.levels atom c.leaves c.pres c.lp c.rp) {x y : Written Tok} (hx : x.Ok c) (hy : y.Ok c)
    (e : x.tokens = y.tokens) : x = y :=
  (written_inj h x y [] [] hx hy (fun _ _ e => nomatch e) (fun _ _ e => nomatch e) (by rw [e])).1

omit [DecidableEq Ty] in
/-- The terminals of a layered grammar. -/
theorem Layered.terms {defs : List (AstNonTerminal X Ty)} {ls : List (Level V)} {leaves pres : List String}
    {lp rp : String} (h : Layered defs ls atom leaves pres lp rp) {A : String} {z : List USym}
    (hd : UDerives defs [.nt A] z) {t : String} (ht : .term t ∈ z) :
    t ∈ Levels.ops ls ∨ t ∈ leaves ∨ t ∈ pres ∨ t = lp ∨ t = rp := by
  induction hd with
  | refl => simp at ht
  | tail _ s ih =>
    obtain ⟨u, v, rhs, B, p, hp, hs⟩ := s
    simp only [List.mem_append] at ht ih
    rcases ht with (ht | ht) | ht
    · exact ih (.inl ht)
    · obtain ⟨j, hj⟩ := List.mem_iff_getElem?.1 hp
      rcases layeredRules_mem ((h.rules B rhs).1 ⟨j, p, hj, hs⟩) with ⟨i, l, hl, -, h1⟩ | ⟨-, h1⟩
      · rcases h1 with ⟨-, o, ho, rfl⟩ | ⟨-, o, ho, rfl⟩ | rfl
        · obtain rfl : t = o := by simpa using ht
          exact .inl (List.mem_flatMap.2 ⟨l, List.mem_of_getElem? hl, ho⟩)
        · obtain rfl : t = o := by simpa using ht
          exact .inl (List.mem_flatMap.2 ⟨l, List.mem_of_getElem? hl, ho⟩)
        · simp at ht
      · rcases h1 with ⟨o, ho, rfl⟩ | ⟨o, ho, rfl⟩ | rfl
        · obtain rfl : t = o := by simpa using ht
          exact .inr (.inl ho)
        · obtain rfl : t = o := by simpa using ht
          exact .inr (.inr (.inl ho))
        · have : t = lp ∨ t = rp := by simpa using ht
          exact .inr (.inr (.inr this))
    · exact ih (.inr (.tail _ ht))

theorem exists_tokens {cls : Tok → String} {x : List String} (h : ∀ t ∈ x, ∃ s, cls s = t) :
    ∃ toks : List Tok, toks.map cls = x := by
  induction x with
  | nil => exact ⟨[], rfl⟩
  | cons t x ih =>
    obtain ⟨s, rfl⟩ := h _ (.head _)
    obtain ⟨toks, rfl⟩ := ih fun t ht => h t (.tail _ ht)
    exact ⟨s :: toks, rfl⟩

/-- **C86.** The sentences of the grammar of a calculator are the expressions. -/
theorem c86_language [Nonempty W] (hc : P.IsCalculator c atom) (hT : P.Total) (hI : c.Inhabited)
    (hep : ep ∈ P.gen.entries) (hn : ep.name = Levels.name atom c.levels) {x : List String} :
    USentence P.defs ep.name x ↔ c.Sentence x := by
  obtain ⟨w⟩ := ‹Nonempty W›
  constructor
  · intro hx
    obtain ⟨toks, rfl⟩ := exists_tokens (cls := P.cls) (x := x) (by
      rw [hc.cls]
      exact fun t ht => hI t (hc.layered.terms hx (List.mem_map_of_mem ht)))
    let input : Nat → Option (Except Empty Tok) := fun i => (toks[i]?).map .ok
    have hE : Ends input toks := by
      refine ⟨fun i t hi => ?_, ?_⟩
      · simp only [input, hi, Option.map_some]
      · simp [input]
    have hrep : Reports (USentence P.defs ep.name) (P.tokens.conversions.map (·.from_)) (P.look input)
        (.ok ()) ((toks.map P.cls).length + 1) := by
      refine .ok _ (fun i s hi => ?_) ?_ hx
      · rw [List.getElem?_map] at hi
        obtain ⟨t, ht, rfl⟩ := Option.map_eq_some_iff.1 hi
        simp only [Compiled.look, input, ht, Option.map_some]
        rfl
      · simp [Compiled.look, input]
    obtain ⟨o, w', hr, ho⟩ := (c79_iff (w := w) (c85_regular hc.layered hep) (c85_productive hc.layered) hT hep).2 hrep
    cases o with
    | ok v =>
      obtain ⟨-, y, hy, he, -⟩ := (c86_parse hc hep hn).1 ⟨_, hr⟩
      exact ⟨y, hy, by rw [← hc.cls, he.unique hE]⟩
    | _ => cases ho
  · rintro ⟨y, hy, rfl⟩
    rw [← hc.cls, hn]
    exact UEval.sentence ((c86_value (w := w) hc).2 ⟨rfl, y, hy, rfl, rfl⟩)

/-- **C86.** What `parse` reports of any input, in terms of expressions only: with which error, after how many
tokens, and which terminals the message lists. -/
theorem c86_reports [Nonempty W] (hc : P.IsCalculator c atom) (hT : P.Total) (hI : c.Inhabited)
    (hep : ep ∈ P.gen.entries) (hn : ep.name = Levels.name atom c.levels) {w : W} {o : Outcome Unit E} {n : Nat} :
    (∃ o' w', P.Returns ep input w o' w' n ∧ o'.report = o) ↔
      Reports c.Sentence (P.tokens.conversions.map (·.from_)) (P.look input) o n := by
  rw [c79_iff (c85_regular hc.layered hep) (c85_productive hc.layered) hT hep,
    show USentence P.defs ep.name = c.Sentence from funext fun x => propext (c86_language hc hT hI hep hn)]

/-! ## The example -/

namespace Examples

/-- The calculator that the definitions `opDefs` describe. -/
def calcOps : Calculator Nat OpTk where
  cls := opsP.cls
  levels := levels
  leaves := ["n"]
  pres := ["-"]
  lp := "("
  rp := ")"
  leafVal t := match opsP.fields t with
    | [v] => v
    | _ => 0
  preVal _ a := 100 - a

theorem ops_calculator : opsP.IsCalculator calcOps "Atom" where
  cls := rfl
  layered := ops_layered
  tower := ops_tower
  leaf := by
    have h2 : userProds opsP.defs "Atom" = opDefs[2].productions := by rw [opsP_defs]; rfl
    intro t ht
    rcases ht with _ | ⟨_, ht⟩
    · refine ⟨_, by rw [h2]; exact .head _, rfl, _, rfl, fun s w _ => ?_⟩
      rw [opsP_code]
      simp only [calcOps]
      generalize opsP.fields s = l
      rcases l with _ | ⟨v, _ | ⟨v', l⟩⟩ <;> rfl
    · cases ht
  pre := by
    have h2 : userProds opsP.defs "Atom" = opDefs[2].productions := by rw [opsP_defs]; rfl
    intro t ht
    rcases ht with _ | ⟨_, ht⟩
    · refine ⟨_, by rw [h2]; exact .tail _ (.head _), rfl, _, rfl, fun s a w _ => ?_⟩
      rw [opsP_code]
      rfl
    · cases ht
  parens := by
    have h2 : userProds opsP.defs "Atom" = opDefs[2].productions := by rw [opsP_defs]; rfl
    refine ⟨_, by rw [h2]; exact .tail _ (.tail _ (.head _)), rfl, _, rfl, fun s a s' w _ _ => ?_⟩
    rw [opsP_code]
    rfl

/-- `9 - 2 ^ 1 ^ 3 + - (1 + 2)` -/
def written : Written OpTk :=
  .more (.leaf (.num 9)) .minus (.more (.leaf (.num 2)) .pow (.more (.leaf (.num 1)) .pow (.more (.leaf (.num 3)) .plus
    (.one (.pre .minus (.paren .lp (.more (.leaf (.num 1)) .plus (.one (.leaf (.num 2)))) .rp))))))

set_option maxRecDepth 10000 in
theorem written_ok : written.Ok calcOps := by
  have h : ∀ t, calcOps.cls t = ((classify opTk.conversions t.toR).map (·.1)).getD "" := fun _ => rfl
  simp only [written, Written.Ok, Operand.Ok]
  decide +kernel

theorem written_val : written.val calcOps = (9 - 2 ^ (1 ^ 3)) + (100 - (1 + 2)) := by decide +kernel

/-- The parser computes it. -/
example (ep : EntryPoint) (hep : ep ∈ opsP.gen.entries) (hn : ep.name = "Sum")
    (input : Nat → Option (Except String OpTk)) (hi : Ends input written.tokens) (w : Log) :
    ∃ n, opsP.Returns ep input w (.ok 104) w n :=
  (c86_parse ops_calculator hep hn).2 ⟨rfl, written, written_ok, hi, by rw [written_val]; decide⟩

/-- The input of the example is an expression in no other way. -/
example {y : Written OpTk} (hy : y.Ok calcOps) (e : y.tokens = written.tokens) : y = written :=
  c86_unique ops_layered hy written_ok e

theorem ops_total : opsP.Total := by
  intro d hd p hp e he env w
  rw [opsP_defs] at hd
  simp only [opDefs, List.mem_cons, List.not_mem_nil, or_false] at hd
  rcases hd with rfl | rfl | rfl <;> simp only [List.mem_cons, List.not_mem_nil, or_false] at hp <;>
    rcases hp with rfl | rfl | rfl <;> cases he <;> exact fun h => nomatch h

theorem calc_inhabited : calcOps.Inhabited := by
  intro t ht
  have h : ∀ t, calcOps.cls t = ((classify opTk.conversions t.toR).map (·.1)).getD "" := fun _ => rfl
  have : t = "+" ∨ t = "-" ∨ t = "^" ∨ t = "n" ∨ t = "(" ∨ t = ")" := by
    have h1 : Levels.ops calcOps.levels = ["+", "-", "^"] := rfl
    have h2 : calcOps.leaves = ["n"] := rfl
    have h3 : calcOps.pres = ["-"] := rfl
    have h4 : calcOps.lp = "(" := rfl
    have h5 : calcOps.rp = ")" := rfl
    simp only [h1, h2, h3, h4, h5, List.mem_cons, List.not_mem_nil, or_false] at ht
    tauto
  rcases this with rfl | rfl | rfl | rfl | rfl | rfl
  · exact ⟨.plus, by rw [h]; decide +kernel⟩
  · exact ⟨.minus, by rw [h]; decide +kernel⟩
  · exact ⟨.pow, by rw [h]; decide +kernel⟩
  · exact ⟨.num 0, by rw [h]; decide +kernel⟩
  · exact ⟨.lp, by rw [h]; decide +kernel⟩
  · exact ⟨.rp, by rw [h]; decide +kernel⟩

example (ep : EntryPoint) (hep : ep ∈ opsP.gen.entries) (hn : ep.name = "Sum") (x : List String) :
    USentence opsP.defs "Sum" x ↔ calcOps.Sentence x := by
  rw [← hn]
  have : Nonempty Log := ⟨[]⟩
  exact c86_language ops_calculator ops_total calc_inhabited hep hn

end Examples

end Parsegen
