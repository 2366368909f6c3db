import Verif.Proofs.AlphaRun
import Verif.Props.Actions
import Verif.Props.Examples

/-! # C64: types, binder names and the wording of actions do not matter -/

namespace Parsegen

variable {X X' Ty Ty' V W Tok E : Type}

/-! ## Patterns -/

mutual
theorem capture_mapTy (f : Ty → Ty') : ∀ (p : Pattern Ty) (v : RVal),
    capture (p.mapTy f) v = capture p v
  | .choose _, v => by simp only [Pattern.mapTy, capture]
  | .underscore, v => by simp only [Pattern.mapTy, capture]
  | .dotDot, v => by simp only [Pattern.mapTy, capture]
  | .lit s, v => by simp only [Pattern.mapTy, capture]
  | .path p, v => by simp only [Pattern.mapTy, capture]
  | .enum p ps, v => by
    simp only [Pattern.mapTy, capture, captureList_mapTy f ps]
  | .struct p fs dots, v => by
    simp only [Pattern.mapTy, capture, captureFields_mapTy f fs, mapTyFields_names f fs]
  | .tuple ps, v => by
    simp only [Pattern.mapTy, capture, captureList_mapTy f ps]
theorem captureList_mapTy (f : Ty → Ty') : ∀ (ps : List (Pattern Ty)) (vs : List RVal),
    captureList (Pattern.mapTyList f ps) vs = captureList ps vs
  | [], vs => by simp only [Pattern.mapTyList, captureList]
  | p :: ps, vs => by
    have h1 := captureList_mapTy f ps
    have h2 := capture_mapTy f p
    have h3 : (Pattern.mapTyList f ps).length = ps.length := mapTyList_length f ps
    cases p <;> simp only [Pattern.mapTyList, Pattern.mapTy] at h2 ⊢ <;>
      simp only [captureList, h1, h2, h3]
theorem captureFields_mapTy (f : Ty → Ty') : ∀ (fs : List (String × Pattern Ty))
    (vs : List (String × RVal)), captureFields (Pattern.mapTyFields f fs) vs = captureFields fs vs
  | [], vs => by simp only [Pattern.mapTyFields, captureFields]
  | (n, p) :: fs, vs => by
    simp only [Pattern.mapTyFields, captureFields, capture_mapTy f p, captureFields_mapTy f fs]
theorem mapTyFields_names (f : Ty → Ty') : ∀ (fs : List (String × Pattern Ty)),
    (Pattern.mapTyFields f fs).map (·.1) = fs.map (·.1)
  | [] => by simp only [Pattern.mapTyFields, List.map_nil]
  | (n, p) :: fs => by simp only [Pattern.mapTyFields, List.map_cons, mapTyFields_names f fs]
theorem mapTyList_length (f : Ty → Ty') : ∀ (ps : List (Pattern Ty)),
    (Pattern.mapTyList f ps).length = ps.length
  | [] => by simp only [Pattern.mapTyList, List.length_nil]
  | p :: ps => by simp only [Pattern.mapTyList, List.length_cons, mapTyList_length f ps]
end

theorem AlphaConversion.capture {c : Conversion Ty} {c' : Conversion Ty'} (h : AlphaConversion c c')
    (v : RVal) : capture c.to v = capture c'.to v := by
  rw [← capture_mapTy (fun _ => ()) c.to, h.to, capture_mapTy]

theorem classify_alpha {cs : List (Conversion Ty)} {cs' : List (Conversion Ty')}
    (h : List.Forall₂ AlphaConversion cs cs') (v : RVal) : classify cs v = classify cs' v := by
  induction h with
  | nil => rfl
  | cons h _ ih => simp only [classify, h.capture, h.from_, ih]

theorem firstMatch_alpha {cs : List (Conversion Ty)} {cs' : List (Conversion Ty')}
    (h : List.Forall₂ AlphaConversion cs cs') (v : RVal) : firstMatch cs v = firstMatch cs' v := by
  induction h with
  | nil => rfl
  | cons h _ ih => simp only [firstMatch, h.capture, ih]

variable [DecidableEq Ty] [DecidableEq Ty'] {P : Compiled X Ty V W Tok} {P' : Compiled X' Ty' V W Tok}

theorem Compiled.Alpha.conversions (h : P.Alpha P') :
    List.Forall₂ AlphaConversion P.tokens.conversions P'.tokens.conversions := by
  have h1 := itemTokenEnums_alpha h.items
  obtain ⟨_, _, _, e1⟩ := P.stages_ok
  obtain ⟨_, _, _, e2⟩ := P'.stages_ok
  rw [e1, e2] at h1
  cases h1 with
  | cons h _ => exact h

/-- The token functions are the same. -/
theorem Compiled.Alpha.tf (h : P.Alpha P') : P.tf = P'.tf := by
  have hc := h.conversions
  have hi : P.tf.terminalIdx = P'.tf.terminalIdx := by
    funext t
    have h1 := P.idx t
    have h2 := P'.idx t
    rw [tokenTerminalIdx_eq, firstMatch_alpha hc, h.toR] at h1
    rw [tokenTerminalIdx_eq, h1] at h2
    exact Option.some.inj h2
  have hv : P.tf.value = P'.tf.value := by
    funext t
    obtain ⟨c, caps, _, _, h3, h4⟩ := P.classified t
    obtain ⟨c', caps', _, _, h3', h4'⟩ := P'.classified t
    rw [classify_alpha hc, h.toR, h3'] at h3
    have h5 := congrArg Prod.snd (Option.some.inj h3)
    dsimp only at h5
    rw [h4, h4', hi, h.inj, h5]
  cases h1 : P.tf
  cases h2 : P'.tf
  rw [h1, h2] at hi hv
  cases hi; cases hv
  rfl

/-- Related entry points run in lock-step. -/
theorem Compiled.Alpha.runAlpha (h : P.Alpha P') {ep ep' : EntryPoint} (hep : ep ∈ P.gen.entries)
    (hep' : ep' ∈ P'.gen.entries) (hgen : AlphaGenerated P.gen P'.gen) (hee : AlphaEntry ep ep') :
    ∃ (g : Grammar X Ty) (g' : Grammar X' Ty') (a : Automaton) (g1 : Grammar Nat Ty)
      (g1' : Grammar Nat Ty') (T1 T1' : LRTable Nat) (e : Nat), RunAlpha P.order P.code P'.code g g' P.gen P'.gen a g1 g1' T1 T1' P.tf e
      ep ep' := by
  obtain ⟨g, nts, ts, a, g1, T1, S⟩ := P.setup hep
  obtain ⟨g', nts', ts', a', g1', T1', S'⟩ := P'.setup hep'
  have hg : AlphaGrammar P.code P'.code g g' := by
    rcases lower_alpha (itemNonTerminals_alpha h.items) (h.conversions.imp fun _ _ h => h.from_) with
      ⟨f, e3, _⟩ | ⟨x, x', e3, e4, hg⟩
    · have := S.lower
      simp only [Compiled.defs] at this
      rw [e3] at this; cases this
    · have e1 := S.lower
      have e2 := S'.lower
      simp only [Compiled.defs] at e1 e2
      rw [e3] at e1; rw [e4] at e2
      cases e1; cases e2
      exact hg
  have haa : a = a' := by
    have e1 := S.stages.auto
    have e2 := S'.stages.auto
    rw [← h.order, ← hg.first, ← hg.automaton, e1] at e2
    exact Except.ok.inj e2
  subst haa
  have st' := S'.stages
  rw [← h.order] at st'
  obtain ⟨e, _, _, _, _, h1, h2, h3, h4⟩ := S.run hep
  obtain ⟨e', _, _, _, _, h1', h2', h3', h4'⟩ := S'.run hep'
  rw [← h.order] at h2'
  have : e' = e := by
    obtain ⟨x, k1, k2⟩ := id h2
    obtain ⟨x', k1', k2'⟩ := id h2'
    rw [← hee.initState, k1] at k1'
    cases k1'
    have := (k2 _).1 ((k2' ⟨e', 0, 0, none⟩).2 .entry)
    exact (this.pub S.wf (by rw [hg.isPublic]; exact h1')).1
  subst this
  exact ⟨g, g', a, g1, g1', T1, T1', e', S.stages, st', S.wf, S'.wf, hg, hgen, S.cons, h1, h2, h2',
    hee.initState, h3, h3', h4, h4'⟩

/-- The emitted tables are the same. -/
theorem Compiled.Alpha.generated (h : P.Alpha P') (hsz : loweredCount P.defs ≤ 4294967296) :
    AlphaGenerated P.gen P'.gen := by
  rcases parserMacro_alpha P.order h.items hsz with ⟨f, e1, _⟩ | ⟨r, r', e1, e2, h1, _⟩
  · have := P.accepted; rw [e1] at this; cases this
  · have k1 := P.accepted
    have k2 := P'.accepted
    rw [e1] at k1
    rw [← h.order, e2] at k2
    cases k1; cases k2
    exact h1

omit [DecidableEq Ty'] in
theorem Compiled.small_of_entry (P : Compiled X Ty V W Tok) {ep : EntryPoint}
    (hep : ep ∈ P.gen.entries) : loweredCount P.defs ≤ 4294967296 := by
  obtain ⟨g, h1, h2, _⟩ := P.stages_ok
  have hsz := generateParser_size h2 (List.ne_nil_of_mem hep)
  rw [lower_length h1] at hsz
  rw [loweredCount_eq]
  exact hsz

/-- **C64.** Two programs that differ in types, binders and the wording of actions only (every action
computes the same from the values of the symbols) have the same parsers, in the same order, under the
same names; called with any input in any state they do the same: same result or error, same effects,
same number of calls of `next()`, or both do not return. -/
theorem c64_same (h : P.Alpha P') :
    List.Forall₂ (fun ep ep' => ep.name = ep'.name ∧
      ∀ (E : Type) (input : Nat → Option (Except E Tok)) (w : W) (o : Outcome V E) (w' : W) (n : Nat),
        P.Returns ep input w o w' n ↔ P'.Returns ep' input w o w' n) P.gen.entries P'.gen.entries := by
  have hd := loweredCount_alpha (itemNonTerminals_alpha h.items)
  by_cases hne : P.gen.entries = [] ∧ P'.gen.entries = []
  · rw [hne.1, hne.2]; exact .nil
  have hsz : loweredCount P.defs ≤ 4294967296 := by
    cases h1 : P.gen.entries with
    | cons ep _ => exact P.small_of_entry (ep := ep) (by rw [h1]; simp)
    | nil =>
      cases h2 : P'.gen.entries with
      | nil => exact absurd ⟨h1, h2⟩ hne
      | cons ep' _ =>
        have := P'.small_of_entry (ep := ep') (by rw [h2]; simp)
        simp only [Compiled.defs] at this ⊢
        omega
  have hgen := h.generated hsz
  have key : ∀ {l : List EntryPoint} {l' : List EntryPoint}, List.Forall₂ AlphaEntry l l' →
      (∀ ep ∈ l, ep ∈ P.gen.entries) → (∀ ep' ∈ l', ep' ∈ P'.gen.entries) →
      List.Forall₂ (fun ep ep' => ep.name = ep'.name ∧
        ∀ (E : Type) (input : Nat → Option (Except E Tok)) (w : W) (o : Outcome V E) (w' : W) (n : Nat),
          P.Returns ep input w o w' n ↔ P'.Returns ep' input w o w' n) l l' := by
    intro l l' hl
    induction hl with
    | nil => intro _ _; exact .nil
    | @cons ep ep' l l' hx _ ih =>
      intro h1 h2
      refine .cons ⟨hx.name, ?_⟩ (ih (fun x hx => h1 x (by simp [hx])) (fun x hx => h2 x (by simp [hx])))
      intro E input w o w' n
      obtain ⟨g, g', a, g1, g1', T1, T1', e, hR⟩ := h.runAlpha (h1 ep (by simp)) (h2 ep' (by simp)) hgen hx
      unfold Compiled.Returns
      rw [← h.tf]
      constructor
      · rintro ⟨fuel, s, k1, k2, k3⟩
        rcases hR.parse input w fuel with ⟨k4, _⟩ | ⟨r, t, t', k4, k5, k6, k7⟩
        · rw [k1] at k4; cases k4
        · rw [k1] at k4; cases k4
          exact ⟨fuel, t', k5, by rw [← k6, k2], by rw [← k7, k3]⟩
      · rintro ⟨fuel, s, k1, k2, k3⟩
        rcases hR.parse input w fuel with ⟨_, k4⟩ | ⟨r, t, t', k4, k5, k6, k7⟩
        · rw [k1] at k4; cases k4
        · rw [k1] at k5; cases k5
          exact ⟨fuel, t, k4, by rw [k6, k2], by rw [k7, k3]⟩
  exact key hgen.entries (fun _ h => h) (fun _ h => h)

omit [DecidableEq Ty] [DecidableEq Ty'] in
/-- **C64**, acceptance: the macro panics on one exactly if it does on the other, with the same panic. -/
theorem c64_macro [DecidableEq Ty] [DecidableEq Ty'] {u : UserCode X V W} {u' : UserCode X' V W}
    {order : HashOrder} {items : List (GrammarItem X Ty)} {items' : List (GrammarItem X' Ty')}
    (h : List.Forall₂ (AlphaItem u u') items items')
    (hsz : loweredCount (itemNonTerminals items) ≤ 4294967296) :
    (∀ f, parserMacro order u.mkPath items = .error f ↔ parserMacro order u'.mkPath items' = .error f) ∧
    ((∃ r, parserMacro order u.mkPath items = .ok r) ↔ ∃ r, parserMacro order u'.mkPath items' = .ok r) := by
  rcases parserMacro_alpha order h hsz with ⟨f, e1, e2⟩ | ⟨r, r', e1, e2, _⟩
  · rw [e1, e2]
    simp
  · rw [e1, e2]
    simp

/-! ## Arbitrary actions -/

omit [DecidableEq Ty] [DecidableEq Ty'] in
theorem alphaItem_erase {V W : Type} {i : GrammarItem X Ty} {j : GrammarItem X' Ty'}
    {u : UserCode Unit V W} (h : SameRules i j)
    (hu : ∀ e e' env env' w, u.run e env w = u.run e' env' w) :
    AlphaItem u u (i.mapA fun _ => ()) (j.mapA fun _ => ()) := by
  have key : ∀ {l : List (AstProduction X)} {l' : List (AstProduction X')},
      l.map (·.rule) = l'.map (·.rule) →
      List.Forall₂ (AlphaProduction u u) (l.map (·.mapA fun _ => ())) (l'.map (·.mapA fun _ => ())) := by
    intro l
    induction l with
    | nil => intro l' h; cases l' with
      | nil => exact .nil
      | cons => simp at h
    | cons p l ih =>
      intro l' h
      cases l' with
      | nil => simp at h
      | cons q l' =>
        simp only [List.map_cons, List.cons.injEq] at h ⊢
        refine .cons ?_ (ih h.2)
        obtain ⟨sp, ap⟩ := p
        obtain ⟨sq, aq⟩ := q
        obtain ⟨h1, h2⟩ := Prod.mk.inj h.1
        refine ⟨h1, ?_⟩
        cases ap <;> cases aq <;> first | exact fun vals w _ => hu _ _ _ _ _ | exact trivial | cases h2
  cases h with
  | typeDef => exact .typeDef _ _
  | tokenEnum h => exact .tokenEnum h
  | nonTerminal h1 h2 h3 => exact .nonTerminal ⟨h1, h2, key h3⟩

theorem Compiled.SameLanguage.alpha {V' W' : Type} {Q : Compiled X' Ty' V' W' Tok}
    (h : P.SameLanguage Q) : P.erase.Alpha Q.erase where
  order := h.order
  items := by
    have : ∀ {l : List (GrammarItem X Ty)} {l' : List (GrammarItem X' Ty')},
        List.Forall₂ SameRules l l' →
        List.Forall₂ (AlphaItem (trivialCode fun _ => ()) (trivialCode fun _ => ()))
          (l.map (·.mapA fun _ => ())) (l'.map (·.mapA fun _ => ())) := by
      intro l l' hl
      induction hl with
      | nil => exact .nil
      | cons h _ ih => exact .cons (alphaItem_erase h fun _ _ _ _ _ => rfl) ih
    exact this h.items
  toR := h.toR
  inj := rfl

/-- **C64**, with arbitrary actions: two programs with the same rules and token declarations have
parsers of the same names, in the same order.  If one returns on some input after `n` calls of
`next()`, the other one returns after `n` calls as well, with the same kind of outcome (`Ok`, the same
lexer error, the same syntax error), unless one of its actions panics before. -/
theorem c64_language {V' W' : Type} {Q : Compiled X' Ty' V' W' Tok} (h : P.SameLanguage Q) :
    List.Forall₂ (fun ep ep' => ep.name = ep'.name ∧
      ∀ (E : Type) (input : Nat → Option (Except E Tok)) (w : W) (o : Outcome V E) (w' : W) (n : Nat),
        P.Returns ep input w o w' n → o ≠ .fault .userPanic → ∀ w1 : W',
        (∃ (o' : Outcome V' E) (w1' : W'), Q.Returns ep' input w1 o' w1' n ∧ o'.kind = o.kind) ∨
        ∃ (w1' : W') (m : Nat), m ≤ n ∧
          Q.Returns ep' input w1 (.fault .userPanic : Outcome V' E) w1' m)
      P.gen.entries Q.gen.entries := by
  have h1 := c64_same h.alpha
  have e1 : P.erase.gen.entries = P.gen.entries := rfl
  have e2 : Q.erase.gen.entries = Q.gen.entries := rfl
  rw [e1, e2] at h1
  refine h1.imp ?_
  rintro ep ep' ⟨k1, k2⟩
  refine ⟨k1, ?_⟩
  intro E input w o w' n hr ho w1
  have h2 := returns_erase.2 (returns_trivial hr ho)
  exact trivial_returns (returns_erase.1 ((k2 E input () _ () n).1 h2)) w1

namespace Examples

/-- The program `arith` with other names, `mut`, other types (the two non-terminals no longer have the
same type) and actions worded differently:
```
pub Expr: Sum = { <mut l:Expr> <op:"+"> <r:Term> => r + l, <t:Term> => t }
pub Term: Prod = { <x:"n"> => x, <p:"("> <q:Expr> ")" => q + 0 }
``` -/
def arithDefsA : List (AstNonTerminal (Act Log) String) :=
  [ ⟨true, "Expr", "Sum",
      [⟨[.named ⟨true, "l"⟩ (.nonTerminal "Expr"), nm "op" (.terminal "+"), nm "r" (.nonTerminal "Term")],
          logged (fun e => num e "r" + num e "l") "Expr" 0⟩,
        ⟨[nm "t" (.nonTerminal "Term")], logged (fun e => num e "t") "Expr" 1⟩]⟩,
    ⟨true, "Term", "Prod",
      [⟨[nm "x" (.terminal "n")], logged (fun e => num e "x") "Term" 0⟩,
        ⟨[nm "p" (.terminal "("), nm "q" (.nonTerminal "Expr"), .terminal ")"],
          logged (fun e => num e "q" + 0) "Term" 1⟩]⟩ ]

theorem arith_alpha_items :
    List.Forall₂ (AlphaItem code code) (itemsOf arithDefs) (itemsOf arithDefsA) := by
  refine .cons (.tokenEnum ?_) (.cons (.nonTerminal ⟨rfl, rfl, .cons ⟨rfl, ?_⟩ (.cons ⟨rfl, ?_⟩ .nil)⟩)
    (.cons (.nonTerminal ⟨rfl, rfl, .cons ⟨rfl, ?_⟩ (.cons ⟨rfl, ?_⟩ .nil)⟩) .nil))
  · have : ∀ l : List (Conversion String), List.Forall₂ AlphaConversion l l := by
      intro l
      induction l with
      | nil => exact .nil
      | cons c l ih => exact .cons ⟨rfl, rfl⟩ ih
    exact this _
  · intro vals w h
    cases h with | cons _ h => cases h with | cons _ h => cases h with | cons _ h =>
    cases h
    simp [code, num, userEnv, AstSymbol.boundName, nm, Nat.add_comm]
  · intro vals w h
    cases h with | cons _ h =>
    cases h
    simp [code, num, userEnv, AstSymbol.boundName, nm]
  · intro vals w h
    cases h with | cons _ h =>
    cases h
    simp [code, num, userEnv, AstSymbol.boundName, nm]
  · intro vals w h
    cases h with | cons _ h => cases h with | cons _ h => cases h with | cons _ h =>
    cases h
    simp [code, num, userEnv, AstSymbol.boundName, nm]

/-- The macro accepts it, because it accepts `arith`. -/
theorem arithA_ok : (parserMacro .insertion code.mkPath (itemsOf arithDefsA)).isOk = true := by
  have h1 := (c64_macro (order := .insertion) arith_alpha_items (by decide)).2
  obtain ⟨r, hr⟩ := h1.1 ⟨_, okVal_eq _ arith_ok⟩
  rw [hr]; rfl

def arithA : Compiled (Act Log) String Nat Log Tk := program arithDefsA arithA_ok

/-- The hypotheses of `c64_same`. -/
theorem arith_alpha : arith.Alpha arithA := ⟨rfl, arith_alpha_items, rfl, rfl⟩

/-- `1 + (2 + 3)` gives 6 in the reworded program, with the same calls of actions. -/
example : ∃ ep ∈ arithA.gen.entries, arithA.Returns ep
    (stream [.num 1, .plus, .lp, .num 2, .plus, .num 3, .rp]) []
    (.ok 6) [("Term", 0), ("Expr", 1), ("Term", 0), ("Expr", 1), ("Term", 0), ("Expr", 0),
        ("Term", 1), ("Expr", 0)] 8 := by
  obtain ⟨ep, hep, _, h⟩ := run_returns arith_run
  obtain ⟨i, hi, rfl⟩ := List.mem_iff_getElem.1 hep
  obtain ⟨hl, h3⟩ := List.forall₂_iff_get.1 (c64_same arith_alpha)
  exact ⟨_, List.getElem_mem (hl ▸ hi), ((h3 i hi (hl ▸ hi)).2 _ _ _ _ _ _).1 h⟩

/-- The two programs do differ: the emitted functions are not the same. -/
example : arith.gen.semActions.map (·.pops) ≠ arithA.gen.semActions.map (·.pops) := by decide +kernel

end Examples

end Parsegen
