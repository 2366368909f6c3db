import Verif.Spec.Assoc
import Verif.Props.Extend
import Verif.Props.Parts
import Verif.Props.Arrive

/-! # C81: left recursion associates to the left, right recursion to the right -/

namespace Parsegen

variable {X Ty V W Tok E Val : Type}

theorem UEval.split_syms {defs : List (AstNonTerminal X Ty)} {cls : Tok → String}
    {alg : UAlg X Tok Val W} {ss ss' : List AstSymbol} {toks : List Tok} {w w' : W} {vs : List Val}
    (h : UEval defs cls alg (ss ++ ss') toks w vs w') :
    ∃ t t' v v' w1, toks = t ++ t' ∧ vs = v ++ v' ∧ UEval defs cls alg ss t w v w1 ∧
      UEval defs cls alg ss' t' w1 v' w' := by
  induction ss generalizing toks w vs with
  | nil => exact ⟨[], toks, [], vs, w, rfl, rfl, .nil _, h⟩
  | cons s ss ih =>
    cases h with
    | term hs h =>
      obtain ⟨t, t', v, v', w1, rfl, rfl, h1, h2⟩ := ih h
      exact ⟨_ :: t, t', _ :: v, v', w1, rfl, rfl, .term hs h1, h2⟩
    | nt hs hp hc ha h =>
      obtain ⟨t, t', v, v', w1, rfl, rfl, h1, h2⟩ := ih h
      exact ⟨_ ++ t, t', _ :: v, v', w1, by simp, rfl, .nt hs hp hc ha h1, h2⟩

variable [DecidableEq Ty] {P : Compiled X Ty V W Tok} {A T : String} {seps : List String}
  {f : V → V → V} {g : V → V} {ep : EntryPoint} {input : Nat → Option (Except E Tok)}

theorem means_value {s : AstSymbol} {B : String} (hs : s.plain = some (.nt B)) {t : List Tok} {w w' : W}
    {vals : List (BVal V)} (h : P.Means [s] t w vals w') :
    ∃ v, vals = [.nt v] ∧ P.Means [.nonTerminal B] t w [.nt v] w' := by
  have h' : P.Means [.nonTerminal B] t w vals w' := UEval.replain (by rw [hs]; rfl) h
  cases h with
  | term h2 h3 => rw [hs] at h2; cases h2
  | @nt _ name i p t1 t2 _ us w1 v w2 _ vs _ h2 hp hc ha h3 =>
    cases h3
    simp only [userValues] at ha
    split at ha
    · obtain ⟨r, _, e⟩ := Option.map_eq_some_iff.1 ha
      cases e
      exact ⟨_, rfl, h'⟩
    · cases ha

/-- The parts of a production `B seps C`. -/
theorem join_parts {p : AstProduction X} {B C : String} (hp : P.IsJoin p B C seps f) {t : List Tok}
    {w w' : W} {us : List (BVal V)} (h : P.Means p.symbols t w us w') :
    ∃ t1 s t2 a b w1, t = t1 ++ s ++ t2 ∧ s.map P.cls = seps ∧
      us = .nt a :: (s.map fun t => .tok (P.fields t)) ++ [.nt b] ∧
      P.Means [.nonTerminal B] t1 w [.nt a] w1 ∧ P.Means [.nonTerminal C] t2 w1 [.nt b] w' := by
  obtain ⟨hsy, -⟩ := hp
  obtain ⟨s12, s3, e1, e2, e3⟩ := List.map_eq_append_iff.1 hsy
  obtain ⟨s1, s2, rfl, e4, e5⟩ := List.map_eq_cons_iff.1 e2
  obtain ⟨sc, sn, rfl, e6, e7⟩ := List.map_eq_cons_iff.1 e3
  rw [List.map_eq_nil_iff] at e7
  subst e7
  unfold Compiled.Means at h
  rw [e1] at h
  obtain ⟨t12, t3, v12, v3, w2, rfl, rfl, h12, h3⟩ := h.split_syms
  obtain ⟨t1, t2, v1, v2, w1, rfl, rfl, h1, h2⟩ := UEval.split_syms (ss := [s1]) h12
  obtain ⟨k1, k2, k3⟩ := h2.terminals (by
    intro s hs
    have : s.plain ∈ s2.map (·.plain) := List.mem_map_of_mem hs
    rw [e5] at this
    obtain ⟨x, _, hx⟩ := List.mem_map.1 this
    exact ⟨x, hx.symm⟩)
  subst k1 k2
  obtain ⟨a, rfl, ha⟩ := means_value e4 h1
  obtain ⟨b, rfl, hb⟩ := means_value e6 h3
  refine ⟨t1, t2, t3, a, b, _, rfl, ?_, rfl, ha, hb⟩
  rw [e5] at k3
  have := congrArg (List.map fun o : Option USym => match o with | some (.term x) => x | _ => "") k3
  simpa [Function.comp_def] using this.symm

theorem join_make {p : AstProduction X} {A B C : String} (hm : p ∈ userProds P.defs A)
    (hp : P.IsJoin p B C seps f) {t1 s t2 : List Tok} {a b : V} {w w1 w' : W}
    (hs : s.map P.cls = seps) (h1 : P.Means [.nonTerminal B] t1 w [.nt a] w1)
    (h2 : P.Means [.nonTerminal C] t2 w1 [.nt b] w') :
    P.Means [.nonTerminal A] (t1 ++ s ++ t2) w [.nt (f a b)] w' := by
  obtain ⟨i, hi⟩ := List.mem_iff_getElem?.1 hm
  obtain ⟨hsy, e, he, hrun⟩ := hp
  obtain ⟨s12, s3, e1, e2, e3⟩ := List.map_eq_append_iff.1 hsy
  obtain ⟨s1, s2, rfl, e4, e5⟩ := List.map_eq_cons_iff.1 e2
  obtain ⟨sc, sn, rfl, e6, e7⟩ := List.map_eq_cons_iff.1 e3
  rw [List.map_eq_nil_iff] at e7
  subst e7
  have hmid : ∀ (s2 : List AstSymbol) (s : List Tok), s2.map (·.plain) = (s.map P.cls).map (fun s => some (.term s)) →
      P.Means s2 s w1 (s.map fun t => .tok (P.fields t)) w1 := by
    intro s2 s
    induction s generalizing s2 with
    | nil =>
      intro h
      rw [List.map_nil, List.map_nil, List.map_eq_nil_iff] at h
      subst h
      exact .nil _
    | cons t s ih =>
      intro h
      obtain ⟨x, s2, rfl, q1, q2⟩ := List.map_eq_cons_iff.1 h
      exact .term (alg := userValues P.code P.fields) q1 (ih s2 q2)
  have h1' : P.Means [s1] t1 w [.nt a] w1 := UEval.replain (by rw [e4]; rfl) h1
  have h2' : P.Means [sc] t2 w1 [.nt b] w' := UEval.replain (by rw [e6]; rfl) h2
  have hall := (UEval.append (UEval.append h1' (hmid s2 s (by rw [hs]; exact e5))) h2')
  have : P.Means [.nonTerminal A] ((t1 ++ s ++ t2) ++ []) w [.nt (f a b)] w' := by
    refine UEval.nt rfl hi (us := .nt a :: (s.map fun t => .tok (P.fields t)) ++ [.nt b]) (w1 := w') ?_ ?_ (.nil _)
    · rw [e1]; exact hall
    · simp only [userValues, he]
      rw [hrun a b s w' hs]
      rfl
  simpa using this

theorem lift_parts {p : AstProduction X} (hp : P.IsLift p T g) {t : List Tok}
    {w w' : W} {us : List (BVal V)} (h : P.Means p.symbols t w us w') :
    ∃ a, us = [.nt a] ∧ P.Means [.nonTerminal T] t w [.nt a] w' := by
  obtain ⟨hsy, -⟩ := hp
  obtain ⟨s, sn, e1, e2, e3⟩ := List.map_eq_cons_iff.1 hsy
  rw [List.map_eq_nil_iff] at e3
  subst e3
  rw [e1] at h
  exact means_value e2 h

theorem lift_make {p : AstProduction X} (hm : p ∈ userProds P.defs A)
    (hp : P.IsLift p T g) {t : List Tok} {a : V} {w w' : W}
    (h : P.Means [.nonTerminal T] t w [.nt a] w') :
    P.Means [.nonTerminal A] t w [.nt (g a)] w' := by
  obtain ⟨i, hi⟩ := List.mem_iff_getElem?.1 hm
  obtain ⟨hsy, e, he, hrun⟩ := hp
  obtain ⟨s, sn, e1, e2, e3⟩ := List.map_eq_cons_iff.1 hsy
  rw [List.map_eq_nil_iff] at e3
  subst e3
  have : P.Means [.nonTerminal A] (t ++ []) w [.nt (g a)] w' := by
    refine UEval.nt rfl hi (us := [.nt a]) (w1 := w') ?_ ?_ (.nil _)
    · rw [e1]; exact UEval.replain (by rw [e2]; rfl) h
    · simp only [userValues, he]
      rw [hrun a w']
      rfl
  simpa using this

/-- How a phrase of `A` came about. -/
theorem means_inv {t : List Tok} {w w' : W} {v : V} (h : P.Means [.nonTerminal A] t w [.nt v] w') :
    ∃ p ∈ userProds P.defs A, ∃ e us w1, p.action = .infallible e ∧ P.Means p.symbols t w us w1 ∧
      P.code.run e (userEnv p.symbols us) w1 = some (v, w') := by
  cases h with
  | @nt _ name i p t1 t2 _ us w1 _ w2 _ _ _ hs hp hc ha h3 =>
    cases h3
    cases hs
    simp only [userValues] at ha
    split at ha
    · rename_i e he
      obtain ⟨r, h1, h2⟩ := Option.map_eq_some_iff.1 ha
      cases h2
      exact ⟨p, List.mem_of_getElem? hp, e, us, w1, he, by rw [List.append_nil]; exact hc, h1⟩
    · cases ha

/-- Induction on the phrases of `A`. -/
theorem means_induct {Q : List Tok → W → V → W → Prop}
    (step : ∀ p ∈ userProds P.defs A, ∀ e us t w w1 v w', p.action = .infallible e →
      P.Means p.symbols t w us w1 →
      (∀ l s r, p.symbols = l ++ s :: r → s.plain = some (.nt A) → ∃ t1 t2 t3 v1 a v3 u u',
        t = t1 ++ (t2 ++ t3) ∧ us = v1 ++ .nt a :: v3 ∧ P.Means l t1 w v1 u ∧ Q t2 u a u' ∧
          P.Means r t3 u' v3 w1) →
      P.code.run e (userEnv p.symbols us) w1 = some (v, w') → Q t w v w')
    {ss : List AstSymbol} {t : List Tok} {w w' : W} {vals : List (BVal V)} (h : P.Means ss t w vals w') :
    ∀ l s r, ss = l ++ s :: r → s.plain = some (.nt A) → ∃ t1 t2 t3 v1 a v3 u u',
        t = t1 ++ (t2 ++ t3) ∧ vals = v1 ++ .nt a :: v3 ∧ P.Means l t1 w v1 u ∧ Q t2 u a u' ∧
          P.Means r t3 u' v3 w' := by
  unfold Compiled.Means at h
  induction h with
  | nil w =>
    intro l s r e
    exact absurd e.symm (by simp)
  | @term x t ss ts w vs w' hs h ih =>
    intro l s r e hp
    cases l with
    | nil =>
      cases e
      rw [hs] at hp
      cases hp
    | cons y l =>
      cases e
      obtain ⟨t1, t2, t3, v1, a, v3, u, u', rfl, rfl, h1, h2, h3⟩ := ih l s r rfl hp
      exact ⟨t :: t1, t2, t3, _ :: v1, a, v3, u, u', rfl, rfl,
        .term (alg := userValues P.code P.fields) hs h1, h2, h3⟩
  | @nt x name i p ta tb w us w1 v w2 ss vs w3 hs hp hc ha h ih1 ih2 =>
    intro l s r e hpl
    cases l with
    | nil =>
      cases e
      rw [hs] at hpl
      cases hpl
      simp only [userValues] at ha
      split at ha
      · rename_i e he
        obtain ⟨q, h1, h2⟩ := Option.map_eq_some_iff.1 ha
        cases h2
        exact ⟨[], ta, tb, [], _, vs, w, _, rfl, rfl, .nil _,
          step p (List.mem_of_getElem? hp) e us ta w w1 _ _ he hc ih1 h1, h⟩
      · cases ha
    | cons y l =>
      cases e
      obtain ⟨t1, t2, t3, v1, a, v3, u, u', rfl, rfl, h1, h2, h3⟩ := ih2 l s r rfl hpl
      exact ⟨ta ++ t1, t2, t3, _ :: v1, a, v3, u, u', by simp, rfl, .nt hs hp hc ha h1, h2, h3⟩

theorem Compiled.Seq.snoc {t s t' : List Tok} {w w1 w' : W} {xs : List V} {x : V}
    (h : P.Seq T seps t w xs w1) (hs : s.map P.cls = seps)
    (hx : P.Means [.nonTerminal T] t' w1 [.nt x] w') : P.Seq T seps (t ++ s ++ t') w (xs ++ [x]) w' := by
  induction h with
  | one h => exact .more h hs (.one hx)
  | @more toks s0 rest w x0 w2 xs w3 h hs0 _ ih =>
    rw [show toks ++ s0 ++ rest ++ s ++ t' = toks ++ s0 ++ (rest ++ s ++ t') by simp]
    exact .more h hs0 (ih hx)

/-- **C81.** The value of a phrase of `A = { A seps T => f, T => g }` is `f (.. f (f (g x0) x1) ..) xn` where
`x0 .. xn` are the values of the phrases of `T`, evaluated from left to right. -/
theorem c81_left (h : P.LeftRecursive A T seps f g) {toks : List Tok} {w w' : W} {v : V} :
    P.Means [.nonTerminal A] toks w [.nt v] w' ↔
      ∃ x xs, P.Seq T seps toks w (x :: xs) w' ∧ v = xs.foldl f (g x) := by
  constructor
  · intro hm
    have key := means_induct (P := P) (A := A)
      (Q := fun t w v w' => ∃ x xs, P.Seq T seps t w (x :: xs) w' ∧ v = xs.foldl f (g x)) ?_ hm
      [] (.nonTerminal A) [] rfl rfl
    · obtain ⟨t1, t2, t3, v1, a, v3, u, u', rfl, e, h1, h2, h3⟩ := key
      cases h1
      cases h3
      cases e
      simpa using h2
    · intro p hp e us t w w1 v w' he hmp ih hrun
      rcases h.only p hp with hj | hl
      · obtain ⟨hsy, e', he', hf⟩ := hj
        rw [he] at he'
        cases he'
        obtain ⟨s12, s3, e1, e2, e3⟩ := List.map_eq_append_iff.1 hsy
        obtain ⟨s1, s2, rfl, e4, e5⟩ := List.map_eq_cons_iff.1 e2
        obtain ⟨sc, sn, rfl, e6, e7⟩ := List.map_eq_cons_iff.1 e3
        rw [List.map_eq_nil_iff] at e7
        subst e7
        obtain ⟨t1, t2, t3, v1, a, v3, u, u', rfl, rfl, h1, ⟨x, xs, h2, rfl⟩, h3⟩ := ih [] s1 (s2 ++ [sc]) e1 e4
        cases h1
        obtain ⟨s, t, v2, v4, w2, rfl, rfl, h4, h5⟩ := UEval.split_syms h3
        obtain ⟨k1, k2, k3⟩ := h4.terminals (by
          intro s hs
          have : s.plain ∈ s2.map (·.plain) := List.mem_map_of_mem hs
          rw [e5] at this
          obtain ⟨x, _, hx⟩ := List.mem_map.1 this
          exact ⟨x, hx.symm⟩)
        subst k1 k2
        have hs : s.map P.cls = seps := by
          rw [e5] at k3
          have := congrArg (List.map fun o : Option USym => match o with | some (.term x) => x | _ => "") k3
          simpa [Function.comp_def] using this.symm
        obtain ⟨b, rfl, hb⟩ := means_value e6 h5
        have := hf (xs.foldl f (g x)) b s w1 hs
        rw [show List.nil ++ BVal.nt (xs.foldl f (g x)) :: (s.map (userValues P.code P.fields).leaf ++ [BVal.nt b])
          = BVal.nt (xs.foldl f (g x)) :: (s.map fun t => BVal.tok (P.fields t)) ++ [BVal.nt b] from rfl,
          this] at hrun
        cases hrun
        refine ⟨x, xs ++ [b], ?_, by simp⟩
        have := h2.snoc hs hb
        simpa using this
      · obtain ⟨a, rfl, ha⟩ := lift_parts hl hmp
        obtain ⟨-, e', he', hg⟩ := hl
        rw [he] at he'
        cases he'
        rw [hg] at hrun
        cases hrun
        exact ⟨a, [], .one ha, rfl⟩
  · rintro ⟨x, xs, hs, rfl⟩
    obtain ⟨pj, hj1, hj2⟩ := h.join
    obtain ⟨pl, hl1, hl2⟩ := h.lift
    have key : ∀ {t w2 xs w'}, P.Seq T seps t w2 xs w' → ∀ {t0 w1 a s}, P.Means [.nonTerminal A] t0 w1 [.nt a] w2 →
        s.map P.cls = seps → P.Means [.nonTerminal A] (t0 ++ s ++ t) w1 [.nt (xs.foldl f a)] w' := by
      intro t w2 xs w' hq
      induction hq with
      | one hx =>
        intro t0 w1 a s h0 hs
        exact join_make hj1 hj2 hs h0 hx
      | @more toks s1 rest w x0 w2 xs w3 hx hs1 _ ih =>
        intro t0 w1 a s h0 hs
        have := ih (join_make hj1 hj2 hs h0 hx) hs1
        simpa using this
    cases hs with
    | one hx => exact lift_make hl1 hl2 hx
    | more hx hs1 hr => exact key hr (lift_make hl1 hl2 hx) hs1

/-- **C81.** The value of a phrase of `A = { T seps A => f, T => g }` is `f x0 (f x1 (.. (g xn)))` where
`x0 .. xn` are the values of the phrases of `T`, evaluated from left to right. -/
theorem c81_right (h : P.RightRecursive A T seps f g) {toks : List Tok} {w w' : W} {v : V} :
    P.Means [.nonTerminal A] toks w [.nt v] w' ↔
      ∃ xs x, P.Seq T seps toks w (xs ++ [x]) w' ∧ v = xs.foldr f (g x) := by
  constructor
  · intro hm
    have key := means_induct (P := P) (A := A)
      (Q := fun t w v w' => ∃ xs x, P.Seq T seps t w (xs ++ [x]) w' ∧ v = xs.foldr f (g x)) ?_ hm
      [] (.nonTerminal A) [] rfl rfl
    · obtain ⟨t1, t2, t3, v1, a, v3, u, u', rfl, e, h1, h2, h3⟩ := key
      cases h1
      cases h3
      cases e
      simpa using h2
    · intro p hp e us t w w1 v w' he hmp ih hrun
      rcases h.only p hp with hj | hl
      · obtain ⟨hsy, e', he', hf⟩ := hj
        rw [he] at he'
        cases he'
        obtain ⟨s12, s3, e1, e2, e3⟩ := List.map_eq_append_iff.1 hsy
        obtain ⟨s1, s2, rfl, e4, e5⟩ := List.map_eq_cons_iff.1 e2
        obtain ⟨sc, sn, rfl, e6, e7⟩ := List.map_eq_cons_iff.1 e3
        rw [List.map_eq_nil_iff] at e7
        subst e7
        obtain ⟨t1, t2, t3, v1, a, v3, u, u', rfl, rfl, h1, ⟨xs, x, h2, rfl⟩, h3⟩ := ih (s1 :: s2) sc [] e1 e6
        cases h3
        obtain ⟨t, s, v2, v4, w2, rfl, rfl, h5, h4⟩ := UEval.split_syms (ss := [s1]) h1
        obtain ⟨k1, k2, k3⟩ := h4.terminals (by
          intro s hs
          have : s.plain ∈ s2.map (·.plain) := List.mem_map_of_mem hs
          rw [e5] at this
          obtain ⟨x, _, hx⟩ := List.mem_map.1 this
          exact ⟨x, hx.symm⟩)
        subst k1 k2
        have hs : s.map P.cls = seps := by
          rw [e5] at k3
          have := congrArg (List.map fun o : Option USym => match o with | some (.term x) => x | _ => "") k3
          simpa [Function.comp_def] using this.symm
        obtain ⟨b, rfl, hb⟩ := means_value e4 h5
        have := hf b (xs.foldr f (g x)) s w1 hs
        rw [show [BVal.nt b] ++ s.map (userValues P.code P.fields).leaf ++ [BVal.nt (xs.foldr f (g x))]
          = BVal.nt b :: (s.map fun t => BVal.tok (P.fields t)) ++ [BVal.nt (xs.foldr f (g x))] from rfl,
          this] at hrun
        cases hrun
        refine ⟨b :: xs, x, ?_, by simp⟩
        have := Compiled.Seq.more hb hs h2
        simpa using this
      · obtain ⟨a, rfl, ha⟩ := lift_parts hl hmp
        obtain ⟨-, e', he', hg⟩ := hl
        rw [he] at he'
        cases he'
        rw [hg] at hrun
        cases hrun
        exact ⟨[], a, .one ha, rfl⟩
  · rintro ⟨xs, x, hs, rfl⟩
    obtain ⟨pj, hj1, hj2⟩ := h.join
    obtain ⟨pl, hl1, hl2⟩ := h.lift
    generalize hl : xs ++ [x] = l at hs
    induction hs generalizing xs with
    | one hx =>
      have : xs = [] := by
        cases xs with
        | nil => rfl
        | cons _ _ => simp at hl
      subst this
      cases hl
      exact lift_make hl1 hl2 hx
    | @more toks s1 rest w x0 w2 ys w3 hx hs1 hr ih =>
      cases xs with
      | nil =>
        cases hl
        cases hr
      | cons b xs =>
        cases hl
        exact join_make hj1 hj2 hs1 hx (ih _ rfl)

/-- **C81.** The value of a phrase of `A = { A T => f, => z }` is `f (.. f (f z x0) x1 ..) xn` where `x0 .. xn` are
the values of the phrases of `T`, evaluated from left to right; there may be none. -/
theorem c81_repeat {z : V} (h : P.Repeats A T f z) {toks : List Tok} {w w' : W} {v : V} :
    P.Means [.nonTerminal A] toks w [.nt v] w' ↔
      (toks = [] ∧ w' = w ∧ v = z) ∨ ∃ xs, P.Seq T [] toks w xs w' ∧ v = xs.foldl f z := by
  constructor
  · intro hm
    have key := means_induct (P := P) (A := A)
      (Q := fun t w v w' => (t = [] ∧ w' = w ∧ v = z) ∨ ∃ xs, P.Seq T [] t w xs w' ∧ v = xs.foldl f z) ?_ hm
      [] (.nonTerminal A) [] rfl rfl
    · obtain ⟨t1, t2, t3, v1, a, v3, u, u', rfl, e, h1, h2, h3⟩ := key
      cases h1
      cases h3
      cases e
      simpa using h2
    · intro p hp e us t w w1 v w' he hmp ih hrun
      rcases h.only p hp with hj | hl
      · obtain ⟨hsy, e', he', hf⟩ := hj
        rw [he] at he'
        cases he'
        obtain ⟨s1, s2, e1, e4, e5⟩ := List.map_eq_cons_iff.1 hsy
        obtain ⟨sc, sn, rfl, e6, e7⟩ := List.map_eq_cons_iff.1 e5
        rw [List.map_eq_nil_iff] at e7
        subst e7
        obtain ⟨t1, t2, t3, v1, a, v3, u, u', rfl, rfl, h1, h2, h3⟩ := ih [] s1 [sc] e1 e4
        cases h1
        obtain ⟨b, rfl, hb⟩ := means_value e6 h3
        have := hf a b [] w1 rfl
        rw [show List.nil ++ [BVal.nt a, BVal.nt b] = BVal.nt a :: ([] : List Tok).map
          (fun t => BVal.tok (P.fields t)) ++ [BVal.nt b] from rfl, this] at hrun
        cases hrun
        refine .inr ?_
        rcases h2 with ⟨rfl, rfl, rfl⟩ | ⟨xs, h2, rfl⟩
        · exact ⟨[b], .one hb, rfl⟩
        · refine ⟨xs ++ [b], ?_, by simp⟩
          have := h2.snoc (s := []) rfl hb
          simpa using this
      · obtain ⟨hs, e', he', hz⟩ := hl
        rw [he] at he'
        cases he'
        rw [hs] at hmp hrun
        cases hmp
        rw [hz] at hrun
        cases hrun
        exact .inl ⟨rfl, rfl, rfl⟩
  · obtain ⟨pj, hj1, hj2⟩ := h.join
    obtain ⟨pl, hl1, hl2, e, he, hz⟩ := h.empty
    have h0 : ∀ w, P.Means [.nonTerminal A] [] w [.nt z] w := by
      intro w
      obtain ⟨i, hi⟩ := List.mem_iff_getElem?.1 hl1
      have : P.Means [.nonTerminal A] ([] ++ []) w [.nt z] w := by
        refine UEval.nt rfl hi (us := []) (w1 := w) ?_ ?_ (.nil _)
        · rw [hl2]; exact .nil _
        · simp only [userValues, he]
          rw [hl2, hz w]
          rfl
      exact this
    have key : ∀ {t w2 xs w'}, P.Seq T [] t w2 xs w' → ∀ {t0 w1 a}, P.Means [.nonTerminal A] t0 w1 [.nt a] w2 →
        P.Means [.nonTerminal A] (t0 ++ t) w1 [.nt (xs.foldl f a)] w' := by
      intro t w2 xs w' hq
      induction hq with
      | one hx =>
        intro t0 w1 a h0
        have := join_make (s := []) hj1 hj2 rfl h0 hx
        simpa using this
      | @more toks s1 rest w x0 w2 xs w3 hx hs1 _ ih =>
        intro t0 w1 a h0
        have hs1 : s1 = [] := by simpa using hs1
        subst hs1
        have := ih (join_make (s := []) hj1 hj2 rfl h0 hx)
        simpa using this
    rintro (⟨rfl, rfl, rfl⟩ | ⟨xs, hs, rfl⟩)
    · exact h0 _
    · exact key hs (h0 w)

/-- **C81.** For the parser: `Ok(v)` is returned exactly for sequences of phrases of `T`, and `v` is the left
fold. -/
theorem c81_left_parse (hR : P.Regular) (hep : ep ∈ P.gen.entries)
    (h : P.LeftRecursive ep.name T seps f g) {w w' : W} {v : V} :
    (∃ n, P.Returns ep input w (.ok v) w' n) ↔
      ∃ toks x xs, Ends input toks ∧ P.Seq T seps toks w (x :: xs) w' ∧ v = xs.foldl f (g x) := by
  constructor
  · rintro ⟨n, hr⟩
    obtain ⟨toks, h1, h2, h3⟩ := c02_value hep hr
    obtain ⟨x, xs, h4, h5⟩ := (c81_left h).1 h3
    exact ⟨toks, x, xs, ⟨h1, h2⟩, h4, h5⟩
  · rintro ⟨toks, x, xs, h1, h2, h3⟩
    exact ⟨_, c04_value hR hep h1 ((c81_left h).2 ⟨x, xs, h2, h3⟩)⟩

/-- **C81.** For the parser: `Ok(v)` is returned exactly for sequences of phrases of `T`, and `v` is the right
fold. -/
theorem c81_right_parse (hR : P.Regular) (hep : ep ∈ P.gen.entries)
    (h : P.RightRecursive ep.name T seps f g) {w w' : W} {v : V} :
    (∃ n, P.Returns ep input w (.ok v) w' n) ↔
      ∃ toks xs x, Ends input toks ∧ P.Seq T seps toks w (xs ++ [x]) w' ∧ v = xs.foldr f (g x) := by
  constructor
  · rintro ⟨n, hr⟩
    obtain ⟨toks, h1, h2, h3⟩ := c02_value hep hr
    obtain ⟨xs, x, h4, h5⟩ := (c81_right h).1 h3
    exact ⟨toks, xs, x, ⟨h1, h2⟩, h4, h5⟩
  · rintro ⟨toks, xs, x, h1, h2, h3⟩
    exact ⟨_, c04_value hR hep h1 ((c81_right h).2 ⟨xs, x, h2, h3⟩)⟩

/-- **C81.** For the parser: `Ok(v)` is returned exactly for sequences, possibly empty, of phrases of `T`, and `v`
is the left fold. -/
theorem c81_repeat_parse {z : V} (hR : P.Regular) (hep : ep ∈ P.gen.entries)
    (h : P.Repeats ep.name T f z) {w w' : W} {v : V} :
    (∃ n, P.Returns ep input w (.ok v) w' n) ↔
      ∃ toks, Ends input toks ∧ ((toks = [] ∧ w' = w ∧ v = z) ∨
        ∃ xs, P.Seq T [] toks w xs w' ∧ v = xs.foldl f z) := by
  constructor
  · rintro ⟨n, hr⟩
    obtain ⟨toks, h1, h2, h3⟩ := c02_value hep hr
    exact ⟨toks, ⟨h1, h2⟩, (c81_repeat h).1 h3⟩
  · rintro ⟨toks, h1, h2⟩
    exact ⟨_, c04_value hR hep h1 ((c81_repeat h).2 h2)⟩

/-! ## Differences and digits -/

namespace Examples

/-- An action without effects. -/
def pureA (f : Env Nat → Nat) : AstAction (Act Log) := .infallible fun e w => some (f e, w)

/-- `Left = Left "+" Item | Item`, `Right = Item "+" Right | Item` with `a - b`; `Digits = Digits Item | ` with
`10 a + b`. -/
def foldDefs : List (AstNonTerminal (Act Log) String) :=
  [ ⟨true, "Left", "u64",
      [⟨[nm "a" (.nonTerminal "Left"), .terminal "+", nm "b" (.nonTerminal "Item")],
          pureA fun e => num e "a" - num e "b"⟩,
        ⟨[nm "a" (.nonTerminal "Item")], pureA fun e => num e "a"⟩]⟩,
    ⟨true, "Right", "u64",
      [⟨[nm "a" (.nonTerminal "Item"), .terminal "+", nm "b" (.nonTerminal "Right")],
          pureA fun e => num e "a" - num e "b"⟩,
        ⟨[nm "a" (.nonTerminal "Item")], pureA fun e => num e "a"⟩]⟩,
    ⟨true, "Digits", "u64",
      [⟨[nm "a" (.nonTerminal "Digits"), nm "b" (.nonTerminal "Item")],
          pureA fun e => 10 * num e "a" + num e "b"⟩,
        ⟨[], pureA fun _ => 0⟩]⟩,
    ⟨false, "Item", "u64", [⟨[nm "a" (.terminal "n")], logged (fun e => num e "a") "Item" 0⟩]⟩ ]

set_option maxRecDepth 10000 in
theorem fold_ok : (parserMacro .insertion code.mkPath (itemsOf foldDefs)).isOk = true := by decide +kernel

/-- The compiled program. -/
def folds : Compiled (Act Log) String Nat Log Tk := program foldDefs fold_ok

theorem folds_code : folds.code = code := rfl

theorem folds_defs : folds.defs = foldDefs := defs_itemsOf _

theorem folds_left : folds.LeftRecursive "Left" "Item" ["+"] (fun a b => a - b) (fun a => a) := by
  have hu : userProds folds.defs "Left" = foldDefs[0].productions := by rw [folds_defs]; rfl
  have hj : folds.IsJoin foldDefs[0].productions[0] "Left" "Item" ["+"] fun a b => a - b := by
    refine ⟨rfl, _, rfl, fun a b s w hs => ?_⟩
    rw [folds_code]
    obtain ⟨t, rfl⟩ := List.length_eq_one_iff.1 (by simpa using congrArg List.length hs : s.length = 1)
    rfl
  have hl : folds.IsLift foldDefs[0].productions[1] "Item" fun a => a :=
    ⟨rfl, _, rfl, fun a w => by rw [folds_code]; rfl⟩
  refine ⟨⟨_, by rw [hu]; exact .head _, hj⟩, ⟨_, by rw [hu]; exact .tail _ (.head _), hl⟩, fun p hp => ?_⟩
  rw [hu] at hp
  rcases hp with _ | ⟨_, _ | ⟨_, hp⟩⟩
  · exact .inl hj
  · exact .inr hl
  · cases hp

theorem folds_right : folds.RightRecursive "Right" "Item" ["+"] (fun a b => a - b) (fun a => a) := by
  have hu : userProds folds.defs "Right" = foldDefs[1].productions := by rw [folds_defs]; rfl
  have hj : folds.IsJoin foldDefs[1].productions[0] "Item" "Right" ["+"] fun a b => a - b := by
    refine ⟨rfl, _, rfl, fun a b s w hs => ?_⟩
    rw [folds_code]
    obtain ⟨t, rfl⟩ := List.length_eq_one_iff.1 (by simpa using congrArg List.length hs : s.length = 1)
    rfl
  have hl : folds.IsLift foldDefs[1].productions[1] "Item" fun a => a :=
    ⟨rfl, _, rfl, fun a w => by rw [folds_code]; rfl⟩
  refine ⟨⟨_, by rw [hu]; exact .head _, hj⟩, ⟨_, by rw [hu]; exact .tail _ (.head _), hl⟩, fun p hp => ?_⟩
  rw [hu] at hp
  rcases hp with _ | ⟨_, _ | ⟨_, hp⟩⟩
  · exact .inl hj
  · exact .inr hl
  · cases hp

theorem folds_repeats : folds.Repeats "Digits" "Item" (fun a b => 10 * a + b) 0 := by
  have hu : userProds folds.defs "Digits" = foldDefs[2].productions := by rw [folds_defs]; rfl
  have hj : folds.IsJoin foldDefs[2].productions[0] "Digits" "Item" [] fun a b => 10 * a + b := by
    refine ⟨rfl, _, rfl, fun a b s w hs => ?_⟩
    rw [folds_code]
    match s, hs with
    | [], _ => rfl
  have hl : folds.IsEmpty foldDefs[2].productions[1] 0 :=
    ⟨rfl, _, rfl, fun w => by rw [folds_code]; rfl⟩
  refine ⟨⟨_, by rw [hu]; exact .head _, hj⟩, ⟨_, by rw [hu]; exact .tail _ (.head _), hl⟩, fun p hp => ?_⟩
  rw [hu] at hp
  rcases hp with _ | ⟨_, _ | ⟨_, hp⟩⟩
  · exact .inl hj
  · exact .inr hl
  · cases hp

set_option maxRecDepth 10000 in
/-- `5 - 2 - 1` to the left -/
theorem folds_run : run folds 0 (stream [.num 5, .plus, .num 2, .plus, .num 1]) [] 100 =
    some (.ok 2, [("Item", 0), ("Item", 0), ("Item", 0)], 6) := by decide +kernel

set_option maxRecDepth 10000 in
/-- to the right -/
example : run folds 1 (stream [.num 5, .plus, .num 2, .plus, .num 1]) [] 100 =
    some (.ok 4, [("Item", 0), ("Item", 0), ("Item", 0)], 6) := by decide +kernel

set_option maxRecDepth 10000 in
example : run folds 2 (stream [.num 5, .num 2, .num 1]) [] 100 =
    some (.ok 521, [("Item", 0), ("Item", 0), ("Item", 0)], 4) := by decide +kernel

set_option maxRecDepth 10000 in
theorem folds_regular : folds.Regular := by
  obtain ⟨ep, hep, _⟩ := run_returns folds_run
  refine folds.regular_of_check hep ?_ ?_
  · decide +kernel
  · decide +kernel

/-- The three theorems apply. -/
example (ep : EntryPoint) (hep : ep ∈ folds.gen.entries) (input : Nat → Option (Except String Tk)) (w w' : Log)
    (v : Nat) :
    (ep.name = "Left" → ((∃ n, folds.Returns ep input w (.ok v) w' n) ↔
      ∃ toks x xs, Ends input toks ∧ folds.Seq "Item" ["+"] toks w (x :: xs) w' ∧ v = xs.foldl (· - ·) x)) ∧
    (ep.name = "Right" → ((∃ n, folds.Returns ep input w (.ok v) w' n) ↔
      ∃ toks xs x, Ends input toks ∧ folds.Seq "Item" ["+"] toks w (xs ++ [x]) w' ∧ v = xs.foldr (· - ·) x)) ∧
    (ep.name = "Digits" → ((∃ n, folds.Returns ep input w (.ok v) w' n) ↔
      ∃ toks, Ends input toks ∧ ((toks = [] ∧ w' = w ∧ v = 0) ∨
        ∃ xs, folds.Seq "Item" [] toks w xs w' ∧ v = xs.foldl (fun a b => 10 * a + b) 0))) :=
  ⟨fun h => c81_left_parse folds_regular hep (h ▸ folds_left),
    fun h => c81_right_parse folds_regular hep (h ▸ folds_right),
    fun h => c81_repeat_parse folds_regular hep (h ▸ folds_repeats)⟩

end Examples

end Parsegen
