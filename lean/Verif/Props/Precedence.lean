import Verif.Spec.Precedence
import Verif.Props.Assoc

/-! # C84: operators of several precedences -/

namespace Parsegen

variable {X Ty V W Tok E α : Type}

section cutting
variable {cls : Tok → String} {Q : List Tok → W → α → W → Prop} {a b : List String}

theorem Infix.mono (hab : ∀ o ∈ a, o ∈ b) {toks w x r w'} (h : Infix cls Q a toks w x r w') :
    Infix cls Q b toks w x r w' := by
  induction h with
  | one h => exact .one h
  | more h hs _ ih => exact .more h (hab _ hs) ih

theorem Infix.append {toks s rest w x r w1 y r' w'} (h : Infix cls Q a toks w x r w1) (hs : cls s ∈ a)
    (h' : Infix cls Q a rest w1 y r' w') :
    Infix cls Q a (toks ++ s :: rest) w x (r ++ (cls s, y) :: r') w' := by
  induction h with
  | one h => exact .more h hs h'
  | @more toks s0 rest0 w x w1 y r w' h hs0 _ ih =>
    rw [show toks ++ s0 :: rest0 ++ s :: rest = toks ++ s0 :: (rest0 ++ s :: rest) by simp]
    exact .more h hs0 (ih h')

theorem cut_none {x : α} {r : List (String × α)} (h : ∀ e ∈ r, e.1 ∉ a) : cut a x r = ((x, r), []) := by
  induction r generalizing x with
  | nil => rfl
  | cons e r ih =>
    obtain ⟨o, y⟩ := e
    have ho : o ∉ a := h (o, y) (.head _)
    simp only [cut, ih fun e he => h e (.tail _ he), if_neg ho]

theorem cut_append {x y : α} {r r' : List (String × α)} {o : String} (h : ∀ e ∈ r, e.1 ∉ a) (ho : o ∈ a) :
    cut a x (r ++ (o, y) :: r') = ((x, r), (o, (cut a y r').1) :: (cut a y r').2) := by
  induction r generalizing x with
  | nil => simp [cut, ho]
  | cons e r ih =>
    obtain ⟨o', y'⟩ := e
    have ho' : o' ∉ a := h (o', y') (.head _)
    simp only [List.cons_append, cut, ih fun e he => h e (.tail _ he), if_neg ho']

theorem Infix.ops {toks w x r w'} (h : Infix cls Q a toks w x r w') : ∀ e ∈ r, e.1 ∈ a := by
  induction h with
  | one => simp
  | more _ hs _ ih =>
    intro e he
    cases he with
    | head => exact hs
    | tail _ he => exact ih e he

/-- Cutting at the operators `a`: sequences of sequences. -/
theorem infix_cut (hab : ∀ o ∈ a, o ∉ b) {toks : List Tok} {w w' : W} {X : α × List (String × α)}
    {R : List (String × (α × List (String × α)))} :
    Infix cls (fun t w c w' => Infix cls Q b t w c.1 c.2 w') a toks w X R w' ↔
      ∃ x r, Infix cls Q (a ++ b) toks w x r w' ∧ cut a x r = (X, R) := by
  constructor
  · intro h
    induction h with
    | one h =>
      refine ⟨_, _, h.mono fun o ho => List.mem_append_right _ ho, cut_none fun e he hea => ?_⟩
      exact hab _ hea (h.ops e he)
    | more h hs _ ih =>
      obtain ⟨x, r, h1, h2⟩ := ih
      refine ⟨_, _, (h.mono fun o ho => List.mem_append_right _ ho).append (List.mem_append_left _ hs) h1, ?_⟩
      rw [cut_append (fun e he hea => hab _ hea (h.ops e he)) hs, h2]
  · rintro ⟨x, r, h, hc⟩
    induction h generalizing X R with
    | one h =>
      cases hc
      exact .one (.one h)
    | @more toks s rest w x w1 y r w' h hs _ ih =>
      have ih := ih (X := (cut a y r).1) (R := (cut a y r).2) rfl
      unfold cut at hc
      by_cases hm : cls s ∈ a
      · simp only [if_pos hm] at hc
        cases hc
        exact .more (.one h) hm ih
      · simp only [if_neg hm] at hc
        cases hc
        have hsb : cls s ∈ b := (List.mem_append.1 hs).resolve_left hm
        generalize (cut a y r).1 = c at ih ⊢
        generalize (cut a y r).2 = R at ih ⊢
        cases ih with
        | one h' => exact .one (.more h hsb h')
        | @more t1 s1 t2 _ _ w2 _ R' _ h' hs1 hr =>
          rw [show toks ++ s :: (t1 ++ s1 :: t2) = (toks ++ s :: t1) ++ s1 :: t2 by simp]
          exact .more (.more h hsb h') hs1 hr

theorem infix_congr {β : Type} {Q' : List Tok → W → β → W → Prop} (k : β → α)
    (hQ : ∀ t w v w', Q t w v w' ↔ ∃ c, Q' t w c w' ∧ v = k c) {toks : List Tok} {w w' : W} {x : α}
    {r : List (String × α)} :
    Infix cls Q a toks w x r w' ↔
      ∃ c R, Infix cls Q' a toks w c R w' ∧ x = k c ∧ r = R.map fun e => (e.1, k e.2) := by
  constructor
  · intro h
    induction h with
    | one h =>
      obtain ⟨c, h1, h2⟩ := (hQ _ _ _ _).1 h
      exact ⟨c, [], .one h1, h2, rfl⟩
    | more h hs _ ih =>
      obtain ⟨c, h1, h2⟩ := (hQ _ _ _ _).1 h
      obtain ⟨c', R, h3, rfl, rfl⟩ := ih
      exact ⟨c, _, .more h1 hs h3, h2, rfl⟩
  · rintro ⟨c, R, h, rfl, rfl⟩
    induction h with
    | one h => exact .one ((hQ _ _ _ _).2 ⟨_, h, rfl⟩)
    | more h hs _ ih => exact .more ((hQ _ _ _ _).2 ⟨_, h, rfl⟩) hs ih

end cutting

theorem foldLeft_append {f : String → V → V → V} {x y : V} {r : List (String × V)} {o : String} :
    foldLeft f x (r ++ [(o, y)]) = f o (foldLeft f x r) y := by
  induction r generalizing x with
  | nil => rfl
  | cons e r ih => exact ih

variable [DecidableEq Ty] {P : Compiled X Ty V W Tok} {A T atom : String} {l : Level V} {ls : List (Level V)}
  {ep : EntryPoint} {input : Nat → Option (Except E Tok)}

theorem terms_of_join {s2 : List AstSymbol} {seps : List String}
    (e5 : s2.map (·.plain) = seps.map fun s => some (.term s)) {s : List Tok} {w w' : W} {v : List (BVal V)}
    (h : P.Means s2 s w v w') :
    w' = w ∧ v = s.map (fun t => .tok (P.fields t)) ∧ s.map P.cls = seps := by
  obtain ⟨k1, k2, k3⟩ := UEval.terminals h (by
    intro s hs
    have : s.plain ∈ s2.map (·.plain) := List.mem_map_of_mem hs
    rw [e5] at this
    obtain ⟨x, _, hx⟩ := List.mem_map.1 this
    exact ⟨x, hx.symm⟩)
  refine ⟨k2, k1, ?_⟩
  rw [e5] at k3
  have := congrArg (List.map fun o : Option USym => match o with | some (.term x) => x | _ => "") k3
  simpa [Function.comp_def] using this.symm

theorem join_symbols {p : AstProduction X} {B C : String} {seps : List String} {f : V → V → V}
    (hj : P.IsJoin p B C seps f) : ∃ sb s2 sc, p.symbols = sb :: (s2 ++ [sc]) ∧ sb.plain = some (.nt B) ∧
      (s2.map (·.plain) = seps.map fun s => some (.term s)) ∧ sc.plain = some (.nt C) := by
  obtain ⟨hsy, -⟩ := hj
  obtain ⟨s12, s3, e1, e2, e3⟩ := List.map_eq_append_iff.1 hsy
  obtain ⟨s1, s2, rfl, e4, e5⟩ := List.map_eq_cons_iff.1 e2
  obtain ⟨sc, sn, rfl, e6, e7⟩ := List.map_eq_cons_iff.1 e3
  rw [List.map_eq_nil_iff] at e7
  subst e7
  exact ⟨s1, s2, sc, by simpa using e1, e4, e5, e6⟩

theorem level_left (h : P.IsLevel l T) (hr : l.right = false) {toks : List Tok} {w w' : W} {v : V} :
    P.Phrase l.name toks w v w' ↔
      ∃ x r, Infix P.cls (P.Phrase T) l.ops toks w x r w' ∧ v = foldLeft l.f x r := by
  obtain ⟨hjoin, ⟨pl, hl1, hl2⟩, honly⟩ := h
  simp only [hr, Bool.false_eq_true, if_false] at hjoin honly
  constructor
  · intro hm
    have key := means_induct (P := P) (A := l.name)
      (Q := fun t w v w' => ∃ x r, Infix P.cls (P.Phrase T) l.ops t w x r w' ∧ v = foldLeft l.f x r) ?_ hm
      [] (.nonTerminal l.name) [] rfl rfl
    · obtain ⟨t1, t2, t3, v1, a, v3, u, u', rfl, e, h1, h2, h3⟩ := key
      cases h1
      cases h3
      cases e
      simpa using h2
    · intro p hp e us t w w1 v w' he hmp ih hrun
      rcases honly p hp with ⟨o, ho, hj⟩ | hl
      · obtain ⟨s1, s2, sc, e1, e4, e5, e6⟩ := join_symbols hj
        obtain ⟨-, e', he', hf⟩ := hj
        rw [he] at he'
        cases he'
        obtain ⟨t1, t2, t3, v1, a, v3, u, u', rfl, rfl, h1, ⟨x, r, h2, rfl⟩, h3⟩ := ih [] s1 (s2 ++ [sc]) e1 e4
        cases h1
        obtain ⟨s, t, v2, v4, w2, rfl, rfl, h4, h5⟩ := UEval.split_syms h3
        obtain ⟨rfl, rfl, hs⟩ := terms_of_join e5 h4
        obtain ⟨b, rfl, hb⟩ := means_value e6 h5
        have := hf (foldLeft l.f x r) b s w1 hs
        rw [show List.nil ++ BVal.nt (foldLeft l.f x r) :: ((s.map fun t => BVal.tok (P.fields t)) ++ [BVal.nt b])
          = BVal.nt (foldLeft l.f x r) :: (s.map fun t => BVal.tok (P.fields t)) ++ [BVal.nt b] from rfl,
          this] at hrun
        cases hrun
        obtain ⟨tk, rfl⟩ := List.length_eq_one_iff.1 (by simpa using congrArg List.length hs : s.length = 1)
        have hs : P.cls tk = o := by simpa using hs
        subst hs
        refine ⟨x, r ++ [(P.cls tk, b)], ?_, foldLeft_append.symm⟩
        have := h2.append (s := tk) ho (.one (show P.Phrase T t _ b _ from hb))
        simpa using this
      · obtain ⟨a, rfl, ha⟩ := lift_parts hl hmp
        obtain ⟨-, e', he', hg⟩ := hl
        rw [he] at he'
        cases he'
        rw [hg] at hrun
        cases hrun
        exact ⟨a, [], .one ha, rfl⟩
  · rintro ⟨x, r, hs, rfl⟩
    have key : ∀ {t w2 y r w'}, Infix P.cls (P.Phrase T) l.ops t w2 y r w' → ∀ {t0 w1 a s},
        P.Phrase l.name t0 w1 a w2 → P.cls s ∈ l.ops →
        P.Phrase l.name (t0 ++ s :: t) w1 (foldLeft l.f a ((P.cls s, y) :: r)) w' := by
      intro t w2 y r w' hq
      induction hq with
      | one hx =>
        intro t0 w1 a s h0 hs
        obtain ⟨p, hp, hj⟩ := hjoin _ hs
        have := join_make hp hj (s := [s]) (by simp) h0 hx
        simpa [foldLeft, Compiled.Phrase] using this
      | @more toks s1 rest w x0 w2 y r w3 hx hs1 _ ih =>
        intro t0 w1 a s h0 hs
        obtain ⟨p, hp, hj⟩ := hjoin _ hs
        have := ih (join_make hp hj (s := [s]) (by simp) h0 hx) hs1
        simpa [foldLeft, Compiled.Phrase] using this
    cases hs with
    | one hx => exact lift_make hl1 hl2 hx
    | more hx hs1 hr => exact key hr (lift_make hl1 hl2 hx) hs1

theorem level_right (h : P.IsLevel l T) (hr : l.right = true) {toks : List Tok} {w w' : W} {v : V} :
    P.Phrase l.name toks w v w' ↔
      ∃ x r, Infix P.cls (P.Phrase T) l.ops toks w x r w' ∧ v = foldRight l.f x r := by
  obtain ⟨hjoin, ⟨pl, hl1, hl2⟩, honly⟩ := h
  simp only [hr, if_true] at hjoin honly
  constructor
  · intro hm
    have key := means_induct (P := P) (A := l.name)
      (Q := fun t w v w' => ∃ x r, Infix P.cls (P.Phrase T) l.ops t w x r w' ∧ v = foldRight l.f x r) ?_ hm
      [] (.nonTerminal l.name) [] rfl rfl
    · obtain ⟨t1, t2, t3, v1, a, v3, u, u', rfl, e, h1, h2, h3⟩ := key
      cases h1
      cases h3
      cases e
      simpa using h2
    · intro p hp e us t w w1 v w' he hmp ih hrun
      rcases honly p hp with ⟨o, ho, hj⟩ | hl
      · obtain ⟨s1, s2, sc, e1, e4, e5, e6⟩ := join_symbols hj
        obtain ⟨-, e', he', hf⟩ := hj
        rw [he] at he'
        cases he'
        obtain ⟨t1, t2, t3, v1, a, v3, u, u', rfl, rfl, h1, ⟨x, r, h2, rfl⟩, h3⟩ :=
          ih (s1 :: s2) sc [] e1 e6
        cases h3
        obtain ⟨t, s, v2, v4, w2, rfl, rfl, h5, h4⟩ := UEval.split_syms (ss := [s1]) h1
        obtain ⟨rfl, rfl, hs⟩ := terms_of_join e5 h4
        obtain ⟨b, rfl, hb⟩ := means_value e4 h5
        have := hf b (foldRight l.f x r) s w1 hs
        rw [show [BVal.nt b] ++ (s.map fun t => BVal.tok (P.fields t)) ++ [BVal.nt (foldRight l.f x r)]
          = BVal.nt b :: (s.map fun t => BVal.tok (P.fields t)) ++ [BVal.nt (foldRight l.f x r)] from rfl,
          this] at hrun
        cases hrun
        obtain ⟨tk, rfl⟩ := List.length_eq_one_iff.1 (by simpa using congrArg List.length hs : s.length = 1)
        have hs : P.cls tk = o := by simpa using hs
        subst hs
        refine ⟨b, (P.cls tk, x) :: r, ?_, rfl⟩
        have := Infix.more (s := tk) (show P.Phrase T t w b _ from hb) ho h2
        simpa using this
      · obtain ⟨a, rfl, ha⟩ := lift_parts hl hmp
        obtain ⟨-, e', he', hg⟩ := hl
        rw [he] at he'
        cases he'
        rw [hg] at hrun
        cases hrun
        exact ⟨a, [], .one ha, rfl⟩
  · rintro ⟨x, r, hs, rfl⟩
    induction hs with
    | one hx => exact lift_make hl1 hl2 hx
    | @more toks s1 rest w x0 w2 y r w3 hx hs1 _ ih =>
      obtain ⟨p, hp, hj⟩ := hjoin _ hs1
      have := join_make hp hj (s := [s1]) (by simp) hx ih
      simpa [foldRight, Compiled.Phrase] using this

theorem level_phrase (h : P.IsLevel l T) {toks : List Tok} {w w' : W} {v : V} :
    P.Phrase l.name toks w v w' ↔
      ∃ x r, Infix P.cls (P.Phrase T) l.ops toks w x r w' ∧ v = l.fold x r := by
  unfold Level.fold
  cases hr : l.right with
  | false => simpa using level_left h hr
  | true => simpa using level_right h hr

/-- **C84.** The phrases of a grammar of expressions are the operands with operators between them, and the
value is the one precedence and associativity give: it depends on the values of the operands and the operators
only.  The operands are evaluated from left to right. -/
theorem c84_value (h : P.Tower atom ls) {toks : List Tok} {w w' : W} {v : V} :
    P.Means [.nonTerminal (Levels.name atom ls)] toks w [.nt v] w' ↔
      ∃ x r, Infix P.cls (P.Phrase atom) (Levels.ops ls) toks w x r w' ∧ v = Levels.value ls x r := by
  change P.Phrase (Levels.name atom ls) toks w v w' ↔ _
  induction ls generalizing toks w w' v with
  | nil =>
    constructor
    · exact fun hm => ⟨v, [], .one hm, rfl⟩
    · rintro ⟨x, r, hs, rfl⟩
      cases hs with
      | one h => exact h
      | more _ hs _ => cases hs
  | cons l ls ih =>
    obtain ⟨h1, h2, h3⟩ := h
    have hd : ∀ o ∈ l.ops, o ∉ Levels.ops ls := by
      intro o ho hm
      obtain ⟨l', hl', ho'⟩ := List.mem_flatMap.1 hm
      exact h3 o ho l' hl' ho'
    rw [show Levels.name atom (l :: ls) = l.name from rfl, level_phrase h1]
    have hQ : ∀ (t : List Tok) (w : W) (v : V) (w' : W), P.Phrase (Levels.name atom ls) t w v w' ↔
        ∃ c : V × List (String × V), Infix P.cls (P.Phrase atom) (Levels.ops ls) t w c.1 c.2 w' ∧
          v = Levels.value ls c.1 c.2 := by
      intro t w v w'
      rw [ih h2]
      exact ⟨fun ⟨x, r, h, e⟩ => ⟨(x, r), h, e⟩, fun ⟨c, h, e⟩ => ⟨c.1, c.2, h, e⟩⟩
    constructor
    · rintro ⟨X, R, hi, rfl⟩
      obtain ⟨c, C, hc, rfl, rfl⟩ := (infix_congr _ hQ).1 hi
      obtain ⟨x, r, h4, h5⟩ := (infix_cut hd).1 hc
      exact ⟨x, r, h4, by simp only [Levels.value, h5]⟩
    · rintro ⟨x, r, hi, rfl⟩
      exact ⟨_, _, (infix_congr _ hQ).2 ⟨_, _, (infix_cut hd).2 ⟨x, r, hi, rfl⟩, rfl, rfl⟩, rfl⟩

/-- **C84.** For the parser of any accepted program: what is returned with `Ok` is the value by precedence and
associativity of operands with operators between them. -/
theorem c84_sound (hep : ep ∈ P.gen.entries) (h : P.Tower atom ls) (hn : ep.name = Levels.name atom ls)
    {w w' : W} {v : V} {n : Nat} (hr : P.Returns ep input w (.ok v) w' n) :
    ∃ toks x r, Ends input toks ∧ Infix P.cls (P.Phrase atom) (Levels.ops ls) toks w x r w' ∧
      v = Levels.value ls x r := by
  obtain ⟨toks, h1, h2, h3⟩ := c02_value hep hr
  rw [hn] at h3
  obtain ⟨x, r, h4, h5⟩ := (c84_value h).1 h3
  exact ⟨toks, x, r, ⟨h1, h2⟩, h4, h5⟩

/-- **C84.** For the parser: `Ok(v)` is returned exactly for operands with operators between them, and `v` is
their value by precedence and associativity. -/
theorem c84_parse (hR : P.Regular) (hep : ep ∈ P.gen.entries) (h : P.Tower atom ls)
    (hn : ep.name = Levels.name atom ls) {w w' : W} {v : V} :
    (∃ n, P.Returns ep input w (.ok v) w' n) ↔
      ∃ toks x r, Ends input toks ∧ Infix P.cls (P.Phrase atom) (Levels.ops ls) toks w x r w' ∧
        v = Levels.value ls x r := by
  constructor
  · rintro ⟨n, hr⟩
    exact c84_sound hep h hn hr
  · rintro ⟨toks, x, r, h1, h2, h3⟩
    exact ⟨_, c04_value hR hep h1 (by rw [hn]; exact (c84_value h).2 ⟨x, r, h2, h3⟩)⟩

/-! ## An example: `+` and `-` to the left, `^` to the right and tighter -/

namespace Examples

/-- Tokens `+`, `-`, `^`, numbers and parentheses. -/
inductive OpTk where
  | plus
  | minus
  | pow
  | num (n : Nat)
  | lp
  | rp
deriving DecidableEq, Repr

/-- Their Rust values. -/
def OpTk.toR : OpTk → RVal
  | .plus => .ctor "Tok::Plus" []
  | .minus => .ctor "Tok::Minus" []
  | .pow => .ctor "Tok::Pow" []
  | .num n => .ctor "Tok::Num" [.tuple (List.replicate n (.lit "1"))]
  | .lp => .ctor "Tok::LP" []
  | .rp => .ctor "Tok::RP" []

/-- Their declaration. -/
def opTk : TokenEnum String :=
  { typeName := "Tok"
    conversions :=
      [⟨"+", .path "Tok::Plus"⟩, ⟨"-", .path "Tok::Minus"⟩, ⟨"^", .path "Tok::Pow"⟩,
        ⟨"n", .enum "Tok::Num" [.choose "u64"]⟩, ⟨"(", .path "Tok::LP"⟩, ⟨")", .path "Tok::RP"⟩] }

theorem opTk_simple : ∀ c ∈ opTk.conversions, NoOneTuple c.to := by
  intro c hc
  simp only [opTk, List.mem_cons, List.not_mem_nil, or_false] at hc
  rcases hc with rfl | rfl | rfl | rfl | rfl | rfl <;> simp [NoOneTuple, NoOneTupleList]

theorem opTk_total (t : OpTk) : (classify opTk.conversions t.toR).isSome = true := by
  cases t <;> simp [opTk, OpTk.toR, classify, capture, captureList]

/-- Sums of powers of atoms. -/
def opDefs : List (AstNonTerminal (Act Log) String) :=
  [ ⟨true, "Sum", "u64",
      [⟨[nm "a" (.nonTerminal "Sum"), .terminal "+", nm "b" (.nonTerminal "Pow")],
          pureA fun e => num e "a" + num e "b"⟩,
        ⟨[nm "a" (.nonTerminal "Sum"), .terminal "-", nm "b" (.nonTerminal "Pow")],
          pureA fun e => num e "a" - num e "b"⟩,
        ⟨[nm "a" (.nonTerminal "Pow")], pureA fun e => num e "a"⟩]⟩,
    ⟨false, "Pow", "u64",
      [⟨[nm "a" (.nonTerminal "Atom"), .terminal "^", nm "b" (.nonTerminal "Pow")],
          pureA fun e => num e "a" ^ num e "b"⟩,
        ⟨[nm "a" (.nonTerminal "Atom")], pureA fun e => num e "a"⟩]⟩,
    ⟨false, "Atom", "u64",
      [⟨[nm "a" (.terminal "n")], pureA fun e => num e "a"⟩,
        ⟨[.terminal "-", nm "a" (.nonTerminal "Atom")], pureA fun e => 100 - num e "a"⟩,
        ⟨[.terminal "(", nm "a" (.nonTerminal "Sum"), .terminal ")"], pureA fun e => num e "a"⟩]⟩ ]

/-- The items of the call. -/
def opItems : List (GrammarItem (Act Log) String) := .tokenEnum opTk :: opDefs.map .nonTerminal

set_option maxRecDepth 10000 in
theorem ops_ok : (parserMacro .insertion code.mkPath opItems).isOk = true := by decide +kernel

/-- The compiled program. -/
def opsP : Compiled (Act Log) String Nat Log OpTk :=
  .ofItems .insertion code opItems opTk OpTk.toR inj ops_ok
    (by simp [opItems, itemTokenEnums, List.filterMap_map]) opTk_simple opTk_total

theorem opsP_code : opsP.code = code := rfl

theorem opsP_defs : opsP.defs = opDefs := by
  change itemNonTerminals opItems = _
  simp [itemNonTerminals, opItems, List.filterMap_map]

/-- What the operators compute. -/
def opVal : String → Nat → Nat → Nat
  | "+", a, b => a + b
  | "-", a, b => a - b
  | _, a, b => a ^ b

/-- The levels. -/
def levels : List (Level Nat) := [⟨"Sum", ["+", "-"], false, opVal⟩, ⟨"Pow", ["^"], true, opVal⟩]

theorem ops_tower : opsP.Tower "Atom" levels := by
  have h0 : userProds opsP.defs "Sum" = opDefs[0].productions := by rw [opsP_defs]; rfl
  have h1 : userProds opsP.defs "Pow" = opDefs[1].productions := by rw [opsP_defs]; rfl
  have j0 : opsP.IsJoin opDefs[0].productions[0] "Sum" "Pow" ["+"] (opVal "+") := by
    refine ⟨rfl, _, rfl, fun a b s w hs => ?_⟩
    rw [opsP_code]
    obtain ⟨t, rfl⟩ := List.length_eq_one_iff.1 (by simpa using congrArg List.length hs : s.length = 1)
    rfl
  have j1 : opsP.IsJoin opDefs[0].productions[1] "Sum" "Pow" ["-"] (opVal "-") := by
    refine ⟨rfl, _, rfl, fun a b s w hs => ?_⟩
    rw [opsP_code]
    obtain ⟨t, rfl⟩ := List.length_eq_one_iff.1 (by simpa using congrArg List.length hs : s.length = 1)
    rfl
  have j2 : opsP.IsJoin opDefs[1].productions[0] "Atom" "Pow" ["^"] (opVal "^") := by
    refine ⟨rfl, _, rfl, fun a b s w hs => ?_⟩
    rw [opsP_code]
    obtain ⟨t, rfl⟩ := List.length_eq_one_iff.1 (by simpa using congrArg List.length hs : s.length = 1)
    rfl
  have l0 : opsP.IsLift opDefs[0].productions[2] "Pow" fun x => x :=
    ⟨rfl, _, rfl, fun a w => by rw [opsP_code]; rfl⟩
  have l1 : opsP.IsLift opDefs[1].productions[1] "Atom" fun x => x :=
    ⟨rfl, _, rfl, fun a w => by rw [opsP_code]; rfl⟩
  refine ⟨⟨?_, ?_, ?_⟩, ⟨⟨?_, ?_, ?_⟩, trivial, by simp⟩, by decide⟩
  · intro o ho
    rcases ho with _ | ⟨_, _ | ⟨_, ho⟩⟩
    · exact ⟨_, by rw [h0]; exact .head _, j0⟩
    · exact ⟨_, by rw [h0]; exact .tail _ (.head _), j1⟩
    · cases ho
  · exact ⟨_, by rw [h0]; exact .tail _ (.tail _ (.head _)), l0⟩
  · intro p hp
    rw [h0] at hp
    rcases hp with _ | ⟨_, _ | ⟨_, _ | ⟨_, hp⟩⟩⟩
    · exact .inl ⟨"+", .head _, j0⟩
    · exact .inl ⟨"-", .tail _ (.head _), j1⟩
    · exact .inr l0
    · cases hp
  · intro o ho
    rcases ho with _ | ⟨_, ho⟩
    · exact ⟨_, by rw [h1]; exact .head _, j2⟩
    · cases ho
  · exact ⟨_, by rw [h1]; exact .tail _ (.head _), l1⟩
  · intro p hp
    rw [h1] at hp
    rcases hp with _ | ⟨_, _ | ⟨_, hp⟩⟩
    · exact .inl ⟨"^", .head _, j2⟩
    · exact .inr l1
    · cases hp

/-- `9 - 2 ^ 1 ^ 3 + 1` is `(9 - 2 ^ (1 ^ 3)) + 1`. -/
example : Levels.value levels 9 [("-", 2), ("^", 1), ("^", 3), ("+", 1)] = 8 := rfl

/-- `2 ^ 3 ^ 2 - 1 - 1` is `(2 ^ (3 ^ 2) - 1) - 1`. -/
example : Levels.value levels 2 [("^", 3), ("^", 2), ("-", 1), ("-", 1)] = 510 := rfl

set_option maxRecDepth 10000 in
theorem ops_regular : opsP.Regular := by
  have h : ∃ ep, ep ∈ opsP.gen.entries := by
    cases he : opsP.gen.entries with
    | nil => exact absurd he (by decide +kernel)
    | cons ep _ => exact ⟨ep, .head _⟩
  obtain ⟨ep, hep⟩ := h
  refine opsP.regular_of_check hep ?_ ?_
  · decide +kernel
  · decide +kernel

/-- The theorem applies: what the parser of `Sum` does with any input. -/
theorem ops_parse (ep : EntryPoint) (hep : ep ∈ opsP.gen.entries) (hn : ep.name = "Sum")
    (input : Nat → Option (Except String OpTk)) (w w' : Log) (v : Nat) :
    (∃ n, opsP.Returns ep input w (.ok v) w' n) ↔
      ∃ toks x r, Ends input toks ∧ Infix opsP.cls (opsP.Phrase "Atom") ["+", "-", "^"] toks w x r w' ∧
        v = Levels.value levels x r :=
  c84_parse ops_regular hep ops_tower hn

end Examples

end Parsegen
