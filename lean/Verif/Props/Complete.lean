import Verif.Proofs.Entry
import Verif.Proofs.Check
import Verif.Props.Run

/-! # Completeness: C04, C05 -/

namespace Parsegen

variable {X Ty V W Tok E : Type} [DecidableEq Ty] {P : Compiled X Ty V W Tok} {ep : EntryPoint}
  {input : Nat → Option (Except E Tok)} {w w' : W} {toks : List Tok}

theorem Compiled.regular_of_check (P : Compiled X Ty V W Tok) {ep : EntryPoint}
    (hep : ep ∈ P.gen.entries) (hnd : (P.defs.map (·.name)).Nodup)
    (hc : regularCheck P.order (lower P.code.mkPath P.defs P.tokens.conversions) = true) :
    P.Regular := by
  obtain ⟨g, nts, ts, a, g', T, S⟩ := P.setup hep
  have hr := Parsegen.regular_of_check P.order hc S.lower S.wf
  refine ⟨hnd, ?_, ?_⟩
  · intro g1 h1; rw [S.lower] at h1; cases h1; exact hr.2
  · intro g1 h1; rw [S.lower] at h1; cases h1; exact hr.1

set_option maxRecDepth 10000 in
/-- The program of sums is regular. -/
theorem Examples.arith_regular : Examples.arith.Regular := by
  obtain ⟨ep, hep, _⟩ := Examples.run_returns Examples.arith_run
  refine Examples.arith.regular_of_check hep ?_ ?_
  · decide +kernel
  · decide +kernel

/-! ## C04 Every sentence is accepted -/

/-- **C04.** In a regular program, if the tokens `toks` have a derivation whose evaluation yields `v`
(in particular no action of it panics), then `parse` on these tokens returns `Ok(v)`, with the effects
of that evaluation, after reading every token and the end of input. -/
theorem c04_value (hR : P.Regular) (hep : ep ∈ P.gen.entries) (hin : Ends input toks) {v : V}
    (h : P.Means [.nonTerminal ep.name] toks w [.nt v] w') :
    P.Returns ep input w (.ok v) w' (toks.length + 1) := by
  obtain ⟨g, nts, ts, a, g', T, e, b, R⟩ := hR.get hep
  have S := R.setup
  have hev := S.lowered.user_eval S.cls (algAgree_values (asts := P.defs) (nts := nts) (ts := ts)
    P.code P.fields) h _ (lowersPlain_nt R.name)
  rw [← S.fields] at hev
  obtain ⟨vs, hvs, hmap⟩ := eval_ofB (fun nt p α hp => by
    obtain ⟨n, _, h1, _⟩ := hp
    exact semanticActionVariants_some g h1) S.cons hev
  have hlen := hvs.length_eq
  obtain ⟨x, rfl⟩ : ∃ x, vs = [x] := by
    match vs, hlen with
    | [x], _ => exact ⟨x, rfl⟩
  have hA := complete_entry R.first S.wf R.prod hvs
  obtain ⟨s1, hr, hs⟩ := SimV.steps (w0 := w) (input := input) S.wf (S.stages.tables S.wf) S.cons R.pub R.ext R.sem
    R.conf ⟨⟨[], runInv_init R.ini, by simpa using hin⟩, rfl, rfl⟩ hA
  obtain ⟨⟨toks1, hi, hy⟩, hvals, hworld⟩ := hs
  simp only [List.append_nil] at hy
  have htok : s1.token = none := by rw [hi.token]; exact hy.2
  have e1 : toks1 = toks := by
    have h1 := reads_unique_length hi.reads (t2 := toks) (by rw [hin.2]; simp)
    have h2 := reads_unique_length hin.1 (t2 := toks1) (by rw [hy.2]; simp)
    refine List.ext_getElem? fun i => ?_
    rcases Nat.lt_or_ge i toks.length with hlt | hge
    · have a1 := hin.1 i _ (List.getElem?_eq_getElem hlt)
      have a2 := hi.reads i _ (List.getElem?_eq_getElem (Nat.lt_of_lt_of_le hlt h2))
      rw [a1] at a2
      rw [List.getElem?_eq_getElem hlt, List.getElem?_eq_getElem (Nat.lt_of_lt_of_le hlt h2)]
      simpa using a2.symm
    · rw [List.getElem?_eq_none hge, List.getElem?_eq_none (Nat.le_trans h1 hge)]
  subst e1
  obtain ⟨nt, d1, d2, d3⟩ := R.decl
  rcases step_accept (input := input) S.wf (S.stages.tables S.wf) S.cons R.pub R.ext R.sem R.prod hi htok with
    ⟨v', s', h1, h2, h3⟩ | ⟨_, us, h2, h3⟩
  · have hd := S.lowered.entry_values P.code S.cls d1 d2 h2
    have hd' := S.lowered.user_eval S.cls (algAgree_values (asts := P.defs) (nts := nts) (ts := ts)
      P.code P.tf.fields) hd _ (lowersPlain_nt (d3.symm ▸ R.name))
    obtain ⟨e2, e3⟩ := eval_unique R.conf R.first S.wf R.pub R.prod hev hd'
    cases e2
    obtain ⟨fuel, hf⟩ := hr.loop (fuel := 1) (r := (.ok v, s')) (by unfold parseLoop; rw [h1])
    exact ⟨fuel, s', hf, e3.symm, h3⟩
  · exact absurd h3 (S.no_wrapper_panic d1 d2 h2)

/-- **C04**, without reference to values: in a regular program `parse` on a sentence either returns
`Ok` or runs into a panic of the user's own action code; it never reports an error, and it ends. -/
theorem c04_sentence (hR : P.Regular) (hep : ep ∈ P.gen.entries) (hin : Ends input toks)
    (h : P.IsSentence ep.name toks) :
    (∃ v w', P.Returns ep input w (.ok v) w' (toks.length + 1)) ∨
      ∃ w' n, P.Returns ep input w (.fault .userPanic) w' n := by
  obtain ⟨g, nts, ts, a, g', T, e, b, R⟩ := hR.get hep
  have S := R.setup
  obtain ⟨us, hev⟩ := (S.lowered.sentence_iff S.cls R.name toks).1 h
  obtain ⟨x, rfl⟩ : ∃ x, us = [x] := by
    match us, hev.length_eq with
    | [x], _ => exact ⟨x, rfl⟩
  have hA := complete_entry R.first S.wf R.prod hev
  rcases simU_steps (w0 := w) (input := input) (u := P.code) S.wf (S.stages.tables S.wf) S.cons R.pub R.ext R.sem
    R.conf (toks := []) (runInv_init R.ini) (by simpa using hin) hA with
    ⟨s1, toks1, hr, hi, hy⟩ | ⟨fuel, s', h1⟩
  · simp only [List.append_nil] at hy
    have htok : s1.token = none := by rw [hi.token]; exact hy.2
    have e1 : toks1.length = toks.length :=
      Nat.le_antisymm (reads_unique_length hi.reads (t2 := toks) (by rw [hin.2]; simp))
        (reads_unique_length hin.1 (t2 := toks1) (by rw [hy.2]; simp))
    obtain ⟨nt, d1, d2, d3⟩ := R.decl
    rcases step_accept (input := input) S.wf (S.stages.tables S.wf) S.cons R.pub R.ext R.sem R.prod hi htok with
      ⟨v', s', h1, h2, h3⟩ | ⟨_, us, h2, h3⟩
    · obtain ⟨fuel, hf⟩ := hr.loop (fuel := 1) (r := (.ok v', s')) (by unfold parseLoop; rw [h1])
      exact Or.inl ⟨v', s'.world, fuel, s', hf, rfl, by rw [h3, e1]⟩
    · exact absurd h3 (S.no_wrapper_panic d1 d2 h2)
  · exact Or.inr ⟨s'.world, s'.calls, fuel, s', h1, rfl, rfl⟩

/-- **C01** and **C04** together: if no action panics, `parse` returns `Ok` exactly on the sentences. -/
theorem c04_accepts_iff (hR : P.Regular) (hep : ep ∈ P.gen.entries) (hin : Ends input toks)
    (hu : ∀ d ∈ P.defs, ∀ p ∈ d.productions, ∀ e, p.action = .infallible e →
      ∀ env w, P.code.run e env w ≠ none) :
    (∃ v w' n, P.Returns ep input w (.ok v) w' n) ↔ P.IsSentence ep.name toks := by
  constructor
  · rintro ⟨v, w', n, h⟩
    obtain ⟨toks', h1, h2, h3⟩ := c01_sentence hep h
    have : toks' = toks := by
      have l1 := reads_unique_length h1 (t2 := toks) (by rw [hin.2]; simp)
      have l2 := reads_unique_length hin.1 (t2 := toks') (by rw [h2]; simp)
      refine List.ext_getElem? fun i => ?_
      rcases Nat.lt_or_ge i toks.length with hlt | hge
      · have a1 := hin.1 i _ (List.getElem?_eq_getElem hlt)
        have a2 := h1 i _ (List.getElem?_eq_getElem (Nat.lt_of_lt_of_le hlt l2))
        rw [a1] at a2
        rw [List.getElem?_eq_getElem hlt, List.getElem?_eq_getElem (Nat.lt_of_lt_of_le hlt l2)]
        simpa using a2.symm
      · rw [List.getElem?_eq_none hge, List.getElem?_eq_none (Nat.le_trans l1 hge)]
    exact this ▸ h3
  · intro h
    rcases c04_sentence (w := w) hR hep hin h with ⟨v, w', h1⟩ | ⟨w', n, h1⟩
    · exact ⟨v, w', _, h1⟩
    · exact absurd h1 (c06_no_panic hep hu)

/-- The hypotheses are met, non-trivially: the program of sums is regular, `1 + (2 + 3)` means 6, and
the theorem turns the meaning back into the run. -/
example : ∃ ep ∈ Examples.arith.gen.entries, ∃ toks w',
    Examples.arith.Means [.nonTerminal ep.name] toks [] [.nt 6] w' ∧
    Examples.arith.Returns ep (Examples.stream toks) [] (.ok 6) w' (toks.length + 1) := by
  obtain ⟨ep, hep, _, h⟩ := Examples.run_returns Examples.arith_run
  obtain ⟨toks, h1, h2, h3⟩ := c02_value hep h
  refine ⟨ep, hep, toks, _, h3, c04_value Examples.arith_regular hep ⟨?_, ?_⟩ h3⟩
  · intro i t ht; simp [Examples.stream, ht]
  · simp [Examples.stream]

/-! ## C05 Accepted grammars are unambiguous -/

/-- **C05.** In a regular program every token string has at most one derivation tree from the
non-terminal of each entry point. -/
theorem c05_unambiguous (hR : P.Regular) (hep : ep ∈ P.gen.entries) {tr tr' : UTree Tok}
    (h : IsUTree P.defs P.cls ep.name toks tr) (h' : IsUTree P.defs P.cls ep.name toks tr') :
    tr = tr' := by
  obtain ⟨g, nts, ts, a, g', T, e, b, R⟩ := hR.get hep
  have S := R.setup
  have h1 := S.lowered.user_eval S.cls (algAgree_trees S.lowered) h _ (lowersPlain_nt R.name)
  have h2 := S.lowered.user_eval S.cls (algAgree_trees S.lowered) h' _ (lowersPlain_nt R.name)
  exact (eval_unique R.conf R.first S.wf R.pub R.prod h1 h2).1

/-- **C05**, for values: the value and the effects are determined by the tokens. -/
theorem c05_value_unique (hR : P.Regular) (hep : ep ∈ P.gen.entries) {v v' : BVal V} {w1 w2 : W}
    (h : P.Means [.nonTerminal ep.name] toks w [v] w1)
    (h' : P.Means [.nonTerminal ep.name] toks w [v'] w2) : v = v' ∧ w1 = w2 := by
  obtain ⟨g, nts, ts, a, g', T, e, b, R⟩ := hR.get hep
  have S := R.setup
  have hag := algAgree_values (Tok := Tok) (asts := P.defs) (nts := nts) (ts := ts) (g := g) P.code P.fields
  exact eval_unique R.conf R.first S.wf R.pub R.prod
    (S.lowered.user_eval S.cls hag h _ (lowersPlain_nt R.name))
    (S.lowered.user_eval S.cls hag h' _ (lowersPlain_nt R.name))

omit [DecidableEq Ty] in
/-- **C05** for lowered grammars, independently of the computed FIRST table: an LR(1) grammar gives
every token string at most one derivation tree from an entry point. -/
theorem c05_lr1_unambiguous {g : Grammar X Ty} (hwf : g.WF) (hl : g.IsLR1) {e : Nat}
    (he : g.isPublic e = true) {ti : Tok → Nat} {tr tr' : Tree Tok}
    (h : g.IsTree ti (.nonTerminal e) toks tr) (h' : g.IsTree ti (.nonTerminal e) toks tr') :
    tr = tr' := by
  obtain ⟨h0, b, hb⟩ := hwf.pub he
  have key : ∀ {t : Tree Tok}, g.IsTree ti (.nonTerminal e) toks t → ∃ x, t = .node e 0 [x] ∧
      Eval g ti Alg.tree [.nonTerminal b] toks () [x] () := by
    intro t ht
    obtain ⟨p, α, us, w1, v, e1, hp, hc, hn⟩ := Eval.nt_inv ht
    cases e1; cases hn
    have hlt := hp.lt
    have : p = 0 := by omega
    subst this
    have : α = [.nonTerminal b] := hp.rhs_eq.symm.trans hb.rhs_eq
    subst this
    match us, hc.length_eq with
    | [x], _ => exact ⟨x, rfl, hc⟩
  obtain ⟨x, rfl, hx⟩ := key h
  obtain ⟨y, rfl, hy⟩ := key h'
  rw [(hl.eval_unique hwf he hb hx hy).1]

end Parsegen
