import Verif.Proofs.Abstract
import Verif.Proofs.Observe
import Verif.Spec.Regular

/-! # The emitted parser follows the abstract machine -/

namespace Parsegen

variable {X Ty V W Tok E Val W' : Type} [DecidableEq Ty] {g : Grammar X Ty} {F : FirstTable}
  {gen : Generated X} {u : UserCode X V W} {tf : TokenFns Tok V}
  {At : Nat → List Symbol → Nat → Prop} {e : Nat} {input : Nat → Option (Except E Tok)} {w0 : W}
  {alg : Alg Tok Val W'}

omit [DecidableEq Ty] in
theorem Ends.lookahead {toks rest : List Tok} (h : Ends input (toks ++ rest)) :
    lookahead tf (input toks.length) = some (look tf.terminalIdx rest) := by
  cases rest with
  | nil =>
    have := h.2
    simp only [List.append_nil] at this
    rw [this]; rfl
  | cons t rest =>
    have := h.1 toks.length t (by simp)
    rw [this]; rfl

omit [DecidableEq Ty] in
theorem Ends.token {toks rest : List Tok} {t : Tok} (h : Ends input (toks ++ rest))
    (ht : input toks.length = some (.ok t)) : ∃ rest', rest = t :: rest' := by
  cases rest with
  | nil =>
    have := h.2
    simp only [List.append_nil] at this
    rw [this] at ht; cases ht
  | cons t' rest =>
    have := h.1 toks.length t' (by simp)
    rw [this] at ht; cases ht
    exact ⟨_, rfl⟩

section step
variable {ep : EntryPoint} {s : PState Tok V W E} {γ : List Symbol} {toks : List Tok}

/-- A wanted shift is performed (shift wins all conflicts). -/
theorem step_shift (hwf : g.WF) (hT : Tables g F gen At) (hc : tf.Consistent g.nTerminals)
    (he : g.isPublic e = true) (hext : (semanticActionVariants g)[e]? = some ep.extract)
    (hsem : gen.IsSem g ep.actionIdx e 0) (hi : RunInv g u tf At e input w0 s γ toks) {t : Tok}
    (ht : s.token = some (.ok t)) {nt p : Nat} {α β : List Symbol} {la : Option Nat}
    (hit : ItemsAt g F e γ ⟨nt, p, α.length, la⟩)
    (hp : g.HasProd nt p (α ++ .terminal (tf.terminalIdx t) :: β)) :
    ∃ r, parseStep gen u tf input ep s = .next (shiftStep tf input r s) ∧
      RunInv g u tf At e input w0 (shiftStep tf input r s) (γ ++ [.terminal (tf.terminalIdx t)])
        (toks ++ [t]) := by
  obtain ⟨q, sts, hq, hat⟩ := hi.stk.top
  obtain ⟨r, hr, _⟩ := hT.shift_mk he hat hit hp
  have hh : s.states.headD 0 = q := by rw [hq]; rfl
  have hla : lookahead tf s.token = some (some (tf.terminalIdx t)) := by rw [ht]; rfl
  have hs := parseStep_spec (w0 := w0) hwf hT hc he hext hsem hi
  generalize parseStep gen u tf input ep s = res at hs
  cases hs with
  | @shift t' r' nt p α β la s' htok hact hit hp hs hinv =>
    rw [ht] at htok; cases htok
    subst hs
    exact ⟨r', rfl, hinv⟩
  | reduce hla' hact =>
    rw [hla] at hla'; cases hla'; rw [hh, hr] at hact; cases hact
  | panic hla' hact =>
    rw [hla] at hla'; cases hla'; rw [hh, hr] at hact; cases hact
  | lexer htok => rw [ht] at htok; cases htok
  | «syntax» hla' hact => rw [hla] at hla'; cases hla'; rw [hh, hr] at hact; cases hact
  | accept htok => rw [ht] at htok; cases htok
  | acceptPanic htok => rw [ht] at htok; cases htok

/-- A wanted reduction is performed if there is no conflict. -/
theorem step_reduce (hwf : g.WF) (hT : Tables g F gen At) (hc : tf.Consistent g.nTerminals)
    (he : g.isPublic e = true) (hext : (semanticActionVariants g)[e]? = some ep.extract)
    (hsem : gen.IsSem g ep.actionIdx e 0) (hn : NoConflict g F e)
    (hi : RunInv g u tf At e input w0 s γ toks) {c : Option Nat}
    (hla : lookahead tf s.token = some c) {b p : Nat} {α : List Symbol}
    (hit : ItemsAt g F e γ ⟨b, p, α.length, c⟩) (hp : g.HasProd b p α)
    (hpriv : g.isPublic b = false) :
    ∃ γ' us rest, γ = γ' ++ α ∧ us.length = α.length ∧ s.values = us.reverse ++ rest ∧
      ((∃ v s', (g.stackAlg u tf).node b p us s.world = some (v, s'.world) ∧
          parseStep gen u tf input ep s = .next s' ∧ s'.values = v :: rest ∧
          s'.token = s.token ∧ RunInv g u tf At e input w0 s' (γ' ++ [.nonTerminal b]) toks) ∨
        ((g.stackAlg u tf).node b p us s.world = none ∧
          parseStep gen u tf input ep s = .done (.fault .userPanic) s)) := by
  obtain ⟨q, sts, hq, hat⟩ := hi.stk.top
  have hh : s.states.headD 0 = q := by rw [hq]; rfl
  have hlo := laOk_lookahead hc hla
  have hw : g.Wants (ItemsAt g F e γ) c (.reduce b p) := ⟨α, hit, hp, hpriv⟩
  have hr : ∃ k, gen.act q c = some (some (.reduce b α.length k)) := by
    rcases hT.reduce_mk he hat hit hp hpriv with ⟨k, hk, _⟩ | ⟨r, hr⟩ | ha
    · exact ⟨k, hk⟩
    · obtain ⟨t, nt', p', α', β, la, rfl, h1, h2, _⟩ := hT.shift_of he hat hlo hr
      cases hn _ _ _ .shift hw ⟨_, _, _, _, _, _, h1, h2, rfl⟩
    · obtain ⟨rfl, h1⟩ := hT.accept_of he hat hlo ha
      obtain ⟨_, b', hb'⟩ := hwf.pub he
      cases hn _ _ _ .accept hw ⟨e, 0, [.nonTerminal b'], h1, hb', he, rfl⟩
  obtain ⟨k, hr⟩ := hr
  have hs := parseStep_spec (w0 := w0) hwf hT hc he hext hsem hi
  generalize parseStep gen u tf input ep s = res at hs
  cases hs with
  | @shift t' r' nt p α β la s' htok hact hit hp hs hinv =>
    rw [htok] at hla; cases hla; rw [hh, hr] at hact; cases hact
  | @reduce c' b' p' α' γ' k' s' hla' hact hγ hp' hit' hpriv' htok hval hinv =>
    rw [hla] at hla'; cases hla'
    cases hn _ _ _ (.reduce b' p') hw ⟨_, hit', hp', hpriv'⟩
    have hα : α = α' := hp.rhs_eq.symm.trans hp'.rhs_eq
    subst hα
    obtain ⟨us, rest, v, h1, h2, h3, h4⟩ := hval
    exact ⟨γ', us, rest, hγ, h1, h2, Or.inl ⟨v, s', h3, rfl, h4, htok, hinv⟩⟩
  | @panic c' b' p' α' γ' k' hla' hact hγ hp' hit' hpriv' hval =>
    rw [hla] at hla'; cases hla'
    cases hn _ _ _ (.reduce b' p') hw ⟨_, hit', hp', hpriv'⟩
    have hα : α = α' := hp.rhs_eq.symm.trans hp'.rhs_eq
    subst hα
    obtain ⟨us, rest, ts, w1, h1, h2, _, h4⟩ := hval
    exact ⟨γ', us, rest, hγ, h1, h2, Or.inr ⟨h4, rfl⟩⟩
  | lexer htok => rw [htok] at hla; cases hla
  | «syntax» hla' hact => rw [hla] at hla'; cases hla'; rw [hh, hr] at hact; cases hact
  | accept htok hγ hact => rw [htok] at hla; cases hla; rw [hh, hr] at hact; cases hact
  | acceptPanic htok hact => rw [htok] at hla; cases hla; rw [hh, hr] at hact; cases hact

end step

/-- Several iterations of the loop, all of which go on. -/
inductive Runs (gen : Generated X) (u : UserCode X V W) (tf : TokenFns Tok V)
    (input : Nat → Option (Except E Tok)) (ep : EntryPoint) :
    PState Tok V W E → PState Tok V W E → Prop
  | refl (s) : Runs gen u tf input ep s s
  | head {s s1 s'} (h : parseStep gen u tf input ep s = .next s1)
      (t : Runs gen u tf input ep s1 s') : Runs gen u tf input ep s s'

omit [DecidableEq Ty] in
theorem Runs.loop {ep : EntryPoint} {s s' : PState Tok V W E} (h : Runs gen u tf input ep s s')
    {fuel : Nat} {r : Outcome V E × PState Tok V W E}
    (hr : parseLoop gen u tf input ep fuel s' = some r) :
    ∃ fuel', parseLoop gen u tf input ep fuel' s = some r := by
  induction h with
  | refl => exact ⟨_, hr⟩
  | head h _ ih =>
    obtain ⟨n, hn⟩ := ih hr
    refine ⟨n + 1, ?_⟩
    unfold parseLoop
    rw [h]; exact hn

/-- The stack of the parser against that of the abstract machine over stack values. -/
structure SimV (g : Grammar X Ty) (u : UserCode X V W) (tf : TokenFns Tok V)
    (At : Nat → List Symbol → Nat → Prop) (e : Nat) (input : Nat → Option (Except E Tok)) (w0 : W)
    (s : PState Tok V W E) (c : Cfg Tok (SAR V) W) : Prop where
  inv : ∃ toks, RunInv g u tf At e input w0 s c.stk toks ∧ Ends input (toks ++ c.rest)
  vals : s.values = c.vals.reverse
  world : s.world = c.world

section sim
variable {ep : EntryPoint} (hwf : g.WF) (hT : Tables g F gen At)
  (hc : tf.Consistent g.nTerminals) (he : g.isPublic e = true)
  (hext : (semanticActionVariants g)[e]? = some ep.extract) (hsem : gen.IsSem g ep.actionIdx e 0)
  (hn : NoConflict g F e)
include hwf hT hc he hext hsem hn

theorem SimV.step {s : PState Tok V W E} {c d : Cfg Tok (SAR V) W}
    (hs : SimV g u tf At e input w0 s c)
    (h : AStep g F e tf.terminalIdx (g.stackAlg u tf) c d) :
    ∃ s', parseStep gen u tf input ep s = .next s' ∧ SimV g u tf At e input w0 s' d := by
  obtain ⟨⟨toks, hi, hy⟩, hv, hw⟩ := hs
  cases h with
  | @shift γ vs w t rest nt p α β la hit hp =>
    have ht : s.token = some (.ok t) := by rw [hi.token]; exact hy.1 _ _ (by simp)
    obtain ⟨r, h1, h2⟩ := step_shift hwf hT hc he hext hsem hi ht hit hp
    refine ⟨_, h1, ⟨_, h2, by simpa using hy⟩, ?_, hw⟩
    simp only [shiftStep, ht, hv, List.reverse_append]
    rfl
  | @reduce γ α b p vs us w v w' rest hit hp hpriv hlen hno =>
    have hla : lookahead tf s.token = some (look tf.terminalIdx rest) := by
      rw [hi.token]; exact hy.lookahead
    obtain ⟨γ', us', rs, h1, h2, h3, h4⟩ := step_reduce hwf hT hc he hext hsem hn hi hla hit hp hpriv
    obtain ⟨rfl, _⟩ := List.append_inj' h1 rfl
    rw [hv] at h3
    have h3' : vs ++ us = rs.reverse ++ us' := by
      have := congrArg List.reverse h3
      simpa using this
    obtain ⟨rfl, rfl⟩ := List.append_inj' h3' (by rw [hlen, h2])
    have hw' : s.world = w := hw
    rw [hw', hno] at h4
    rcases h4 with ⟨v', s', h5, h6, h7, h8, h9⟩ | ⟨h5, _⟩
    · obtain ⟨rfl, h10⟩ := Prod.mk.inj (Option.some.inj h5)
      exact ⟨s', h6, ⟨toks, h9, hy⟩, by simp [h7], h10.symm⟩
    · cases h5

theorem SimV.steps {s : PState Tok V W E} {c d : Cfg Tok (SAR V) W}
    (hs : SimV g u tf At e input w0 s c)
    (h : ASteps g F e tf.terminalIdx (g.stackAlg u tf) c d) :
    ∃ s', Runs gen u tf input ep s s' ∧ SimV g u tf At e input w0 s' d := by
  induction h generalizing s with
  | refl => exact ⟨s, .refl _, hs⟩
  | head st _ ih =>
    obtain ⟨s1, h1, h2⟩ := hs.step hwf hT hc he hext hsem hn st
    obtain ⟨s', h3, h4⟩ := ih h2
    exact ⟨s', .head h1 h3, h4⟩

/-- Stacks only. -/
theorem simU_step {s : PState Tok V W E} {c d : Cfg Tok Unit Unit} {toks : List Tok}
    (hi : RunInv g u tf At e input w0 s c.stk toks) (hy : Ends input (toks ++ c.rest))
    (h : AStep g F e tf.terminalIdx Alg.unit c d) :
    (∃ s' toks', parseStep gen u tf input ep s = .next s' ∧
      RunInv g u tf At e input w0 s' d.stk toks' ∧ Ends input (toks' ++ d.rest)) ∨
    ∃ s', parseStep gen u tf input ep s = .done (.fault .userPanic) s' := by
  cases h with
  | @shift γ vs w t rest nt p α β la hit hp =>
    have ht : s.token = some (.ok t) := by rw [hi.token]; exact hy.1 _ _ (by simp)
    obtain ⟨r, h1, h2⟩ := step_shift hwf hT hc he hext hsem hi ht hit hp
    exact Or.inl ⟨_, _, h1, h2, by simpa using hy⟩
  | @reduce γ α b p vs us w v w' rest hit hp hpriv hlen hno =>
    have hla : lookahead tf s.token = some (look tf.terminalIdx rest) := by
      rw [hi.token]; exact hy.lookahead
    obtain ⟨γ', us', rs, h1, h2, h3, h4⟩ := step_reduce hwf hT hc he hext hsem hn hi hla hit hp hpriv
    obtain ⟨rfl, _⟩ := List.append_inj' h1 rfl
    rcases h4 with ⟨v', s', h5, h6, h7, h8, h9⟩ | ⟨h5, h6⟩
    · exact Or.inl ⟨s', toks, h6, h9, hy⟩
    · exact Or.inr ⟨_, h6⟩

theorem simU_steps {s : PState Tok V W E} {c d : Cfg Tok Unit Unit} {toks : List Tok}
    (hi : RunInv g u tf At e input w0 s c.stk toks) (hy : Ends input (toks ++ c.rest))
    (h : ASteps g F e tf.terminalIdx Alg.unit c d) :
    (∃ s' toks', Runs gen u tf input ep s s' ∧
      RunInv g u tf At e input w0 s' d.stk toks' ∧ Ends input (toks' ++ d.rest)) ∨
    ∃ fuel s', parseLoop gen u tf input ep fuel s = some (.fault .userPanic, s') := by
  induction h generalizing s toks with
  | refl => exact Or.inl ⟨s, toks, .refl _, hi, hy⟩
  | head st _ ih =>
    rcases simU_step hwf hT hc he hext hsem hn hi hy st with ⟨s1, toks1, h1, h2, h3⟩ | ⟨s', h1⟩
    · rcases ih h2 h3 with ⟨s', toks', h4, h5, h6⟩ | ⟨fuel, s', h4⟩
      · exact Or.inl ⟨s', toks', .head h1 h4, h5, h6⟩
      · obtain ⟨f', h5⟩ := (Runs.head h1 (.refl _)).loop h4
        exact Or.inr ⟨f', s', h5⟩
    · exact Or.inr ⟨1, s', by unfold parseLoop; rw [h1]⟩

end sim

/-- In the final configuration the parser accepts (or the wrapper's action panics). -/
theorem step_accept {ep : EntryPoint} {s : PState Tok V W E} {toks : List Tok} (hwf : g.WF)
    (hT : Tables g F gen At) (hc : tf.Consistent g.nTerminals)
    (he : g.isPublic e = true) (hext : (semanticActionVariants g)[e]? = some ep.extract)
    (hsem : gen.IsSem g ep.actionIdx e 0) {b : Nat} (hb : g.HasProd e 0 [.nonTerminal b])
    (hi : RunInv g u tf At e input w0 s [.nonTerminal b] toks) (htok : s.token = none) :
    (∃ v s', parseStep gen u tf input ep s = .done (.ok v) s' ∧
        Eval g tf.terminalIdx (g.alg u tf.fields) [.nonTerminal e] toks w0 [.nt v] s'.world ∧
        s'.calls = toks.length + 1) ∨
      (parseStep gen u tf input ep s = .done (.fault .userPanic) s ∧
        ∃ us, Eval g tf.terminalIdx (g.stackAlg u tf) [.nonTerminal b] toks w0 us s.world ∧
          (g.stackAlg u tf).node e 0 us s.world = none) := by
  obtain ⟨q, sts, hq, hat⟩ := hi.stk.top
  have hh : s.states.headD 0 = q := by rw [hq]; rfl
  have hit : ItemsAt g F e ([] ++ [.nonTerminal b]) ⟨e, 0, [].length + 1, none⟩ :=
    ItemsAt.advance (α := []) (β := []) .entry (by simpa using hb)
  have hr := hT.accept_mk he hat hit
  have hs := parseStep_spec (w0 := w0) hwf hT hc he hext hsem hi
  generalize parseStep gen u tf input ep s = res at hs
  cases hs with
  | shift htok' => rw [htok] at htok'; cases htok'
  | reduce hla hact => rw [htok] at hla; cases hla; rw [hh, hr] at hact; cases hact
  | panic hla hact => rw [htok] at hla; cases hla; rw [hh, hr] at hact; cases hact
  | lexer htok' => rw [htok] at htok'; cases htok'
  | «syntax» hla hact => rw [htok] at hla; cases hla; rw [hh, hr] at hact; cases hact
  | @accept b' v w' s' htok' hγ hact hp heval hs =>
    exact Or.inl ⟨v, s', rfl, by rw [hs]; exact heval, by rw [hs]; exact hi.calls⟩
  | @acceptPanic b' us htok' hact hγ hp hev hnode =>
    cases hγ
    exact Or.inr ⟨rfl, us, hev, hnode⟩

end Parsegen
