import Verif.Proofs.Entry

/-! # Runs of the emitted parser seen as runs of the abstract machine over terminal numbers -/

namespace Parsegen

variable {X Ty V W Tok E : Type} [DecidableEq Ty] {g : Grammar X Ty} {F : FirstTable}
  {gen : Generated X} {u : UserCode X V W} {tf : TokenFns Tok V}
  {At : Nat → List Symbol → Nat → Prop} {e : Nat} {input : Nat → Option (Except E Tok)} {w0 : W}

/-- Configuration without values. -/
def unitCfg (γ : List Symbol) (rest : List Nat) : Cfg Nat Unit Unit :=
  ⟨γ, γ.map fun _ => (), (), rest⟩

/-- How the parser got to its stack. -/
structure Trace (g : Grammar X Ty) (F : FirstTable) (tf : TokenFns Tok V) (e : Nat)
    (s : PState Tok V W E) (γ : List Symbol) (toks : List Tok) : Prop where
  /-- some item expects this stack -/
  live : ∃ it, ItemsAt g F e γ it
  /-- with any input that has the same lookahead the abstract machine gets there too -/
  any : ∀ rest, lookahead tf s.token = some (look id rest) →
    ASteps g F e id Alg.unit (unitCfg [] (toks.map tf.terminalIdx ++ rest)) (unitCfg γ rest)
  /-- the stack after the last shift, reached with any input -/
  last : ∃ γ1, (∀ rest,
      ASteps g F e id Alg.unit (unitCfg [] (toks.map tf.terminalIdx ++ rest)) (unitCfg γ1 rest)) ∧
    g.Derives γ1 (toks.map fun t => .terminal (tf.terminalIdx t)) ∧
    (γ = γ1 ∨ ∃ c b p, lookahead tf s.token = some c ∧
      g.Wants (ItemsAt g F e γ1) c (.reduce b p))

omit [DecidableEq Ty] in
theorem trace_init {s : PState Tok V W E} : Trace g F tf e s [] [] :=
  ⟨⟨_, .entry⟩, fun _ _ => .refl _, [], fun _ => .refl _, .refl _, Or.inl rfl⟩

theorem trace_shift {s s' : PState Tok V W E} {γ : List Symbol} {toks : List Tok} {t : Tok}
    (hi : RunInv g u tf At e input w0 s' (γ ++ [.terminal (tf.terminalIdx t)]) (toks ++ [t]))
    (h : Trace g F tf e s γ toks) (ht : s.token = some (.ok t)) {nt p : Nat} {α β : List Symbol}
    {la : Option Nat} (hit : ItemsAt g F e γ ⟨nt, p, α.length, la⟩)
    (hp : g.HasProd nt p (α ++ .terminal (tf.terminalIdx t) :: β)) :
    Trace g F tf e s' (γ ++ [.terminal (tf.terminalIdx t)]) (toks ++ [t]) := by
  have key : ∀ rest, ASteps g F e id Alg.unit
      (unitCfg [] ((toks ++ [t]).map tf.terminalIdx ++ rest))
      (unitCfg (γ ++ [.terminal (tf.terminalIdx t)]) rest) := by
    intro rest
    have h1 := h.any (tf.terminalIdx t :: rest) (by rw [ht]; rfl)
    have h2 : AStep g F e id Alg.unit (unitCfg γ (tf.terminalIdx t :: rest))
        (unitCfg (γ ++ [.terminal (tf.terminalIdx t)]) rest) := by
      have := AStep.shift (alg := (Alg.unit : Alg Nat Unit Unit)) (ti := id) (vs := γ.map fun _ => ())
        (w := ()) (t := tf.terminalIdx t) (rest := rest) hit hp
      simpa [unitCfg, Alg.unit] using this
    have := h1.trans (.head h2 (.refl _))
    simpa using this
  refine ⟨⟨_, .advance hit hp⟩, fun rest _ => key rest, _, key, ?_, Or.inl rfl⟩
  obtain ⟨vs, hev, _⟩ := hi.eval
  exact hev.derives

omit [DecidableEq Ty] in
theorem trace_reduce {α : List Symbol} {s s' : PState Tok V W E} {γ : List Symbol} {toks : List Tok} {c : Option Nat}
    (he : g.isPublic e = true) (h : Trace g F tf e s (γ ++ α) toks) (hla : lookahead tf s.token = some c)
    (htok : s'.token = s.token) {b p : Nat} (hp : g.HasProd b p α)
    (hit : ItemsAt g F e (γ ++ α) ⟨b, p, α.length, c⟩) (hpriv : g.isPublic b = false) :
    Trace g F tf e s' (γ ++ [.nonTerminal b]) toks := by
  refine ⟨?_, ?_, ?_⟩
  · obtain ⟨γ', h1, _, nt, q, α', β, la, h2, h3, _⟩ := hit.complete hp he hpriv
    obtain ⟨rfl, _⟩ := List.append_inj' h1 rfl
    exact ⟨_, .advance h2 h3⟩
  · intro rest hr
    rw [htok] at hr
    have h1 := h.any rest hr
    have hcr : c = look id rest := by rw [hla] at hr; exact Option.some.inj hr
    have h2 : AStep g F e id Alg.unit (unitCfg (γ ++ α) rest)
        (unitCfg (γ ++ [.nonTerminal b]) rest) := by
      have := AStep.reduce (alg := (Alg.unit : Alg Nat Unit Unit)) (ti := id) (vs := γ.map fun _ => ())
        (us := α.map fun _ => ()) (w := ()) (v := ()) (w' := ()) (rest := rest) (hcr ▸ hit) hp hpriv
        (by simp) rfl
      simpa [unitCfg] using this
    exact h1.trans (.head h2 (.refl _))
  · obtain ⟨γ1, h1, h2, h3⟩ := h.last
    refine ⟨γ1, h1, h2, Or.inr ?_⟩
    rw [htok]
    rcases h3 with rfl | ⟨c', b', p', h3⟩
    · exact ⟨c, b, p, hla, α, hit, hp, hpriv⟩
    · exact ⟨c', b', p', h3⟩

/-- The end of a run, with its trace. -/
theorem parseLoop_trace (hwf : g.WF) (hT : Tables g F gen At) (hc : tf.Consistent g.nTerminals)
    {ep : EntryPoint} (he : g.isPublic e = true)
    (hext : (semanticActionVariants g)[e]? = some ep.extract)
    (hsem : gen.IsSem g ep.actionIdx e 0) {fuel : Nat} {s : PState Tok V W E} {γ : List Symbol}
    {toks : List Tok} (hi : RunInv g u tf At e input w0 s γ toks) (ht : Trace g F tf e s γ toks)
    {o : Outcome V E} {s' : PState Tok V W E}
    (h : parseLoop gen u tf input ep fuel s = some (o, s')) :
    ∃ s1 γ1 toks1, RunInv g u tf At e input w0 s1 γ1 toks1 ∧ Trace g F tf e s1 γ1 toks1 ∧
      StepSpec g F gen u tf At e input w0 ep s1 γ1 toks1 (.done o s') := by
  induction fuel generalizing s γ toks with
  | zero => cases h
  | succ fuel ih =>
    unfold parseLoop at h
    have hs := parseStep_spec (w0 := w0) hwf hT hc he hext hsem hi
    cases hp : parseStep gen u tf input ep s with
    | done o' s2 =>
      rw [hp] at h hs
      simp only [Option.some.injEq, Prod.mk.injEq] at h
      obtain ⟨rfl, rfl⟩ := h
      exact ⟨s, γ, toks, hi, ht, hs⟩
    | next s2 =>
      rw [hp] at h hs
      simp only at h
      cases hs with
      | shift htok _ hit hp _ hinv => exact ih hinv (trace_shift hinv ht htok hit hp) h
      | reduce hla _ hγ hp hit hpriv htok _ hinv =>
        subst hγ
        exact ih hinv (trace_reduce he ht hla htok hp hit hpriv) h

omit [DecidableEq Ty] in
/-- If the machine got to a stack with some input and accepts that input, it can go on from there. -/
theorem go_on (hn : NoConflict g F e) (hF : FirstEnough g F) (hwf : g.WF)
    (he : g.isPublic e = true) {b : Nat} (hb : g.HasProd e 0 [.nonTerminal b]) {inp rest : List Nat}
    {γ : List Symbol}
    (h1 : ASteps g F e id Alg.unit (unitCfg [] inp) (unitCfg γ rest))
    (h2 : g.Derives [.nonTerminal b] (inp.map .terminal)) :
    ∃ m, g.Wants (ItemsAt g F e γ) (look id rest) m := by
  obtain ⟨us, hev⟩ := (Grammar.yields_iff_derives (ti := id) (ss := [.nonTerminal b]) (ts := inp)).2
    (by simpa using h2)
  obtain ⟨x, rfl⟩ : ∃ x, us = [x] := by
    match us, hev.length_eq with
    | [x], _ => exact ⟨x, rfl⟩
  have hA := complete_entry hF hwf hb hev
  by_cases hst : ∃ d, AStep g F e id Alg.unit (unitCfg γ rest) d
  · obtain ⟨d, hd⟩ := hst
    rcases hd.wants with ⟨_, _, _, h⟩ | ⟨_, _, h⟩
    · exact ⟨_, h⟩
    · exact ⟨_, h⟩
  · have := ASteps.unique hn h1 hA (fun d hd => hst ⟨d, hd⟩) (final_stuck hn he hb)
    obtain ⟨rfl, _, _, rfl⟩ := Cfg.mk.inj this
    refine ⟨.accept, e, 0, [.nonTerminal b], ?_, hb, he, rfl⟩
    exact ItemsAt.advance (α := []) (β := []) .entry (by simpa using hb)

/-- A wanted move means that the cell is not empty. -/
theorem Tables.cell_of_wants (hT : Tables g F gen At) (hwf : g.WF) (he : g.isPublic e = true)
    {γ : List Symbol} {q : Nat} (hat : At e γ q) {c : Option Nat} {m : Move}
    (hw : g.Wants (ItemsAt g F e γ) c m) : gen.act q c ≠ some none := by
  intro h0
  cases m with
  | shift =>
    obtain ⟨nt, p, α, t, β, la, hit, hp, rfl⟩ := hw
    obtain ⟨r, hr, _⟩ := hT.shift_mk he hat hit hp
    rw [h0] at hr; cases hr
  | reduce b p =>
    obtain ⟨α, hit, hp, hpriv⟩ := hw
    rcases hT.reduce_mk he hat hit hp hpriv with ⟨k, hk, _⟩ | ⟨r, hr⟩ | hr
    · rw [h0] at hk; cases hk
    · rw [h0] at hr; cases hr
    · rw [h0] at hr; cases hr
  | accept =>
    obtain ⟨nt, p, α, hit, hp, hpub, rfl⟩ := hw
    obtain ⟨h1, h2, h3⟩ := hit.pub hwf hpub
    simp only at h1 h2
    subst h1 h2
    obtain ⟨_, b', hb'⟩ := hwf.pub he
    have : α = [.nonTerminal b'] := hp.rhs_eq.symm.trans hb'.rhs_eq
    subst this
    have := hT.accept_mk he hat hit
    rw [h0] at this; cases this

/-- What is in the cell is wanted. -/
theorem Tables.wants_of_cell (hT : Tables g F gen At) (hwf : g.WF) (he : g.isPublic e = true)
    {γ : List Symbol} {q : Nat} (hat : At e γ q) {c : Option Nat} (hc : LaOk g.nTerminals c)
    {x : RtAction} (hx : gen.act q c = some (some x)) :
    ∃ m, g.Wants (ItemsAt g F e γ) c m := by
  cases x with
  | shift r =>
    obtain ⟨t, nt, p, α, β, la, rfl, h1, h2, _⟩ := hT.shift_of he hat hc hx
    exact ⟨.shift, _, _, _, _, _, _, h1, h2, rfl⟩
  | reduce b n k =>
    obtain ⟨p, α, h1, _, h2, h3, _⟩ := hT.reduce_of he hat hc hx
    exact ⟨.reduce b p, α, h2, h1, h3⟩
  | accept =>
    obtain ⟨rfl, h1⟩ := hT.accept_of he hat hc hx
    obtain ⟨_, b', hb'⟩ := hwf.pub he
    exact ⟨.accept, e, 0, [.nonTerminal b'], h1, hb', he, rfl⟩

/-! ## What wanted moves say about derivations -/

omit [DecidableEq Ty] in
/-- Derivations from an entry point start with its only production. -/
theorem Grammar.Derives.entry_inv (hwf : g.WF) (he : g.isPublic e = true) {b : Nat}
    (hb : g.HasProd e 0 [.nonTerminal b]) {x : List Symbol} (h : g.Derives [.nonTerminal e] x) :
    x = [.nonTerminal e] ∨ g.Derives [.nonTerminal b] x := by
  induction h with
  | refl => exact Or.inl rfl
  | tail _ s ih =>
    rcases ih with rfl | ih
    · generalize hv : [Symbol.nonTerminal e] = v at s
      cases s with
      | mk l r α nt p hp =>
        have : l = [] ∧ r = [] ∧ nt = e := by
          cases l with
          | nil => simp at hv; exact ⟨rfl, hv.2, hv.1.symm⟩
          | cons y l => simp at hv
        obtain ⟨rfl, rfl, rfl⟩ := this
        have hlt := hp.lt
        have h1 := (hwf.pub he).1
        have : p = 0 := by omega
        subst this
        have : α = [.nonTerminal b] := hp.rhs_eq.symm.trans hb.rhs_eq
        subst this
        exact Or.inr (.refl _)
    · exact Or.inr (.tail ih s)

omit [DecidableEq Ty] in
/-- A wanted move on lookahead `c` shows that `c` can come next. -/
theorem Grammar.Wants.viable (hF : FirstSound g F) (hwf : g.WF) (he : g.isPublic e = true)
    {γ : List Symbol} {c : Option Nat} {m : Move} (hw : g.Wants (ItemsAt g F e γ) c m) :
    ∃ z, g.Derives [.nonTerminal e] (γ ++ z) ∧ g.Follows z c := by
  cases m with
  | shift =>
    obtain ⟨nt, p, α, t, β, la, hit, hp, rfl⟩ := hw
    obtain ⟨z, hz, _⟩ := (ItemsAt.valid hF hwf he hit).derives hp
    exact ⟨.terminal t :: β ++ z, by simpa using hz, β ++ z, .refl _⟩
  | reduce b p =>
    obtain ⟨α, hit, hp, _⟩ := hw
    obtain ⟨z, hz, hf⟩ := (ItemsAt.valid hF hwf he hit).derives (β := []) (by simpa using hp)
    exact ⟨z, by simpa using hz, hf⟩
  | accept =>
    obtain ⟨nt, p, α, hit, hp, _, rfl⟩ := hw
    obtain ⟨z, hz, hf⟩ := (ItemsAt.valid hF hwf he hit).derives (β := []) (by simpa using hp)
    exact ⟨z, by simpa using hz, hf⟩

omit [DecidableEq Ty] in
/-- The same for tokens derived from the stack, in terms of the wrapped non-terminal. -/
theorem Grammar.Wants.next (hF : FirstSound g F) (hwf : g.WF) (he : g.isPublic e = true) {b : Nat}
    (hb : g.HasProd e 0 [.nonTerminal b]) {γ : List Symbol} {c : Option Nat} {m : Move}
    (hw : g.Wants (ItemsAt g F e γ) c m) {inp : List Nat} (hd : g.Derives γ (inp.map .terminal)) :
    (∀ t, c = some t → ∃ x, g.Derives [.nonTerminal b] (inp.map .terminal ++ .terminal t :: x)) ∧
    (c = none → g.Derives [.nonTerminal b] (inp.map .terminal)) := by
  obtain ⟨z, hz, hf⟩ := hw.viable hF hwf he
  have h1 := hz.trans (hd.append_right z)
  refine ⟨?_, ?_⟩
  · rintro t rfl
    obtain ⟨x, hx⟩ := hf
    have h2 := h1.trans (hx.append_left (inp.map .terminal))
    rcases h2.entry_inv hwf he hb with h3 | h3
    · exfalso
      have : Symbol.terminal t ∈ [Symbol.nonTerminal e] := by rw [← h3]; simp
      simp at this
    · exact ⟨x, h3⟩
  · rintro rfl
    have hf' : g.Derives z [] := hf
    have h2 := h1.trans (hf'.append_left (inp.map .terminal))
    rw [List.append_nil] at h2
    rcases h2.entry_inv hwf he hb with h3 | h3
    · exfalso
      have : Symbol.nonTerminal e ∈ inp.map Symbol.terminal := by rw [h3]; simp
      simp at this
    · exact h3

end Parsegen
