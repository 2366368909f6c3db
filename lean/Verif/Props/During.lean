import Verif.Spec.During
import Verif.Props.Errors
import Verif.Props.Terminate

/-! # C40, C41: every moment of a parse -/

namespace Parsegen

variable {X Ty V W Tok E : Type} [DecidableEq Ty] {P : Compiled X Ty V W Tok} {ep : EntryPoint}
  {input : Nat → Option (Except E Tok)} {w w' : W} {n : Nat}

/-! ## C40 -/

/-- The invariants hold at every moment. -/
theorem steps_inv {g : Grammar X Ty} {F : FirstTable} {gen : Generated X} {u : UserCode X V W}
    {tf : TokenFns Tok V} {At : Nat → List Symbol → Nat → Prop} {e : Nat} {w0 : W} (hwf : g.WF)
    (hT : Tables g F gen At) (hc : tf.Consistent g.nTerminals) (he : g.isPublic e = true)
    (hext : (semanticActionVariants g)[e]? = some ep.extract)
    (hsem : gen.IsSem g ep.actionIdx e 0) {s s' : PState Tok V W E}
    (h : Steps gen u tf input ep s s') {γ : List Symbol} {toks : List Tok}
    (hi : RunInv g u tf At e input w0 s γ toks) (ht : Trace g F tf e s γ toks) :
    ∃ γ' toks', RunInv g u tf At e input w0 s' γ' toks' ∧ Trace g F tf e s' γ' toks' := by
  induction h with
  | refl => exact ⟨γ, toks, hi, ht⟩
  | tail _ hn ih =>
    obtain ⟨γ', toks', hi', ht'⟩ := ih
    have := parseStep_spec hwf hT hc he hext hsem hi' (ep := ep)
    rw [hn] at this
    cases this with
    | shift htok hact hit hp hs hinv => exact ⟨_, _, hinv, trace_shift hinv ht' htok hit hp⟩
    | reduce hla hact hγ hp hit hpriv htok hval hinv =>
      subst hγ
      exact ⟨_, _, hinv, trace_reduce he ht' hla htok hp hit hpriv⟩

omit [DecidableEq Ty] in
theorem derives_none {A : Type} {g : Grammar A Ty} {b : Nat} (hno : ∀ p α, ¬ g.HasProd b p α)
    {x : List Symbol} (h : g.Derives [.nonTerminal b] x) : x = [.nonTerminal b] := by
  induction h with
  | refl => rfl
  | tail _ s ih =>
    subst ih
    generalize hv : [Symbol.nonTerminal b] = v at s
    cases s with
    | mk l r α nt p hp =>
      exfalso
      cases l with
      | nil => simp at hv; rw [← hv.1] at hp; exact hno _ _ hp
      | cons y l => simp at hv

/-- A stack the parser can have is the beginning of a form derived from the entry point. -/
theorem Setup.forest_prefix {g : Grammar X Ty} {nts ts : AMap String Nat} {a : Automaton}
    {g' : Grammar Nat Ty} {T : LRTable Nat} (S : Setup P g nts ts a g' T) {e : Nat}
    {nt : NonTerminal X Ty} (h1 : g.nonTerminals[e]? = some nt) (h2 : nt.isPublic = true)
    (h3 : nt.name = ep.name) (he : g.isPublic e = true) {γ : List Symbol} {us : List USym}
    (hlive : ∃ it, ItemsAt g (generateFirstTable P.order g) e γ it)
    (hpriv : ∀ b, .nonTerminal b ∈ γ → g.isPublic b = false)
    (hprod : ∀ b rest, γ = .nonTerminal b :: rest → ∃ p α, g.HasProd b p α)
    (hun : List.Forall₂ (Names nts ts) us γ) :
    ∃ form, UDerives P.defs [.nt ep.name] (us ++ form) := by
  obtain ⟨d, b, n', _, _, e3, _, e4, e5, _, _, e6⟩ := S.lowered.pub h1 h2
  have hb : g.HasProd e 0 [.nonTerminal b] := ⟨nt, wrapperProd P.code.mkPath b, h1, by rw [e4]; rfl, rfl⟩
  by_cases h0 : γ = []
  · subst h0
    cases hun
    exact ⟨[.nt ep.name], .refl _⟩
  obtain ⟨x, γ', rfl⟩ := List.exists_cons_of_ne_nil h0
  obtain ⟨it, hit⟩ := hlive
  have hF := generateFirstTable_sound P.order g
  have hok := hit.itemOk S.wf (generateFirstTable_ok S.wf P.order) he
  have hp := Grammar.hasProd_of_lt hok.1
  obtain ⟨z, hz, _⟩ := Grammar.Valid.derives (α := (g.rhs it.nt it.prod).take it.cursor)
    (β := (g.rhs it.nt it.prod).drop it.cursor) (la := it.la) (p := it.prod) (nt := it.nt)
    (by
      have := ItemsAt.valid hF S.wf he hit
      rw [List.length_take, Nat.min_eq_left hok.2.1]; exact this)
    (by rw [List.take_append_drop]; exact hp)
  have hnamed : nts.get? ep.name = some b := by
    rcases e6 with e6 | e6
    · rw [← h3, e3]; exact e6
    · exfalso
      have hno : ∀ p α, ¬ g.HasProd b p α := by
        rintro p α ⟨m, pr, m1, m2, _⟩
        rw [e5] at m1; cases m1
        rw [e6] at m2; simp at m2
      rcases hz.entry_inv S.wf he hb with h4 | h4
      · simp only [List.append_assoc, List.cons_append, List.cons.injEq] at h4
        have := hpriv e (by rw [h4.1]; simp)
        rw [he] at this; cases this
      · have h5 := derives_none hno h4
        simp only [List.append_assoc, List.cons_append, List.cons.injEq] at h5
        obtain ⟨rfl, h5⟩ := h5
        obtain ⟨p, α, hp'⟩ := hprod b γ' rfl
        exact hno _ _ hp'
  rcases hz.entry_inv S.wf he hb with h4 | h4
  · simp only [List.append_assoc, List.cons_append, List.cons.injEq] at h4
    have := hpriv e (by rw [h4.1]; simp)
    rw [he] at this; cases this
  · obtain ⟨y, h5, h6⟩ := S.lowered.derives_user h4 (l := [.nt ep.name]) (.cons hnamed .nil)
    rw [List.append_assoc] at h5
    obtain ⟨y1, y2, rfl, h7, h8⟩ := forall₂_append_right h5
    rw [S.lowered.names_inj_list hun h7]
    exact ⟨y2, h6⟩

/-- **C40.** At every moment of a parse, also one that never returns: the tokens read so far are read
lazily (all but the last call of `next()` have returned tokens, which have been consumed), the actions
executed so far are exactly those of a forest of complete derivations over the consumed tokens, each run
once, bottom-up and left to right, and that forest is the beginning of a derivation from the entry
point. -/
theorem c40_moment (hep : ep ∈ P.gen.entries) (h : P.During ep input w w' n) :
    ∃ toks syms us vals form, Reads input toks ∧ n = toks.length + 1 ∧
      P.Means syms toks w vals w' ∧ syms.map (·.plain) = us.map some ∧
      UDerives P.defs [.nt ep.name] (us ++ form) := by
  obtain ⟨s, hs, rfl, rfl⟩ := h
  obtain ⟨g, nts, ts, a, g', T, S⟩ := P.setup hep
  obtain ⟨e, nt, h1, h2, h3, he, hini, hext, hsem⟩ := S.run hep
  obtain ⟨γ, toks, hi, ht⟩ := steps_inv S.wf (S.stages.tables S.wf) S.cons he hext hsem hs
    (runInv_init hini) trace_init
  obtain ⟨vs, hev, _⟩ := hi.eval
  obtain ⟨ss, hss⟩ := S.lowered.names_of_eval S.cls hev hi.priv
  obtain ⟨us, hus, hun⟩ := forall₂_lowersPlain_names hss
  have hm := S.means hss hev
  obtain ⟨form, hd⟩ := S.forest_prefix h1 h2 h3 he ht.live hi.priv (by
    rintro b rest rfl
    cases hev with
    | nt hp' => exact ⟨_, _, hp'⟩) hun
  exact ⟨toks, ss, us, _, form, hi.reads, hi.calls, hm, hus, hd⟩

/-! ## C41 -/

theorem Compiled.Stops.progress (hS : P.Stops) (hep : ep ∈ P.gen.entries) (n : Nat) :
    (∃ (o : Outcome V E) (w' : W) (m : Nat), m ≤ n ∧ P.Returns ep input w o w' m) ∨
    ∃ (w' : W) (m : Nat), n < m ∧ P.During ep input w w' m := by
  obtain ⟨o, w', m, hr⟩ := hS.terminates (w := w) (input := fun i => if i ≤ n then input i else none)
    hep (k := n + 1) (by intro t; simp)
  by_cases hm : m ≤ n
  · refine .inl ⟨o, w', m, hm, c14_unread_input ?_ hr⟩
    intro i hi
    rw [if_pos (by omega)]
  · right
    obtain ⟨fuel, s', h, rfl, rfl⟩ := hr
    have key : ∀ (fuel : Nat) (s : PState Tok V W E),
        Steps P.gen P.code P.tf input ep (parseInit input ep w) s →
        parseLoop P.gen P.code P.tf (fun i => if i ≤ n then input i else none) ep fuel s =
          some (o, s') →
        ∃ s1, Steps P.gen P.code P.tf input ep (parseInit input ep w) s1 ∧ n < s1.calls := by
      intro fuel
      induction fuel with
      | zero => intro s _ h; cases h
      | succ fuel ih =>
        intro s hs h
        by_cases hlt : n < s.calls
        · exact ⟨s, hs, hlt⟩
        unfold parseLoop at h
        split at h
        · next hd =>
          cases h
          have := parseStep_calls hd
          omega
        · next s1 hd =>
          refine ih s1 (.tail hs ?_) h
          rw [← hd]
          exact (parseStep_congr s (by rw [if_pos (by omega)])).symm
    have hini : parseInit (V := V) (fun i => if i ≤ n then input i else none) ep w =
        parseInit input ep w := by simp [parseInit]
    unfold parse at h
    rw [hini] at h
    obtain ⟨s1, h1, h2⟩ := key fuel _ (.refl _) h
    exact ⟨_, _, h2, s1, h1, rfl, rfl⟩

/-- **C41.** Progress: on every stream, also one that never ends, the parser either returns after at most
`n` calls of `next()` or calls `next()` more than `n` times; it never stops asking for input without
returning.  (The condition is that of C07.) -/
theorem c41_progress (hN : P.FirstNonempty) (hep : ep ∈ P.gen.entries) (n : Nat) :
    (∃ (o : Outcome V E) (w' : W) (m : Nat), m ≤ n ∧ P.Returns ep input w o w' m) ∨
    ∃ (w' : W) (m : Nat), n < m ∧ P.During ep input w w' m :=
  hN.stops.progress hep n

/-! ## Examples -/

namespace Examples

/-- The state after `k` iterations. -/
def stepsN {W : Type} (P : Compiled (Act W) String Nat W Tk) (ep : EntryPoint)
    (input : Nat → Option (Except String Tk)) : Nat → PState Tk Nat W String →
      Option (PState Tk Nat W String)
  | 0, s => some s
  | k + 1, s =>
    match parseStep P.gen P.code P.tf input ep s with
    | .next s' => stepsN P ep input k s'
    | .done _ _ => none

theorem stepsN_steps {W : Type} {P : Compiled (Act W) String Nat W Tk} {ep : EntryPoint}
    {input : Nat → Option (Except String Tk)} {s0 : PState Tk Nat W String} :
    ∀ {k : Nat} {s s' : PState Tk Nat W String}, Steps P.gen P.code P.tf input ep s0 s →
      stepsN P ep input k s = some s' → Steps P.gen P.code P.tf input ep s0 s' := by
  intro k
  induction k with
  | zero => intro s s' h h'; cases h'; exact h
  | succ k ih =>
    intro s s' h h'
    unfold stepsN at h'
    split at h'
    · next hn => exact ih (.tail h hn) h'
    · cases h'

/-- What is observable of entry point `i` after `k` iterations. -/
def after {W : Type} (P : Compiled (Act W) String Nat W Tk) (i : Nat)
    (input : Nat → Option (Except String Tk)) (w : W) (k : Nat) : Option (String × W × Nat) :=
  match P.gen.entries[i]? with
  | none => none
  | some ep => (stepsN P ep input k (parseInit input ep w)).map fun s => (ep.name, s.world, s.calls)

theorem after_during {W : Type} {P : Compiled (Act W) String Nat W Tk} {i : Nat}
    {input : Nat → Option (Except String Tk)} {w w' : W} {k n : Nat} {name : String}
    (h : after P i input w k = some (name, w', n)) :
    ∃ ep ∈ P.gen.entries, ep.name = name ∧ P.During ep input w w' n := by
  unfold after at h
  split at h
  · cases h
  · next ep hep =>
    obtain ⟨s, h1, h2⟩ := Option.map_eq_some_iff.1 h
    cases h2
    exact ⟨ep, List.mem_of_getElem? hep, rfl, s, stepsN_steps (.refl _) h1, rfl, rfl⟩

/-- `1 + 1 + 1 + ...` without end. -/
def ones : Nat → Option (Except String Tk) :=
  fun i => some (.ok (if i % 2 = 0 then .num 1 else .plus))

set_option maxRecDepth 10000 in
theorem arith_ones : after arith 0 ones [] 5 = some ("Expr", [("Term", 0), ("Expr", 1)], 4) := by
  decide +kernel

/-- C40's hypothesis: on an endless input `arith` is after four calls of `next()` in the middle of the
parse, having run the actions of the first summand. -/
example : ∃ ep ∈ arith.gen.entries, ep.name = "Expr" ∧
    arith.During ep ones [] [("Term", 0), ("Expr", 1)] 4 := after_during arith_ones

/-- C41's hypothesis: `arith` has no empty FIRST set, so on this input it asks for ever more tokens. -/
example {ep : EntryPoint} (hep : ep ∈ arith.gen.entries) (n : Nat) :
    (∃ (o : Outcome Nat String) (w' : Log) (m : Nat), m ≤ n ∧ arith.Returns ep ones [] o w' m) ∨
    ∃ (w' : Log) (m : Nat), n < m ∧ arith.During ep ones [] w' m :=
  c41_progress (arith_productive.firstNonempty hep arith_regular.names arith_regular.first) hep n

end Examples

end Parsegen
