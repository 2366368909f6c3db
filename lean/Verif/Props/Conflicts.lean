import Verif.Proofs.Reject
import Verif.Props.Generator

/-! # C20-C23, C39: conflicts and panics of the macro -/

namespace Parsegen

variable {X Ty Tok V W : Type} [DecidableEq Ty]

section
variable {h : HashOrder} {g : Grammar X Ty} {gen : Generated X}

omit [DecidableEq Ty] in
theorem WantsShift.wants {G : AMap Symbol Nat} {it : Item} {c : Option Nat}
    (hw : WantsShift g G it c) : g.Wants (· = it) c .shift := by
  obtain ⟨t, rfl, h1, _⟩ := hw
  exact wants_shift_iff.2 ⟨t, rfl, h1⟩

/-- The entry of `ACTION` for a state and a lookahead, in terms of what the state's items want. -/
theorem GenStages.cell_char {a : Automaton} {g' : Grammar Nat Ty} {T : LRTable Nat}
    (hs : GenStages h g gen a g' T) (hwf : g.WF) {E q : Nat} {γ : List Symbol}
    (hE : g.isPublic E = true) (hat : StateAt g (generateFirstTable h g) a E γ q) {c : Option Nat}
    (hc : ∀ t, c = some t → t < g.nTerminals) :
    ∃ m, Performs g (gen.cell q c) m ∧
      (∀ m', m = some m' → g.Wants (ItemsAt g (generateFirstTable h g) E γ) c m') ∧
      ∀ m', g.Wants (ItemsAt g (generateFirstTable h g) E γ) c m' →
        m = some m' ∨ (m = some .shift ∨ m = some .accept) ∧ m'.IsReduce := by
  have ht := hs.tables hwf
  have hF := generateFirstTable_ok hwf h
  obtain ⟨st, h1, h2⟩ := id hat
  have hT := (hs.tableSpec hwf).2.row q st h1
  have hsh := hs.shape
  obtain ⟨o, ho, henc⟩ := hs.act_cell hwf h1 hc
  have hcell : gen.cell q c = o := by rw [Generated.cell_eq, ho]; rfl
  rw [hcell]
  -- what is wanted forces the entry
  have hshift : g.Wants (ItemsAt g (generateFirstTable h g) E γ) c .shift →
      ∃ r, T.getAction q c = some (.shift r) := by
    rintro ⟨nt, p, α, t, β, la, h3, h4, rfl⟩
    obtain ⟨r, hr⟩ := goto_isSome hwf hF (hs.autoSpec hwf) hE h1 h2 h3 h4
    exact ⟨r, hT.act.shift_mk _ ((h2 _).2 h3) t r
      (by rw [hsh.nextSymbol]; exact nextSymbol_of_hasProd h4) hr⟩
  have haccept : g.Wants (ItemsAt g (generateFirstTable h g) E γ) c .accept →
      T.getAction q c = some .accept := by
    intro hw
    obtain ⟨it, h3, h4⟩ := Grammar.wants_iff.1 hw
    exact hT.act.accept_mk it ((h2 _).2 h3) c
      ((hsh.wantsAccept _ _).2 ((wants_accept_iff hwf (h3.itemOk hwf hF hE)).1 h4))
  have hreduce : ∀ nt p, g.Wants (ItemsAt g (generateFirstTable h g) E γ) c (.reduce nt p) →
      ∃ it ∈ st.items, it.nt = nt ∧ it.prod = p ∧ WantsReduce g' it c ∧
        (T.getAction q c).isSome = true := by
    intro nt p hw
    obtain ⟨it, h3, h4⟩ := Grammar.wants_iff.1 hw
    obtain ⟨e1, e2, h5⟩ := (wants_reduce_iff (h3.itemOk hwf hF hE)).1 h4
    have h6 := (hsh.wantsReduce _ _).2 h5
    exact ⟨it, (h2 _).2 h3, e1, e2, h6, hT.act.reduce_mk it ((h2 _).2 h3) c h6⟩
  cases hx : T.getAction q c with
  | none =>
    rw [hx] at henc
    rw [encodeCell_none henc]
    refine ⟨none, trivial, by simp, ?_⟩
    intro m' hw
    exfalso
    cases m' with
    | shift => obtain ⟨r, hr⟩ := hshift hw; rw [hx] at hr; cases hr
    | accept => rw [haccept hw] at hx; cases hx
    | reduce nt p =>
      obtain ⟨_, _, _, _, _, h3⟩ := hreduce nt p hw
      rw [hx] at h3; cases h3
  | some act =>
    rw [hx] at henc
    cases act with
    | shift r =>
      rw [encodeCell_shift henc]
      obtain ⟨it, m1, t, rfl, m3, m4⟩ := hT.act.shift_of c r hx
      rw [hsh.nextSymbol] at m3
      refine ⟨some .shift, trivial, ?_, ?_⟩
      · rintro m' ⟨⟩
        exact Grammar.wants_iff.2 ⟨it, (h2 _).1 m1, wants_shift_iff.2 ⟨t, rfl, m3⟩⟩
      · intro m' hw
        cases m' with
        | shift => exact .inl rfl
        | accept => rw [haccept hw] at hx; cases hx
        | reduce nt p => exact .inr ⟨.inl rfl, trivial⟩
    | accept =>
      rw [encodeCell_accept henc]
      obtain ⟨it, m1, m2⟩ := hT.act.accept_of c hx
      have hi := (h2 _).1 m1
      refine ⟨some .accept, trivial, ?_, ?_⟩
      · rintro m' ⟨⟩
        exact Grammar.wants_iff.2 ⟨it, hi,
          (wants_accept_iff hwf (hi.itemOk hwf hF hE)).2 ((hsh.wantsAccept _ _).1 m2)⟩
      · intro m' hw
        cases m' with
        | accept => exact .inl rfl
        | shift => obtain ⟨r, hr⟩ := hshift hw; rw [hx] at hr; cases hr
        | reduce nt p => exact .inr ⟨.inr rfl, trivial⟩
    | reduce nt p k =>
      obtain ⟨pr', h3, rfl⟩ := encodeCell_reduce henc
      obtain ⟨it, m1, rfl, rfl, m4, pr'', m5, m6⟩ := hT.act.reduce_of c _ _ _ hx
      rw [h3] at m5; cases m5
      have hi := (h2 _).1 m1
      refine ⟨some (.reduce it.nt it.prod), ⟨rfl, ?_⟩, ?_, ?_⟩
      · have hsp := hsh.getProduction it.nt it.prod
        rw [h3] at hsp
        cases h4 : g.getProduction? it.nt it.prod with
        | none => rw [h4] at hsp; cases hsp
        | some pr =>
          obtain ⟨h5, _⟩ := (generateSemanticActionTable_ok hs.sem).2.2.2 _ _ _ h4
          rw [h3] at h5; cases h5
          subst m6
          exact ⟨pr, listing_get h4, rfl⟩
      · rintro m' ⟨⟩
        exact Grammar.wants_iff.2 ⟨it, hi,
          (wants_reduce_iff (hi.itemOk hwf hF hE)).2 ⟨rfl, rfl, (hsh.wantsReduce _ _).1 m4⟩⟩
      · intro m' hw
        cases m' with
        | shift => obtain ⟨r, hr⟩ := hshift hw; rw [hx] at hr; cases hr
        | accept => rw [haccept hw] at hx; cases hx
        | reduce nt' p' =>
          left
          obtain ⟨it', m1', rfl, rfl, m4', _⟩ := hreduce nt' p' hw
          rcases hT.act.order it m1 it' m1' c m4' (.inr (.inl m4)) with h7 | h7
          · rw [h7]
          · exact absurd m4 h7.2

/-! ## C21, C22: what the tables do -/

/-- **C21, C22.** In an accepted grammar, let `ep` be an entry point, belonging to the public
non-terminal `E`.  The emitted parser can read the symbol string `γ` iff `γ` has LR(1) items; in the
state it then is in, its entry for lookahead `c` performs a move wanted by some item, and every move
wanted by an item is the one performed, except that a shift or an accept takes precedence over a
reduction. -/
theorem c21_table (hwf : g.WF) (hg : generateParser h g = .ok gen) {ep : EntryPoint}
    (hep : ep ∈ gen.entries) :
    ∃ E, g.isPublic E = true ∧ (g.nonTerminals[E]?).map (·.name) = some ep.name ∧
      ∀ γ, ((∃ q, gen.Path ep.initState γ q) ↔
          ∃ it, ItemsAt g (generateFirstTable h g) E γ it) ∧
        ∀ q, gen.Path ep.initState γ q → ∀ c, (∀ t, c = some t → t < g.nTerminals) →
          ∃ m, Performs g (gen.cell q c) m ∧
            (∀ m', m = some m' → g.Wants (ItemsAt g (generateFirstTable h g) E γ) c m') ∧
            ∀ m', g.Wants (ItemsAt g (generateFirstTable h g) E γ) c m' →
              m = some m' ∨ (m = some .shift ∨ m = some .accept) ∧ m'.IsReduce := by
  obtain ⟨a, g', T, hs⟩ := generateParser_ok hg
  have ht := hs.tables hwf
  obtain ⟨E, hE, hat, hname, _⟩ := ht.entry ep hep
  refine ⟨E, hE, hname, ?_⟩
  intro γ
  refine ⟨⟨?_, ?_⟩, ?_⟩
  · rintro ⟨q, hq⟩
    obtain ⟨st, h1, h2⟩ := hs.path_at hwf hE hat hq
    obtain ⟨_, _, _, _, hne⟩ := (hs.autoSpec hwf).reach q st h1
    obtain ⟨x, hx⟩ := List.exists_mem_of_ne_nil _ hne
    exact ⟨x, (h2 x).1 hx⟩
  · rintro ⟨x, hx⟩
    exact hs.path_exists hwf hE hat γ x hx
  · intro q hq c hc
    exact hs.cell_char hwf hE (hs.path_at hwf hE hat hq) hc

/-- **C21.** Whenever an item of the state expects terminal `t`, the parser shifts `t`. -/
theorem c21_shift_wins (hwf : g.WF) (hg : generateParser h g = .ok gen) {ep : EntryPoint}
    (hep : ep ∈ gen.entries) :
    ∃ E, g.isPublic E = true ∧ (g.nonTerminals[E]?).map (·.name) = some ep.name ∧
      ∀ γ q, gen.Path ep.initState γ q → ∀ nt p α t β la,
        ItemsAt g (generateFirstTable h g) E γ ⟨nt, p, α.length, la⟩ →
        g.HasProd nt p (α ++ .terminal t :: β) → ∃ r, gen.cell q (some t) = some (.shift r) := by
  obtain ⟨E, hE, hn, hx⟩ := c21_table hwf hg hep
  refine ⟨E, hE, hn, ?_⟩
  intro γ q hq nt p α t β la h1 h2
  obtain ⟨m, h3, _, h4⟩ := (hx γ).2 q hq (some t)
    (by intro t' ht; cases ht; exact hwf.term_lt h2 (by simp))
  rcases h4 .shift ⟨nt, p, α, t, β, la, h1, h2, rfl⟩ with rfl | ⟨_, h5⟩
  · cases hc : gen.cell q (some t) with
    | none => rw [hc] at h3; exact h3.elim
    | some o =>
      rw [hc] at h3
      cases o with
      | shift r => exact ⟨r, rfl⟩
      | reduce _ _ _ => exact h3.elim
      | accept => exact h3.elim
  · exact h5.elim

/-- **C22.** A state containing a completed entry item accepts at end of input. -/
theorem c22_accept_wins (hwf : g.WF) (hg : generateParser h g = .ok gen) {ep : EntryPoint}
    (hep : ep ∈ gen.entries) :
    ∃ E, g.isPublic E = true ∧ (g.nonTerminals[E]?).map (·.name) = some ep.name ∧
      ∀ γ q, gen.Path ep.initState γ q → ∀ nt p α,
        ItemsAt g (generateFirstTable h g) E γ ⟨nt, p, α.length, none⟩ → g.HasProd nt p α →
        g.isPublic nt = true → gen.cell q none = some .accept := by
  obtain ⟨E, hE, hn, hx⟩ := c21_table hwf hg hep
  refine ⟨E, hE, hn, ?_⟩
  intro γ q hq nt p α h1 h2 hpub
  obtain ⟨m, h3, _, h4⟩ := (hx γ).2 q hq none (by simp)
  rcases h4 .accept ⟨nt, p, α, h1, h2, hpub, rfl⟩ with rfl | ⟨_, h5⟩
  · cases hc : gen.cell q none with
    | none => rw [hc] at h3; exact h3.elim
    | some o =>
      rw [hc] at h3
      cases o with
      | accept => rfl
      | reduce _ _ _ => exact h3.elim
      | shift _ => exact h3.elim
  · exact h5.elim

/-! ## C20-C22: what is rejected -/

/-- **C21, C22.** Apart from size limits, the generator panics exactly if some reachable state has an item
that wants to reduce on a lookahead for which an item before it (by left-hand side, production,
position) wants a move; and the panic message names the first such state, the lookahead and the two
moves. -/
theorem c21_rejects_iff (hwf : g.WF) :
    ((∃ E γ c m nt p, g.isPublic E = true ∧
        g.Clash (ItemsAt g (generateFirstTable h g) E γ) c m nt p) →
      ∃ f, generateParser h g = .error f) ∧
    ∀ f, generateParser h g = .error f → f = .u16Overflow ∨ f = .u32Overflow ∨
      Conflict h g f := by
  refine ⟨?_, fun f hf => generateParser_conflict hwf hf⟩
  rintro ⟨E, γ, c, m, nt, p, hE, hc⟩
  refine Except.error_of_not_ok ?_
  rintro ⟨gen, hg⟩
  exact generateParser_no_clash hwf hg hE hc

omit [DecidableEq Ty] in
/-- Two reductions clash one way or the other. -/
theorem Grammar.clash_of_reduces {I : Item → Prop} {c : Option Nat} {nt p nt' p' : Nat}
    (h1 : g.Wants I c (.reduce nt p)) (h2 : g.Wants I c (.reduce nt' p'))
    (hne : (nt, p) ≠ (nt', p')) :
    g.Clash I c (.reduce nt p) nt' p' ∨ g.Clash I c (.reduce nt' p') nt p := by
  obtain ⟨α, a1, a2, a3⟩ := h1
  obtain ⟨β, b1, b2, b3⟩ := h2
  have w1 : g.Wants (· = (⟨nt, p, α.length, c⟩ : Item)) c (.reduce nt p) := ⟨α, rfl, a2, a3⟩
  have w2 : g.Wants (· = (⟨nt', p', β.length, c⟩ : Item)) c (.reduce nt' p') := ⟨β, rfl, b2, b3⟩
  rcases Nat.lt_trichotomy nt nt' with hlt | heq | hlt
  · exact .inl ⟨_, _, a1, b1, .inl hlt, w1, w2⟩
  · subst heq
    rcases Nat.lt_trichotomy p p' with hlt | heq | hlt
    · exact .inl ⟨_, _, a1, b1, .inr ⟨rfl, .inl hlt⟩, w1, w2⟩
    · subst heq; exact absurd rfl hne
    · exact .inr ⟨_, _, b1, a1, .inr ⟨rfl, .inl hlt⟩, w2, w1⟩
  · exact .inr ⟨_, _, b1, a1, .inl hlt, w2, w1⟩

/-- **C20.** If in some reachable state two different productions are complete with the same lookahead,
the generator panics. -/
theorem c20_reduce_reduce (hwf : g.WF) {E : Nat} (hE : g.isPublic E = true) {γ : List Symbol}
    {c : Option Nat} {nt p nt' p' : Nat} {α β : List Symbol} (hne : (nt, p) ≠ (nt', p'))
    (h1 : ItemsAt g (generateFirstTable h g) E γ ⟨nt, p, α.length, c⟩) (hp1 : g.HasProd nt p α)
    (h2 : ItemsAt g (generateFirstTable h g) E γ ⟨nt', p', β.length, c⟩) (hp2 : g.HasProd nt' p' β)
    (hpriv : g.isPublic nt = false) (hpriv' : g.isPublic nt' = false) :
    ∃ f, generateParser h g = .error f := by
  refine Except.error_of_not_ok ?_
  rintro ⟨gen, hg⟩
  rcases Grammar.clash_of_reduces (g := g) (I := ItemsAt g (generateFirstTable h g) E γ) (c := c)
    ⟨α, h1, hp1, hpriv⟩ ⟨β, h2, hp2, hpriv'⟩ hne with hc | hc <;>
  exact generateParser_no_clash hwf hg hE hc

/-! ## C23 Conflict rejections are justified -/

/-- **C23.** A conflict panic means that the grammar is not LR(1): for some string `γ` read from an entry
point and some lookahead, two different moves are justified by items valid in terms of derivations. -/
theorem c23_not_lr1 (hwf : g.WF) {f : Fault} (he : generateParser h g = .error f)
    (hf : f.IsConflict) :
    ¬ g.IsLR1 ∧ ∃ E γ c m m', g.isPublic E = true ∧ m ≠ m' ∧ g.Wants (g.Valid E γ) c m ∧
      g.Wants (g.Valid E γ) c m' := by
  have key : ∃ E γ c m m', g.isPublic E = true ∧ m ≠ m' ∧ g.Wants (g.Valid E γ) c m ∧
      g.Wants (g.Valid E γ) c m' := by
    rcases generateParser_conflict hwf he with rfl | rfl | hc
    · exact hf.elim
    · exact hf.elim
    · cases hc with
      | mk _ hE _ _ _ hc hm hp => exact ⟨_, _, _, _, _, hE, hc.ne, hm, hp⟩
  refine ⟨?_, key⟩
  obtain ⟨E, γ, c, m, m', hE, hne, h1, h2⟩ := key
  exact fun hl => hne (hl E γ c m m' hE h1 h2)

/-- **C23**, the other way round: an LR(1) grammar whose sizes fit is accepted. -/
theorem c23_lr1_accepted (hwf : g.WF) (hl : g.IsLR1) :
    (∃ gen, generateParser h g = .ok gen) ∨ generateParser h g = .error .u16Overflow ∨
      generateParser h g = .error .u32Overflow := by
  cases hg : generateParser h g with
  | ok gen => exact .inl ⟨gen, rfl⟩
  | error f =>
    rcases generateParser_conflict hwf hg with rfl | rfl | hc
    · exact .inr (.inl rfl)
    · exact .inr (.inr rfl)
    · refine absurd hl (c23_not_lr1 hwf hg ?_).1
      cases hc with
      | @mk _ _ _ _ _ _ m => cases m <;> trivial

end

/-! ## Concrete cases -/

namespace Examples

/-- `S → A | B;  A → x;  B → x`, entry point `E → S`; non-terminals `S=0, E=1, A=2, B=3`. -/
def reduceReduce : Grammar Unit Unit := .bare
  [(false, [[.nonTerminal 2], [.nonTerminal 3]]), (true, [[.nonTerminal 0]]),
    (false, [[.terminal 0]]), (false, [[.terminal 0]])] 1

/-- `S → A x | B;  A → x;  B → x x`: after `x`, on `x`, both reducing `A → x` and shifting are wanted. -/
def shiftSilent : Grammar Unit Unit := .bare
  [(false, [[.nonTerminal 2, .terminal 0], [.nonTerminal 3]]), (true, [[.nonTerminal 0]]),
    (false, [[.terminal 0]]), (false, [[.terminal 0, .terminal 0]])] 1

/-- The same with `B` declared before `A`. -/
def shiftLoud : Grammar Unit Unit := .bare
  [(false, [[.nonTerminal 3, .terminal 0], [.nonTerminal 2]]), (true, [[.nonTerminal 0]]),
    (false, [[.terminal 0, .terminal 0]]), (false, [[.terminal 0]])] 1

/-- `S → S | x`: after `S`, at end of input, both reducing `S → S` and accepting are wanted. -/
def acceptSilent : Grammar Unit Unit := .bare
  [(false, [[.nonTerminal 0], [.terminal 0]]), (true, [[.nonTerminal 0]])] 1

/-- `S → A | x;  A → S`. -/
def acceptLoud : Grammar Unit Unit := .bare
  [(false, [[.nonTerminal 2], [.terminal 0]]), (true, [[.nonTerminal 0]]),
    (false, [[.nonTerminal 0]])] 1

theorem reduceReduce_items (F : FirstTable) :
    ItemsAt reduceReduce F 1 [.terminal 0] ⟨2, 0, 1, none⟩ ∧
    ItemsAt reduceReduce F 1 [.terminal 0] ⟨3, 0, 1, none⟩ := by
  have e : ItemsAt reduceReduce F 1 [] ⟨1, 0, ([] : List Symbol).length, none⟩ := .entry
  have s0 : ItemsAt reduceReduce F 1 [] ⟨0, 0, ([] : List Symbol).length, none⟩ :=
    .pred (β := []) e ⟨_, _, rfl, rfl, rfl⟩ ⟨_, _, rfl, rfl, rfl⟩ .nil
  have s1 : ItemsAt reduceReduce F 1 [] ⟨0, 1, ([] : List Symbol).length, none⟩ :=
    .pred (β := []) e ⟨_, _, rfl, rfl, rfl⟩ ⟨_, _, rfl, rfl, rfl⟩ .nil
  have a : ItemsAt reduceReduce F 1 [] ⟨2, 0, ([] : List Symbol).length, none⟩ :=
    .pred (β := []) s0 ⟨_, _, rfl, rfl, rfl⟩ ⟨_, _, rfl, rfl, rfl⟩ .nil
  have b : ItemsAt reduceReduce F 1 [] ⟨3, 0, ([] : List Symbol).length, none⟩ :=
    .pred (β := []) s1 ⟨_, _, rfl, rfl, rfl⟩ ⟨_, _, rfl, rfl, rfl⟩ .nil
  exact ⟨.advance (β := []) a ⟨_, _, rfl, rfl, rfl⟩, .advance (β := []) b ⟨_, _, rfl, rfl, rfl⟩⟩

/-- The hypotheses of C20 are met. -/
example : ∃ f, generateParser .insertion reduceReduce = .error f :=
  c20_reduce_reduce (γ := [.terminal 0]) (α := [.terminal 0]) (β := [.terminal 0])
    (Grammar.wf_of_check (by decide)) (E := 1) rfl (nt := 2) (p := 0) (nt' := 3) (p' := 0) (by decide)
    (reduceReduce_items _).1 ⟨_, _, rfl, rfl, rfl⟩ (reduceReduce_items _).2 ⟨_, _, rfl, rfl, rfl⟩
    rfl rfl

theorem shiftSilent_items {F : FirstTable} :
    ItemsAt shiftSilent F 1 [.terminal 0] ⟨2, 0, 1, some 0⟩ ∧
    ItemsAt shiftSilent F 1 [.terminal 0] ⟨3, 0, 1, none⟩ := by
  have e : ItemsAt shiftSilent F 1 [] ⟨1, 0, ([] : List Symbol).length, none⟩ := .entry
  have s0 : ItemsAt shiftSilent F 1 [] ⟨0, 0, ([] : List Symbol).length, none⟩ :=
    .pred (β := []) e ⟨_, _, rfl, rfl, rfl⟩ ⟨_, _, rfl, rfl, rfl⟩ .nil
  have s1 : ItemsAt shiftSilent F 1 [] ⟨0, 1, ([] : List Symbol).length, none⟩ :=
    .pred (β := []) e ⟨_, _, rfl, rfl, rfl⟩ ⟨_, _, rfl, rfl, rfl⟩ .nil
  have a : ItemsAt shiftSilent F 1 [] ⟨2, 0, ([] : List Symbol).length, some 0⟩ :=
    .pred (β := [.terminal 0]) s0 ⟨_, _, rfl, rfl, rfl⟩ ⟨_, _, rfl, rfl, rfl⟩ (.term 0 [])
  have b : ItemsAt shiftSilent F 1 [] ⟨3, 0, ([] : List Symbol).length, none⟩ :=
    .pred (β := []) s1 ⟨_, _, rfl, rfl, rfl⟩ ⟨_, _, rfl, rfl, rfl⟩ .nil
  exact ⟨.advance (β := []) a ⟨_, _, rfl, rfl, rfl⟩,
    .advance (β := [.terminal 0]) b ⟨_, _, rfl, rfl, rfl⟩⟩

/-- C21: a shift/reduce conflict that is silently resolved in favour of the shift: the grammar is
accepted, and after `x`, on `x`, both moves are wanted. -/
theorem c21_silent : ∃ gen, generateParser .insertion shiftSilent = .ok gen ∧
    shiftSilent.Wants (ItemsAt shiftSilent (generateFirstTable .insertion shiftSilent) 1 [.terminal 0])
      (some 0) .shift ∧
    shiftSilent.Wants (ItemsAt shiftSilent (generateFirstTable .insertion shiftSilent) 1 [.terminal 0])
      (some 0) (.reduce 2 0) ∧ ¬ shiftSilent.IsLR1 := by
  obtain ⟨gen, hg, _⟩ := Except.ok_of_map (x := generateParser .insertion shiftSilent)
    (f := fun _ => ()) (r := ()) (by decide +kernel)
  have w1 : shiftSilent.Wants
      (ItemsAt shiftSilent (generateFirstTable .insertion shiftSilent) 1 [.terminal 0]) (some 0) .shift :=
    ⟨3, 0, [.terminal 0], 0, [], none, shiftSilent_items.2, ⟨_, _, rfl, rfl, rfl⟩, rfl⟩
  have w2 : shiftSilent.Wants
      (ItemsAt shiftSilent (generateFirstTable .insertion shiftSilent) 1 [.terminal 0]) (some 0)
      (.reduce 2 0) :=
    ⟨[.terminal 0], shiftSilent_items.1, ⟨_, _, rfl, rfl, rfl⟩, rfl⟩
  refine ⟨gen, hg, w1, w2, ?_⟩
  intro hl
  have hwf : shiftSilent.WF := Grammar.wf_of_check (by decide)
  have hv : ∀ x, ItemsAt shiftSilent (generateFirstTable .insertion shiftSilent) 1 [.terminal 0] x →
      shiftSilent.Valid 1 [.terminal 0] x :=
    fun x hx => hx.valid (generateFirstTable_sound _ _) hwf rfl
  cases hl 1 _ _ _ _ rfl (w1.mono hv) (w2.mono hv)

set_option maxRecDepth 10000 in
/-- The five outcomes. -/
example :
    (generateParser .insertion reduceReduce).toOption.isSome = false ∧
    (generateParser .insertion shiftSilent).toOption.isSome = true ∧
    (generateParser .insertion shiftLoud).toOption.isSome = false ∧
    (generateParser .insertion acceptSilent).toOption.isSome = true ∧
    (generateParser .insertion acceptLoud).toOption.isSome = false := by
  decide +kernel

/-- C23's hypotheses are met: `shiftLoud` is rejected with a conflict panic. -/
example : generateParser .insertion shiftLoud = .error (.reduceOverShift 4 (some 0) 6 3 0) ∧
    shiftLoud.WF := by
  refine ⟨?_, Grammar.wf_of_check (by decide)⟩
  have : (match generateParser .insertion shiftLoud with
    | .error f => some f
    | .ok _ => none) = some (.reduceOverShift 4 (some 0) 6 3 0) := by decide +kernel
  split at this
  · next f hf => cases this; exact hf
  · cases this

end Examples

/-! ## C39 The macro's panics -/

/-- **C39.** Whenever the macro panics, the cause named by its message is present: a duplicate or missing
declaration, an undefined symbol, an unsupported construct, an exceeded size, or a conflict of two moves
justified by derivations. -/
theorem c39_panics {h : HashOrder} {mkPath : String → X} {items : List (GrammarItem X Ty)}
    (hsz : loweredCount (itemNonTerminals items) ≤ 4294967296) {f : Fault}
    (he : parserMacro h mkPath items = .error f) : Cause h mkPath items f := by
  unfold parserMacro at he
  rcases Except.bind_eq_error.1 he with he | ⟨⟨nts, t⟩, h1, he⟩
  · unfold macroItems at he
    rcases Except.bind_eq_error.1 he with he | ⟨s, h1, he⟩
    · rcases macroFold_error he with ⟨rfl, h2⟩ | ⟨rfl, h2⟩
      · exact .states (by simpa using h2)
      · exact .enums (by simpa using h2)
    · obtain ⟨_, h2, _⟩ := (macroFold_iff _ _ _).1 h1
      split at he
      · next hn =>
        cases he
        rw [hn] at h2
        exact .noEnum (by simpa using h2.symm)
      · cases he
  · obtain ⟨rfl, ht, _⟩ := (macroItems_iff _ _ _).1 h1
    rcases Except.bind_eq_error.1 he with he | ⟨g, h2, he⟩
    · exact .defs ht (lower_error (by rw [← loweredCount_eq]; exact hsz) he)
    · rcases Except.bind_eq_error.1 he with he | ⟨_, _, he⟩
      · obtain ⟨nts, ts, hl⟩ := lower_ok (by rw [← loweredCount_eq]; exact hsz) h2
        have hwf := hl.wf
        obtain ⟨a, ha, hc⟩ := generateParser_error hwf he
        rcases hc with (⟨rfl, h3⟩ | ⟨rfl, h3⟩) | ⟨q, st, _, hst, _⟩
        · refine .size ht h2 ha ?_
          have := (listing_aux g.nonTerminals 0).1
          rcases h3 with h3 | h3
          · exact .inl (by rw [← this] at h3; exact h3)
          · exact .inr h3
        · exact .size ht h2 ha h3
        · rcases generateParser_conflict hwf he with rfl | rfl | hc
          · obtain ⟨it, _, it', _, _, _, h5⟩ := hst
            rcases h5 with ⟨_, h5, _⟩ | ⟨h5, _⟩ | ⟨h5, _⟩ <;> cases h5
          · obtain ⟨it, _, it', _, _, _, h5⟩ := hst
            rcases h5 with ⟨_, h5, _⟩ | ⟨h5, _⟩ | ⟨h5, _⟩ <;> cases h5
          · exact .conflict ht h2 hc
      · cases he

/-- **C39, C16.** Internal errors do not occur: no index out of bounds, no failed assertion or unwrap, no
overriding of a shift or an accept by a shift, and no loop of the macro runs on for ever. -/
theorem c39_no_internal {h : HashOrder} {mkPath : String → X} {items : List (GrammarItem X Ty)}
    (hsz : loweredCount (itemNonTerminals items) ≤ 4294967296) {f : Fault}
    (he : parserMacro h mkPath items = .error f) :
    f ≠ .indexOutOfBounds ∧ f ≠ .assertFailed ∧ f ≠ .unwrapNone ∧
      (∀ q t r r', f ≠ .shiftOverShift q t r r') ∧ (∀ q t r, f ≠ .shiftOverAccept q t r) ∧
      f ≠ .outOfFuel ∧ f ≠ .unreachable ∧ f ≠ .stuck ∧ f ≠ .userPanic := by
  have hc := c39_panics hsz he
  cases hc with
  | states => simp
  | enums => simp
  | noEnum => simp
  | defs _ hc => refine ⟨?_, ?_, ?_, ?_, ?_, ?_, ?_, ?_, ?_⟩ <;> (try intros) <;> rintro rfl <;> exact hc
  | size _ _ _ hc =>
    refine ⟨?_, ?_, ?_, ?_, ?_, ?_, ?_, ?_, ?_⟩ <;> (try intros) <;> rintro rfl <;> exact hc
  | conflict _ _ hc =>
    cases hc with
    | @mk _ _ _ _ _ _ m => cases m <;> simp [Move.fault]

set_option maxRecDepth 10000 in
/-- A macro call that is rejected because of an undefined non-terminal. -/
example : ∃ f, parserMacro .insertion (Examples.code (W := Unit)).mkPath
      (Examples.itemsOf [⟨true, "S", "()", [⟨[.nonTerminal "T"], .infallible fun _ _ => none⟩]⟩]) =
        .error f ∧
    loweredCount (itemNonTerminals (Examples.itemsOf (W := Unit)
      [⟨true, "S", "()", [⟨[.nonTerminal "T"], .infallible fun _ _ => none⟩]⟩])) ≤ 4294967296 := by
  refine ⟨.undefinedNonTerminal "T", ?_, by decide⟩
  rfl

end Parsegen
