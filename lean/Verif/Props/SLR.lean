import Verif.Proofs.SLRTable
import Verif.Spec.Simulate
import Verif.Props.Conflicts

/-! # C71 The SLR(1) table (lr0.rs) -/

namespace Parsegen

variable {A Ty : Type} {g : Grammar A Ty}

/-! ## The table exists -/

/-- **C71.** The table of an SLR(1) grammar is built without a conflict. -/
theorem c71_accepts (hwf : g.WF) (h0 : g.isPublic 0 = true) (hl : g.IsSLR1) (h : HashOrder) :
    ∃ T, slrTable h g = .ok T := by
  have hi := (lr0Run_spec hwf h0 h).2
  refine (slrTable_rows hwf h0 h).1 fun st hst => ?_
  obtain ⟨q, hq⟩ := List.mem_iff_getElem?.1 hst
  obtain ⟨γ, hγ⟩ := hi.at_ q st hq
  exact opsFine_of_slr1 hwf h0 hl hγ (hi.sorted q st hq).nodup

/-- **C71.** Table construction never panics for another reason than a conflict, and if it does, the grammar
is not SLR(1). -/
theorem c71_rejects (hwf : g.WF) (h0 : g.isPublic 0 = true) {h : HashOrder} {f : Fault}
    (he : slrTable h g = .error f) : f.IsConflict ∧ ¬ g.IsSLR1 := by
  refine ⟨slrTable_error hwf h0 he, fun hl => ?_⟩
  obtain ⟨T, hT⟩ := c71_accepts hwf h0 hl h
  rw [he] at hT; cases hT

/-- What is valid with a lookahead is valid without it, and the lookahead may follow. -/
theorem Grammar.Context.expects {δ z : List Symbol} {B : Nat} (h : g.Context 0 δ B z) :
    g.Expects δ B ∧ g.Derives [.nonTerminal 0] (δ ++ .nonTerminal B :: z) := by
  induction h with
  | root => exact ⟨.root, .refl _⟩
  | @child δ B z p α C β _ _ hp ih =>
    refine ⟨.child ih.1 hp, ih.2.tail ?_⟩
    have := Grammar.Produces.mk δ z _ B p hp
    simpa using this

theorem Grammar.Valid.valid0 {γ : List Symbol} {it : Item} (h : g.Valid 0 γ it) :
    g.Valid0 γ it.nt it.prod it.cursor ∧ g.MayFollow it.nt it.la := by
  obtain ⟨δ, z, α, β, h1, h2, h3, h4, h5⟩ := h
  refine ⟨⟨δ, α, β, h1.expects.1, h2, h3, h4⟩, 0, fun _ => rfl, ?_⟩
  have hd := h1.expects.2
  cases hla : it.la with
  | none =>
    rw [hla] at h5
    refine ⟨δ, hd.trans ?_⟩
    have := (show g.Derives z [] from h5).append_left (δ ++ [.nonTerminal it.nt])
    simpa using this
  | some t =>
    rw [hla] at h5
    obtain ⟨x, hx⟩ := h5
    refine ⟨δ, x, hd.trans ?_⟩
    have := hx.append_left (δ ++ [.nonTerminal it.nt])
    simpa using this

/-- **C71.** An SLR(1) grammar whose only entry point is non-terminal 0 is LR(1). -/
theorem c71_lr1 (hl : g.IsSLR1) (hwf : g.WF) (h0 : g.isPublic 0 = true)
    (hpub : ∀ E, g.isPublic E = true → E = 0) : g.IsLR1 := by
  intro E γ c m m' hE hm hm'
  obtain rfl := hpub E hE
  have key : ∀ m, g.Wants (g.Valid 0 γ) c m → g.SLRMove γ c m := by
    intro m hm
    cases m with
    | shift =>
      obtain ⟨nt, p, α, t, β, la, hv, hp, hc⟩ := hm
      exact ⟨nt, p, α, t, β, hv.valid0.1, hp, hc⟩
    | reduce nt p =>
      obtain ⟨α, hv, hp, hpr⟩ := hm
      refine ⟨α, hv.valid0.1, hp, ?_, hv.valid0.2⟩
      rintro rfl
      rw [h0] at hpr; cases hpr
    | accept =>
      obtain ⟨nt, p, α, hv, hp, hpb, hc⟩ := hm
      obtain rfl := hpub nt hpb
      obtain ⟨h1, b, hb⟩ := hwf.pub h0
      obtain rfl : p = 0 := by have := hp.lt; omega
      have hα := hp.rhs_eq.symm.trans hb.rhs_eq
      refine ⟨?_, hc⟩
      have := hv.valid0.1
      rw [hα] at this
      exact this
  exact hl γ c m m' (key m hm) (key m' hm')

/-- **C71.** So such a grammar is also accepted by the generator in use, unless a number is too large for
its types. -/
theorem c71_generator [DecidableEq Ty] (hl : g.IsSLR1) (hwf : g.WF) (h0 : g.isPublic 0 = true)
    (hpub : ∀ E, g.isPublic E = true → E = 0) (h : HashOrder) :
    (∃ gen, generateParser h g = .ok gen) ∨ generateParser h g = .error .u16Overflow ∨
      generateParser h g = .error .u32Overflow :=
  c23_lr1_accepted hwf (c71_lr1 hl hwf h0 hpub)

/-! ## Runs -/

/-- The stack holds the states passed while reading `γ`. -/
inductive Stk0 (states : List LR1State) : List Symbol → List Nat → Prop
  | nil : Stk0 states [] [0]
  | snoc {γ q s st X r} (h : Stk0 states γ (q :: s)) (hq : states[q]? = some st)
      (hr : st.goto.get? X = some r) : Stk0 states (γ ++ [X]) (r :: q :: s)

theorem Stk0.shape {states : List LR1State} {γ : List Symbol} {s : List Nat} (h : Stk0 states γ s) :
    ∃ q s', s = q :: s' ∧ Path0 states γ q := by
  induction h with
  | nil => exact ⟨0, [], rfl, .nil⟩
  | @snoc γ q s st X r _ hq hr ih =>
    obtain ⟨q', s', he, hp⟩ := ih
    cases he
    exact ⟨r, q :: s, rfl, .snoc hp hq hr⟩

theorem Stk0.drop {states : List LR1State} {δ : List Symbol} : ∀ {α : List Symbol} {s : List Nat},
    Stk0 states (δ ++ α) s → Stk0 states δ (s.drop α.length) := by
  intro α
  induction α using List.reverseRecOn with
  | nil => intro s h; simpa using h
  | append_singleton α X ih =>
    intro s h
    generalize hγ : δ ++ (α ++ [X]) = γ at h
    cases h with
    | nil => simp at hγ
    | @snoc γ q s st Y r h hq hr =>
      rw [← List.append_assoc] at hγ
      obtain ⟨rfl, _⟩ := List.append_inj' hγ rfl
      have := ih h
      simpa using this

/-- What a run has done so far. -/
def SlrInv (h : HashOrder) (g : Grammar A Ty) (input : Nat → Option Nat) (s : SimState) : Prop :=
  ∃ (γ : List Symbol) (toks : List Nat), Stk0 (lr0Automaton h g) γ s.stack ∧
    g.Derives γ (toks.map .terminal) ∧ s.calls = toks.length + 1 ∧
    (∀ i, i < toks.length → input i = toks[i]?) ∧ s.a = input toks.length

section
variable {h : HashOrder} {T : LRTable A} {input : Nat → Option Nat}

theorem slr_production {b p : Nat} {α : List Symbol} {pr : Production A} (hp : g.HasProd b p α)
    (hpr : g.getProduction? b p = some pr) : pr.symbols.length = α.length := by
  obtain ⟨n, pr', h1, h2, rfl⟩ := hp
  unfold Grammar.getProduction? at hpr
  rw [h1] at hpr
  simp only [Option.bind_some] at hpr
  rw [h2] at hpr
  cases hpr
  simp

theorem SlrInv.step (hwf : g.WF) (h0 : g.isPublic 0 = true) (hT : slrTable h g = .ok T) {s : SimState}
    (hi : SlrInv h g input s) :
    match simStep T g input s with
    | .next s' => SlrInv h g input s'
    | .done e s' => s' = s ∧ (e = .stuck ∨ e = .done ∧
        ∃ toks : List Nat, g.Derives [.nonTerminal 0] (toks.map .terminal) ∧ s.calls = toks.length + 1 ∧
          ∀ i, i < s.calls → input i = toks[i]?) := by
  obtain ⟨γ, toks, hs, hd, hc, hin, ha⟩ := hi
  obtain ⟨q, s', hq, hp⟩ := hs.shape
  unfold simStep
  rw [hq]
  simp only
  cases hact : T.getAction q s.a with
  | none => exact ⟨rfl, .inl rfl⟩
  | some act =>
    cases act with
    | shift n =>
      obtain ⟨t, hat, st, hst, hg⟩ := slr_shift hwf h0 hT hp hact
      refine ⟨γ ++ [.terminal t], toks ++ [t], .snoc (hq ▸ hs) hst hg, ?_, by simp [hc], ?_, by simp [hc]⟩
      · have := hd.append_right [.terminal t]
        simpa using this
      · intro i hi
        simp only [List.length_append, List.length_singleton] at hi
        by_cases he : i = toks.length
        · subst he; rw [← ha, hat]; simp
        · rw [hin i (by omega), List.getElem?_append_left (by omega)]
    | reduce b p a =>
      obtain ⟨hb, _, ⟨δ, α, rfl, hpr, hex⟩, pr, hpr', _⟩ := slr_reduce hwf h0 hT hp hact
      simp only [hpr', slr_production hpr hpr']
      have hs2 := hs.drop
      rw [hq] at hs2
      obtain ⟨q2, s2, hq2, hp2⟩ := hs2.shape
      rw [hq2] at hs2 ⊢
      obtain ⟨r, hr, st, hst, hg⟩ := slr_goto hwf h0 hT hp2 hb hex
      simp only [hr]
      refine ⟨δ ++ [.nonTerminal b], toks, .snoc hs2 hst hg, ?_, hc, hin, ha⟩
      have := Grammar.Produces.mk δ [] α b p hpr
      exact Grammar.Derives.head (by simpa using this) hd
    | accept =>
      obtain ⟨hat, b, rfl, hb⟩ := slr_accept hwf h0 hT hp hact
      refine ⟨rfl, .inr ⟨rfl, toks, ?_, hc, ?_⟩⟩
      · have := Grammar.Produces.mk [] [] _ 0 0 hb
        exact Grammar.Derives.head (by simpa using this) hd
      · intro i hi
        by_cases he : i = toks.length
        · subst he; rw [← ha, hat]; simp
        · exact hin i (by omega)

theorem SlrInv.loop (hwf : g.WF) (h0 : g.isPublic 0 = true) (hT : slrTable h g = .ok T) :
    ∀ (fuel : Nat) (s : SimState), SlrInv h g input s → ∀ e s', simLoop T g input fuel s = some (e, s') →
      SlrInv h g input s' ∧ (e = .stuck ∨ e = .done ∧
        ∃ toks : List Nat, g.Derives [.nonTerminal 0] (toks.map .terminal) ∧ s'.calls = toks.length + 1 ∧
          ∀ i, i < s'.calls → input i = toks[i]?)
  | 0, s, _, e, s', he => by simp [simLoop] at he
  | fuel + 1, s, hi, e, s', he => by
    have := hi.step hwf h0 hT
    rw [simLoop] at he
    cases hst : simStep T g input s with
    | next s1 =>
      rw [hst] at he this
      exact SlrInv.loop hwf h0 hT fuel s1 this e s' he
    | done e1 s1 =>
      rw [hst] at he this
      cases he
      obtain ⟨rfl, h2⟩ := this
      exact ⟨hi, h2⟩

theorem SlrInv.init (h : HashOrder) (g : Grammar A Ty) (input : Nat → Option Nat) :
    SlrInv h g input ⟨[0], input 0, 1⟩ :=
  ⟨[], [], .nil, .refl _, rfl, by simp, rfl⟩

/-- **C71.** Whenever a table is built, the parser accepts only sentences of non-terminal 0, having taken
all their tokens and the end of the input. -/
theorem c71_sound (hwf : g.WF) (h0 : g.isPublic 0 = true) (hT : slrTable h g = .ok T) {n : Nat}
    (hs : Simulates T g input .done n) :
    ∃ toks : List Nat, (∀ i, i < n → input i = toks[i]?) ∧ n = toks.length + 1 ∧ g.Sentence 0 toks := by
  obtain ⟨fuel, s, hs, rfl⟩ := hs
  obtain ⟨_, h1 | ⟨_, toks, h1, h2, h3⟩⟩ := SlrInv.loop hwf h0 hT fuel _ (SlrInv.init h g input) _ _ hs
  · cases h1
  · exact ⟨toks, h3, h2, h1⟩

/-- **C71.** The parser never panics in the middle of a run: it ends by accepting or because there is no
action for the token. -/
theorem c71_no_panic (hwf : g.WF) (h0 : g.isPublic 0 = true) (hT : slrTable h g = .ok T) {e : SimEnd} {n : Nat}
    (hs : Simulates T g input e n) : e = .done ∨ e = .stuck := by
  obtain ⟨fuel, s, hs, rfl⟩ := hs
  rcases (SlrInv.loop hwf h0 hT fuel _ (SlrInv.init h g input) _ _ hs).2 with h1 | ⟨h1, _⟩
  · exact .inr h1
  · exact .inl h1

/-- **C71.** Wherever the parser stops, the tokens taken before the lookahead begin a sentential form of
non-terminal 0. -/
theorem c71_prefix (hwf : g.WF) (h0 : g.isPublic 0 = true) (hT : slrTable h g = .ok T) {e : SimEnd} {n : Nat}
    (hs : Simulates T g input e n) :
    ∃ toks : List Nat, n = toks.length + 1 ∧ (∀ i, i < toks.length → input i = toks[i]?) ∧
      ∃ z, g.Derives [.nonTerminal 0] (toks.map .terminal ++ z) := by
  obtain ⟨fuel, s, hs, rfl⟩ := hs
  obtain ⟨⟨γ, toks, h1, h2, h3, h4, _⟩, _⟩ :=
    SlrInv.loop hwf h0 hT fuel _ (SlrInv.init h g input) _ _ hs
  obtain ⟨q, s', _, hp⟩ := h1.shape
  obtain ⟨z, hz⟩ := c70_prefix hwf h0 h hp
  exact ⟨toks, h3, h4, z, hz.trans (h2.append_right z)⟩

/-! ## Completeness -/

theorem ItemsAt.at0 (hwf : g.WF) (h0 : g.isPublic 0 = true) {γ : List Symbol} {it : Item}
    (hi : ItemsAt g (generateFirstTable h g) 0 γ it) :
    At0 g γ ⟨it.nt, it.prod, it.cursor, none⟩ ∧ (slrFollow h g).Has it.nt it.la := by
  obtain ⟨_, hend, hcond⟩ := followTable_spec hwf (generateFirstTable_ok hwf h) h (pub_lt hwf h0)
    (fun _ _ => True) trivial (fun _ _ _ _ _ => trivial)
  induction hi with
  | entry => exact ⟨.entry, hend⟩
  | @advance γ nt p α s β la _ hp ih =>
    exact ⟨.advance ih.1 (Item.nextSymbol_iff.2 ⟨α, β, hp, rfl⟩), ih.2⟩
  | @pred γ nt p α b β la q δ c _ hp hq hf ih =>
    refine ⟨.pred ih.1 (Item.nextSymbol_iff.2 ⟨α, β, hp, rfl⟩) hq.lt, ?_⟩
    have hc := hcond nt p α b β hp
    have key : ∀ {β c}, InFirst (generateFirstTable h g) la β c →
        (∃ t, c = some t ∧ BeginsTbl (generateFirstTable h g) β t) ∨
        (AllFlagged (generateFirstTable h g) β ∧ c = la) := by
      intro β c hf
      induction hf with
      | nil => exact .inr ⟨fun _ hs => by simp at hs, rfl⟩
      | term t ss => exact .inl ⟨t, rfl, [], _, ss, rfl, fun _ hs => by simp at hs, .inl rfl⟩
      | @nt b t ss hm => exact .inl ⟨t, rfl, [], _, ss, rfl, fun _ hs => by simp at hs, .inr ⟨b, rfl, hm⟩⟩
      | @skip b ss c he _ ih =>
        have fl : ∀ u, AllFlagged (generateFirstTable h g) u →
            AllFlagged (generateFirstTable h g) (.nonTerminal b :: u) := by
          intro u hu s hs
          rcases List.mem_cons.1 hs with rfl | hs
          · exact ⟨b, rfl, he⟩
          · exact hu s hs
        rcases ih with ⟨t, rfl, u1, s, u2, rfl, h2, h3⟩ | ⟨h1, rfl⟩
        · exact .inl ⟨t, rfl, .nonTerminal b :: u1, s, u2, rfl, fl u1 h2, h3⟩
        · exact .inr ⟨fl ss h1, rfl⟩
    rcases key hf with ⟨t, rfl, hb⟩ | ⟨hfl, rfl⟩
    · exact hc.1 t hb
    · exact hc.2 hfl _ ih.2

/-- The parser is where the abstract one is. -/
def SlrRel (h : HashOrder) (g : Grammar A Ty) (toks : List Nat) (c : Cfg Nat Unit Unit) (s : SimState) :
    Prop :=
  Stk0 (lr0Automaton h g) c.stk s.stack ∧ ∃ k, s.calls = k + 1 ∧ c.rest = toks.drop k ∧ s.a = toks[k]?

theorem SlrRel.step (hwf : g.WF) (h0 : g.isPublic 0 = true) (hl : g.IsSLR1) (hT : slrTable h g = .ok T)
    {toks : List Nat} (hin : ∀ i, input i = toks[i]?) {c d : Cfg Nat Unit Unit} {s : SimState}
    (hr : SlrRel h g toks c s)
    (ha : AStep g (generateFirstTable h g) 0 (fun t => t) Alg.unit c d) :
    ∃ s', simStep T g input s = .next s' ∧ SlrRel h g toks d s' := by
  obtain ⟨hs, k, hk, hrest, hsa⟩ := hr
  obtain ⟨q, s', hq, hp⟩ := hs.shape
  cases ha with
  | @shift γ vs w t rest nt p α β la hit hpr =>
    simp only at hs hrest hp
    have hat := (hit.at0 hwf h0).1
    have htk : toks[k]? = some t := by
      have := congrArg List.head? hrest
      simpa [List.head?_drop] using this.symm
    obtain ⟨n, hn⟩ := (slr_full hwf h0 hl hT hp hat).1 t (Item.nextSymbol_iff.2 ⟨α, β, hpr, rfl⟩)
    obtain ⟨t', ht', st, hst, hg⟩ := slr_shift hwf h0 hT hp hn
    cases ht'
    refine ⟨⟨n :: q :: s', input s.calls, s.calls + 1⟩, ?_, .snoc (hq ▸ hs) hst hg, k + 1, ?_, ?_, ?_⟩
    · unfold simStep
      rw [hq]
      simp only [hsa, htk, hn]
    · simp [hk]
    · have := congrArg List.tail hrest
      simpa using this
    · simp [hk, hin]
  | @reduce γ α b p vs us w v w' rest hit hpr hpriv hlen hn =>
    simp only at hs hrest hp
    obtain ⟨hat, hfol⟩ := hit.at0 hwf h0
    simp only at hat hfol
    have hb : b ≠ 0 := by rintro rfl; rw [h0] at hpriv; cases hpriv
    have hnone : (⟨b, p, α.length, none⟩ : Item).nextSymbol g = none := by
      unfold Item.nextSymbol
      simp only [hpr.rhs_eq]
      simp
    have hlook : look (fun t : Nat => t) rest = s.a := by
      rw [hsa, look, hrest, List.head?_drop]
      simp
    obtain ⟨a, hact⟩ := (slr_full hwf h0 hl hT hp hat).2.1 hnone hb _ hfol
    rw [hlook] at hact
    obtain ⟨_, _, ⟨δ, α', he, hpr2, hex⟩, pr, hpr', _⟩ := slr_reduce hwf h0 hT hp hact
    obtain rfl := hpr2.rhs_eq.symm.trans hpr.rhs_eq
    obtain ⟨rfl, _⟩ := List.append_inj' he rfl
    have hs2 := hs.drop
    obtain ⟨q2, s2, hq2, hp2⟩ := hs2.shape
    rw [hq2] at hs2
    obtain ⟨r, hgo, st, hst, hg⟩ := slr_goto hwf h0 hT hp2 hb hex
    refine ⟨{ s with stack := r :: q2 :: s2 }, ?_, .snoc hs2 hst hg, k, hk, hrest, hsa⟩
    unfold simStep
    rw [hq] at hq2 ⊢
    simp only [hact, hpr', slr_production hpr hpr', hq2, hgo]

theorem SlrRel.steps (hwf : g.WF) (h0 : g.isPublic 0 = true) (hl : g.IsSLR1) (hT : slrTable h g = .ok T)
    {toks : List Nat} (hin : ∀ i, input i = toks[i]?) {c d : Cfg Nat Unit Unit}
    (ha : ASteps g (generateFirstTable h g) 0 (fun t => t) Alg.unit c d) :
    ∀ {s : SimState}, SlrRel h g toks c s →
    ∃ k s', SlrRel h g toks d s' ∧ ∀ fuel, simLoop T g input (fuel + k) s = simLoop T g input fuel s' := by
  induction ha with
  | refl c => intro s hr; exact ⟨0, s, hr, fun _ => rfl⟩
  | head st _ ih =>
    intro s hr
    obtain ⟨s1, h1, h2⟩ := hr.step hwf h0 hl hT hin st
    obtain ⟨k, s', h3, h4⟩ := ih h2
    refine ⟨k + 1, s', h3, fun fuel => ?_⟩
    rw [← Nat.add_assoc, simLoop, h1]
    exact h4 fuel

theorem Grammar.Sentence.yields {nt : Nat} {toks : List Nat} (hs : g.Sentence nt toks) :
    g.Yields (fun t => t) [.nonTerminal nt] toks := by
  have key : ∀ {u v : List Symbol}, g.Derives u v → g.Yields (fun t => t) v toks →
      g.Yields (fun t => t) u toks := by
    intro u v hd
    induction hd with
    | refl => exact fun h => h
    | tail _ s ih => exact fun h => ih (h.of_produces s)
  exact key hs (Grammar.yields_terminals toks)

/-- **C71.** If the grammar is SLR(1) and its FIRST sets are computed completely, the parser accepts exactly
the sentences of non-terminal 0. -/
theorem c71_complete (hwf : g.WF) (h0 : g.isPublic 0 = true) (hl : g.IsSLR1)
    (hF : FirstComplete g (generateFirstTable h g)) (hT : slrTable h g = .ok T) {toks : List Nat}
    (hin : ∀ i, input i = toks[i]?) :
    (∃ n, Simulates T g input .done n) ↔ g.Sentence 0 toks := by
  constructor
  · rintro ⟨n, hs⟩
    obtain ⟨toks', h1, h2, h3⟩ := c71_sound hwf h0 hT hs
    have : toks = toks' := by
      have hlen : toks.length = toks'.length := by
        have a1 := h1 toks'.length (by omega)
        rw [hin] at a1
        have a2 : toks.length ≤ toks'.length := by simpa using a1
        by_contra hne
        have a3 := h1 toks.length (by omega)
        rw [hin] at a3
        have : toks'.length ≤ toks.length := by simpa using a3.symm
        omega
      refine List.ext_getElem? fun i => ?_
      by_cases hi : i < n
      · rw [← hin]; exact h1 i hi
      · rw [List.getElem?_eq_none (by omega), List.getElem?_eq_none (by omega)]
    exact this ▸ h3
  · intro hs
    obtain ⟨h1, b, hb⟩ := hwf.pub h0
    have hy : ∃ v, Eval g (fun t : Nat => t) Alg.unit [.nonTerminal b] toks () [v] () := by
      obtain ⟨vs, hv⟩ := hs.yields
      generalize hss : [Symbol.nonTerminal 0] = ss at hv
      cases hv with
      | nil => cases hss
      | term => cases hss
      | @nt b' p α t1 t2 w us w1 v w2 ss vs w3 hp hc ha ht =>
        cases hss
        obtain rfl : p = 0 := by have := hp.lt; omega
        obtain rfl := hp.rhs_eq.symm.trans hb.rhs_eq
        generalize hss2 : ([] : List Symbol) = ss at ht
        cases ht with
        | nil =>
          have hlen := hc.length_eq
          match us, hlen with
          | [u], _ => exact ⟨u, by simpa using hc⟩
        | term => cases hss2
        | nt => cases hss2
    obtain ⟨v, hv⟩ := hy
    have ha := complete_entry (e := 0) (hF.enough hwf) hwf hb hv
    obtain ⟨k, s', ⟨hst, j, hj, hrest, hsa⟩, hrun⟩ := SlrRel.steps hwf h0 hl hT hin ha
      (s := ⟨[0], input 0, 1⟩) ⟨.nil, 0, rfl, by simp, by simp [hin]⟩
    obtain ⟨q, s2, hq, hp⟩ := hst.shape
    have hat : At0 g [.nonTerminal b] ⟨0, 0, 1, none⟩ :=
      .advance (γ := []) .entry (Item.nextSymbol_iff.2 ⟨[], [], hb, rfl⟩)
    have hacc := (slr_full hwf h0 hl hT hp hat).2.2 rfl
    have ha0 : s'.a = none := by
      rw [hsa]
      have := congrArg List.head? hrest
      simpa [List.head?_drop] using this.symm
    refine ⟨s'.calls, 1 + k, s', ?_, rfl⟩
    unfold simulate
    rw [hrun 1, simLoop]
    unfold simStep
    rw [hq]
    simp only [ha0, hacc]

end

end Parsegen
