import Verif.Proofs.Machine
import Verif.Proofs.Wants

/-! # An abstract LR(1) machine over item sets: determinism and completeness -/

namespace Parsegen

variable {A Ty Tok Val W : Type} {g : Grammar A Ty} {F : FirstTable} {e : Nat} {ti : Tok → Nat}
  {alg : Alg Tok Val W}

/-- A configuration: symbols and values on the stack (top last), the world, the rest of the input. -/
structure Cfg (Tok Val W : Type) where
  stk : List Symbol
  vals : List Val
  world : W
  rest : List Tok

/-- The lookahead. -/
def look (ti : Tok → Nat) (rest : List Tok) : Option Nat := rest.head?.map ti

/-- One step. -/
inductive AStep (g : Grammar A Ty) (F : FirstTable) (e : Nat) (ti : Tok → Nat)
    (alg : Alg Tok Val W) : Cfg Tok Val W → Cfg Tok Val W → Prop
  | shift {γ vs w t rest nt p α β la} (hit : ItemsAt g F e γ ⟨nt, p, α.length, la⟩)
      (hp : g.HasProd nt p (α ++ .terminal (ti t) :: β)) :
      AStep g F e ti alg ⟨γ, vs, w, t :: rest⟩
        ⟨γ ++ [.terminal (ti t)], vs ++ [alg.leaf t], w, rest⟩
  | reduce {γ α b p vs us w v w' rest}
      (hit : ItemsAt g F e (γ ++ α) ⟨b, p, α.length, look ti rest⟩) (hp : g.HasProd b p α)
      (hpriv : g.isPublic b = false) (hlen : us.length = α.length)
      (hn : alg.node b p us w = some (v, w')) :
      AStep g F e ti alg ⟨γ ++ α, vs ++ us, w, rest⟩ ⟨γ ++ [.nonTerminal b], vs ++ [v], w', rest⟩

/-- Many steps. -/
inductive ASteps (g : Grammar A Ty) (F : FirstTable) (e : Nat) (ti : Tok → Nat)
    (alg : Alg Tok Val W) : Cfg Tok Val W → Cfg Tok Val W → Prop
  | refl (c) : ASteps g F e ti alg c c
  | head {c d f} (s : AStep g F e ti alg c d) (h : ASteps g F e ti alg d f) :
      ASteps g F e ti alg c f

theorem ASteps.trans {c d f : Cfg Tok Val W} (h1 : ASteps g F e ti alg c d)
    (h2 : ASteps g F e ti alg d f) : ASteps g F e ti alg c f := by
  induction h1 with
  | refl => exact h2
  | head s _ ih => exact .head s (ih h2)

/-- No two different moves are justified by the items. -/
def NoConflict (g : Grammar A Ty) (F : FirstTable) (e : Nat) : Prop :=
  ∀ γ c m m', g.Wants (ItemsAt g F e γ) c m → g.Wants (ItemsAt g F e γ) c m' → m = m'

theorem Grammar.IsLR1.noConflict (h : g.IsLR1) (hF : FirstSound g F) (hwf : g.WF)
    (he : g.isPublic e = true) : NoConflict g F e := fun γ c m m' h1 h2 =>
  h e γ c m m' he (h1.mono fun _ => ItemsAt.valid hF hwf he)
    (h2.mono fun _ => ItemsAt.valid hF hwf he)

/-- What a step does. -/
theorem AStep.wants {c d : Cfg Tok Val W} (h : AStep g F e ti alg c d) :
    (∃ t rest, c.rest = t :: rest ∧ g.Wants (ItemsAt g F e c.stk) (look ti c.rest) .shift) ∨
    (∃ b p, g.Wants (ItemsAt g F e c.stk) (look ti c.rest) (.reduce b p)) := by
  cases h with
  | shift hit hp => exact Or.inl ⟨_, _, rfl, _, _, _, _, _, _, hit, hp, rfl⟩
  | reduce hit hp hpriv hlen hn => exact Or.inr ⟨_, _, _, hit, hp, hpriv⟩

/-- Without conflicts the machine is deterministic. -/
theorem AStep.det (hn : NoConflict g F e) {c d d' : Cfg Tok Val W} (h : AStep g F e ti alg c d)
    (h' : AStep g F e ti alg c d') : d = d' := by
  obtain ⟨stk, vals, world, rest⟩ := c
  generalize hc : (⟨stk, vals, world, rest⟩ : Cfg Tok Val W) = c at h h'
  cases h with
  | @shift γ vs w t rs nt p α β la hit hp =>
    generalize hc2 : (⟨γ, vs, w, t :: rs⟩ : Cfg Tok Val W) = c2 at h'
    cases h' with
    | shift hit' hp' => cases hc2; rfl
    | @reduce γ2 α2 b p2 vs2 us w2 v w' rest2 hit' hp' hpriv hlen hno =>
      obtain ⟨rfl, rfl, rfl, rfl⟩ := Cfg.mk.inj hc2
      have := hn _ (some (ti t)) .shift (.reduce b p2) ⟨_, _, _, _, _, _, hit, hp, rfl⟩
        ⟨_, hit', hp', hpriv⟩
      cases this
  | @reduce γ α b p vs us w v w' rs hit hp hpriv hlen hno =>
    generalize hc2 : (⟨γ ++ α, vs ++ us, w, rs⟩ : Cfg Tok Val W) = c2 at h'
    cases h' with
    | @shift γ2 vs2 w2 t rs2 nt p2 α2 β la hit' hp' =>
      obtain ⟨rfl, rfl, rfl, rfl⟩ := Cfg.mk.inj hc2
      have := hn _ (some (ti t)) .shift (.reduce b p) ⟨_, _, _, _, _, _, hit', hp', rfl⟩
        ⟨_, hit, hp, hpriv⟩
      cases this
    | @reduce γ2 α2 b2 p2 vs2 us2 w2 v2 w2' rest2 hit' hp' hpriv' hlen' hno' =>
      obtain ⟨h1, h2, rfl, rfl⟩ := Cfg.mk.inj hc2
      rw [← h1] at hit'
      have := hn _ _ (.reduce b p) (.reduce b2 p2) ⟨_, hit, hp, hpriv⟩ ⟨_, hit', hp', hpriv'⟩
      cases this
      have hα : α = α2 := hp.rhs_eq.symm.trans hp'.rhs_eq
      subst hα
      obtain ⟨rfl, _⟩ := List.append_inj' h1 rfl
      obtain ⟨rfl, rfl⟩ := List.append_inj' h2 (by rw [hlen, hlen'])
      rw [hno] at hno'; cases hno'; rfl

/-- Deterministic runs that cannot go on end in the same place. -/
theorem ASteps.unique (hn : NoConflict g F e) {c d d' : Cfg Tok Val W}
    (h : ASteps g F e ti alg c d) (h' : ASteps g F e ti alg c d')
    (hd : ∀ x, ¬ AStep g F e ti alg d x) (hd' : ∀ x, ¬ AStep g F e ti alg d' x) : d = d' := by
  induction h with
  | refl c =>
    cases h' with
    | refl => rfl
    | head s _ => exact absurd s (hd _)
  | head s _ ih =>
    cases h' with
    | refl => exact absurd s (hd' _)
    | head s' h' =>
      cases s.det hn s'
      exact ih h' hd

/-! ## Completeness -/

/-- A derivation of `t :: x` begins with a listed terminal. -/
theorem InFirst.of_eval (hF : FirstEnough g F) {la : Option Nat} {β : List Symbol}
    {rest : List Tok} (hβ : InFirst F la β (look ti rest)) {ss : List Symbol} {toks : List Tok}
    {w : W} {vs : List Val} {w' : W} (h : Eval g ti alg ss toks w vs w') (hss : g.BehindSyms ss) :
    InFirst F la (ss ++ β) (look ti (toks ++ rest)) := by
  induction h with
  | nil => exact hβ
  | @term t i ss ts w vs w' ht h ih => subst ht; exact .term _ _
  | @nt b p α t1 t2 w us w1 v w2 ss vs w3 hp hc ha h _ ih =>
    have hb := hss.head
    have hd := (Eval.single_nt hp hc ha).derives
    cases t1 with
    | nil => exact .skip (hF.empty b hb hd) (by simpa using ih (hss.tail hd))
    | cons t t1 =>
      exact .nt (hF.terminals b _ hb ⟨_, by simpa using hd⟩)

/-- The machine reads every derivation of what an item expects. -/
theorem complete_seq (hF : FirstEnough g F) (hwf : g.WF) {α : List Symbol} {toks : List Tok}
    {w : W} {vs : List Val} {w' : W} (h : Eval g ti alg α toks w vs w') :
    ∀ {γ : List Symbol} {vals : List Val} {rest : List Tok} {nt p : Nat} {α0 β : List Symbol}
      {la : Option Nat}, ItemsAt g F e γ ⟨nt, p, α0.length, la⟩ → g.HasProd nt p (α0 ++ α ++ β) →
      InFirst F la β (look ti rest) →
      ASteps g F e ti alg ⟨γ, vals, w, toks ++ rest⟩ ⟨γ ++ α, vals ++ vs, w', rest⟩ := by
  induction h with
  | nil w => intros; simpa using ASteps.refl _
  | @term t i ss ts w vs w' ht h ih =>
    intro γ vals rest nt p α0 β la hit hp hf
    subst ht
    have hp' : g.HasProd nt p (α0 ++ .terminal (ti t) :: (ss ++ β)) := by simpa using hp
    have hit' := ItemsAt.advance hit hp'
    have hl : α0.length + 1 = (α0 ++ [Symbol.terminal (ti t)]).length := by simp
    rw [hl] at hit'
    have := ih (vals := vals ++ [alg.leaf t]) (rest := rest) (β := β) hit' (by simpa using hp) hf
    refine ASteps.head (AStep.shift hit hp') ?_
    simpa using this
  | @nt b p α t1 t2 w us w1 v w2 ss vs w3 hp hc ha h ih1 ih2 =>
    intro γ vals rest nt q α0 β la hit hq hf
    have hq' : g.HasProd nt q (α0 ++ .nonTerminal b :: (ss ++ β)) := by simpa using hq
    have hpriv := hwf.privSyms hq'
    have hss : g.BehindSyms ss := hq'.behindSyms.left
    have hb := hpriv b (by simp)
    have hpred := ItemsAt.pred hit hq' hp (InFirst.of_eval hF hf h hss)
    have s1 := ih1 (vals := vals) (rest := t2 ++ rest) (α0 := []) (β := []) hpred (by simpa using hp) .nil
    have hall := ItemsAt.advance_all α [] [] (δ := γ) (by simpa using hpred) (by simpa using hp)
    have s2 : AStep g F e ti alg ⟨γ ++ α, vals ++ us, w1, t2 ++ rest⟩
        ⟨γ ++ [.nonTerminal b], vals ++ [v], w2, t2 ++ rest⟩ :=
      .reduce (by simpa using hall) hp hb.2 hc.length_eq ha
    have hit' := ItemsAt.advance hit hq'
    have hl : α0.length + 1 = (α0 ++ [Symbol.nonTerminal b]).length := by simp
    rw [hl] at hit'
    have s3 := ih2 (vals := vals ++ [v]) (rest := rest) (β := β) hit' (by simpa using hq) hf
    have := s1.trans (.head s2 s3)
    simpa using this

/-- The machine reads every sentence of the entry point. -/
theorem complete_entry (hF : FirstEnough g F) (hwf : g.WF) {b : Nat}
    (hb : g.HasProd e 0 [.nonTerminal b]) {toks : List Tok} {w : W} {v : Val} {w' : W}
    (h : Eval g ti alg [.nonTerminal b] toks w [v] w') :
    ASteps g F e ti alg ⟨[], [], w, toks⟩ ⟨[.nonTerminal b], [v], w', []⟩ := by
  have := complete_seq (e := e) hF hwf h (γ := []) (vals := []) (rest := []) (α0 := []) (β := [])
    (p := 0) (nt := e) (la := none) .entry (by simpa using hb) .nil
  simpa using this

/-- The final configuration. -/
theorem final_stuck (hn : NoConflict g F e) {b : Nat} (he : g.isPublic e = true)
    (hb : g.HasProd e 0 [.nonTerminal b]) {v : Val} {w' : W} (x : Cfg Tok Val W) :
    ¬ AStep g F e ti alg ⟨[.nonTerminal b], [v], w', []⟩ x := by
  intro h
  rcases h.wants with ⟨t, rest, h1, _⟩ | ⟨b', p, h1⟩
  · cases h1
  · have hit : ItemsAt g F e ([] ++ [.nonTerminal b]) ⟨e, 0, [Symbol.nonTerminal b].length, none⟩ :=
      ItemsAt.advance (α := []) (β := []) .entry (by simpa using hb)
    have := hn [.nonTerminal b] none .accept (.reduce b' p) ⟨_, _, _, hit, hb, he, rfl⟩ h1
    cases this

/-- Derivations from the entry point have at most one value. -/
theorem eval_unique (hn : NoConflict g F e) (hF : FirstEnough g F) (hwf : g.WF)
    (he : g.isPublic e = true) {b : Nat} (hb : g.HasProd e 0 [.nonTerminal b]) {toks : List Tok}
    {w : W} {v v' : Val} {w1 w2 : W} (h : Eval g ti alg [.nonTerminal b] toks w [v] w1)
    (h' : Eval g ti alg [.nonTerminal b] toks w [v'] w2) : v = v' ∧ w1 = w2 := by
  have := ASteps.unique hn (complete_entry hF hwf hb h) (complete_entry hF hwf hb h')
    (final_stuck hn he hb) (final_stuck hn he hb)
  cases this
  exact ⟨rfl, rfl⟩

/-! ## A sound and complete table always exists -/

open Classical in
/-- The FIRST table read off the definition. -/
noncomputable def Grammar.idealFirst (g : Grammar A Ty) : FirstTable :=
  (List.range g.nNonTerminals).map fun nt =>
    ⟨decide (g.Nullable nt), (List.range g.nTerminals).filter fun t => decide (g.Begins nt t)⟩

theorem Grammar.idealFirst_get (g : Grammar A Ty) {nt : Nat} (h : nt < g.nNonTerminals) :
    ((g.idealFirst.get nt).empty = true ↔ g.Nullable nt) ∧
    ∀ t, t ∈ (g.idealFirst.get nt).terminals ↔ t < g.nTerminals ∧ g.Begins nt t := by
  classical
  have : g.idealFirst.get nt = ⟨decide (g.Nullable nt),
      (List.range g.nTerminals).filter fun t => decide (g.Begins nt t)⟩ := by
    unfold FirstTable.get Grammar.idealFirst
    rw [List.getD_eq_getElem?_getD, List.getElem?_map, List.getElem?_range h]
    simp only [Option.map_some, Option.getD_some]
  rw [this]
  simp

theorem Grammar.idealFirst_sound (g : Grammar A Ty) : FirstSound g g.idealFirst := by
  have key : ∀ nt, g.nNonTerminals ≤ nt → g.idealFirst.get nt = {} := by
    intro nt h
    unfold FirstTable.get
    rw [List.getD_eq_getElem?_getD, List.getElem?_eq_none (by simp [Grammar.idealFirst]; exact h)]
    rfl
  constructor
  · intro nt t ht
    rcases Nat.lt_or_ge nt g.nNonTerminals with h | h
    · exact (((g.idealFirst_get h).2 t).1 ht).2
    · rw [key nt h] at ht; cases ht
  · intro nt ht
    rcases Nat.lt_or_ge nt g.nNonTerminals with h | h
    · exact (g.idealFirst_get h).1.1 ht
    · rw [key nt h] at ht; cases ht

/-- Terminals in a derived form are declared. -/
theorem Grammar.Derives.term_lt (hwf : g.WF) {u v : List Symbol} (h : g.Derives u v) :
    (∀ t, .terminal t ∈ u → t < g.nTerminals) → ∀ t, .terminal t ∈ v → t < g.nTerminals := by
  intro hu
  induction h with
  | refl => exact hu
  | tail _ s ih =>
    cases s with
    | mk l r α nt p hp =>
      intro t ht
      simp only [List.append_assoc, List.mem_append] at ht
      rcases ht with ht | ht | ht
      · exact ih t (by simp [ht])
      · exact hwf.term_lt hp ht
      · exact ih t (by simp [ht])

theorem Grammar.idealFirst_complete (hwf : g.WF) : FirstComplete g g.idealFirst where
  terminals := by
    intro nt t hlt _ hb
    refine ((g.idealFirst_get hlt).2 t).2 ⟨?_, hb⟩
    obtain ⟨x, hx⟩ := hb
    exact hx.term_lt hwf (by simp) t (by simp)
  empty := by
    intro nt hlt _ hb
    exact (g.idealFirst_get hlt).1.2 hb

/-- **LR(1) grammars are unambiguous**: at most one value for every algebra. -/
theorem Grammar.IsLR1.eval_unique (hl : g.IsLR1) (hwf : g.WF) (he : g.isPublic e = true) {b : Nat}
    (hb : g.HasProd e 0 [.nonTerminal b]) {toks : List Tok} {w : W} {v v' : Val} {w1 w2 : W}
    (h : Eval g ti alg [.nonTerminal b] toks w [v] w1)
    (h' : Eval g ti alg [.nonTerminal b] toks w [v'] w2) : v = v' ∧ w1 = w2 :=
  Parsegen.eval_unique (hl.noConflict g.idealFirst_sound hwf he) ((Grammar.idealFirst_complete hwf).enough hwf) hwf he
    hb h h'

end Parsegen
