import Verif.Spec.Derivation

/-! # Lemmas about derivations -/

namespace Parsegen

variable {A Ty : Type} {g : Grammar A Ty}

theorem Grammar.hasProd_iff {nt p : Nat} {α : List Symbol} :
    g.HasProd nt p α ↔ p < g.nProductions nt ∧ g.rhs nt p = α := by
  unfold Grammar.HasProd Grammar.nProductions Grammar.rhs Grammar.getProduction? Production.syms
  cases hn : g.nonTerminals[nt]? with
  | none => simp
  | some n =>
    simp only [Option.bind_some]
    constructor
    · rintro ⟨_, pr, h1, h2, rfl⟩
      cases h1
      refine ⟨?_, by rw [h2]⟩
      exact (List.getElem?_eq_some_iff.1 h2).1
    · rintro ⟨h1, h2⟩
      rw [List.getElem?_eq_getElem h1] at h2
      exact ⟨n, n.productions[p], rfl, List.getElem?_eq_getElem h1, h2.symm⟩

theorem Grammar.HasProd.rhs_eq {nt p : Nat} {α} (h : g.HasProd nt p α) : g.rhs nt p = α :=
  (Grammar.hasProd_iff.1 h).2

theorem Grammar.HasProd.lt {nt p : Nat} {α} (h : g.HasProd nt p α) : p < g.nProductions nt :=
  (Grammar.hasProd_iff.1 h).1

theorem Grammar.hasProd_of_lt {nt p : Nat} (h : p < g.nProductions nt) :
    g.HasProd nt p (g.rhs nt p) := Grammar.hasProd_iff.2 ⟨h, rfl⟩

theorem Grammar.lt_of_nProductions {nt p : Nat} (h : p < g.nProductions nt) :
    nt < g.nNonTerminals := by
  unfold Grammar.nProductions at h
  split at h
  · next h' => exact (List.getElem?_eq_some_iff.1 h').1
  · omega

namespace Grammar.Derives

theorem of_eq {u v} (h : u = v) : g.Derives u v := h ▸ .refl u

theorem trans {u v w} (h1 : g.Derives u v) (h2 : g.Derives v w) : g.Derives u w := by
  induction h2 with
  | refl => exact h1
  | tail _ s ih => exact .tail ih s

theorem single {u v} (h : g.Produces u v) : g.Derives u v := .tail (.refl u) h

theorem head {u v w} (h1 : g.Produces u v) (h2 : g.Derives v w) : g.Derives u w :=
  trans (single h1) h2

theorem _root_.Parsegen.Grammar.Produces.append_left {u v} (h : g.Produces u v) (x : List Symbol) :
    g.Produces (x ++ u) (x ++ v) := by
  cases h with
  | mk u' v' α nt p hp => simpa [List.append_assoc] using Grammar.Produces.mk (x ++ u') v' α nt p hp

theorem _root_.Parsegen.Grammar.Produces.append_right {u v} (h : g.Produces u v) (x : List Symbol) :
    g.Produces (u ++ x) (v ++ x) := by
  cases h with
  | mk u' v' α nt p hp => simpa [List.append_assoc] using Grammar.Produces.mk u' (v' ++ x) α nt p hp

theorem append_left {u v} (h : g.Derives u v) (x : List Symbol) : g.Derives (x ++ u) (x ++ v) := by
  induction h with
  | refl => exact .refl _
  | tail _ s ih => exact .tail ih (s.append_left x)

theorem append_right {u v} (h : g.Derives u v) (x : List Symbol) : g.Derives (u ++ x) (v ++ x) := by
  induction h with
  | refl => exact .refl _
  | tail _ s ih => exact .tail ih (s.append_right x)

theorem append {u u' v v'} (h : g.Derives u u') (h' : g.Derives v v') :
    g.Derives (u ++ v) (u' ++ v') := trans (h.append_right v) (h'.append_left u')

theorem cons {s u v} (h : g.Derives u v) : g.Derives (s :: u) (s :: v) := h.append_left [s]

theorem of_hasProd {nt p α} (h : g.HasProd nt p α) : g.Derives [.nonTerminal nt] α := by
  simpa using single (Grammar.Produces.mk [] [] α nt p h)

theorem step_nt {nt p α} (h : g.HasProd nt p α) (v : List Symbol) :
    g.Derives (.nonTerminal nt :: v) (α ++ v) := (of_hasProd h).append_right v

/-- Induction from the left end of a derivation. -/
theorem head_induction {P : List Symbol → Prop} {w : List Symbol} (base : P w)
    (step : ∀ u v, g.Produces u v → g.Derives v w → P v → P u) :
    ∀ {u}, g.Derives u w → P u := by
  intro u h
  induction h with
  | refl => exact base
  | tail h' s ih =>
    refine ih (step _ _ s (.refl _) base) ?_
    intro u v huv hv hP
    exact step u v huv (.tail hv s) hP

end Grammar.Derives

variable {Tok Val W : Type} {ti : Tok → Nat} {alg : Alg Tok Val W}

theorem Eval.append {a b : List Symbol} {t1 t2 w vs w1 us w2}
    (h1 : Eval g ti alg a t1 w vs w1) (h2 : Eval g ti alg b t2 w1 us w2) :
    Eval g ti alg (a ++ b) (t1 ++ t2) w (vs ++ us) w2 := by
  induction h1 with
  | nil => exact h2
  | term ht _ ih => exact .term ht (ih h2)
  | nt hp hc ha _ _ ih =>
    rw [List.append_assoc]
    exact .nt hp hc ha (ih h2)

theorem Eval.split {a b : List Symbol} {ts w vs w2} (h : Eval g ti alg (a ++ b) ts w vs w2) :
    ∃ t1 t2 vs1 vs2 w1, ts = t1 ++ t2 ∧ vs = vs1 ++ vs2 ∧
      Eval g ti alg a t1 w vs1 w1 ∧ Eval g ti alg b t2 w1 vs2 w2 := by
  induction a generalizing ts w vs with
  | nil => exact ⟨[], ts, [], vs, w, rfl, rfl, .nil w, h⟩
  | cons s a ih =>
    cases h with
    | term ht h =>
      obtain ⟨t1, t2, vs1, vs2, w1, rfl, rfl, h1, h2⟩ := ih h
      exact ⟨_ :: t1, t2, _ :: vs1, vs2, w1, rfl, rfl, .term ht h1, h2⟩
    | nt hp hc ha h =>
      obtain ⟨t1, t2, vs1, vs2, w1, rfl, rfl, h1, h2⟩ := ih h
      exact ⟨_ ++ t1, t2, _ :: vs1, vs2, w1, by simp, rfl, .nt hp hc ha h1, h2⟩

theorem Eval.length_eq {ss ts w vs w'} (h : Eval g ti alg ss ts w vs w') :
    vs.length = ss.length := by
  induction h <;> simp_all

theorem Eval.single_nt {b p α toks w us w1 v w2} (hp : g.HasProd b p α)
    (hc : Eval g ti alg α toks w us w1) (ha : alg.node b p us w1 = some (v, w2)) :
    Eval g ti alg [.nonTerminal b] toks w [v] w2 := by
  simpa using Eval.nt hp hc ha (.nil w2)

theorem Eval.nt_inv {b toks w vs w'} (h : Eval g ti alg [.nonTerminal b] toks w vs w') :
    ∃ p α us w1 v, vs = [v] ∧ g.HasProd b p α ∧ Eval g ti alg α toks w us w1 ∧
      alg.node b p us w1 = some (v, w') := by
  cases h with
  | nt hp hc ha h =>
    cases h
    exact ⟨_, _, _, _, _, rfl, hp, by simpa using hc, ha⟩

theorem Eval.term_inv {i toks w vs w'} (h : Eval g ti alg [.terminal i] toks w vs w') :
    ∃ t, toks = [t] ∧ vs = [alg.leaf t] ∧ ti t = i ∧ w' = w := by
  cases h with
  | term ht h => cases h; exact ⟨_, rfl, rfl, ht, rfl⟩

/-- An evaluated derivation is a derivation. -/
theorem Eval.derives {ss ts w vs w'} (h : Eval g ti alg ss ts w vs w') :
    g.Derives ss (ts.map fun t => .terminal (ti t)) := by
  induction h with
  | nil => exact .refl _
  | term ht _ ih => subst ht; simpa using ih.cons
  | nt hp _ _ _ ih1 ih2 =>
    rw [List.map_append]
    exact (Grammar.Derives.step_nt hp _).trans (ih1.append ih2)

theorem Eval.yields {ss ts w vs w'} (h : Eval g ti alg ss ts w vs w') : g.Yields ti ss ts := by
  induction h with
  | nil => exact ⟨_, .nil ()⟩
  | term ht _ ih => obtain ⟨_, ih⟩ := ih; exact ⟨_, .term ht ih⟩
  | nt hp _ _ _ ih1 ih2 =>
    obtain ⟨_, ih1⟩ := ih1
    obtain ⟨_, ih2⟩ := ih2
    exact ⟨_, .nt hp ih1 rfl ih2⟩

theorem Grammar.Yields.append {a b : List Symbol} {t1 t2 : List Tok} (h1 : g.Yields ti a t1)
    (h2 : g.Yields ti b t2) : g.Yields ti (a ++ b) (t1 ++ t2) := by
  obtain ⟨_, h1⟩ := h1; obtain ⟨_, h2⟩ := h2
  exact ⟨_, h1.append h2⟩

theorem Grammar.Yields.split {a b : List Symbol} {ts : List Tok} (h : g.Yields ti (a ++ b) ts) :
    ∃ t1 t2, ts = t1 ++ t2 ∧ g.Yields ti a t1 ∧ g.Yields ti b t2 := by
  obtain ⟨_, h⟩ := h
  obtain ⟨t1, t2, _, _, _, h1, _, h2, h3⟩ := h.split
  exact ⟨t1, t2, h1, ⟨_, h2⟩, ⟨_, h3⟩⟩

theorem Grammar.Yields.nil : g.Yields ti [] ([] : List Tok) := ⟨_, .nil ()⟩

theorem Grammar.Yields.nt {b p α} {ts : List Tok} (hp : g.HasProd b p α) (h : g.Yields ti α ts) :
    g.Yields ti [.nonTerminal b] ts := by
  obtain ⟨_, h⟩ := h
  exact ⟨_, Eval.single_nt hp h rfl⟩

theorem Grammar.yields_terminals (ts : List Tok) :
    g.Yields ti (ts.map fun t => .terminal (ti t)) ts := by
  induction ts with
  | nil => exact Grammar.Yields.nil
  | cons t ts ih => obtain ⟨_, ih⟩ := ih; exact ⟨_, .term rfl ih⟩

theorem Grammar.Yields.of_produces {u v} {ts : List Tok} (s : g.Produces u v)
    (h : g.Yields ti v ts) : g.Yields ti u ts := by
  cases s with
  | mk u v α nt p hp =>
    obtain ⟨t12, t3, rfl, h12, h3⟩ := h.split
    obtain ⟨t1, t2, rfl, h1, h2⟩ := h12.split
    have := h1.append ((h2.nt hp).append h3)
    simpa [List.append_assoc] using this

/-- The two notions of derivability agree. -/
theorem Grammar.yields_iff_derives {ss : List Symbol} {ts : List Tok} :
    g.Yields ti ss ts ↔ g.Derives ss (ts.map fun t => .terminal (ti t)) := by
  constructor
  · rintro ⟨_, h⟩; exact h.derives
  · intro h
    exact Grammar.Derives.head_induction (P := fun u => g.Yields ti u ts)
      (Grammar.yields_terminals ts) (fun u v s _ ih => ih.of_produces s) h

/-- A derivation from a concatenation splits. -/
theorem Grammar.Derives.split {w : List Symbol} : ∀ {x}, g.Derives x w → ∀ {u v}, x = u ++ v →
    ∃ w1 w2, w = w1 ++ w2 ∧ g.Derives u w1 ∧ g.Derives v w2 := by
  intro x h
  induction h with
  | refl => intro u v hx; exact ⟨u, v, hx, .refl _, .refl _⟩
  | tail h s ih =>
    intro u v hx
    obtain ⟨w1, w2, rfl, h1, h2⟩ := ih hx
    generalize hy : w1 ++ w2 = y at s
    cases s with
    | mk a b α nt p hp =>
      rcases List.append_eq_append_iff.1 hy with ⟨c, rfl, rfl⟩ | ⟨c, rfl, hc⟩
      · refine ⟨w1, c ++ α ++ b, by simp, h1, .tail h2 (.mk c b α nt p hp)⟩
      · rcases List.cons_eq_append_iff.1 hc with ⟨rfl, rfl⟩ | ⟨c', rfl, rfl⟩
        · refine ⟨a, α ++ b, by simp, by simpa using h1, .tail h2 (by simpa using Grammar.Produces.mk [] b α nt p hp)⟩
        · exact ⟨a ++ α ++ c', w2, by simp, .tail h1 (.mk a c' α nt p hp), h2⟩

end Parsegen
