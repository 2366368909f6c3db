import Verif.Proofs.Transfer
import Verif.Proofs.Observe

/-! # Derivations of the user's grammar and of the lowered grammar correspond -/

namespace Parsegen

variable {X Ty Tok : Type} {mkPath : String → X} {asts : List (AstNonTerminal X Ty)}
  {convs : List (Conversion Ty)} {g : Grammar X Ty} {nts ts : AMap String Nat}

/-- A user symbol and its number. -/
def Names (nts ts : AMap String Nat) : USym → Symbol → Prop
  | .nt n, .nonTerminal i => nts.get? n = some i
  | .term t, .terminal i => ts.get? t = some i
  | _, _ => False

theorem forall₂_append_left {α β : Type} {R : α → β → Prop} {a b : List α} {c : List β}
    (h : List.Forall₂ R (a ++ b) c) : ∃ c1 c2, c = c1 ++ c2 ∧ List.Forall₂ R a c1 ∧
      List.Forall₂ R b c2 := by
  induction a generalizing c with
  | nil => exact ⟨[], c, rfl, .nil, h⟩
  | cons x a ih =>
    cases h with
    | cons hx h =>
      obtain ⟨c1, c2, rfl, h1, h2⟩ := ih h
      exact ⟨_ :: c1, c2, rfl, .cons hx h1, h2⟩

theorem forall₂_append_right {α β : Type} {R : α → β → Prop} {a b : List β} {c : List α}
    (h : List.Forall₂ R c (a ++ b)) : ∃ c1 c2, c = c1 ++ c2 ∧ List.Forall₂ R c1 a ∧
      List.Forall₂ R c2 b := by
  induction a generalizing c with
  | nil => exact ⟨[], c, rfl, .nil, h⟩
  | cons x a ih =>
    cases h with
    | cons hx h =>
      obtain ⟨c1, c2, rfl, h1, h2⟩ := ih h
      exact ⟨_ :: c1, c2, rfl, .cons hx h1, h2⟩

theorem forall₂_append {α β : Type} {R : α → β → Prop} {a b : List α} {c d : List β}
    (h1 : List.Forall₂ R a c) (h2 : List.Forall₂ R b d) : List.Forall₂ R (a ++ b) (c ++ d) := by
  induction h1 with
  | nil => exact h2
  | cons h _ ih => exact .cons h ih

theorem lowersPlain_names {s : AstSymbol} {x : Symbol} (h : LowersPlain nts ts s x) :
    ∃ u, s.plain = some u ∧ Names nts ts u x := by
  rcases h with ⟨n, i, h1, h2, rfl⟩ | ⟨n, i, h1, h2, rfl⟩
  · exact ⟨_, h1, h2⟩
  · exact ⟨_, h1, h2⟩

theorem names_lowersPlain {s : AstSymbol} {u : USym} {x : Symbol} (hs : s.plain = some u)
    (h : Names nts ts u x) : LowersPlain nts ts s x := by
  cases u <;> cases x <;> try exact h.elim
  · exact Or.inr ⟨_, _, hs, h, rfl⟩
  · exact Or.inl ⟨_, _, hs, h, rfl⟩

theorem forall₂_lowersPlain_names {ss : List AstSymbol} {α : List Symbol}
    (h : List.Forall₂ (LowersPlain nts ts) ss α) :
    ∃ us : List USym, ss.map (·.plain) = us.map some ∧ List.Forall₂ (Names nts ts) us α := by
  induction h with
  | nil => exact ⟨[], rfl, .nil⟩
  | cons h _ ih =>
    obtain ⟨us, h1, h2⟩ := ih
    obtain ⟨u, h3, h4⟩ := lowersPlain_names h
    exact ⟨u :: us, by simp [h1, h3], .cons h4 h2⟩

theorem forall₂_names_lowersPlain {us : List USym} {α : List Symbol}
    (h : List.Forall₂ (Names nts ts) us α) : ∀ {ss : List AstSymbol},
    ss.map (·.plain) = us.map some → List.Forall₂ (LowersPlain nts ts) ss α := by
  induction h with
  | nil => intro ss hs; simp at hs; subst hs; exact .nil
  | cons h _ ih =>
    intro ss hs
    cases ss with
    | nil => simp at hs
    | cons s ss =>
      simp only [List.map_cons, List.cons.injEq] at hs
      exact .cons (names_lowersPlain hs.1 h) (ih hs.2)

theorem Names.func {u : USym} {x y : Symbol} (h1 : Names nts ts u x) (h2 : Names nts ts u y) :
    x = y := by
  cases u <;> cases x <;> cases y <;> simp_all [Names]

theorem names_func {us : List USym} {α β : List Symbol} (h1 : List.Forall₂ (Names nts ts) us α)
    (h2 : List.Forall₂ (Names nts ts) us β) : α = β := by
  induction h1 generalizing β with
  | nil => cases h2; rfl
  | cons h _ ih =>
    cases h2 with
    | cons h' h2 => rw [ih h2, h.func h']

theorem Lowered.names_inj (hl : Lowered mkPath asts convs g nts ts) {u v : USym} {x : Symbol}
    (h1 : Names nts ts u x) (h2 : Names nts ts v x) : u = v := by
  cases u <;> cases v <;> cases x <;> simp only [Names] at h1 h2 <;> try exact h1.elim
  · rw [hl.tmap _ _] at h1 h2
    rw [h1] at h2; cases h2; rfl
  · rw [hl.inj h1 h2]

theorem Lowered.names_inj_list (hl : Lowered mkPath asts convs g nts ts) {us vs : List USym}
    {α : List Symbol} (h1 : List.Forall₂ (Names nts ts) us α)
    (h2 : List.Forall₂ (Names nts ts) vs α) : us = vs := by
  induction h1 generalizing vs with
  | nil => cases h2; rfl
  | cons h _ ih =>
    cases h2 with
    | cons h' h2 => rw [ih h2, hl.names_inj h h']

theorem Lowered.produces_user (hl : Lowered mkPath asts convs g nts ts) {α β : List Symbol}
    {l : List USym} (h : g.Produces α β) (hn : List.Forall₂ (Names nts ts) l α) :
    ∃ m, List.Forall₂ (Names nts ts) m β ∧ UProduces asts l m := by
  cases h with
  | mk u v γ nt p hp =>
    obtain ⟨l1, l2, rfl, h1, h2⟩ := forall₂_append_right hn
    cases h2 with
    | @cons s _ l2 _ hs h2 =>
      cases s with
      | term t => exact hs.elim
      | nt n =>
        obtain ⟨q, pr, h3, h4, _, rfl⟩ := hl.hasProd_user hs hp
        obtain ⟨us, h5, h6⟩ := forall₂_lowersPlain_names h4.plain
        refine ⟨l1 ++ us ++ l2, forall₂_append (forall₂_append h1 h6) h2, ?_⟩
        exact .mk l1 l2 us n q (List.mem_of_getElem? h3) h5

theorem Lowered.user_produces (hl : Lowered mkPath asts convs g nts ts) {α : List Symbol}
    {l m : List USym} (h : UProduces asts l m) (hn : List.Forall₂ (Names nts ts) l α) :
    ∃ β, List.Forall₂ (Names nts ts) m β ∧ g.Produces α β := by
  cases h with
  | mk l1 l2 rhs n q hq hs =>
    obtain ⟨u, v, rfl, h1, h2⟩ := forall₂_append_left hn
    cases h2 with
    | @cons _ x _ v hx h2 =>
      cases x with
      | terminal t => exact hx.elim
      | nonTerminal j =>
        obtain ⟨p, hp⟩ := List.getElem?_of_mem hq
        obtain ⟨pr, h3, h4, h5⟩ := hl.user_hasProd hx hp
        obtain ⟨us, h6, h7⟩ := forall₂_lowersPlain_names h3.plain
        have : us = rhs := by
          rw [hs] at h6
          exact (List.map_injective_iff.2 (fun _ _ h => Option.some.inj h) h6).symm
        subst this
        exact ⟨_, forall₂_append (forall₂_append h1 h7) h2, .mk u v _ j p h5⟩

theorem Lowered.derives_user (hl : Lowered mkPath asts convs g nts ts) {α β : List Symbol}
    (h : g.Derives α β) : ∀ {l : List USym}, List.Forall₂ (Names nts ts) l α →
    ∃ m, List.Forall₂ (Names nts ts) m β ∧ UDerives asts l m := by
  induction h with
  | refl => intro l hn; exact ⟨l, hn, .refl l⟩
  | tail _ hs ih =>
    intro l hn
    obtain ⟨m, h1, h2⟩ := ih hn
    obtain ⟨m', h3, h4⟩ := hl.produces_user hs h1
    exact ⟨m', h3, .tail h2 h4⟩

theorem Lowered.user_derives (hl : Lowered mkPath asts convs g nts ts) {l m : List USym}
    (h : UDerives asts l m) : ∀ {α : List Symbol}, List.Forall₂ (Names nts ts) l α →
    ∃ β, List.Forall₂ (Names nts ts) m β ∧ g.Derives α β := by
  induction h with
  | refl => intro α hn; exact ⟨α, hn, .refl α⟩
  | tail _ hs ih =>
    intro α hn
    obtain ⟨β, h1, h2⟩ := ih hn
    obtain ⟨β', h3, h4⟩ := hl.user_produces hs h1
    exact ⟨β', h3, .tail h2 h4⟩

/-- Tokens as symbols have their names. -/
theorem Lowered.names_toks (hl : Lowered mkPath asts convs g nts ts) {ti : Tok → Nat}
    {cls : Tok → String} (hcls : ClassName g ti cls) (toks : List Tok) :
    List.Forall₂ (Names nts ts) (toks.map fun t => .term (cls t))
      (toks.map fun t => .terminal (ti t)) := by
  induction toks with
  | nil => exact .nil
  | cons t toks ih => exact .cons ((hl.tmap _ _).2 (hcls t)) ih

/-- Sentences of the user's non-terminal `n` and of its lowered counterpart. -/
theorem Lowered.sentence_iff (hl : Lowered mkPath asts convs g nts ts) {ti : Tok → Nat}
    {cls : Tok → String} (hcls : ClassName g ti cls) {n : String} {j : Nat}
    (hn : nts.get? n = some j) (toks : List Tok) :
    USentence asts n (toks.map cls) ↔ g.Yields ti [.nonTerminal j] toks := by
  rw [Grammar.yields_iff_derives]
  have h0 : List.Forall₂ (Names nts ts) [.nt n] [.nonTerminal j] := .cons hn .nil
  have ht := hl.names_toks hcls toks
  constructor
  · intro h
    obtain ⟨β, h1, h2⟩ := hl.user_derives h h0
    have : (toks.map cls).map USym.term = toks.map fun t => .term (cls t) := by simp
    rw [this] at h1
    rw [names_func ht h1]; exact h2
  · intro h
    obtain ⟨m, h1, h2⟩ := hl.derives_user h h0
    have : (toks.map cls).map USym.term = toks.map fun t => .term (cls t) := by simp
    unfold USentence
    rw [this, hl.names_inj_list ht h1]; exact h2

end Parsegen
