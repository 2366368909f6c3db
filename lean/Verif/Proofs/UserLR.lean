import Verif.Spec.UserLR
import Verif.Spec.Valid
import Verif.Proofs.Entry

/-! # LR(1) and FIRST of the lowered grammar, in terms of the user's grammar -/

namespace Parsegen

variable {X Ty : Type} {asts : List (AstNonTerminal X Ty)} {convs : List (Conversion Ty)}
  {g : Grammar X Ty} {nts ts : AMap String Nat} {mkPath : String → X}

/-- A lookahead and its name. -/
def NamesLa (ts : AMap String Nat) : Option String → Option Nat → Prop
  | some t, some i => ts.get? t = some i
  | none, none => True
  | _, _ => False

/-- A move and its name. -/
def NamesMove (nts : AMap String Nat) : UMove → Move → Prop
  | .shift, .shift => True
  | .reduce n i, .reduce j i' => nts.get? n = some j ∧ i = i'
  | .accept, .accept => True
  | _, _ => False

theorem NamesMove.func {u : UMove} {m m' : Move} (h : NamesMove nts u m) (h' : NamesMove nts u m') :
    m = m' := by
  cases u <;> cases m <;> cases m' <;> simp_all [NamesMove]

theorem Lowered.move_inj (hl : Lowered mkPath asts convs g nts ts) {u u' : UMove} {m : Move}
    (h : NamesMove nts u m) (h' : NamesMove nts u' m) : u = u' := by
  cases u <;> cases u' <;> cases m <;> simp_all [NamesMove]
  exact hl.inj h.1 h'.1

theorem Lowered.la_inj (hl : Lowered mkPath asts convs g nts ts) {u u' : Option String}
    {c : Option Nat} (h : NamesLa ts u c) (h' : NamesLa ts u' c) : u = u' := by
  cases u <;> cases u' <;> cases c <;> simp_all [NamesLa]
  have := hl.names_inj (u := .term _) (v := .term _) (x := .terminal _) h h'
  simpa using this

theorem NamesLa.func {u : Option String} {c c' : Option Nat} (h : NamesLa ts u c)
    (h' : NamesLa ts u c') : c = c' := by
  cases u <;> cases c <;> cases c' <;> simp_all [NamesLa]

/-- Productions of a named non-terminal. -/
theorem Lowered.hasProd_names (hl : Lowered mkPath asts convs g nts ts) {n : String} {j : Nat}
    (hn : nts.get? n = some j) {p : Nat} {α : List Symbol} (hp : g.HasProd j p α) :
    ∃ us, List.Forall₂ (Names nts ts) us α ∧ UHasProd asts n p us := by
  obtain ⟨q, pr, h1, h2, _, rfl⟩ := hl.hasProd_user hn hp
  obtain ⟨us, h3, h4⟩ := forall₂_lowersPlain_names h2.plain
  exact ⟨us, h4, q, h1, h3⟩

theorem Lowered.uhasProd_names (hl : Lowered mkPath asts convs g nts ts) {n : String} {j : Nat}
    (hn : nts.get? n = some j) {p : Nat} {us : List USym} (hp : UHasProd asts n p us) :
    ∃ α, List.Forall₂ (Names nts ts) us α ∧ g.HasProd j p α := by
  obtain ⟨q, h1, h2⟩ := hp
  obtain ⟨pr, h3, _, h4⟩ := hl.user_hasProd hn h1
  obtain ⟨us', h5, h6⟩ := forall₂_lowersPlain_names h3.plain
  have : us' = us := by
    rw [h2] at h5
    exact (List.map_inj_right (by simp)).1 h5.symm
  subst this
  exact ⟨_, h6, h4⟩

theorem Lowered.follows_user (hl : Lowered mkPath asts convs g nts ts) {z : List Symbol}
    {uz : List USym} (hz : List.Forall₂ (Names nts ts) uz z) {c : Option Nat} (h : g.Follows z c) :
    ∃ uc, NamesLa ts uc c ∧ UFollows asts uz uc := by
  cases c with
  | none =>
    obtain ⟨m, h1, h2⟩ := hl.derives_user h hz
    cases h1
    exact ⟨none, trivial, h2⟩
  | some t =>
    obtain ⟨x, h⟩ := h
    obtain ⟨m, h1, h2⟩ := hl.derives_user h hz
    cases h1 with
    | @cons u _ ux _ h3 _ =>
      cases u with
      | nt n => cases h3
      | term s => exact ⟨some s, h3, ux, h2⟩

theorem Lowered.user_follows (hl : Lowered mkPath asts convs g nts ts) {z : List Symbol}
    {uz : List USym} (hz : List.Forall₂ (Names nts ts) uz z) {uc : Option String}
    (h : UFollows asts uz uc) : ∃ c, NamesLa ts uc c ∧ g.Follows z c := by
  cases uc with
  | none =>
    obtain ⟨m, h1, h2⟩ := hl.user_derives h hz
    cases h1
    exact ⟨none, trivial, h2⟩
  | some t =>
    obtain ⟨x, h⟩ := h
    obtain ⟨m, h1, h2⟩ := hl.user_derives h hz
    cases h1 with
    | @cons _ s _ x h3 _ =>
      cases s with
      | nonTerminal n => cases h3
      | terminal i => exact ⟨some i, h3, x, h2⟩

/-- Contexts of the lowered grammar are those of the user's. -/
theorem Lowered.context_user (hl : Lowered mkPath asts convs g nts ts) (hwf : g.WF) {E b : Nat}
    {S : String} (hE : g.isPublic E = true) (hb : g.HasProd E 0 [.nonTerminal b])
    (hS : nts.get? S = some b) {δ : List Symbol} {B : Nat} {z : List Symbol}
    (h : g.Context E δ B z) :
    (δ = [] ∧ B = E ∧ z = []) ∨
    ∃ uδ uB uz, List.Forall₂ (Names nts ts) uδ δ ∧ nts.get? uB = some B ∧
      List.Forall₂ (Names nts ts) uz z ∧ UContext asts S uδ uB uz := by
  induction h with
  | root => exact .inl ⟨rfl, rfl, rfl⟩
  | @child δ B z p α C β _ hz hp ih =>
    right
    rcases ih with ⟨rfl, rfl, rfl⟩ | ⟨uδ, uB, uz, h1, h2, h3, h4⟩
    · obtain ⟨h5, b', h6⟩ := hwf.pub hE
      have := hp.lt
      have hp0 : p = 0 := by omega
      subst hp0
      have e := hp.rhs_eq.symm.trans hb.rhs_eq
      cases α with
      | nil =>
        simp at e
        obtain ⟨rfl, rfl⟩ := e
        exact ⟨[], S, [], .nil, hS, .nil, .root⟩
      | cons x α => simp at e
    · obtain ⟨us, h5, h6⟩ := hl.hasProd_names h2 hp
      obtain ⟨ul, ur, rfl, h7, h8⟩ := forall₂_append_right h5
      cases h8 with
      | @cons u _ ur _ h9 h10 =>
        cases u with
        | term t => cases h9
        | nt n =>
          obtain ⟨c, hc⟩ := hz
          obtain ⟨uc, _, hc'⟩ := hl.follows_user h3 hc
          exact ⟨uδ ++ ul, n, ur ++ uz, forall₂_append h1 h7, h9, forall₂_append h10 h3,
            .child h4 ⟨uc, hc'⟩ h6⟩

theorem Lowered.user_context (hl : Lowered mkPath asts convs g nts ts) {E b : Nat}
    {S : String} (hb : g.HasProd E 0 [.nonTerminal b])
    (hS : nts.get? S = some b) {uδ : List USym} {uB : String} {uz : List USym}
    (h : UContext asts S uδ uB uz) :
    ∃ δ B z, List.Forall₂ (Names nts ts) uδ δ ∧ nts.get? uB = some B ∧
      List.Forall₂ (Names nts ts) uz z ∧ g.Context E δ B z := by
  induction h with
  | root =>
    refine ⟨[], b, [], .nil, hS, .nil, ?_⟩
    have := Grammar.Context.child (g := g) (E := E) (α := []) (C := b) (β := []) .root
      ⟨none, .refl _⟩ hb
    simpa using this
  | @child uδ uB uz i ul n ur _ hz hp ih =>
    obtain ⟨δ, B, z, h1, h2, h3, h4⟩ := ih
    obtain ⟨α, h5, h6⟩ := hl.uhasProd_names h2 hp
    obtain ⟨l, r, rfl, h7, h8⟩ := forall₂_append_left h5
    cases h8 with
    | @cons _ x _ r h9 h10 =>
      cases x with
      | terminal t => cases h9
      | nonTerminal C =>
        obtain ⟨uc, hc⟩ := hz
        obtain ⟨c, _, hc'⟩ := hl.user_follows h3 hc
        exact ⟨δ ++ l, C, r ++ z, forall₂_append h1 h7, h9, forall₂_append h10 h3,
          .child h4 ⟨c, hc'⟩ h6⟩

theorem Lowered.named_private (hl : Lowered mkPath asts convs g nts ts) {n : String} {j : Nat}
    (hn : nts.get? n = some j) : g.isPublic j = false := by
  obtain ⟨nt, _, h1, _, _, _, h2, _⟩ := hl.prods hn
  unfold Grammar.isPublic; rw [h1]; simpa using h2

/-- Moves of the lowered grammar are those of the user's. -/
theorem Lowered.wants_user (hl : Lowered mkPath asts convs g nts ts) (hwf : g.WF) {E b : Nat}
    {S : String} (hE : g.isPublic E = true) (hb : g.HasProd E 0 [.nonTerminal b])
    (hS : nts.get? S = some b) {γ : List Symbol} {c : Option Nat} {m : Move}
    (h : g.Wants (g.Valid E γ) c m) :
    ∃ uγ uc um, List.Forall₂ (Names nts ts) uγ γ ∧ NamesLa ts uc c ∧ NamesMove nts um m ∧
      UWants asts S uγ uc um := by
  have hroot : ∀ {p : Nat} {α : List Symbol}, g.HasProd E p α → p = 0 ∧ α = [.nonTerminal b] := by
    intro p α hp
    obtain ⟨h5, b', h6⟩ := hwf.pub hE
    have := hp.lt
    have hp0 : p = 0 := by omega
    subst hp0
    exact ⟨rfl, hp.rhs_eq.symm.trans hb.rhs_eq⟩
  cases m with
  | shift =>
    obtain ⟨nt, p, α, t, β, la, ⟨δ, z, α', β', hc, hp', hlen, rfl, hf⟩, hp, rfl⟩ := h
    simp only at hc hp' hlen hf
    have e := hp'.rhs_eq.symm.trans hp.rhs_eq
    obtain ⟨rfl, rfl⟩ := List.append_inj e hlen.symm
    rcases hl.context_user hwf hE hb hS hc with ⟨rfl, rfl, rfl⟩ | ⟨uδ, uB, uz, h1, h2, h3, h4⟩
    · obtain ⟨_, e⟩ := hroot hp
      cases α' with
      | nil => simp at e
      | cons x l => simp at e
    · obtain ⟨us, h5, h6⟩ := hl.hasProd_names h2 hp
      obtain ⟨ul, ur, rfl, h7, h8⟩ := forall₂_append_right h5
      cases h8 with
      | @cons u _ ur _ h9 h10 =>
        cases u with
        | nt n => cases h9
        | term s =>
          obtain ⟨uc, _, hc'⟩ := hl.follows_user h3 hf
          exact ⟨uδ ++ ul, some s, .shift, forall₂_append h1 h7, h9, trivial,
            uδ, uB, uz, p, ul, s, ur, h4, ⟨uc, hc'⟩, h6, rfl, rfl⟩
  | reduce nt p =>
    obtain ⟨α, ⟨δ, z, α', β', hc, hp', hlen, rfl, hf⟩, hp, hpriv⟩ := h
    simp only at hc hp' hlen hf
    have e := hp'.rhs_eq.symm.trans hp.rhs_eq
    rw [← List.append_nil α] at e
    obtain ⟨rfl, rfl⟩ := List.append_inj e hlen.symm
    rw [List.append_nil] at hp'
    rcases hl.context_user hwf hE hb hS hc with ⟨rfl, rfl, rfl⟩ | ⟨uδ, uB, uz, h1, h2, h3, h4⟩
    · rw [hE] at hpriv; cases hpriv
    · obtain ⟨us, h5, h6⟩ := hl.hasProd_names h2 hp'
      obtain ⟨uc, hu, hc'⟩ := hl.follows_user h3 hf
      exact ⟨uδ ++ us, uc, .reduce uB p, forall₂_append h1 h5, hu, ⟨h2, rfl⟩,
        uδ, uz, us, h4, hc', h6, rfl⟩
  | accept =>
    obtain ⟨nt, p, α, ⟨δ, z, α', β', hc, hp', hlen, rfl, hf⟩, hp, hpub, rfl⟩ := h
    simp only at hc hp' hlen hf
    have e := hp'.rhs_eq.symm.trans hp.rhs_eq
    rw [← List.append_nil α] at e
    obtain ⟨rfl, rfl⟩ := List.append_inj e hlen.symm
    rw [List.append_nil] at hp'
    rcases hl.context_user hwf hE hb hS hc with ⟨rfl, rfl, rfl⟩ | ⟨uδ, uB, uz, h1, h2, h3, h4⟩
    · obtain ⟨_, rfl⟩ := hroot hp'
      exact ⟨[.nt S], none, .accept, .cons hS .nil, trivial, trivial, rfl, rfl⟩
    · rw [hl.named_private h2] at hpub; cases hpub

theorem Lowered.user_wants (hl : Lowered mkPath asts convs g nts ts) {E b : Nat}
    {S : String} (hE : g.isPublic E = true) (hb : g.HasProd E 0 [.nonTerminal b])
    (hS : nts.get? S = some b) {uγ : List USym} {uc : Option String} {um : UMove}
    (h : UWants asts S uγ uc um) :
    ∃ γ c m, List.Forall₂ (Names nts ts) uγ γ ∧ NamesLa ts uc c ∧ NamesMove nts um m ∧
      g.Wants (g.Valid E γ) c m := by
  cases um with
  | shift =>
    obtain ⟨uδ, uB, uz, i, ul, s, ur, h1, ⟨uc', h2⟩, h3, rfl, rfl⟩ := h
    obtain ⟨δ, B, z, h4, h5, h6, h7⟩ := hl.user_context hb hS h1
    obtain ⟨c', _, h8⟩ := hl.user_follows h6 h2
    obtain ⟨α, h9, h10⟩ := hl.uhasProd_names h5 h3
    obtain ⟨l, r, rfl, h11, h12⟩ := forall₂_append_left h9
    cases h12 with
    | @cons _ x _ r h13 h14 =>
      cases x with
      | nonTerminal n => cases h13
      | terminal t =>
        exact ⟨δ ++ l, some t, .shift, forall₂_append h4 h11, h13, trivial,
          B, i, l, t, r, c', ⟨δ, z, l, _, h7, h10, rfl, rfl, h8⟩, h10, rfl⟩
  | reduce n i =>
    obtain ⟨uδ, uz, us, h1, h2, h3, rfl⟩ := h
    obtain ⟨δ, B, z, h4, h5, h6, h7⟩ := hl.user_context hb hS h1
    obtain ⟨c, h8, h9⟩ := hl.user_follows h6 h2
    obtain ⟨α, h10, h11⟩ := hl.uhasProd_names h5 h3
    exact ⟨δ ++ α, c, .reduce B i, forall₂_append h4 h10, h8, ⟨h5, rfl⟩, α,
      ⟨δ, z, α, [], h7, by rwa [List.append_nil], rfl, rfl, h9⟩, h11, hl.named_private h5⟩
  | accept =>
    obtain ⟨rfl, rfl⟩ := h
    exact ⟨[.nonTerminal b], none, .accept, .cons hS .nil, trivial, trivial, E, 0,
      [.nonTerminal b], ⟨[], [], [.nonTerminal b], [], .root, hb, rfl, rfl, .refl _⟩, hb, hE, rfl⟩

/-- Without repeated names, the lowered grammar is LR(1) exactly if the user's grammar is. -/
theorem Lowered.lr1_iff (hl : Lowered mkPath asts convs g nts ts) (hwf : g.WF)
    (hnd : (asts.map (·.name)).Nodup) : g.IsLR1 ↔ ULR1 asts := by
  constructor
  · intro h d hd hpub uγ uc um um' h1 h2
    obtain ⟨l1, l2, rfl⟩ := List.append_of_mem hd
    obtain ⟨E, nt, b, n', e1, e2, e3, _⟩ := hl.pub_mk rfl hpub
    obtain ⟨b, hb1, hb2⟩ := hl.entry_name hnd e1 e2
    rw [e3] at hb1
    have hE : g.isPublic E = true := by unfold Grammar.isPublic; rw [e1]; exact e2
    obtain ⟨γ, c, m, a1, a2, a3, a4⟩ := hl.user_wants hE hb2 hb1 h1
    obtain ⟨γ', c', m', b1, b2, b3, b4⟩ := hl.user_wants hE hb2 hb1 h2
    have := names_func a1 b1
    subst this
    have := a2.func b2
    subst this
    have := h E γ c m m' hE a4 b4
    subst this
    exact hl.move_inj a3 b3
  · intro h E γ c m m' hE h1 h2
    obtain ⟨nt, e1, e2⟩ : ∃ nt, g.nonTerminals[E]? = some nt ∧ nt.isPublic = true := by
      unfold Grammar.isPublic at hE
      cases hn : g.nonTerminals[E]? with
      | none => rw [hn] at hE; cases hE
      | some nt => rw [hn] at hE; exact ⟨nt, rfl, hE⟩
    obtain ⟨b, hb1, hb2⟩ := hl.entry_name hnd e1 e2
    obtain ⟨d, _, _, hd, hdp, hdn, _⟩ := hl.pub e1 e2
    rw [hdn] at hb1
    obtain ⟨uγ, uc, um, a1, a2, a3, a4⟩ := hl.wants_user hwf hE hb2 hb1 h1
    obtain ⟨uγ', uc', um', b1, b2, b3, b4⟩ := hl.wants_user hwf hE hb2 hb1 h2
    have := hl.names_inj_list a1 b1
    subst this
    have := hl.la_inj a2 b2
    subst this
    have := h d hd hdp uγ uc um um' a4 b4
    subst this
    exact a3.func b3

theorem Lowered.hasProd_named (hl : Lowered mkPath asts convs g nts ts) {nt p : Nat} {α : List Symbol}
    (hpriv : g.isPublic nt = false) (hp : g.HasProd nt p α) : ∃ n, nts.get? n = some nt := by
  by_contra hc
  obtain ⟨m, pr, h1, h2, _⟩ := hp
  have hm : m.isPublic = false := by
    unfold Grammar.isPublic at hpriv; rw [h1] at hpriv; simpa using hpriv
  rw [hl.priv h1 hm (fun n hn => hc ⟨n, hn⟩)] at h2
  simp at h2

/-- The user's name for a non-terminal of a production, and what comes before it. -/
theorem Lowered.occurs_names (hl : Lowered mkPath asts convs g nts ts) {n : String} {nt p : Nat}
    (hn : nts.get? n = some nt) {l r : List Symbol} {b : Nat}
    (hp : g.HasProd nt p (l ++ .nonTerminal b :: r)) :
    ∃ ul n' ur, UHasProd asts n p (ul ++ .nt n' :: ur) ∧ List.Forall₂ (Names nts ts) ul l ∧
      nts.get? n' = some b ∧ List.Forall₂ (Names nts ts) ur r := by
  obtain ⟨us, h1, h2⟩ := hl.hasProd_names hn hp
  obtain ⟨ul, ur, rfl, h3, h4⟩ := forall₂_append_right h1
  cases h4 with
  | @cons u _ ur _ h5 h6 =>
    cases u with
    | term t => cases h5
    | nt n' => exact ⟨ul, n', ur, h2, h3, h5, h6⟩

theorem Lowered.relevant (hl : Lowered mkPath asts convs g nts ts) (hwf : g.WF) {b : Nat}
    (h : g.Relevant b) : ∃ n, nts.get? n = some b ∧ URelevant asts n := by
  induction h with
  | behind h =>
    obtain ⟨nt, p, α, c, l, r, hp, hl0⟩ := h
    have hpriv : g.isPublic nt = false := by
      by_contra hc
      obtain ⟨h1, b, h2⟩ := hwf.pub (nt := nt) (by simpa using hc)
      obtain rfl : p = 0 := by have := hp.lt; omega
      have := congrArg List.length (hp.rhs_eq.symm.trans h2.rhs_eq)
      simp at this
      omega
    obtain ⟨n, hn⟩ := hl.hasProd_named hpriv hp
    obtain ⟨ul, m, ur, h1, h2, h3, h4⟩ := hl.occurs_names hn hp
    obtain ⟨ul', ur', rfl, h5, h6⟩ := forall₂_append_right h4
    cases h6 with
    | @cons u _ ur _ h7 h8 =>
      cases u with
      | term t => cases h7
      | nt n' =>
        obtain ⟨_, e1, d1⟩ := hl.derives_user hl0 h5
        cases e1
        exact ⟨n', h7, .behind h1 d1⟩
  | leading _ hp hl0 ih =>
    obtain ⟨n, hn, hr⟩ := ih
    obtain ⟨ul, m, ur, h1, h2, h3, h4⟩ := hl.occurs_names hn hp
    obtain ⟨_, e1, d1⟩ := hl.derives_user hl0 h2
    cases e1
    exact ⟨m, h3, .leading hr h1 d1⟩

/-- The condition on nullable non-terminals carries over to the lowered grammar. -/
theorem Lowered.harmless (hl : Lowered mkPath asts convs g nts ts) (hwf : g.WF) (h : UHarmless asts) :
    g.HarmlessRelevant := by
  intro nt p α1 b α2 hrel hp hα hb
  obtain ⟨n, hn, hrel⟩ := hl.relevant hwf hrel
  obtain ⟨us, h1, h2⟩ := hl.hasProd_names hn hp
  obtain ⟨ul, ur, rfl, h3, h4⟩ := forall₂_append_right h1
  cases h4 with
  | @cons u _ ur _ h5 h6 =>
    cases u with
    | term t => cases h5
    | nt n' =>
      obtain ⟨_, e1, d1⟩ := hl.derives_user hα h3
      cases e1
      obtain ⟨_, e2, d2⟩ := hl.derives_user hb (l := [.nt n']) (.cons h5 .nil)
      cases e2
      have h5' : nts.get? n' = some b := h5
      obtain ⟨⟨j, k1⟩, k2⟩ := h n p ul n' ur hrel h2 d1 d2
      obtain ⟨α, k3, k4⟩ := hl.uhasProd_names h5' k1
      cases k3
      refine ⟨⟨j, k4⟩, ?_⟩
      rcases k2 with rfl | k2
      · rw [hn] at h5'; cases h5'; exact .inl rfl
      · refine .inr ?_
        rintro t ⟨x, hx⟩
        obtain ⟨m, m1, m2⟩ := hl.derives_user hx (l := [.nt n']) (.cons h5 .nil)
        cases m1 with
        | @cons u _ m _ m3 _ =>
          cases u with
          | nt _ => cases m3
          | term s => exact k2 s m m2

end Parsegen
