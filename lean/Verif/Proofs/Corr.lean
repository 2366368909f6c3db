import Verif.Proofs.ItemsAt
import Verif.Proofs.Names
import Verif.Proofs.FirstComplete
import Verif.Spec.Valid

/-! # Grammars that correspond up to numbering

`N a a'` relates non-terminals of `g` to non-terminals of `g'`, `T t t'` terminals.  Corresponding
non-terminals have the same productions, in any order; nothing is said about the others. -/

namespace Parsegen

variable {X Ty : Type}

/-- Corresponding symbols. -/
def SymCorr (N T : Nat → Nat → Prop) : Symbol → Symbol → Prop
  | .nonTerminal a, .nonTerminal b => N a b
  | .terminal a, .terminal b => T a b
  | _, _ => False

/-- Corresponding productions: the same action and binders, corresponding symbols. -/
def ProdCorr (N T : Nat → Nat → Prop) (pr pr' : Production X) : Prop :=
  List.Forall₂ (fun s s' => s.binder.map (·.name) = s'.binder.map (·.name) ∧
    SymCorr N T s.symbol s'.symbol) pr.symbols pr'.symbols ∧ pr.action = pr'.action

/-- Corresponding lookaheads. -/
def LaCorr (T : Nat → Nat → Prop) : Option Nat → Option Nat → Prop
  | none, none => True
  | some a, some b => T a b
  | _, _ => False

/-- The grammars correspond on the related symbols. -/
structure GCorr (g g' : Grammar X Ty) (N T : Nat → Nat → Prop) : Prop where
  nt_fun : ∀ {a b b'}, N a b → N a b' → b = b'
  nt_inj : ∀ {a a' b}, N a b → N a' b → a = a'
  t_fun : ∀ {a b b'}, T a b → T a b' → b = b'
  t_inj : ∀ {a a' b}, T a b → T a' b → a = a'
  pub : ∀ {a b}, N a b → g.isPublic a = g'.isPublic b
  fwd : ∀ {b b' p pr}, N b b' → g.getProduction? b p = some pr →
    ∃ p' pr', g'.getProduction? b' p' = some pr' ∧ ProdCorr N T pr pr'
  bwd : ∀ {b b' p' pr'}, N b b' → g'.getProduction? b' p' = some pr' →
    ∃ p pr, g.getProduction? b p = some pr ∧ ProdCorr N T pr pr'
  name : ∀ {t t'}, T t t' → ∃ n, g.terminals[t]? = some n ∧ g'.terminals[t']? = some n

/-- The relation the other way round. -/
def conv (R : Nat → Nat → Prop) : Nat → Nat → Prop := fun a b => R b a

variable {g g' : Grammar X Ty} {N T : Nat → Nat → Prop}

theorem symCorr_conv {s s' : Symbol} (h : SymCorr N T s s') : SymCorr (conv N) (conv T) s' s := by
  cases s <;> cases s' <;> exact h

theorem laCorr_conv {c c' : Option Nat} (h : LaCorr T c c') : LaCorr (conv T) c' c := by
  cases c <;> cases c' <;> exact h

theorem symCorrs_conv {l l' : List Symbol} (h : List.Forall₂ (SymCorr N T) l l') :
    List.Forall₂ (SymCorr (conv N) (conv T)) l' l := by
  induction h with
  | nil => exact .nil
  | cons h _ ih => exact .cons (symCorr_conv h) ih

theorem prodCorr_conv {pr pr' : Production X} (h : ProdCorr N T pr pr') :
    ProdCorr (conv N) (conv T) pr' pr := by
  obtain ⟨h1, h2⟩ := h
  refine ⟨?_, h2.symm⟩
  generalize pr.symbols = l, pr'.symbols = l' at h1 ⊢
  induction h1 with
  | nil => exact .nil
  | cons h _ ih => exact .cons ⟨h.1.symm, symCorr_conv h.2⟩ ih

theorem GCorr.symm (h : GCorr g g' N T) : GCorr g' g (conv N) (conv T) where
  nt_fun := h.nt_inj
  nt_inj := h.nt_fun
  t_fun := h.t_inj
  t_inj := h.t_fun
  pub h1 := (h.pub h1).symm
  fwd h1 h2 := by
    obtain ⟨p, pr, h3, h4⟩ := h.bwd h1 h2
    exact ⟨p, pr, h3, prodCorr_conv h4⟩
  bwd h1 h2 := by
    obtain ⟨p, pr, h3, h4⟩ := h.fwd h1 h2
    exact ⟨p, pr, h3, prodCorr_conv h4⟩
  name h1 := by
    obtain ⟨n, h2, h3⟩ := h.name h1
    exact ⟨n, h3, h2⟩

theorem ProdCorr.syms {pr pr' : Production X} (h : ProdCorr N T pr pr') :
    List.Forall₂ (SymCorr N T) pr.syms pr'.syms := by
  obtain ⟨h1, _⟩ := h
  unfold Production.syms
  generalize pr.symbols = l, pr'.symbols = l' at h1 ⊢
  induction h1 with
  | nil => exact .nil
  | cons h _ ih => exact .cons h.2 ih

theorem GCorr.sym_fun (h : GCorr g g' N T) {s a b : Symbol} (h1 : SymCorr N T s a)
    (h2 : SymCorr N T s b) : a = b := by
  cases s <;> cases a <;> cases b <;> simp only [SymCorr] at h1 h2
  · rw [h.nt_fun h1 h2]
  · rw [h.t_fun h1 h2]

theorem GCorr.syms_fun (h : GCorr g g' N T) {l a b : List Symbol}
    (h1 : List.Forall₂ (SymCorr N T) l a) (h2 : List.Forall₂ (SymCorr N T) l b) : a = b := by
  induction h1 generalizing b with
  | nil => cases h2; rfl
  | cons h3 _ ih =>
    cases h2 with
    | cons h4 h5 => rw [h.sym_fun h3 h4, ih h5]

theorem GCorr.la_fun (h : GCorr g g' N T) {c a b : Option Nat} (h1 : LaCorr T c a)
    (h2 : LaCorr T c b) : a = b := by
  cases c <;> cases a <;> cases b <;> simp only [LaCorr] at h1 h2
  · rfl
  · rw [h.t_fun h1 h2]

theorem hasProd_getProduction {b p : Nat} {α : List Symbol} :
    g.HasProd b p α ↔ ∃ pr, g.getProduction? b p = some pr ∧ α = pr.syms := by
  unfold Grammar.HasProd Grammar.getProduction? Production.syms
  constructor
  · rintro ⟨n, pr, h1, h2, h3⟩
    exact ⟨pr, by rw [h1]; exact h2, h3⟩
  · rintro ⟨pr, h1, h2⟩
    obtain ⟨n, h3, h4⟩ := Option.bind_eq_some_iff.1 h1
    exact ⟨n, pr, h3, h4, h2⟩

/-! ## Derivations -/

theorem GCorr.produces (h : GCorr g g' N T) {α β α' : List Symbol} (hp : g.Produces α β)
    (hα : List.Forall₂ (SymCorr N T) α α') :
    ∃ β', List.Forall₂ (SymCorr N T) β β' ∧ g'.Produces α' β' := by
  cases hp with
  | mk u v δ nt p hp =>
    obtain ⟨u', r', rfl, h1, h2⟩ := forall₂_append_left hα
    cases h2 with
    | @cons _ x _ v' h3 h4 =>
      cases x with
      | terminal t => cases h3
      | nonTerminal nt' =>
        obtain ⟨pr, h5, rfl⟩ := hasProd_getProduction.1 hp
        obtain ⟨p', pr', h6, h7⟩ := h.fwd h3 h5
        exact ⟨u' ++ pr'.syms ++ v', forall₂_append (forall₂_append h1 h7.syms) h4,
          .mk u' v' _ nt' p' (hasProd_getProduction.2 ⟨pr', h6, rfl⟩)⟩

theorem GCorr.derives (h : GCorr g g' N T) {α β α' : List Symbol} (hd : g.Derives α β)
    (hα : List.Forall₂ (SymCorr N T) α α') :
    ∃ β', List.Forall₂ (SymCorr N T) β β' ∧ g'.Derives α' β' := by
  induction hd with
  | refl => exact ⟨α', hα, .refl _⟩
  | tail _ s ih =>
    obtain ⟨β', h1, h2⟩ := ih
    obtain ⟨γ', h3, h4⟩ := h.produces s h1
    exact ⟨γ', h3, .tail h2 h4⟩

theorem GCorr.nullable (h : GCorr g g' N T) {b b' : Nat} (hb : N b b') (hn : g.Nullable b) :
    g'.Nullable b' := by
  obtain ⟨_, h1, h2⟩ := h.derives hn (α' := [.nonTerminal b']) (.cons hb .nil)
  cases h1
  exact h2

theorem GCorr.begins (h : GCorr g g' N T) {b b' t : Nat} (hb : N b b') (hn : g.Begins b t) :
    ∃ t', T t t' ∧ g'.Begins b' t' := by
  obtain ⟨x, hn⟩ := hn
  obtain ⟨_, h1, h2⟩ := h.derives hn (α' := [.nonTerminal b']) (.cons hb .nil)
  cases h1 with
  | @cons _ s _ x' h3 h4 =>
    cases s with
    | nonTerminal _ => cases h3
    | terminal t' => exact ⟨t', h3, x', h2⟩

/-! ## FIRST tables -/

/-- The FIRST tables correspond (one direction). -/
structure FCorr (g g' : Grammar X Ty) (F F' : FirstTable) (N T : Nat → Nat → Prop) : Prop where
  sound : FirstSound g F
  sound' : FirstSound g' F'
  terms : ∀ {b b' t}, N b b' → g.Behind b → g'.Behind b' → t ∈ (F.get b).terminals →
    ∃ t', T t t' ∧ t' ∈ (F'.get b').terminals
  empty : ∀ {b b'}, N b b' → g.Behind b → g'.Behind b' → (F.get b).empty = true →
    (F'.get b').empty = true

/-- A sound table and a complete one. -/
theorem GCorr.fcorr (h : GCorr g g' N T) {F F' : FirstTable} (hs : FirstSound g F)
    (hs' : FirstSound g' F') (hc : FirstEnough g' F') :
    FCorr g g' F F' N T where
  sound := hs
  sound' := hs'
  terms hb _ hb' ht := by
    obtain ⟨t', h1, h2⟩ := h.begins hb (hs.terminals _ _ ht)
    exact ⟨t', h1, hc.terminals _ _ hb' h2⟩
  empty hb _ hb' he := hc.empty _ hb' (h.nullable hb (hs.empty _ he))

/-! ## Items -/

variable {F F' : FirstTable}

theorem FCorr.inFirst (hF : FCorr g g' F F' N T) {la : Option Nat} {β : List Symbol} {c : Option Nat}
    (h : InFirst F la β c) (hpriv : g.BehindSyms β) :
    ∀ {la' β'}, LaCorr T la la' → List.Forall₂ (SymCorr N T) β β' → g'.BehindSyms β' →
      ∃ c', LaCorr T c c' ∧ InFirst F' la' β' c' := by
  induction h with
  | nil =>
    intro la' β' h1 h2 _
    cases h2
    exact ⟨la', h1, .nil⟩
  | term t ss =>
    intro la' β' _ h2 _
    cases h2 with
    | @cons _ s _ β' h3 _ =>
      cases s with
      | nonTerminal _ => cases h3
      | terminal t' => exact ⟨some t', h3, .term _ _⟩
  | nt ht =>
    intro la' β' _ h2 hb
    cases h2 with
    | @cons _ s _ β' h3 _ =>
      cases s with
      | terminal _ => cases h3
      | nonTerminal b' =>
        obtain ⟨t', h4, h5⟩ := hF.terms h3 hpriv.head hb.head ht
        exact ⟨some t', h4, .nt h5⟩
  | skip he _ ih =>
    intro la' β' h1 h2 hb
    cases h2 with
    | @cons _ s _ β' h3 h4 =>
      cases s with
      | terminal _ => cases h3
      | nonTerminal b' =>
        have he' := hF.empty h3 hpriv.head hb.head he
        obtain ⟨c', h5, h6⟩ := ih (hpriv.tail (hF.sound.empty _ he)) h1 h4
          (hb.tail (hF.sound'.empty _ he'))
        exact ⟨c', h5, .skip he' h6⟩

/-- Corresponding items. -/
structure ItemCorr (g g' : Grammar X Ty) (N T : Nat → Nat → Prop) (it it' : Item) : Prop where
  nt : N it.nt it'.nt
  prod : ∃ pr pr', g.getProduction? it.nt it.prod = some pr ∧
    g'.getProduction? it'.nt it'.prod = some pr' ∧ ProdCorr N T pr pr'
  cursor : it.cursor = it'.cursor
  la : LaCorr T it.la it'.la

theorem ItemCorr.hasProd {it it' : Item} (h : ItemCorr g g' N T it it') {α : List Symbol}
    (hp : g.HasProd it.nt it.prod α) :
    ∃ α', List.Forall₂ (SymCorr N T) α α' ∧ g'.HasProd it'.nt it'.prod α' := by
  obtain ⟨pr, pr', h1, h2, h3⟩ := h.prod
  obtain ⟨pr0, h4, rfl⟩ := hasProd_getProduction.1 hp
  rw [h1] at h4; cases h4
  exact ⟨_, h3.syms, hasProd_getProduction.2 ⟨pr', h2, rfl⟩⟩

theorem ItemCorr.conv {it it' : Item} (h : ItemCorr g g' N T it it') :
    ItemCorr g' g (conv N) (conv T) it' it where
  nt := h.nt
  prod := by
    obtain ⟨pr, pr', h1, h2, h3⟩ := h.prod
    exact ⟨pr', pr, h2, h1, prodCorr_conv h3⟩
  cursor := h.cursor.symm
  la := laCorr_conv h.la

theorem GCorr.itemsAt_ex (h : GCorr g g' N T) (hF : FCorr g g' F F' N T) (hwf : g.WF) (hwf' : g'.WF)
    {E E' : Nat} (hE : N E E') (hpub : g.isPublic E = true) {γ : List Symbol} {it : Item}
    (hi : ItemsAt g F E γ it) :
    ∃ γ' it', List.Forall₂ (SymCorr N T) γ γ' ∧ ItemCorr g g' N T it it' ∧
      ItemsAt g' F' E' γ' it' := by
  induction hi with
  | entry =>
    refine ⟨[], ⟨E', 0, 0, none⟩, .nil, ⟨hE, ?_, rfl, trivial⟩, .entry⟩
    obtain ⟨_, b, hb⟩ := hwf.pub hpub
    obtain ⟨pr, h2, _⟩ := hasProd_getProduction.1 hb
    obtain ⟨p', pr', h3, h4⟩ := h.fwd hE h2
    have h5 : p' = 0 := by
      have := (hwf'.pub (nt := E') (by rw [← h.pub hE]; exact hpub)).1
      have h6 := (hasProd_getProduction.2 ⟨pr', h3, rfl⟩ : g'.HasProd E' p' _).lt
      omega
    subst h5
    exact ⟨pr, pr', h2, h3, h4⟩
  | @advance γ nt p α s β la hi hp ih =>
    obtain ⟨γ', ⟨nt', p', k, la'⟩, h1, h2, h3⟩ := ih
    obtain ⟨_, h4, h5⟩ := h2.hasProd hp
    obtain ⟨α', r', rfl, h6, h7⟩ := forall₂_append_left h4
    have hk : α'.length = k := by rw [← h6.length_eq]; exact h2.cursor
    subst hk
    cases h7 with
    | @cons _ s' _ β' h8 h9 =>
      exact ⟨γ' ++ [s'], ⟨nt', p', α'.length + 1, la'⟩, forall₂_append h1 (.cons h8 .nil),
        ⟨h2.nt, h2.prod, by rw [h6.length_eq], h2.la⟩, .advance h3 h5⟩
  | @pred γ nt p α b β la q δ c hi hp hq hf ih =>
    obtain ⟨γ', ⟨nt', p', k, la'⟩, h1, h2, h3⟩ := ih
    obtain ⟨_, h4, h5⟩ := h2.hasProd hp
    obtain ⟨α', r', rfl, h6, h7⟩ := forall₂_append_left h4
    have hk : α'.length = k := by rw [← h6.length_eq]; exact h2.cursor
    subst hk
    cases h7 with
    | @cons _ s' _ β' h8 h9 =>
      cases s' with
      | terminal _ => cases h8
      | nonTerminal b' =>
        obtain ⟨c', h10, h11⟩ := hF.inFirst hf hp.behindSyms h2.la h9 h5.behindSyms
        obtain ⟨pr, h12, rfl⟩ := hasProd_getProduction.1 hq
        obtain ⟨q', pr', h13, h14⟩ := h.fwd h8 h12
        exact ⟨γ', ⟨b', q', 0, c'⟩, h1, ⟨h8, ⟨pr, pr', h12, h13, h14⟩, rfl, h10⟩,
          .pred h3 h5 (hasProd_getProduction.2 ⟨pr', h13, rfl⟩) h11⟩

theorem GCorr.itemsAt (h : GCorr g g' N T) (hF : FCorr g g' F F' N T) (hwf : g.WF) (hwf' : g'.WF)
    {E E' : Nat} (hE : N E E') (hpub : g.isPublic E = true) {γ γ' : List Symbol}
    (hγ : List.Forall₂ (SymCorr N T) γ γ') {it : Item} (hi : ItemsAt g F E γ it) :
    ∃ it', ItemCorr g g' N T it it' ∧ ItemsAt g' F' E' γ' it' := by
  obtain ⟨γ1, it', h1, h2, h3⟩ := h.itemsAt_ex hF hwf hwf' hE hpub hi
  cases h.syms_fun h1 hγ
  exact ⟨it', h2, h3⟩

/-! ## Moves -/

/-- Corresponding moves. -/
def MoveCorr (g g' : Grammar X Ty) (N T : Nat → Nat → Prop) : Move → Move → Prop
  | .shift, .shift => True
  | .accept, .accept => True
  | .reduce b p, .reduce b' p' => N b b' ∧ ∃ pr pr', g.getProduction? b p = some pr ∧
      g'.getProduction? b' p' = some pr' ∧ ProdCorr N T pr pr'
  | _, _ => False

theorem GCorr.wants (h : GCorr g g' N T) (hF : FCorr g g' F F' N T) (hwf : g.WF) (hwf' : g'.WF)
    {E E' : Nat} (hE : N E E') (hpub : g.isPublic E = true) {γ γ' : List Symbol}
    (hγ : List.Forall₂ (SymCorr N T) γ γ') {c c' : Option Nat} (hc : LaCorr T c c') {m : Move}
    (hm : g.Wants (ItemsAt g F E γ) c m) :
    ∃ m', MoveCorr g g' N T m m' ∧ g'.Wants (ItemsAt g' F' E' γ') c' m' := by
  cases m with
  | shift =>
    obtain ⟨nt, p, α, t, β, la, h1, h2, rfl⟩ := hm
    obtain ⟨⟨nt', p', k, la'⟩, h3, h4⟩ := h.itemsAt hF hwf hwf' hE hpub hγ h1
    obtain ⟨_, h5, h6⟩ := h3.hasProd h2
    obtain ⟨α', r', rfl, h7, h8⟩ := forall₂_append_left h5
    have hk : α'.length = k := by rw [← h7.length_eq]; exact h3.cursor
    subst hk
    cases h8 with
    | @cons _ s' _ β' h9 h10 =>
      cases s' with
      | nonTerminal _ => cases h9
      | terminal t' =>
        have : c' = some t' := h.la_fun hc (b := some t') h9
        exact ⟨.shift, trivial, nt', p', α', t', β', la', h4, h6, this⟩
  | accept =>
    obtain ⟨nt, p, α, h1, h2, h3, rfl⟩ := hm
    obtain ⟨⟨nt', p', k, la'⟩, h4, h5⟩ := h.itemsAt hF hwf hwf' hE hpub hγ h1
    obtain ⟨α', h6, h7⟩ := h4.hasProd h2
    have hk : α'.length = k := by rw [← h6.length_eq]; exact h4.cursor
    subst hk
    have hla : la' = none := h.la_fun (c := none) h4.la (b := none) trivial
    subst hla
    have hc' : c' = none := h.la_fun hc (b := none) trivial
    exact ⟨.accept, trivial, nt', p', α', h5, h7, by rw [← h.pub h4.nt]; exact h3, hc'⟩
  | reduce b p =>
    obtain ⟨α, h1, h2, h3⟩ := hm
    obtain ⟨⟨nt', p', k, la'⟩, h4, h5⟩ := h.itemsAt hF hwf hwf' hE hpub hγ h1
    obtain ⟨α', h6, h7⟩ := h4.hasProd h2
    have hk : α'.length = k := by rw [← h6.length_eq]; exact h4.cursor
    subst hk
    have hla : la' = c' := h.la_fun (c := c) h4.la hc
    subst hla
    exact ⟨.reduce nt' p', ⟨h4.nt, h4.prod⟩, α', h5, h7, by rw [← h.pub h4.nt]; exact h3⟩

end Parsegen
