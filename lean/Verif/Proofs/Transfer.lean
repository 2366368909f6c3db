import Verif.Proofs.LowerSpec
import Verif.Spec.Semantics

/-! # Derivations of the lowered grammar are derivations of the user's grammar -/

namespace Parsegen

variable {X Ty Tok Val V W : Type} {mkPath : String → X} {asts : List (AstNonTerminal X Ty)}
  {convs : List (Conversion Ty)} {g : Grammar X Ty} {nts ts : AMap String Nat}

theorem forall₂_map_right' {α β γ : Type} {R : α → γ → Prop} {f : β → γ} {a : List α} {b : List β}
    (h : List.Forall₂ (fun x y => R x (f y)) a b) : List.Forall₂ R a (b.map f) := by
  induction h with
  | nil => exact .nil
  | cons h _ ih => exact .cons h ih

/-- Lowering of a symbol without binders. -/
def LowersPlain (nts ts : AMap String Nat) (s : AstSymbol) (x : Symbol) : Prop :=
  (∃ n i, s.plain = some (.nt n) ∧ nts.get? n = some i ∧ x = .nonTerminal i) ∨
  (∃ t i, s.plain = some (.term t) ∧ ts.get? t = some i ∧ x = .terminal i)

theorem LowersProd.plain {p : AstProduction X} {pr : Production X} (h : LowersProd nts ts p pr) :
    List.Forall₂ (LowersPlain nts ts) p.symbols (pr.symbols.map (·.symbol)) :=
  forall₂_map_right' (h.1.imp fun _ _ h => h.2)

theorem forall₂_get {α β : Type} {R : α → β → Prop} {a : List α} {b : List β}
    (h : List.Forall₂ R a b) {i : Nat} {x : α} (hx : a[i]? = some x) :
    ∃ y, b[i]? = some y ∧ R x y := by
  induction h generalizing i with
  | nil => simp at hx
  | cons h _ ih =>
    cases i with
    | zero => simp at hx; subst hx; exact ⟨_, rfl, h⟩
    | succ i => simpa using ih (by simpa using hx)

theorem forall₂_get' {α β : Type} {R : α → β → Prop} {a : List α} {b : List β}
    (h : List.Forall₂ R a b) {i : Nat} {y : β} (hy : b[i]? = some y) :
    ∃ x, a[i]? = some x ∧ R x y := by
  induction h generalizing i with
  | nil => simp at hy
  | cons h _ ih =>
    cases i with
    | zero => simp at hy; subst hy; exact ⟨_, rfl, h⟩
    | succ i => simpa using ih (by simpa using hy)

/-- Production `p` of the non-terminal called `n`, both ways. -/
theorem Lowered.hasProd_user (hl : Lowered mkPath asts convs g nts ts) {n : String} {j : Nat}
    (hn : nts.get? n = some j) {p : Nat} {α : List Symbol} (hp : g.HasProd j p α) :
    ∃ q pr, (userProds asts n)[p]? = some q ∧ LowersProd nts ts q pr ∧
      g.getProduction? j p = some pr ∧ α = pr.symbols.map (·.symbol) := by
  obtain ⟨nt, pr, h1, h2, rfl⟩ := hp
  obtain ⟨nt', _, h3, _, _, _, _, h4⟩ := hl.prods hn
  rw [h1] at h3; cases h3
  obtain ⟨q, hq, hqr⟩ := forall₂_get' h4 h2
  exact ⟨q, pr, hq, hqr, by simp [Grammar.getProduction?, h1, h2], rfl⟩

theorem Lowered.user_hasProd (hl : Lowered mkPath asts convs g nts ts) {n : String} {j : Nat}
    (hn : nts.get? n = some j) {p : Nat} {q : AstProduction X}
    (hq : (userProds asts n)[p]? = some q) :
    ∃ pr, LowersProd nts ts q pr ∧ g.getProduction? j p = some pr ∧
      g.HasProd j p (pr.symbols.map (·.symbol)) := by
  obtain ⟨nt', _, h3, _, _, _, _, h4⟩ := hl.prods hn
  obtain ⟨pr, hpr, hqr⟩ := forall₂_get h4 hq
  exact ⟨pr, hqr, by simp [Grammar.getProduction?, h3, hpr], nt', pr, h3, hpr, rfl⟩

/-- Terminal names of tokens. -/
def ClassName (g : Grammar X Ty) (ti : Tok → Nat) (cls : Tok → String) : Prop :=
  ∀ t, g.terminals[ti t]? = some (cls t)

/-- The two algebras agree. -/
structure AlgAgree (asts : List (AstNonTerminal X Ty)) (g : Grammar X Ty) (nts ts : AMap String Nat)
    (alg : Alg Tok Val W) (ualg : UAlg X Tok Val W) : Prop where
  leaf : ∀ t, alg.leaf t = ualg.leaf t
  node : ∀ {n j p q pr us w}, nts.get? n = some j → (userProds asts n)[p]? = some q →
    g.getProduction? j p = some pr → LowersProd nts ts q pr →
    alg.node j p us w = ualg.node n p q us w

theorem Lowered.eval_user (hl : Lowered mkPath asts convs g nts ts) {ti : Tok → Nat}
    {cls : Tok → String} (hcls : ClassName g ti cls) {alg : Alg Tok Val W}
    {ualg : UAlg X Tok Val W} (hag : AlgAgree asts g nts ts alg ualg) {α : List Symbol}
    {toks : List Tok} {w : W} {vs : List Val} {w' : W} (h : Eval g ti alg α toks w vs w') :
    ∀ ss, List.Forall₂ (LowersPlain nts ts) ss α → UEval asts cls ualg ss toks w vs w' := by
  induction h with
  | nil w => intro ss hs; cases hs; exact .nil w
  | @term t i ss' ts' w vs w' ht h ih =>
    intro ss hs
    cases hs with
    | cons h1 h2 =>
      rcases h1 with ⟨n, j, hp, hj, he⟩ | ⟨n, j, hp, hj, he⟩
      · cases he
      · cases he
        rw [hag.leaf]
        refine .term ?_ (ih _ h2)
        rw [hp]
        have h3 := (hl.tmap n i).1 hj
        rw [← ht, hcls t] at h3
        cases h3; rfl
  | @nt b p α t1 t2 w us w1 v w2 ss' vs w3 hp hc ha h ih1 ih2 =>
    intro ss hs
    cases hs with
    | cons h1 h2 =>
      rcases h1 with ⟨n, j, hpl, hj, he⟩ | ⟨n, j, hpl, hj, he⟩
      · cases he
        obtain ⟨q, pr, hq, hlow, hpr, rfl⟩ := hl.hasProd_user hj hp
        refine .nt hpl hq (ih1 _ hlow.plain) ?_ (ih2 _ h2)
        rw [← hag.node hj hq hpr hlow]; exact ha
      · cases he

theorem Lowered.user_eval (hl : Lowered mkPath asts convs g nts ts) {ti : Tok → Nat}
    {cls : Tok → String} (hcls : ClassName g ti cls) {alg : Alg Tok Val W}
    {ualg : UAlg X Tok Val W} (hag : AlgAgree asts g nts ts alg ualg) {ss : List AstSymbol}
    {toks : List Tok} {w : W} {vs : List Val} {w' : W} (h : UEval asts cls ualg ss toks w vs w') :
    ∀ α, List.Forall₂ (LowersPlain nts ts) ss α → Eval g ti alg α toks w vs w' := by
  induction h with
  | nil w => intro α hs; cases hs; exact .nil w
  | @term s t ss' ts' w vs w' hs' h ih =>
    intro α hs
    cases hs with
    | cons h1 h2 =>
      rcases h1 with ⟨n, j, hp, hj, he⟩ | ⟨n, j, hp, hj, he⟩
      · rw [hs'] at hp; cases hp
      · subst he
        rw [← hag.leaf]
        refine .term ?_ (ih _ h2)
        rw [hs'] at hp
        cases hp
        have h3 := (hl.tmap _ (ti t)).2 (hcls t)
        rw [hj] at h3
        cases h3; rfl
  | @nt s name p q t1 t2 w us w1 v w2 ss' vs w3 hs' hp hc ha h ih1 ih2 =>
    intro α hs
    cases hs with
    | cons h1 h2 =>
      rcases h1 with ⟨n, j, hpl, hj, he⟩ | ⟨n, j, hpl, hj, he⟩
      · subst he
        rw [hs'] at hpl; cases hpl
        obtain ⟨pr, hlow, hpr, hprod⟩ := hl.user_hasProd hj hp
        refine .nt hprod (ih1 _ hlow.plain) ?_ (ih2 _ h2)
        rw [hag.node hj hp hpr hlow]; exact ha
      · rw [hs'] at hpl; cases hpl

theorem bindEnv_eq_userEnv {ss : List AstSymbol} {bs : List BoundSymbol}
    (h : List.Forall₂ (LowersSym nts ts) ss bs) (vs : List (BVal V)) :
    bindEnv bs vs = userEnv ss vs := by
  induction h generalizing vs with
  | nil => unfold bindEnv userEnv; rfl
  | cons h1 _ ih =>
    cases vs with
    | nil => rfl
    | cons v vs =>
      unfold bindEnv userEnv
      funext n
      rw [h1.boundName, ih]

theorem algAgree_values (u : UserCode X V W) (fields : Tok → List V) :
    AlgAgree asts g nts ts (g.alg u fields) (userValues u fields) where
  leaf _ := rfl
  node := by
    intro n j p q pr us w hj hq hpr hlow
    unfold Grammar.alg Grammar.nodeValue userValues
    simp only
    rw [hpr, hlow.2]
    simp only
    rw [bindEnv_eq_userEnv hlow.1]

/-! ## Well-formedness -/

theorem Lowered.wf (hl : Lowered mkPath asts convs g nts ts) : g.WF := by
  have key : ∀ {nt p α} (_ : g.HasProd nt p α) (s : Symbol) (_ : s ∈ α),
      (∃ t, s = .terminal t ∧ t < g.nTerminals) ∨
      (∃ b, s = .nonTerminal b ∧ b < g.nNonTerminals ∧ g.isPublic b = false) := by
    intro nt p α hp s hs
    have hp' := hp
    obtain ⟨n, pr, hn, hpr, rfl⟩ := hp'
    by_cases hpub : n.isPublic = true
    · obtain ⟨a, b, n', _, _, _, _, hw, hb, hbp, _, _⟩ := hl.pub hn hpub
      rw [hw] at hpr
      have hpr' : pr = wrapperProd mkPath b := by
        rw [List.getElem?_eq_some_iff] at hpr
        obtain ⟨h1, h2⟩ := hpr
        simp at h1; subst h1; simpa using h2.symm
      subst hpr'
      simp [wrapperProd] at hs
      right
      exact ⟨b, hs, (List.getElem?_eq_some_iff.1 hb).1, by simp [Grammar.isPublic, hb, hbp]⟩
    · have hpub' : n.isPublic = false := by simpa using hpub
      by_cases hno : ∃ m, nts.get? m = some nt
      · obtain ⟨m, hm⟩ := hno
        obtain ⟨q, pr', _, hlow, hg, hα⟩ := hl.hasProd_user hm hp
        rw [hα] at hs
        have hpl := hlow.plain
        clear hα hlow hg
        generalize q.symbols = l1 at hpl
        generalize pr'.symbols.map (·.symbol) = l2 at hpl hs
        induction hpl with
        | nil => cases hs
        | cons h1 _ ih =>
          rcases List.mem_cons.1 hs with rfl | hs
          · rcases h1 with ⟨x, i, _, hi, rfl⟩ | ⟨x, i, _, hi, rfl⟩
            · right
              obtain ⟨nt', _, h3, _, _, _, h4, _⟩ := hl.prods hi
              exact ⟨i, rfl, (List.getElem?_eq_some_iff.1 h3).1, by simp [Grammar.isPublic, h3, h4]⟩
            · left
              exact ⟨i, rfl, (List.getElem?_eq_some_iff.1 ((hl.tmap x i).1 hi)).1⟩
          · exact ih hs
      · have := hl.priv hn hpub' (fun m hm => hno ⟨m, hm⟩)
        rw [this] at hpr; simp at hpr
  constructor
  · intro nt p α b hp hb
    rcases key hp _ hb with ⟨_, h, _⟩ | ⟨b', h, h1, _⟩
    · cases h
    · cases h; exact h1
  · intro nt p α b hp hb
    rcases key hp _ hb with ⟨_, h, _⟩ | ⟨b', h, _, h1⟩
    · cases h
    · cases h; exact h1
  · intro nt p α t hp hb
    rcases key hp _ hb with ⟨t', h, h1⟩ | ⟨b', h, _, _⟩
    · cases h; exact h1
    · cases h
  · intro nt hp
    unfold Grammar.isPublic at hp
    split at hp
    · next n hn =>
      obtain ⟨a, b, n', _, _, _, _, hw, hb, hbp, _, _⟩ := hl.pub hn hp
      refine ⟨by simp [Grammar.nProductions, hn, hw], b, n, wrapperProd mkPath b, hn, by simp [hw], rfl⟩
    · cases hp

/-! ## Entry points -/

theorem lowersPlain_nt {n : String} {j : Nat} (h : nts.get? n = some j) :
    List.Forall₂ (LowersPlain nts ts) [.nonTerminal n] [.nonTerminal j] :=
  .cons (Or.inl ⟨n, j, rfl, h, rfl⟩) .nil

/-- A derivation from an entry point is a derivation from the user's non-terminal of that name. -/
theorem Lowered.entry_sound (hl : Lowered mkPath asts convs g nts ts) {ti : Tok → Nat}
    {cls : Tok → String} (hcls : ClassName g ti cls) {alg : Alg Tok Val W}
    {ualg : UAlg X Tok Val W} (hag : AlgAgree asts g nts ts alg ualg) {E : Nat}
    {nt : NonTerminal X Ty} (hE : g.nonTerminals[E]? = some nt) (hpub : nt.isPublic = true)
    {toks : List Tok} {w : W} {v : Val} {w' : W}
    (h : Eval g ti alg [.nonTerminal E] toks w [v] w') :
    (∃ a ∈ asts, a.isPub = true ∧ a.name = nt.name) ∧
    ∃ v0 w0, UEval asts cls ualg [.nonTerminal nt.name] toks w [v0] w0 ∧
      alg.node E 0 [v0] w0 = some (v, w') := by
  obtain ⟨a, b, n', ha, hap, han, _, hw, hb, hbp, _, hor⟩ := hl.pub hE hpub
  refine ⟨⟨a, ha, hap, han.symm⟩, ?_⟩
  obtain ⟨p, α, us, w1, v', hv, hp, hc, hnode⟩ := h.nt_inv
  cases hv
  have hpα : p = 0 ∧ α = [.nonTerminal b] := by
    obtain ⟨n2, pr, h1, h2, h3⟩ := hp
    rw [hE] at h1; cases h1
    rw [hw] at h2
    obtain ⟨h4, h5⟩ := List.getElem?_eq_some_iff.1 h2
    simp at h4; subst h4
    refine ⟨rfl, ?_⟩
    rw [h3]; simp at h5; rw [← h5]; rfl
  obtain ⟨rfl, rfl⟩ := hpα
  rcases hor with hnts | hempty
  · obtain ⟨v0, hv0⟩ : ∃ v0, us = [v0] := by
      have := hc.length_eq
      match us, this with
      | [v0], _ => exact ⟨v0, rfl⟩
    subst hv0
    refine ⟨v0, w1, ?_, hnode⟩
    rw [han]
    exact hl.eval_user hcls hag hc _ (lowersPlain_nt hnts)
  · exfalso
    obtain ⟨q, β, _, _, _, _, hq, _⟩ := hc.nt_inv
    obtain ⟨n2, pr, h1, h2, _⟩ := hq
    rw [hb] at h1; cases h1
    rw [hempty] at h2; simp at h2

/-- The wrapper's action returns the value it is given. -/
theorem Lowered.wrapper_node (u : UserCode X V W) {fields : Tok → List V}
    (hl : Lowered u.mkPath asts convs g nts ts) {E : Nat} {nt : NonTerminal X Ty}
    (hE : g.nonTerminals[E]? = some nt) (hpub : nt.isPublic = true) (v : V) (w : W) :
    (g.alg u fields : Alg Tok (BVal V) W).node E 0 [.nt v] w = some (.nt v, w) := by
  obtain ⟨a, b, n', ha, hap, han, _, hw, hb, hbp, _, hor⟩ := hl.pub hE hpub
  unfold Grammar.alg Grammar.nodeValue Grammar.getProduction?
  simp only [hE, hw, Option.bind_some, List.getElem?_cons_zero, wrapperProd]
  rw [u.run_mkPath "x" _ w v (by simp [bindEnv])]
  rfl

theorem userValues_node_nt {u : UserCode X V W} {fields : Tok → List V} {n : String} {i : Nat}
    {p : AstProduction X} {us : List (BVal V)} {w : W} {v : BVal V} {w' : W}
    (h : (userValues u fields).node n i p us w = some (v, w')) : ∃ r, v = .nt r := by
  unfold userValues at h
  simp only at h
  split at h
  · simp only [Option.map_eq_some_iff] at h
    obtain ⟨r, _, h⟩ := h
    cases h; exact ⟨r.1, rfl⟩
  · cases h

/-- The value of an entry point is the value of the user's non-terminal. -/
theorem Lowered.entry_values (u : UserCode X V W) {fields : Tok → List V}
    (hl : Lowered u.mkPath asts convs g nts ts) {ti : Tok → Nat} {cls : Tok → String}
    (hcls : ClassName g ti cls) {E : Nat} {nt : NonTerminal X Ty}
    (hE : g.nonTerminals[E]? = some nt) (hpub : nt.isPublic = true) {toks : List Tok} {w : W}
    {v : V} {w' : W} (h : Eval g ti (g.alg u fields) [.nonTerminal E] toks w [.nt v] w') :
    UEval asts cls (userValues u fields) [.nonTerminal nt.name] toks w [.nt v] w' := by
  obtain ⟨_, v0, w0, h1, h2⟩ := hl.entry_sound hcls (algAgree_values u fields) hE hpub h
  have hv0 : ∃ r, v0 = .nt r := by
    cases h1 with
    | term hs h => cases hs
    | nt hs hp hc ha h => cases h; exact userValues_node_nt ha
  obtain ⟨r, rfl⟩ := hv0
  rw [hl.wrapper_node u hE hpub] at h2
  cases h2
  exact h1

/-- A derivation from the user's non-terminal gives one from its entry point. -/
theorem Lowered.entry_complete (hl : Lowered mkPath asts convs g nts ts) {ti : Tok → Nat}
    {cls : Tok → String} (hcls : ClassName g ti cls) {alg : Alg Tok Val W}
    {ualg : UAlg X Tok Val W} (hag : AlgAgree asts g nts ts alg ualg)
    {l1 l2 : List (AstNonTerminal X Ty)} {a : AstNonTerminal X Ty} (hasts : asts = l1 ++ a :: l2)
    (hpub : a.isPub = true) (hlast : ∀ b ∈ l2, b.name ≠ a.name) :
    ∃ E nt, g.nonTerminals[E]? = some nt ∧ nt.isPublic = true ∧ nt.name = a.name ∧
      ∀ {toks : List Tok} {w v0 w0 v w'}, UEval asts cls ualg [.nonTerminal a.name] toks w [v0] w0 →
        alg.node E 0 [v0] w0 = some (v, w') → Eval g ti alg [.nonTerminal E] toks w [v] w' := by
  obtain ⟨E, nt, b, n', h1, h2, h3, h4, h5, h6, _⟩ := hl.pub_mk hasts hpub
  refine ⟨E, nt, h1, h2, h3, ?_⟩
  intro toks w v0 w0 v w' hu hn
  have := hl.user_eval hcls hag hu _ (lowersPlain_nt (h6 hlast))
  exact Eval.single_nt (p := 0) ⟨nt, wrapperProd mkPath b, h1, by simp [h4], rfl⟩ this hn

/-! ## User-level evaluation and derivation -/

theorem UDerives.trans {l m r : List USym} (h1 : UDerives asts l m) (h2 : UDerives asts m r) :
    UDerives asts l r := by
  induction h2 with
  | refl => exact h1
  | tail _ s ih => exact .tail ih s

theorem UDerives.append_left {l r : List USym} (h : UDerives asts l r) (x : List USym) :
    UDerives asts (x ++ l) (x ++ r) := by
  induction h with
  | refl => exact .refl _
  | tail _ s ih =>
    refine .tail ih ?_
    cases s with
    | mk l r rhs n p hp hs =>
      simpa [List.append_assoc] using UProduces.mk (asts := asts) (x ++ l) r rhs n p hp hs

theorem UDerives.append_right {l r : List USym} (h : UDerives asts l r) (x : List USym) :
    UDerives asts (l ++ x) (r ++ x) := by
  induction h with
  | refl => exact .refl _
  | tail _ s ih =>
    refine .tail ih ?_
    cases s with
    | mk l r rhs n p hp hs =>
      simpa [List.append_assoc] using UProduces.mk (asts := asts) l (r ++ x) rhs n p hp hs

/-- What is evaluated is derived. -/
theorem UEval.derives {cls : Tok → String} {ualg : UAlg X Tok Val W} {ss : List AstSymbol}
    {toks : List Tok} {w : W} {vs : List Val} {w' : W} (h : UEval asts cls ualg ss toks w vs w') :
    ∃ l, ss.map (·.plain) = l.map some ∧
      UDerives asts l (toks.map fun t => .term (cls t)) := by
  induction h with
  | nil => exact ⟨[], rfl, .refl _⟩
  | @term s t ss ts w vs w' hs h ih =>
    obtain ⟨l, h1, h2⟩ := ih
    exact ⟨.term (cls t) :: l, by simp [hs, h1], h2.append_left [.term (cls t)]⟩
  | @nt s name i p t1 t2 w us w1 v w2 ss vs w3 hs hp hc ha h ih1 ih2 =>
    obtain ⟨l1, h1, d1⟩ := ih1
    obtain ⟨l2, h2, d2⟩ := ih2
    refine ⟨.nt name :: l2, by simp [hs, h2], ?_⟩
    have step : UDerives asts (.nt name :: l2) (l1 ++ l2) :=
      .tail (.refl _) (by
        simpa using UProduces.mk (asts := asts) [] l2 l1 name p (List.mem_of_getElem? hp) h1)
    rw [List.map_append]
    exact step.trans ((d1.append_right l2).trans (d2.append_left _))

theorem UEval.sentence {cls : Tok → String} {ualg : UAlg X Tok Val W} {n : String}
    {toks : List Tok} {w : W} {vs : List Val} {w' : W}
    (h : UEval asts cls ualg [.nonTerminal n] toks w vs w') :
    USentence asts n (toks.map cls) := by
  obtain ⟨l, h1, h2⟩ := h.derives
  have : l = [.nt n] := by
    cases l with
    | nil => simp at h1
    | cons x l =>
      simp [AstSymbol.plain] at h1
      obtain ⟨h1, rfl⟩ := h1
      rw [← h1]
  subst this
  unfold USentence
  rw [List.map_map]
  exact h2

end Parsegen
