import Verif.Proofs.PubFirst
import Verif.Proofs.CorrAccept

/-! # FIRST sets and `pub`: passes -/

namespace Parsegen

variable {X Ty : Type} {mkPath : String → X} {asts asts' : List (AstNonTerminal X Ty)}
  {convs convs' : List (Conversion Ty)} {g g' : Grammar X Ty} {nts ts nts' ts' : AMap String Nat}

/-- Numbers of the same name. -/
def CoreRel (nts nts' : AMap String Nat) (j j' : Nat) : Prop :=
  ∃ n, nts.get? n = some j ∧ nts'.get? n = some j'

theorem coreRel_oneOne (hl : Lowered mkPath asts convs g nts ts)
    (hl' : Lowered mkPath asts' convs' g' nts' ts') : OneOne (CoreRel nts nts') where
  fn := by
    rintro a b b' ⟨n, h1, h2⟩ ⟨m, h3, h4⟩
    have := hl.inj h1 h3; subst this
    rw [h2] at h4; cases h4; rfl
  inj := by
    rintro a a' b ⟨n, h1, h2⟩ ⟨m, h3, h4⟩
    have := hl'.inj h2 h4; subst this
    rw [h1] at h3; cases h3; rfl

theorem termRel_oneOne (hl : Lowered mkPath asts convs g nts ts)
    (hl' : Lowered mkPath asts' convs' g' nts' ts') : OneOne (TermRel ts ts') where
  fn h1 h2 := termRel_fun hl.tmap h1 h2
  inj h1 h2 := termRel_fun hl'.tmap h1.conv h2.conv

/-- The numbers of a definition. -/
theorem Lowered.block (hl : Lowered mkPath asts convs g nts ts) (hnd : (asts.map (·.name)).Nodup)
    {l1 l2 : List (AstNonTerminal X Ty)} {a : AstNonTerminal X Ty} (ha : asts = l1 ++ a :: l2) :
    nts.get? a.name = some (l1.map (·.width)).sum ∧
    (∃ n, g.nonTerminals[(l1.map (·.width)).sum]? = some n ∧
      List.Forall₂ (LowersProd nts ts) a.productions n.productions) ∧
    (a.isPub = true → ∃ n, g.nonTerminals[(l1.map (·.width)).sum + 1]? = some n ∧
      n.productions = [wrapperProd mkPath (l1.map (·.width)).sum]) := by
  have hmem : a ∈ asts := by rw [ha]; simp
  obtain ⟨j, hj⟩ := (hl.idx a.name).2 ⟨a, hmem, rfl⟩
  have hj' : j = (l1.map (·.width)).sum := by
    obtain ⟨m1, b, m2, e1, e2, _, e3⟩ := hl.num hj
    have hb : b = a := mem_unique hnd (by rw [e1]; simp) hmem e2
    subst hb
    have : m1 = l1 := by
      have hnd2 : asts.Nodup := List.Nodup.of_map _ hnd
      rw [ha] at e1 hnd2
      have := List.append_eq_append_iff.1 e1
      rcases this with ⟨c, h1, h2⟩ | ⟨c, h1, h2⟩
      · cases c with
        | nil => simpa using h1
        | cons x c =>
          simp only [List.cons_append, List.cons.injEq] at h2
          obtain ⟨rfl, rfl⟩ := h2
          rw [List.nodup_append] at hnd2
          have := hnd2.2.1
          simp at this
      · cases c with
        | nil => simpa using h1.symm
        | cons x c =>
          simp only [List.cons_append, List.cons.injEq] at h2
          obtain ⟨rfl, rfl⟩ := h2
          rw [List.nodup_append] at hnd2
          exact absurd rfl (hnd2.2.2 b (by rw [h1]; simp) b (by simp))
    rw [e3, this]
  subst hj'
  refine ⟨hj, ?_, ?_⟩
  · obtain ⟨n, _, h1, _, _, _, _, h2⟩ := hl.prods hj
    rw [userProds_of_mem hnd hmem] at h2
    exact ⟨n, h1, h2⟩
  · intro hp
    obtain ⟨E, nt, b, n', h1, h2, _, h4, _, h6, _⟩ := hl.pub_mk ha hp
    obtain ⟨h7, h8, _⟩ := hl.wrapped h1 h2
    have hlast : ∀ c ∈ l2, c.name ≠ a.name := by
      intro c hc he
      rw [ha] at hnd
      simp only [List.map_append, List.map_cons, List.nodup_append, List.nodup_cons] at hnd
      exact hnd.2.1.1 (he ▸ List.mem_map_of_mem hc)
    have h9 := h6 hlast
    rw [hj] at h9
    cases h9
    rw [h8] at h4
    have hE : E - 1 = (l1.map (·.width)).sum := by
      simp only [wrapperProd, List.cons.injEq, Production.mk.injEq, BoundSymbol.mk.injEq,
        Symbol.nonTerminal.injEq, and_true, true_and] at h4
      exact h4
    have hE' : E = (l1.map (·.width)).sum + 1 := by omega
    subst hE'
    exact ⟨nt, h1, by rw [h8, hE]⟩

/-- What a wrapper wraps. -/
theorem Lowered.pub_succ (hl : Lowered mkPath asts convs g nts ts) (hnd : (asts.map (·.name)).Nodup)
    {j : Nat} {nt : NonTerminal X Ty} (h : g.nonTerminals[j + 1]? = some nt)
    (hp : nt.isPublic = true) : ∃ d ∈ asts, d.isPub = true ∧ nts.get? d.name = some j := by
  obtain ⟨_, h8, _⟩ := hl.wrapped h hp
  have hpr : g.getProduction? (j + 1) 0 = some (wrapperProd mkPath j) := by
    simp [Grammar.getProduction?, h, h8]
  rcases hl.key_cases hnd hpr with ⟨d, _, hn, _⟩ | ⟨d, hd, hdp, _, _, b, hb, e⟩
  · obtain ⟨n, _, e1, _, _, _, e2, _⟩ := hl.prods hn
    rw [h] at e1; cases e1
    rw [hp] at e2; cases e2
  · have : b = j := by omega
    subst this
    exact ⟨d, hd, hdp, hb⟩

/-- A pass from some non-terminal on. -/
def passFrom (o : HashOrder) (g : Grammar X Ty) (off : Nat) (s : FirstTable × Bool) :
    FirstTable × Bool :=
  ((g.nonTerminals.drop off).zipIdx off).foldl
    (fun s (n, nt) => n.productions.foldl (fun s p => firstProduction o nt p.syms s) s) s

theorem passFrom_step (o : HashOrder) {off : Nat} {n : NonTerminal X Ty}
    (h : g.nonTerminals[off]? = some n) (s : FirstTable × Bool) :
    passFrom o g off s =
      passFrom o g (off + 1) (n.productions.foldl (fun s p => firstProduction o off p.syms s) s) := by
  obtain ⟨hlt, e⟩ := List.getElem?_eq_some_iff.1 h
  unfold passFrom
  rw [List.drop_eq_getElem_cons hlt, List.zipIdx_cons, List.foldl_cons, e]

theorem passFrom_end (o : HashOrder) (s : FirstTable × Bool) :
    passFrom o g g.nNonTerminals s = s := by
  unfold passFrom Grammar.nNonTerminals
  simp

theorem firstPass_eq_from (o : HashOrder) (tbl : FirstTable) : firstPass o g tbl = passFrom o g 0 (tbl, false) :=
  rfl

/-- Between the passes, and between the definitions, a wrapper has the terminals of what it wraps. -/
def WrapInv (g : Grammar X Ty) (F : FirstTable) : Prop :=
  ∀ {j nt}, g.nonTerminals[j + 1]? = some nt → nt.isPublic = true → (F.get j).empty = false →
    ∀ t ∈ (F.get j).terminals, t ∈ (F.get (j + 1)).terminals

/-- One definition, with its wrapper. -/
theorem Lowered.block_step (hl : Lowered mkPath asts convs g nts ts)
    (hnd : (asts.map (·.name)).Nodup) (o : HashOrder) {l1 l2 : List (AstNonTerminal X Ty)}
    {a : AstNonTerminal X Ty} (ha : asts = l1 ++ a :: l2) {s : FirstTable × Bool}
    (hlen : s.1.length = g.nNonTerminals) (hJ : WrapInv g s.1) :
    ∃ n s', g.nonTerminals[(l1.map (·.width)).sum]? = some n ∧
      passFrom o g (l1.map (·.width)).sum s = passFrom o g ((l1 ++ [a]).map (·.width)).sum s' ∧
      WrapInv g s'.1 ∧
      (n.productions.foldl (fun s p => firstProduction o (l1.map (·.width)).sum p.syms s) s).2 = s'.2 ∧
      s'.1.length = g.nNonTerminals ∧
      ∀ m j, nts.get? m = some j → s'.1.get j =
        (n.productions.foldl (fun s p => firstProduction o (l1.map (·.width)).sum p.syms s) s).1.get j := by
  obtain ⟨hj, ⟨n, hn, _⟩, hw⟩ := hl.block hnd ha
  have hmem : a ∈ asts := by rw [ha]; simp
  generalize hoff : (l1.map (·.width)).sum = off at *
  have hlt : off < s.1.length := by
    rw [hlen]; exact (List.getElem?_eq_some_iff.1 hn).1
  have hL : Local off s (n.productions.foldl (fun s p => firstProduction o off p.syms s) s) :=
    Local.productions o n.productions hlt
  have hstep := passFrom_step o hn s
  generalize hs1 : n.productions.foldl (fun s p => firstProduction o off p.syms s) s = s1 at hL hstep
  -- the numbers of names are not public
  have hpriv : ∀ m j, nts.get? m = some j → ∀ nt, g.nonTerminals[j]? = some nt → nt.isPublic = false := by
    intro m j hm nt hnt
    obtain ⟨nt', _, e1, _, _, _, e2, _⟩ := hl.prods hm
    rw [hnt] at e1; cases e1; exact e2
  by_cases hpub : a.isPub = true
  · obtain ⟨w, hw1, hw2⟩ := hw hpub
    have hlt1 : off + 1 < s1.1.length := by
      rw [hL.len, hlen]; exact (List.getElem?_eq_some_iff.1 hw1).1
    have hpub1 : w.isPublic = true := by
      by_contra hc
      have hc : w.isPublic = false := by simpa using hc
      by_cases hx : ∃ m, nts.get? m = some (off + 1)
      · obtain ⟨m, hm⟩ := hx
        obtain ⟨nt', d, e1, e2, _, _, _, e3⟩ := hl.prods hm
        rw [hw1] at e1; cases e1
        rw [hw2] at e3
        generalize hps : userProds asts m = ps at e3
        cases e3 with
        | @cons q _ ps _ h1 h2 =>
          cases h2
          have hone := h1.1
          -- its only symbol is the number of a user name; that is fine, so use the declarations
          obtain ⟨E, nt, b, n', k1, k2, _, k4, _, k6, _⟩ := hl.pub_mk ha hpub
          obtain ⟨k7, k8, _⟩ := hl.wrapped k1 k2
          have hlast : ∀ c ∈ l2, c.name ≠ a.name := by
            intro c hc he
            rw [ha] at hnd
            simp only [List.map_append, List.map_cons, List.nodup_append, List.nodup_cons] at hnd
            exact hnd.2.1.1 (he ▸ List.mem_map_of_mem hc)
          have k9 := k6 hlast
          rw [hj] at k9; cases k9
          rw [k8] at k4
          have hE : E - 1 = off := by
            simp only [wrapperProd, List.cons.injEq, Production.mk.injEq, BoundSymbol.mk.injEq,
              Symbol.nonTerminal.injEq, and_true, true_and] at k4
            exact k4
          have hE' : E = off + 1 := by omega
          subst hE'
          rw [hw1] at k1; cases k1
          rw [k2] at hc; cases hc
      · have := hl.priv hw1 hc (fun m hm => hx ⟨m, hm⟩)
        rw [hw2] at this; cases this
    have hW := wrapper_step o mkPath hlt1 hL (hJ hw1 hpub1)
    have hstep2 := passFrom_step o hw1 s1
    rw [hw2] at hstep2
    dsimp only at hW
    generalize [wrapperProd mkPath off].foldl (fun s p => firstProduction o (off + 1) p.syms s) s1 = s2
      at hW hstep2
    obtain ⟨h1, h2, h3, h4⟩ := hW
    refine ⟨n, s2, hn, ?_, ?_, by rw [hs1, h1], by rw [h2, hL.len, hlen], ?_⟩
    · rw [hstep, hstep2]
      have hwd : ((l1 ++ [a]).map (·.width)).sum = off + a.width := by
        rw [List.map_append, List.sum_append, hoff]; simp
      rw [hwd]
      simp [AstNonTerminal.width, hpub]
    · intro j nt hnt hp
      by_cases hjo : j = off
      · subst hjo; exact h4
      · obtain ⟨d, _, _, hd⟩ := hl.pub_succ hnd hnt hp
        have n1 : j ≠ off + 1 := by
          rintro rfl
          rw [hpriv _ _ hd _ hw1] at hpub1; cases hpub1
        have n2 : j + 1 ≠ off := by
          rintro rfl
          rw [hpriv _ _ hj _ hnt] at hp; cases hp
        rw [h3 j n1, h3 (j + 1) (by omega), hL.other j hjo, hL.other (j + 1) n2]
        exact hJ hnt hp
    · intro m j hm
      rw [hs1]
      refine h3 j ?_
      rintro rfl
      rw [hpriv _ _ hm _ hw1] at hpub1; cases hpub1
  · refine ⟨n, s1, hn, ?_, ?_, by rw [hs1], by rw [hL.len, hlen], fun _ _ _ => by rw [hs1]⟩
    · rw [hstep]
      have hwd : ((l1 ++ [a]).map (·.width)).sum = off + a.width := by
        rw [List.map_append, List.sum_append, hoff]; simp
      rw [hwd]
      simp [AstNonTerminal.width, hpub]
    · intro j nt hnt hp
      obtain ⟨d, hd1, hd2, hd⟩ := hl.pub_succ hnd hnt hp
      have n1 : j ≠ off := by
        rintro rfl
        have := hl.inj hd hj
        have := mem_unique hnd hd1 hmem this
        subst this
        exact hpub hd2
      have n2 : j + 1 ≠ off := by
        rintro rfl
        rw [hpriv _ _ hj _ hnt] at hp; cases hp
      rw [hL.other j n1, hL.other (j + 1) n2]
      exact hJ hnt hp

theorem lowersProd_syms {q : AstProduction X} {pr pr' : Production X}
    (h : LowersProd nts ts q pr) (h' : LowersProd nts' ts' q pr') :
    List.Forall₂ (SymCorr (CoreRel nts nts') (TermRel ts ts')) pr.syms pr'.syms := by
  obtain ⟨h1, _⟩ := h
  obtain ⟨h1', _⟩ := h'
  unfold Production.syms
  generalize q.symbols = l, pr.symbols = k, pr'.symbols = k' at h1 h1'
  induction h1 generalizing k' with
  | nil => cases h1'; exact .nil
  | cons hx _ ih =>
    cases h1' with
    | cons hx' hr' =>
      refine .cons ?_ (ih _ hr')
      obtain ⟨_, ⟨n, i, e1, e2, e3⟩ | ⟨n, i, e1, e2, e3⟩⟩ := hx <;>
        obtain ⟨_, ⟨n', i', f1, f2, f3⟩ | ⟨n', i', f1, f2, f3⟩⟩ := hx' <;>
        rw [e1] at f1 <;> cases f1 <;> simp only [e3, f3]
      · exact ⟨n, e2, f2⟩
      · exact ⟨n, e2, f2⟩

theorem forall₂_comp {α β γ : Type} {R : α → β → Prop} {S : α → γ → Prop} {Q : β → γ → Prop}
    (hQ : ∀ a b c, R a b → S a c → Q b c) {l : List α} {m : List β} {k : List γ}
    (h : List.Forall₂ R l m) (h' : List.Forall₂ S l k) : List.Forall₂ Q m k := by
  induction h generalizing k with
  | nil => cases h'; exact .nil
  | cons h1 _ ih => cases h' with
    | cons h2 h3 => exact .cons (hQ _ _ _ h1 h2) (ih h3)

/-- A pass over both grammars. -/
theorem pass_rel (hl : Lowered mkPath asts convs g nts ts)
    (hl' : Lowered mkPath asts' convs' g' nts' ts') (hnd : (asts.map (·.name)).Nodup)
    (hnd' : (asts'.map (·.name)).Nodup) (o o' : HashOrder)
    {l2 l2' : List (AstNonTerminal X Ty)} (h : SameButPub l2 l2') :
    ∀ {l1 l1' : List (AstNonTerminal X Ty)}, asts = l1 ++ l2 → asts' = l1' ++ l2' →
    ∀ {s s' : FirstTable × Bool}, WrapInv g s.1 → WrapInv g' s'.1 →
      FState (CoreRel nts nts') (TermRel ts ts') g.nNonTerminals g'.nNonTerminals s s' →
      WrapInv g (passFrom o g (l1.map (·.width)).sum s).1 ∧
      WrapInv g' (passFrom o' g' (l1'.map (·.width)).sum s').1 ∧
      FState (CoreRel nts nts') (TermRel ts ts') g.nNonTerminals g'.nNonTerminals
        (passFrom o g (l1.map (·.width)).sum s) (passFrom o' g' (l1'.map (·.width)).sum s') := by
  induction h with
  | nil =>
    intro l1 l1' e e' s s' hJ hJ' hs
    rw [List.append_nil] at e e'
    subst e e'
    rw [← hl.size, ← hl'.size, passFrom_end, passFrom_end]
    exact ⟨hJ, hJ', hs⟩
  | @cons a a' l2 l2' haa _ ih =>
    intro l1 l1' e e' s s' hJ hJ' hs
    obtain ⟨hj, ⟨n0, hn0, hp⟩, _⟩ := hl.block hnd e
    obtain ⟨hj', ⟨n0', hn0', hp'⟩, _⟩ := hl'.block hnd' e'
    obtain ⟨n, t, hn, h1, h2, h3, h4, h5⟩ := hl.block_step hnd o e hs.len hJ
    obtain ⟨n', t', hn', h1', h2', h3', h4', h5'⟩ := hl'.block_step hnd' o' e' hs.len' hJ'
    rw [hn0] at hn; cases hn
    rw [hn0'] at hn'; cases hn'
    rw [h1, h1']
    refine ih (by rw [e]; simp) (by rw [e']; simp) h2 h2' ?_
    rw [haa.productions] at hp'
    have hN := coreRel_oneOne hl hl'
    have hT := termRel_oneOne hl hl'
    have hcore := FState.productions hN hT o o' (n := g.nNonTerminals) (n' := g'.nNonTerminals)
      (j := (l1.map (·.width)).sum) (j' := (l1'.map (·.width)).sum)
      ⟨a.name, hj, by rw [← haa.name]; exact hj'⟩
      (List.getElem?_eq_some_iff.1 hn0).1 (List.getElem?_eq_some_iff.1 hn0').1
      (ps := n0.productions) (ps' := n0'.productions)
      (forall₂_comp (R := LowersProd nts ts) (S := LowersProd nts' ts') (Q := fun (p p' : Production X) =>
        List.Forall₂ (SymCorr (CoreRel nts nts') (TermRel ts ts')) p.syms p'.syms)
        (fun _ _ _ x y => lowersProd_syms x y) hp hp') hs
    refine ⟨h4, h4', ?_, ?_, ?_⟩
    · rintro k k' ⟨m, e1, e2⟩
      rw [h5 m k e1, h5' m k' e2]
      exact hcore.empty ⟨m, e1, e2⟩
    · rintro k k' ⟨m, e1, e2⟩
      rw [h5 m k e1, h5' m k' e2]
      exact hcore.terms ⟨m, e1, e2⟩
    · rw [← h3, ← h3']; exact hcore.flag

theorem whileUpdated_both {σ σ' : Type} {R : σ → σ' → Prop} {body : σ → σ × Bool}
    {body' : σ' → σ' × Bool}
    (hb : ∀ s s', R s s' → R (body s).1 (body' s').1 ∧ (body s).2 = (body' s').2) :
    ∀ (fuel fuel' : Nat) {s s'}, R s s' → (whileUpdated body fuel s).2 = false →
      (whileUpdated body' fuel' s').2 = false →
      R (whileUpdated body fuel s).1 (whileUpdated body' fuel' s').1 := by
  intro fuel
  induction fuel with
  | zero => intro fuel' s s' _ h; cases h
  | succ fuel ih =>
    intro fuel' s s' hr h h'
    cases fuel' with
    | zero => cases h'
    | succ fuel' =>
      obtain ⟨h1, h2⟩ := hb s s' hr
      unfold whileUpdated at h h' ⊢
      rcases hb1 : body s with ⟨t, u⟩
      rcases hb2 : body' s' with ⟨t', u'⟩
      rw [hb1] at h
      rw [hb2] at h'
      rw [hb1, hb2] at h1 h2
      dsimp only at h1 h2
      subst h2
      cases u
      · exact h1
      · exact ih fuel' h1 h h'

/-- The FIRST sets of non-terminals of the same name correspond. -/
theorem firstTable_pub (hl : Lowered mkPath asts convs g nts ts)
    (hl' : Lowered mkPath asts' convs' g' nts' ts') (hnd : (asts.map (·.name)).Nodup)
    (hnd' : (asts'.map (·.name)).Nodup) (o o' : HashOrder) (h : SameButPub asts asts') {j j' : Nat}
    (hj : CoreRel nts nts' j j') :
    ((generateFirstTable o g).get j).empty = ((generateFirstTable o' g').get j').empty ∧
    SetCorr (TermRel ts ts') ((generateFirstTable o g).get j).terminals
      ((generateFirstTable o' g').get j').terminals := by
  have key := whileUpdated_both (R := fun F F' => WrapInv g F ∧ WrapInv g' F' ∧
      FState (CoreRel nts nts') (TermRel ts ts') g.nNonTerminals g'.nNonTerminals (F, false) (F', false))
    (body := firstPass o g) (body' := firstPass o' g') (by
      rintro F F' ⟨h1, h2, h3⟩
      obtain ⟨k1, k2, k3⟩ := pass_rel hl hl' hnd hnd' o o' h (l1 := []) (l1' := []) rfl rfl
        (s := (F, false)) (s' := (F', false)) h1 h2 h3
      exact ⟨⟨k1, k2, k3.len, k3.len', k3.empty, k3.terms, rfl⟩, k3.flag⟩)
    (firstFuel g) (firstFuel g') (s := FirstTable.new g.nNonTerminals)
    (s' := FirstTable.new g'.nNonTerminals) (by
      refine ⟨?_, ?_, by simp [FirstTable.new], by simp [FirstTable.new], ?_, ?_, rfl⟩
      · intro j nt _ _ _ t ht; rw [FirstTable.get_new] at ht; cases ht
      · intro j nt _ _ _ t ht; rw [FirstTable.get_new] at ht; cases ht
      · intro j j' _; simp only [FirstTable.get_new]
      · intro j j' _
        simp only [FirstTable.get_new]
        refine ⟨?_, ?_⟩
        · intro t ht; cases ht
        · intro t ht; cases ht)
    (firstLoop_terminates hl.wf o) (firstLoop_terminates hl'.wf o')
  exact ⟨key.2.2.empty hj, key.2.2.terms hj⟩

end Parsegen
