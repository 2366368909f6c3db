import Verif.Proofs.First

/-! # FIRST table: completeness -/

namespace Parsegen

variable {A Ty : Type} {g : Grammar A Ty}

/-- Every non-terminal occurring in the string can occur on a right-hand side. -/
def Grammar.PrivSyms (g : Grammar A Ty) (α : List Symbol) : Prop :=
  ∀ b, .nonTerminal b ∈ α → b < g.nNonTerminals ∧ g.isPublic b = false

theorem Grammar.WF.privSyms (hwf : g.WF) {nt p α} (h : g.HasProd nt p α) : g.PrivSyms α :=
  fun _ hb => ⟨hwf.nt_lt h hb, hwf.nt_priv h hb⟩

theorem Grammar.PrivSyms.append {α β : List Symbol} :
    g.PrivSyms (α ++ β) ↔ g.PrivSyms α ∧ g.PrivSyms β := by
  unfold Grammar.PrivSyms
  simp only [List.mem_append]
  constructor
  · intro h; exact ⟨fun b hb => h b (Or.inl hb), fun b hb => h b (Or.inr hb)⟩
  · rintro ⟨h1, h2⟩ b (hb | hb)
    · exact h1 b hb
    · exact h2 b hb

theorem Grammar.PrivSyms.produces (hwf : g.WF) {u v} (hs : g.Produces u v) (h : g.PrivSyms u) :
    g.PrivSyms v := by
  cases hs with
  | mk x y α nt p hp =>
    have hx := (Grammar.PrivSyms.append.1 h).1
    have hy : g.PrivSyms y := fun b hb => (Grammar.PrivSyms.append.1 h).2 b (by simp [hb])
    exact Grammar.PrivSyms.append.2 ⟨Grammar.PrivSyms.append.2 ⟨hx, hwf.privSyms hp⟩, hy⟩

/-- The string can begin with `t` according to the table. -/
def BeginsTbl (F : FirstTable) (u : List Symbol) (t : Nat) : Prop :=
  ∃ u1 s u2, u = u1 ++ s :: u2 ∧ AllFlagged F u1 ∧
    (s = .terminal t ∨ ∃ b, s = .nonTerminal b ∧ t ∈ (F.get b).terminals)

theorem allFlagged_append {F : FirstTable} {α β} :
    AllFlagged F (α ++ β) ↔ AllFlagged F α ∧ AllFlagged F β := by
  constructor
  · intro h; exact ⟨fun s hs => h s (by simp [hs]), fun s hs => h s (by simp [hs])⟩
  · rintro ⟨h1, h2⟩; exact h1.append h2

/-- Non-terminals that can begin the string, according to the table, are in `R`. -/
def Leads (F : FirstTable) (R : Nat → Prop) (u : List Symbol) : Prop :=
  ∀ l b r, u = l ++ .nonTerminal b :: r → AllFlagged F l → R b

/-- `R` contains what the productions of its members begin with. -/
def LeadClosed (g : Grammar A Ty) (F : FirstTable) (R : Nat → Prop) : Prop :=
  ∀ nt p α, R nt → g.HasProd nt p α → Leads F R α

theorem Leads.produces {F : FirstTable} {R : Nat → Prop} (hc : FirstClosedOn g F R)
    (hR : LeadClosed g F R) {u v : List Symbol} (hs : g.Produces u v) (hu : Leads F R u) :
    Leads F R v := by
  cases hs with
  | mk x y α nt p hp =>
    intro l b r hv hl
    rw [List.append_assoc] at hv
    have mid : ∀ c d, α = c ++ .nonTerminal b :: d → l = x ++ c → R b := by
      rintro c d rfl rfl
      have hl' := allFlagged_append.1 hl
      exact hR nt p _ (hu x nt y rfl hl'.1) hp c b d rfl hl'.2
    have right : ∀ c d, y = c ++ .nonTerminal b :: d → l = x ++ (α ++ c) → R b := by
      rintro c d rfl rfl
      have hl' := allFlagged_append.1 hl
      have hl'' := allFlagged_append.1 hl'.2
      have := hc.empty (hu x nt _ rfl hl'.1) hp hl''.1
      refine hu (x ++ .nonTerminal nt :: c) b d (by simp) ?_
      exact hl'.1.append ((AllFlagged.single this).append hl''.2)
    rcases List.append_eq_append_iff.1 hv with ⟨c, rfl, hc1⟩ | ⟨c, rfl, hc1⟩
    · rcases List.append_eq_append_iff.1 hc1 with ⟨d, rfl, hd⟩ | ⟨d, rfl, hd⟩
      · exact right d r hd rfl
      · rcases List.cons_eq_append_iff.1 hd with ⟨rfl, rfl⟩ | ⟨d', rfl, rfl⟩
        · exact right [] r rfl (by simp)
        · exact mid c d' rfl rfl
    · rcases List.cons_eq_append_iff.1 hc1 with ⟨rfl, hh⟩ | ⟨c', rfl, rfl⟩
      · cases α with
        | nil => exact right [] r (by simpa using hh) (by simp)
        | cons a α =>
          simp only [List.cons_append, List.cons.injEq] at hh
          obtain ⟨rfl, rfl⟩ := hh
          exact mid [] α rfl (by simp)
      · exact hu l b (c' ++ .nonTerminal nt :: y) (by simp) hl

theorem BeginsTbl.of_produces {F : FirstTable} {R : Nat → Prop} (hc : FirstClosedOn g F R) {u v : List Symbol} {t : Nat}
    (hs : g.Produces u v) (hu : Leads F R u) (h : BeginsTbl F v t) : BeginsTbl F u t := by
  cases hs with
  | mk x y α nt p hp =>
    have hpub : AllFlagged F x → R nt := hu x nt y rfl
    obtain ⟨v1, s, v2, hv, hf, hst⟩ := h
    rw [List.append_assoc] at hv
    rcases List.append_eq_append_iff.1 hv with ⟨c, rfl, hc1⟩ | ⟨c, rfl, hc1⟩
    · -- the position is after `x`
      have hfx := (allFlagged_append.1 hf).1
      have hpub := hpub hfx
      have hfc := (allFlagged_append.1 hf).2
      rcases List.append_eq_append_iff.1 hc1 with ⟨d, rfl, hd⟩ | ⟨d, rfl, hd⟩
      · -- after `α`
        refine ⟨x ++ .nonTerminal nt :: d, s, v2, by simp [hd], ?_, hst⟩
        have h1 := (allFlagged_append.1 hfc).1
        have h2 := (allFlagged_append.1 hfc).2
        have := hc.empty hpub hp h1
        exact hfx.append ((AllFlagged.single this).append h2)
      · rcases List.cons_eq_append_iff.1 hd with ⟨rfl, rfl⟩ | ⟨d', rfl, rfl⟩
        · refine ⟨x ++ [.nonTerminal nt], s, v2, by simp, ?_, hst⟩
          rw [List.append_nil] at hp
          exact hfx.append (AllFlagged.single (hc.empty hpub hp hfc))
        · refine ⟨x, .nonTerminal nt, y, rfl, hfx, Or.inr ⟨nt, rfl, ?_⟩⟩
          rcases hst with rfl | ⟨b, rfl, hb⟩
          · exact hc.term hpub hp hfc
          · exact hc.nonTerm hpub hp hfc hb
    · rcases List.cons_eq_append_iff.1 hc1 with ⟨rfl, hh⟩ | ⟨c', rfl, rfl⟩
      · -- at the end of `x`, i.e. in `α ++ y`
        simp only [List.append_nil] at *
        have hpub := hpub hf
        cases α with
        | nil =>
          simp only [List.nil_append] at hh
          subst hh
          refine ⟨v1 ++ [.nonTerminal nt], s, v2, by simp, ?_, hst⟩
          exact hf.append (AllFlagged.single (hc.empty hpub hp allFlagged_nil))
        | cons a α =>
          simp only [List.cons_append, List.cons.injEq] at hh
          obtain ⟨rfl, rfl⟩ := hh
          refine ⟨v1, .nonTerminal nt, y, rfl, hf, Or.inr ⟨nt, rfl, ?_⟩⟩
          rcases hst with rfl | ⟨b, rfl, hb⟩
          · exact hc.term (α1 := []) hpub hp allFlagged_nil
          · exact hc.nonTerm (α1 := []) hpub hp allFlagged_nil hb
      · exact ⟨v1, s, c' ++ .nonTerminal nt :: y, by simp, hf, hst⟩

theorem allFlagged_of_produces {F : FirstTable} {R : Nat → Prop} (hc : FirstClosedOn g F R) {u v : List Symbol}
    (hs : g.Produces u v) (hu : Leads F R u) (h : AllFlagged F v) : AllFlagged F u := by
  cases hs with
  | mk x y α nt p hp =>
    obtain ⟨h12, h3⟩ := allFlagged_append.1 h
    obtain ⟨h1, h2⟩ := allFlagged_append.1 h12
    have hpub : R nt := hu x nt y rfl h1
    exact h1.append ((AllFlagged.single (hc.empty hpub hp h2)).append h3)

/-- A table closed under the FIRST equations of the non-terminals in `R` is complete for these. -/
theorem FirstClosedOn.complete {F : FirstTable} {R : Nat → Prop} (hc : FirstClosedOn g F R)
    (hR : LeadClosed g F R) {nt : Nat} (hnt : R nt) :
    (∀ t, g.Begins nt t → t ∈ (F.get nt).terminals) ∧ (g.Nullable nt → (F.get nt).empty = true) := by
  have hu : Leads F R [.nonTerminal nt] := by
    intro l b r hl _
    cases l with
    | nil => cases hl; exact hnt
    | cons a l => simp at hl
  constructor
  · rintro t ⟨x, hx⟩
    have := Grammar.Derives.head_induction (g := g) (w := .terminal t :: x)
      (P := fun u => Leads F R u → BeginsTbl F u t)
      (fun _ => ⟨[], _, x, rfl, allFlagged_nil, Or.inl rfl⟩)
      (fun u v hs _ ih hu => BeginsTbl.of_produces hc hs hu (ih (hu.produces hc hR hs))) hx hu
    obtain ⟨u1, s, u2, hu, hf, hst⟩ := this
    cases u1 with
    | nil =>
      simp at hu
      obtain ⟨rfl, rfl⟩ := hu
      rcases hst with h | ⟨b, h, hb⟩
      · cases h
      · cases h; exact hb
    | cons a u1 => simp at hu
  · intro hx
    have := Grammar.Derives.head_induction (g := g) (w := [])
      (P := fun u => Leads F R u → AllFlagged F u)
      (fun _ => allFlagged_nil)
      (fun u v hs _ ih hu => allFlagged_of_produces hc hs hu (ih (hu.produces hc hR hs))) hx hu
    obtain ⟨b, hb, he⟩ := this (.nonTerminal nt) (by simp)
    cases hb; exact he

theorem Grammar.PrivSyms.leads {F : FirstTable} {u : List Symbol} (h : g.PrivSyms u) :
    Leads F (fun nt => g.isPublic nt = false) u := by
  rintro l b r rfl _
  exact (h b (by simp)).2

theorem FirstClosed.on {F : FirstTable} (hc : FirstClosed g F) :
    FirstClosedOn g F (fun nt => g.isPublic nt = false) :=
  ⟨hc.term, hc.nonTerm, hc.empty⟩

theorem Grammar.WF.leadClosed (hwf : g.WF) (F : FirstTable) :
    LeadClosed g F (fun nt => g.isPublic nt = false) := by
  intro nt p α _ hp l b r hα _
  exact hwf.nt_priv hp (by simp [hα])

/-- A table closed under the FIRST equations is complete. -/
theorem FirstClosed.complete (hwf : g.WF) {F : FirstTable} (hc : FirstClosed g F) :
    FirstComplete g F where
  terminals _ t _ hpub h := (hc.on.complete (hwf.leadClosed F) hpub).1 t h
  empty _ _ hpub h := (hc.on.complete (hwf.leadClosed F) hpub).2 h

theorem Grammar.Behind.priv (hwf : g.WF) {b : Nat} (h : g.Behind b) :
    b < g.nNonTerminals ∧ g.isPublic b = false := by
  obtain ⟨nt, p, α, c, l, r, hp, _⟩ := h
  exact hwf.privSyms hp b (by simp)

theorem FirstComplete.enough (hwf : g.WF) {F : FirstTable} (h : FirstComplete g F) : FirstEnough g F where
  terminals nt t hb := h.terminals nt t (hb.priv hwf).1 (hb.priv hwf).2
  empty nt hb := h.empty nt (hb.priv hwf).1 (hb.priv hwf).2

/-- What the LR(1) construction looks at in this string are non-terminals that come after another one. -/
def Grammar.BehindSyms (g : Grammar A Ty) (β : List Symbol) : Prop :=
  ∀ l b r, β = l ++ .nonTerminal b :: r → g.Derives l [] → g.Behind b

theorem Grammar.HasProd.behindSyms {nt p : Nat} {α : List Symbol} {c : Nat} {β : List Symbol}
    (h : g.HasProd nt p (α ++ .nonTerminal c :: β)) : g.BehindSyms β := by
  rintro l b r rfl hl
  exact ⟨nt, p, α, c, l, r, h, hl⟩

theorem Grammar.BehindSyms.head {b : Nat} {β : List Symbol}
    (h : g.BehindSyms (.nonTerminal b :: β)) : g.Behind b :=
  h [] b β rfl (.refl _)

theorem Grammar.BehindSyms.tail {b : Nat} {β : List Symbol}
    (h : g.BehindSyms (.nonTerminal b :: β)) (hb : g.Nullable b) : g.BehindSyms β := by
  rintro l c r rfl hl
  refine h (.nonTerminal b :: l) c r rfl ?_
  have h1 : g.Derives ([.nonTerminal b] ++ l) ([] ++ []) := Grammar.Derives.append hb hl
  simpa using h1

theorem Grammar.BehindSyms.left {α β : List Symbol} (h : g.BehindSyms (α ++ β)) : g.BehindSyms α := by
  rintro l c r rfl hl
  exact h l c (r ++ β) (by simp) hl

/-- A sound and complete table is closed under the FIRST equations. -/
theorem FirstComplete.closed {F : FirstTable} (hs : FirstSound g F)
    (hc : FirstComplete g F) : FirstClosed g F where
  term := by
    intro nt p α1 t α2 hpub hp hf
    refine hc.terminals nt t (Grammar.lt_of_nProductions hp.lt) hpub ⟨α2, ?_⟩
    refine (Grammar.Derives.of_hasProd hp).trans ?_
    simpa using (Grammar.Derives.nil_of_flagged hs hf).append_right (.terminal t :: α2)
  nonTerm := by
    intro nt p α1 b α2 t hpub hp hf ht
    obtain ⟨x, hx⟩ := hs.terminals b t ht
    refine hc.terminals nt t (Grammar.lt_of_nProductions hp.lt) hpub ⟨x ++ α2, ?_⟩
    refine (Grammar.Derives.of_hasProd hp).trans ?_
    simpa using (Grammar.Derives.nil_of_flagged hs hf).append (hx.append_right α2)
  empty := by
    intro nt p α hpub hp hf
    exact hc.empty nt (Grammar.lt_of_nProductions hp.lt) hpub
      ((Grammar.Derives.of_hasProd hp).trans (.nil_of_flagged hs hf))

/-! ## The pass as a fold over all productions -/

/-- All productions in the order in which a pass visits them. -/
def Grammar.prodList (g : Grammar A Ty) : List (Nat × List Symbol) :=
  g.nonTerminals.zipIdx.flatMap fun e => e.1.productions.map fun p => (e.2, p.syms)

theorem firstPass_eq (h : HashOrder) (tbl : FirstTable) :
    firstPass h g tbl =
      g.prodList.foldl (fun s e => firstProduction h e.1 e.2 s) (tbl, false) := by
  unfold firstPass Grammar.prodList
  rw [List.foldl_flatMap]
  simp only [List.foldl_map]

theorem mem_prodList {e : Nat × List Symbol} :
    e ∈ g.prodList ↔ ∃ p, g.HasProd e.1 p e.2 := by
  unfold Grammar.prodList Grammar.HasProd
  simp only [List.mem_flatMap, List.mem_map]
  constructor
  · rintro ⟨⟨n, i⟩, hn, pr, hpr, rfl⟩
    obtain ⟨j, hj, rfl⟩ := List.getElem_of_mem hpr
    have := List.mem_zipIdx' hn
    exact ⟨j, n, n.productions[j], List.getElem?_eq_some_iff.2 ⟨this.1, this.2.symm⟩,
      List.getElem?_eq_getElem hj, rfl⟩
  · rintro ⟨p, n, pr, h1, h2, h3⟩
    refine ⟨(n, e.1), ?_, pr, List.mem_of_getElem? h2, ?_⟩
    · rw [List.mem_zipIdx_iff_getElem?]; exact h1
    · rw [Prod.ext_iff]; exact ⟨rfl, h3.symm⟩

theorem prodFold_ind {h : HashOrder} {P : FirstTable × Bool → Prop} (hP : PassPrim h g P) :
    ∀ (l : List (Nat × List Symbol)) (s : FirstTable × Bool), (∀ e ∈ l, e ∈ g.prodList) →
      s.1.length = g.nNonTerminals → P s →
      P (l.foldl (fun s e => firstProduction h e.1 e.2 s) s) ∧
      (l.foldl (fun s e => firstProduction h e.1 e.2 s) s).1.length = g.nNonTerminals := by
  intro l
  induction l with
  | nil => intro s _ hl hs; exact ⟨hs, hl⟩
  | cons e l ih =>
    intro s he hl hs
    obtain ⟨p, hp⟩ := mem_prodList.1 (he e (by simp))
    have hlt : e.1 < s.1.length := by rw [hl]; exact Grammar.lt_of_nProductions hp.lt
    refine ih _ (fun e' h' => he e' (by simp [h'])) ?_ (firstProduction_ind hP hlt hp hs)
    rw [firstProduction_length]; exact hl

/-! ## Facts about a pass that reports no update -/

theorem mono_prim (h : HashOrder) (tbl : FirstTable) :
    PassPrim h g (fun s => ∀ nt, (tbl.get nt).empty = true → (s.1.get nt).empty = true) where
  setEmptyUpd := by
    intro s nt p hs hl _ nt' he
    rw [FirstTable.empty_setEmpty hl, hs nt' he]; rfl
  setEmpty := by
    intro s nt p α hs hl _ _ _ nt' he
    rw [FirstTable.empty_setEmpty hl, hs nt' he]; rfl
  addTerm := by
    intro s nt p α1 t α2 hs hl _ _ nt' he
    rw [FirstTable.empty_addFirst hl, hs nt' he]
  addAll := by
    intro s nt p α1 b α2 hs hl _ _ _ nt' he
    rw [empty_firstAddAll hl, hs nt' he]

theorem addFirst_false {tbl : FirstTable} {nt t : Nat} (h : (tbl.addFirst nt t).2 = false) :
    (tbl.addFirst nt t).1 = tbl ∧ t ∈ (tbl.get nt).terminals := by
  unfold FirstTable.addFirst at *
  dsimp only at *
  split at h
  · next hm => rw [if_pos hm]; exact ⟨rfl, hm⟩
  · simp at h

theorem firstAddAll_false {nt : Nat} {ts : List Nat} {tbl : FirstTable} {u : Bool}
    (h : (firstAddAll nt ts tbl u).2 = false) :
    u = false ∧ (firstAddAll nt ts tbl u).1 = tbl ∧ ∀ t ∈ ts, t ∈ (tbl.get nt).terminals := by
  unfold firstAddAll at *
  induction ts generalizing tbl u with
  | nil => exact ⟨h, rfl, by simp⟩
  | cons t ts ih =>
    simp only [List.foldl_cons] at h ⊢
    obtain ⟨h1, h2, h3⟩ := ih h
    rw [Bool.or_eq_false_iff] at h1
    obtain ⟨h4, h5⟩ := addFirst_false h1.2
    refine ⟨h1.1, by rw [h2, h4], ?_⟩
    intro t' ht'
    rcases List.mem_cons.1 ht' with rfl | ht'
    · exact h5
    · have := h3 t' ht'; rwa [h4] at this

theorem same_prim (h : HashOrder) (tbl : FirstTable) :
    PassPrim h g (fun s => s.2 = false → ∀ nt, (s.1.get nt).terminals = (tbl.get nt).terminals) where
  setEmptyUpd := by
    intro s nt p hs hl _ hu nt'
    rw [FirstTable.terminals_setEmpty hl]
    exact hs (Bool.or_eq_false_iff.1 hu).1 nt'
  setEmpty := by
    intro s nt p α hs hl _ _ _ hu nt'
    rw [FirstTable.terminals_setEmpty hl]; exact hs hu nt'
  addTerm := by
    intro s nt p α1 t α2 hs hl _ _ hu nt'
    obtain ⟨h1, h2⟩ := Bool.or_eq_false_iff.1 hu
    rw [(addFirst_false h2).1]; exact hs h1 nt'
  addAll := by
    intro s nt p α1 b α2 hs hl _ _ _ hu nt'
    obtain ⟨h1, h2, _⟩ := firstAddAll_false hu
    rw [h2]; exact hs h1 nt'

theorem noflag_prim (h : HashOrder) :
    PassPrim h g (fun s => s.2 = false → ∀ nt, (s.1.get nt).empty = false) where
  setEmptyUpd := by
    intro s nt p hs hl _ hu
    obtain ⟨h1, h2⟩ := Bool.or_eq_false_iff.1 hu
    have := hs h1 nt
    simp [FirstTable.setEmpty, this] at h2
  setEmpty := by
    intro s nt p α hs hl _ hf hne hu
    rcases hne with hne | hne
    · obtain ⟨a, α', rfl⟩ := List.exists_cons_of_ne_nil hne
      obtain ⟨b, _, hb⟩ := hf a (by simp)
      rw [hs hu b] at hb; simp at hb
    · rw [hs hu nt] at hne; simp at hne
  addTerm := by
    intro s nt p α1 t α2 hs hl _ _ hu nt'
    rw [FirstTable.empty_addFirst hl]; exact hs (Bool.or_eq_false_iff.1 hu).1 nt'
  addAll := by
    intro s nt p α1 b α2 hs hl _ _ _ hu nt'
    rw [empty_firstAddAll hl]; exact hs (firstAddAll_false hu).1 nt'

/-- `updated` never goes back to `false` within a pass. -/
theorem upd_prim (h : HashOrder) : PassPrim h g (fun s => s.2 = true) where
  setEmptyUpd := by intro s nt p hs _ _; simp [hs]
  setEmpty := by intro s nt p α hs _ _ _ _; exact hs
  addTerm := by intro s nt p α1 t α2 hs _ _ _; simp [hs]
  addAll := by
    intro s nt p α1 b α2 hs _ _ _ _
    cases hu : (firstAddAll nt (h.iter (s.1.get b).terminals) s.1 s.2).2
    · rw [(firstAddAll_false hu).1] at hs; simp at hs
    · rfl

theorem firstSymbols_skip (h : HashOrder) (nt : Nat) {tbl : FirstTable} (u : Bool)
    {α1 : List Symbol} (α2 : List Symbol) (hf : AllFlagged tbl α1) :
    firstSymbols h nt (α1 ++ α2) tbl u = firstSymbols h nt α2 tbl u := by
  induction α1 with
  | nil => rfl
  | cons s α1 ih =>
    obtain ⟨b, rfl, hb⟩ := hf s (by simp)
    simp only [List.cons_append, firstSymbols, hb, if_true]
    exact ih (fun s' hs' => hf s' (by simp [hs']))

/-- After processing a production all of whose symbols are flagged, its left-hand side is. -/
theorem firstProduction_flag (h : HashOrder) {nt : Nat} {α : List Symbol}
    {s : FirstTable × Bool} (hl : nt < s.1.length) (hα : α = []) :
    ((firstProduction h nt α s).1.get nt).empty = true := by
  subst hα
  unfold firstProduction
  simp only [List.isEmpty_nil, if_true, firstSymbols]
  rw [FirstTable.empty_setEmpty (by rw [FirstTable.setEmpty_length]; exact hl)]
  simp

/-- Every production is processed at some point of a pass: in between, the table `T` is the one it
sees. -/
theorem pass_visit {h : HashOrder} {tbl : FirstTable} (hl : tbl.length = g.nNonTerminals)
    {nt p : Nat} {α : List Symbol} (hp : g.HasProd nt p α) :
    ∃ s l1 l2, g.prodList = l1 ++ (nt, α) :: l2 ∧
      s = l1.foldl (fun s e => firstProduction h e.1 e.2 s) (tbl, false) ∧
      s.1.length = g.nNonTerminals ∧
      firstPass h g tbl =
        l2.foldl (fun s e => firstProduction h e.1 e.2 s) (firstProduction h nt α s) := by
  obtain ⟨l1, l2, hl12⟩ := List.append_of_mem (mem_prodList.2 ⟨p, hp⟩ : (nt, α) ∈ g.prodList)
  refine ⟨_, l1, l2, hl12, rfl, ?_, ?_⟩
  · exact (prodFold_ind (true_prim h) l1 _ (fun e he => by rw [hl12]; simp [he]) hl trivial).2
  · rw [firstPass_eq, hl12, List.foldl_append, List.foldl_cons]

/-- After any pass, every non-terminal with an empty production is flagged. -/
theorem firstPass_flags (h : HashOrder) {tbl : FirstTable} (hl : tbl.length = g.nNonTerminals)
    {nt p : Nat} (hp : g.HasProd nt p []) : ((firstPass h g tbl).1.get nt).empty = true := by
  obtain ⟨s, l1, l2, hl12, _, hsl, hpass⟩ := pass_visit (h := h) hl hp
  have hlt : nt < s.1.length := by rw [hsl]; exact Grammar.lt_of_nProductions hp.lt
  rw [hpass]
  refine (prodFold_ind (g := g) (mono_prim h (firstProduction h nt [] s).1) l2 _ ?_ ?_ ?_).1 nt
    (firstProduction_flag h hlt rfl)
  · intro e he; rw [hl12]; simp [he]
  · rw [firstProduction_length]; exact hsl
  · exact fun _ h => h

/-- The situation when the loop ends. -/
theorem firstLoop_exit (hwf : g.WF) (h : HashOrder) :
    ∃ tbl : FirstTable, tbl.length = g.nNonTerminals ∧ FirstSound g tbl ∧
      (tbl = FirstTable.new g.nNonTerminals ∨
        ∀ nt p, g.HasProd nt p [] → (tbl.get nt).empty = true) ∧
      firstPass h g tbl = (generateFirstTable h g, false) := by
  obtain ⟨tbl, ⟨h1, h2, h3⟩, h4⟩ := whileUpdated_exit (body := firstPass h g)
    (P := fun tbl => tbl.length = g.nNonTerminals ∧ FirstSound g tbl ∧
      (tbl = FirstTable.new g.nNonTerminals ∨
        ∀ nt p, g.HasProd nt p [] → (tbl.get nt).empty = true))
    (fun s hs => ⟨firstPass_length h s hs.1, (firstPass_ind (firstSound_prim h) hs.1 hs.2.1).1,
      Or.inr fun nt p hp => firstPass_flags h hs.1 hp⟩)
    (firstFuel g) (FirstTable.new g.nNonTerminals)
    ⟨by simp [FirstTable.new], firstSound_new _, Or.inl rfl⟩ (firstLoop_terminates hwf h)
  exact ⟨tbl, h1, h2, h3, h4⟩

/-- If the only nullable non-terminal reachable through a nullable prefix is the one on the left, nullable
non-terminals have an empty production. -/
theorem Grammar.has_empty_of_self (hwf : g.WF)
    (hh : ∀ nt p α1 b α2, g.isPublic nt = false → g.HasProd nt p (α1 ++ .nonTerminal b :: α2) →
      g.Derives α1 [] → g.Nullable b → b = nt) {nt : Nat}
    (hpub : g.isPublic nt = false) (hlt : nt < g.nNonTerminals) (hn : g.Nullable nt) :
    ∃ p, g.HasProd nt p [] := by
  have hy : g.Yields (fun t : Nat => t) [.nonTerminal nt] [] :=
    Grammar.yields_iff_derives.2 hn
  obtain ⟨vs, he⟩ := hy
  have key : ∀ {ss ts w vs w'}, Eval g (fun t : Nat => t) Alg.unit ss ts w vs w' → ts = [] →
      g.PrivSyms ss → ∀ b, .nonTerminal b ∈ ss → ∃ p, g.HasProd b p [] := by
    intro ss ts w vs w' he
    induction he with
    | nil => intro _ _ b hb; simp at hb
    | term => intro h; simp at h
    | @nt b p α t1 t2 w us w1 v w2 ss vs w3 hp hc ha h ih1 ih2 =>
      intro ht hpr c hcm
      obtain ⟨rfl, rfl⟩ := List.append_eq_nil_iff.1 ht
      rcases List.mem_cons.1 hcm with hcm | hcm
      · cases hcm
        cases α with
        | nil => exact ⟨p, hp⟩
        | cons s α =>
          cases s with
          | terminal i => cases hc
          | nonTerminal d =>
            have hd : g.Nullable d := by
              obtain ⟨t1, t2, _, _, _, h1, _, h2, _⟩ := Eval.split (a := [.nonTerminal d]) hc
              obtain ⟨rfl, rfl⟩ := List.append_eq_nil_iff.1 h1.symm
              exact h2.derives
            have : d = b := hh b p [] d α (hpr b (by simp)).2 hp (.refl _) hd
            subst this
            exact ih1 rfl (hwf.privSyms hp) d (by simp)
      · exact ih2 rfl (fun b hb => hpr b (by simp [hb])) c hcm
  refine key he rfl ?_ nt (by simp)
  intro b hb; simp at hb; subst hb; exact ⟨hlt, hpub⟩

/-- A simpler condition. -/
theorem Grammar.HarmlessNullable.of_self (hwf : g.WF)
    (hh : ∀ nt p α1 b α2, g.isPublic nt = false → g.HasProd nt p (α1 ++ .nonTerminal b :: α2) →
      g.Derives α1 [] → g.Nullable b → b = nt) : g.HarmlessNullable := by
  intro nt p α1 b α2 hpub hp hα hb
  have := hwf.privSyms hp b (by simp)
  exact ⟨Grammar.has_empty_of_self hwf hh this.2 this.1 hb, .inl (hh nt p α1 b α2 hpub hp hα hb)⟩

/-- With harmless nullable prefixes the computed table satisfies the FIRST equations. -/
theorem generateFirstTable_closedOn (hwf : g.WF) {R : Nat → Prop}
    (hh : ∀ nt p α1 b α2, R nt → g.HasProd nt p (α1 ++ .nonTerminal b :: α2) →
      g.Derives α1 [] → g.Nullable b → (∃ q, g.HasProd b q []) ∧ (b = nt ∨ ∀ t, ¬ g.Begins b t))
    (h : HashOrder) : FirstClosedOn g (generateFirstTable h g) R := by
  obtain ⟨tbl, hl, hsound, hflags, hpass⟩ := firstLoop_exit hwf h
  have hF : (generateFirstTable h g) = (firstPass h g tbl).1 := by rw [hpass]
  have hsF := generateFirstTable_sound h g
  -- all non-terminals with an empty production are flagged at the start of the last pass
  have hstart : ∀ nt, (∃ p, g.HasProd nt p []) → (tbl.get nt).empty = true := by
    rintro nt ⟨p, hp⟩
    rcases hflags with rfl | hflags
    · exfalso
      have h1 := firstPass_flags h hl hp
      have h2 := (firstPass_ind (g := g) (noflag_prim h) hl (by
        intro _ nt; rw [FirstTable.get_new])).1 (by rw [hpass]) nt
      rw [h1] at h2; simp at h2
    · exact hflags nt p hp
  -- the table seen by a production during the last pass
  have hvisit : ∀ {nt p α}, g.HasProd nt p α → ∃ s : FirstTable × Bool, nt < s.1.length ∧
      (firstProduction h nt α s).2 = false ∧ FirstSound g s.1 ∧
      (∀ nt, (s.1.get nt).terminals = ((generateFirstTable h g).get nt).terminals) ∧
      (∀ nt, (∃ p, g.HasProd nt p []) → (s.1.get nt).empty = true) ∧
      (((firstProduction h nt α s).1.get nt).empty = true →
        ((generateFirstTable h g).get nt).empty = true) := by
    intro nt p α hp
    obtain ⟨s, l1, l2, hl12, hs, hsl, hpass'⟩ := pass_visit (h := h) hl hp
    have hm1 : ∀ e ∈ l1, e ∈ g.prodList := fun e he => by rw [hl12]; simp [he]
    have hm2 : ∀ e ∈ l2, e ∈ g.prodList := fun e he => by rw [hl12]; simp [he]
    have hu : (firstProduction h nt α s).2 = false := by
      cases hb : (firstProduction h nt α s).2
      · rfl
      · have := (prodFold_ind (upd_prim h) l2 _ hm2 (by rw [firstProduction_length]; exact hsl) hb).1
        rw [← hpass', hpass] at this; simp at this
    have hlt : nt < s.1.length := by rw [hsl]; exact Grammar.lt_of_nProductions hp.lt
    have hu0 : s.2 = false := by
      cases hb : s.2
      · rfl
      · have := firstProduction_ind (upd_prim h) hlt hp hb
        rw [hu] at this; simp at this
    have hterm : ∀ nt, (s.1.get nt).terminals = (tbl.get nt).terminals := by
      have := (prodFold_ind (g := g) (same_prim h tbl) l1 (tbl, false) hm1 hl (fun _ _ => rfl)).1
      rw [← hs] at this
      exact this hu0
    have htermF : ∀ nt, ((generateFirstTable h g).get nt).terminals = (tbl.get nt).terminals := by
      have := (firstPass_ind (g := g) (same_prim h tbl) hl (fun _ _ => rfl)).1
      rw [hpass] at this
      exact this rfl
    refine ⟨s, hlt, hu, ?_, fun nt => by rw [hterm, htermF], ?_, ?_⟩
    · have := (prodFold_ind (g := g) (firstSound_prim h) l1 (tbl, false) hm1 hl hsound).1
      rwa [← hs] at this
    · intro nt hn
      have := (prodFold_ind (g := g) (mono_prim h tbl) l1 (tbl, false) hm1 hl (fun _ h => h)).1
      rw [← hs] at this
      exact this nt (hstart nt hn)
    · intro he
      have := (prodFold_ind (g := g) (mono_prim h (firstProduction h nt α s).1) l2 _ hm2
        (by rw [firstProduction_length]; exact hsl) (fun _ h => h)).1 nt he
      rwa [← hpass', hpass] at this
  have hflagged : ∀ {s : FirstTable × Bool} {nt p α1 α2}, R nt →
      g.HasProd nt p (α1 ++ α2) → AllFlagged (generateFirstTable h g) α1 →
      (∀ nt, (∃ p, g.HasProd nt p []) → (s.1.get nt).empty = true) → AllFlagged s.1 α1 := by
    intro s nt p α1 α2 hpub hp hf hfl x hx
    obtain ⟨b, rfl, hb⟩ := hf x hx
    obtain ⟨l, r, rfl⟩ := List.append_of_mem hx
    refine ⟨b, rfl, hfl b (hh nt p l b (r ++ α2) hpub (by simpa using hp) ?_ (hsF.empty b hb)).1⟩
    exact .nil_of_flagged hsF fun y hy => hf y (by simp [hy])
  constructor
  · intro nt p α1 t α2 hpub hp hf
    obtain ⟨s, hlt, hu, hs, hterm, hfl, _⟩ := hvisit hp
    have hf' := hflagged hpub hp hf hfl
    unfold firstProduction at hu
    have hne : (α1 ++ .terminal t :: α2).isEmpty = false := by simp
    simp only [hne] at hu
    simp only [Bool.false_eq_true, if_false, firstSymbols_skip h nt s.2 _ hf', firstSymbols] at hu
    rw [← hterm]
    exact (addFirst_false (Bool.or_eq_false_iff.1 hu).2).2
  · intro nt p α1 b α2 t hpub hp hf ht
    obtain ⟨s, hlt, hu, hs, hterm, hfl, _⟩ := hvisit hp
    have hf' := hflagged hpub hp hf hfl
    unfold firstProduction at hu
    have hne : (α1 ++ .nonTerminal b :: α2).isEmpty = false := by simp
    simp only [hne] at hu
    simp only [Bool.false_eq_true, if_false, firstSymbols_skip h nt s.2 _ hf', firstSymbols] at hu
    rw [← hterm]
    split at hu
    · next he =>
      rcases (hh nt p α1 b α2 hpub hp (Grammar.Derives.nil_of_flagged hsF hf) (hs.empty b he)).2 with
        this | this
      · subst this
        rw [hterm]; exact ht
      · exact absurd (hsF.terminals b t ht) (this t)
    · rw [← hterm] at ht
      exact (firstAddAll_false hu).2.2 t (by simpa using ht)
  · intro nt p α hpub hp hf
    obtain ⟨s, hlt, hu, hs, hterm, hfl, hend⟩ := hvisit hp
    apply hend
    have hf' := hflagged (α2 := []) hpub (by simpa using hp) hf hfl
    cases α with
    | nil =>
      exact firstProduction_flag h hlt rfl
    | cons x α =>
      have hsk := firstSymbols_skip h nt s.2 [] hf'
      rw [List.append_nil] at hsk
      simp only [firstProduction, List.isEmpty_cons, Bool.false_eq_true, if_false, hsk, firstSymbols,
        FirstTable.setEmpty]
      simp [FirstTable.get_set hlt]

/-- With harmless nullable prefixes the computed table satisfies the FIRST equations. -/
theorem generateFirstTable_closed (hwf : g.WF) (hh : g.HarmlessNullable) (h : HashOrder) :
    FirstClosed g (generateFirstTable h g) :=
  have := generateFirstTable_closedOn hwf (R := fun nt => g.isPublic nt = false) hh h
  ⟨this.term, this.nonTerm, this.empty⟩

theorem Grammar.relevant_closed {F : FirstTable} (hF : FirstSound g F) : LeadClosed g F g.Relevant := by
  rintro nt p _ hnt hp l b r rfl hl
  exact .leading hnt hp (.nil_of_flagged hF hl)

/-- If nullable prefixes are harmless where FIRST sets matter, the computed table is right there. -/
theorem generateFirstTable_relevant (hwf : g.WF) (hh : g.HarmlessRelevant) (h : HashOrder) {nt : Nat}
    (hnt : g.Relevant nt) :
    (∀ t, g.Begins nt t → t ∈ ((generateFirstTable h g).get nt).terminals) ∧
      (g.Nullable nt → ((generateFirstTable h g).get nt).empty = true) :=
  (generateFirstTable_closedOn hwf hh h).complete (Grammar.relevant_closed (generateFirstTable_sound h g)) hnt

theorem generateFirstTable_enough (hwf : g.WF) (hh : g.HarmlessRelevant) (h : HashOrder) :
    FirstEnough g (generateFirstTable h g) where
  terminals _ t hb := (generateFirstTable_relevant hwf hh h (.behind hb)).1 t
  empty _ hb := (generateFirstTable_relevant hwf hh h (.behind hb)).2

theorem Grammar.Relevant.priv (hwf : g.WF) {b : Nat} (h : g.Relevant b) : g.isPublic b = false := by
  cases h with
  | behind h => exact (h.priv hwf).2
  | leading _ hp _ => exact hwf.nt_priv hp (by simp)

theorem Grammar.HarmlessNullable.relevant (hwf : g.WF) (h : g.HarmlessNullable) : g.HarmlessRelevant :=
  fun nt p α1 b α2 hnt => h nt p α1 b α2 (hnt.priv hwf)

end Parsegen
