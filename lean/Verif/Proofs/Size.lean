import Verif.Proofs.Codegen
import Verif.Proofs.LowerSpec

/-! # The truncating cast of `add_non_terminal` is harmless

`grammar.rs:112` computes non-terminal indices with `as u32`.  If the macro succeeds and emits at
least one parser, `NonTerminalIdx::from_usize` in `generate_goto_vec` has checked that there are at
most 2^32 non-terminals, so no cast has truncated. -/

namespace Parsegen

variable {A X Ty : Type}

theorem addGoto_length (s : List LR1State × Bool) (e : Nat × Symbol × Nat) :
    (addGoto s e).1.length = s.1.length := by
  unfold addGoto
  split <;> simp

theorem addGotos_length (l : List (Nat × Symbol × Nat)) (s : List LR1State × Bool) :
    (l.foldl addGoto s).1.length = s.1.length := by
  induction l generalizing s with
  | nil => rfl
  | cons e l ih => rw [List.foldl_cons, ih, addGoto_length]

theorem autoPass_length (h : HashOrder) (g : Grammar A Ty) (tbl : FirstTable) (st : AutoState) :
    st.states.length ≤ (autoPass h g tbl st).1.states.length := by
  unfold autoPass
  simp only [addGotos_length, List.length_append]
  omega

theorem initStates_length (h : HashOrder) (g : Grammar A Ty) (tbl : FirstTable)
    (l : List (NonTerminal A Ty × Nat)) (s r : AutoState × AMap Nat Nat)
    (hs : s.2 = [] ∨ 0 < s.1.states.length) (hr : initStates h g tbl l s = .ok r) :
    r.2 = [] ∨ 0 < r.1.states.length := by
  induction l generalizing s with
  | nil => cases hr; exact hs
  | cons e l ih =>
    obtain ⟨n, nt⟩ := e
    obtain ⟨st, entries⟩ := s
    unfold initStates at hr
    split at hr
    · split at hr
      · exact ih _ (Or.inr (by simp)) hr
      · cases hr
    · exact ih _ hs hr

theorem generateAutomaton_length {h : HashOrder} {g : Grammar A Ty} {tbl : FirstTable}
    {a : Automaton} (ha : generateAutomaton h g tbl = .ok a) :
    a.entries = [] ∨ 0 < a.states.length := by
  unfold generateAutomaton at ha
  obtain ⟨⟨st, entries⟩, h1, ha⟩ := Except.bind_eq_ok.1 ha
  have h0 := initStates_length h g tbl _ _ _ (Or.inl rfl) h1
  simp only at ha h0
  split at ha
  · cases ha
  · cases ha
    rcases h0 with h0 | h0
    · exact Or.inl h0
    · right
      exact whileUpdated_inv (P := fun st => 0 < st.states.length)
        (fun s hs => Nat.lt_of_lt_of_le hs (autoPass_length h g tbl s)) _ _ h0

theorem nStates_foldl {α : Type} {f : LRTable A → α → LRTable A}
    (hf : ∀ t e, (f t e).nStates = t.nStates) {l : List α} {t : LRTable A} :
    (l.foldl f t).nStates = t.nStates := by
  induction l generalizing t with
  | nil => rfl
  | cons e l ih => rw [List.foldl_cons, ih, hf]

theorem buildItem_nStates {h : HashOrder} {g : Grammar A Ty} {i : Nat} {st : LR1State}
    {t t' : LRTable A} {it : Item} (hb : buildItem h g i st t it = .ok t') :
    t'.nStates = t.nStates := by
  unfold buildItem at hb
  obtain ⟨t1, h1, hb⟩ := Except.bind_eq_ok.1 hb
  have e1 : t1.nStates = t.nStates := by
    unfold ruleShift LRTable.addShift at h1
    repeat' split at h1
    all_goals first | (cases h1; done) | (cases h1; rfl)
  split at hb
  · cases hb
  · obtain ⟨t2, h2, hb⟩ := Except.bind_eq_ok.1 hb
    have e2 : t2.nStates = t1.nStates := by
      unfold ruleReduce LRTable.addReduce at h2
      repeat' split at h2
      all_goals first | (cases h2; done) | (cases h2; rfl)
    obtain ⟨t3, h3, hb⟩ := Except.bind_eq_ok.1 hb
    have e3 : t3.nStates = t2.nStates := by
      unfold ruleAccept LRTable.addAccept at h3
      repeat' split at h3
      all_goals first | (cases h3; done) | (cases h3; rfl)
    cases hb
    unfold ruleGotos
    rw [nStates_foldl (by intro t e; split <;> rfl), e3, e2, e1]

theorem buildTable_nStates {h : HashOrder} {g : Grammar A Ty} {states : List LR1State}
    {t : LRTable A} (hb : buildTable h g states = .ok t) : t.nStates = states.length := by
  refine foldlM_ok_inv (P := fun t : LRTable A => t.nStates = states.length) ?_ _ _ _ rfl hb
  intro t s t' ht hs
  refine foldlM_ok_inv (P := fun t : LRTable A => t.nStates = states.length) ?_ _ _ _ ht hs
  intro t it t' ht hi
  rw [buildItem_nStates hi, ht]

/-- A generated parser with an entry point comes from a grammar of at most 2^32 non-terminals. -/
theorem generateParser_size [DecidableEq Ty] {h : HashOrder} {g : Grammar X Ty} {gen : Generated X}
    (hg : generateParser h g = .ok gen) (hne : gen.entries ≠ []) :
    g.nNonTerminals ≤ 4294967296 := by
  unfold generateParser at hg
  obtain ⟨a, h1, hg⟩ := Except.bind_eq_ok.1 hg
  obtain ⟨⟨fns, g'⟩, h2, hg⟩ := Except.bind_eq_ok.1 hg
  obtain ⟨T, h3, hg⟩ := Except.bind_eq_ok.1 hg
  obtain ⟨act, h4, hg⟩ := Except.bind_eq_ok.1 hg
  obtain ⟨gv, h5, hg⟩ := Except.bind_eq_ok.1 hg
  obtain ⟨go, h6, hg⟩ := Except.bind_eq_ok.1 hg
  obtain ⟨ents, h7, hg⟩ := Except.bind_eq_ok.1 hg
  cases hg
  have hs := (generateSemanticActionTable_ok h2).1
  have hn : 0 < T.nStates := by
    rw [buildTable_nStates h3]
    rcases generateAutomaton_length h1 with he | hl
    · exfalso
      have f := mapM_ok_iff.1 h7
      have : h.iter a.entries = [] := by rw [he]; exact List.perm_nil.1 (h.perm [])
      rw [this] at f
      exact hne (List.forall₂_nil_left_iff.1 f)
    · exact hl
  have f := mapM_ok_iff.1 h5
  obtain ⟨row, _, hrow⟩ := forall₂_getElem? f (i := 0) (x := 0) (by
    rw [List.getElem?_range hn])
  have f2 := mapM_ok_iff.1 hrow
  have hnt : g'.nNonTerminals = g.nNonTerminals := hs.nNonTerminals
  by_cases hz : g.nNonTerminals = 0
  · omega
  obtain ⟨c, _, hc⟩ := forall₂_getElem? f2 (i := g.nNonTerminals - 1) (x := g.nNonTerminals - 1) (by
    rw [hnt, List.getElem?_range (by omega)])
  obtain ⟨m, hm, _⟩ := Except.bind_eq_ok.1 hc
  unfold tryU32 at hm
  split at hm
  · omega
  · cases hm

theorem lowerDeclare_length {mkPath : String → X} {a : AstNonTerminal X Ty}
    {s s' : Grammar X Ty × AMap String Nat} (h : lowerDeclare mkPath a s = .ok s') :
    s'.1.nonTerminals.length = s.1.nonTerminals.length + a.width := by
  unfold lowerDeclare at h
  unfold AstNonTerminal.width
  split at h
  · next hp =>
    rw [if_pos hp]
    simp only [Grammar.addNonTerminal] at h
    obtain ⟨g3, h3, h⟩ := Except.bind_eq_ok.1 h
    cases h
    have := (addProduction_ok h3).length
    simp only at this ⊢
    rw [this]; simp
  · next hp =>
    cases h
    simp [hp]

theorem lower_length {mkPath : String → X} {asts : List (AstNonTerminal X Ty)}
    {convs : List (Conversion Ty)} {g : Grammar X Ty} (h : lower mkPath asts convs = .ok g) :
    g.nNonTerminals = (asts.map (·.width)).sum := by
  have htm : TermMap (Grammar.new : Grammar X Ty).terminals [] := by
    intro s i; simp [Grammar.new, AMap.get?]
  unfold lower at h
  obtain ⟨⟨g0, ts⟩, h0, h⟩ := Except.bind_eq_ok.1 h
  obtain ⟨hg0, _⟩ := lowerTerminals_ok htm h0
  obtain ⟨⟨g1, nts⟩, h1, h⟩ := Except.bind_eq_ok.1 h
  obtain ⟨news, hex, _⟩ := lowerProductions_ok h
  have hd : ∀ (l : List (AstNonTerminal X Ty)) (s s' : Grammar X Ty × AMap String Nat),
      lowerDeclareAll mkPath l s = .ok s' →
      s'.1.nonTerminals.length = s.1.nonTerminals.length + (l.map (·.width)).sum := by
    intro l
    induction l with
    | nil => intro s s' h; cases h; simp
    | cons a l ih =>
      intro s s' h
      unfold lowerDeclareAll at h
      obtain ⟨s1, hs1, h⟩ := Except.bind_eq_ok.1 h
      rw [ih _ _ h, lowerDeclare_length hs1]
      simp; omega
  unfold Grammar.nNonTerminals
  rw [hex.length, hd _ _ _ h1, hg0]
  simp [Grammar.new]

end Parsegen
