import Verif.Spec.Reject
import Verif.Proofs.Conflict
import Verif.Proofs.LowerSpec
import Verif.Proofs.Macro

/-! # Causes of rejections -/

namespace Parsegen

variable {A X Ty : Type}

theorem lowerTerminals_error {cs : List (Conversion Ty)} {g : Grammar X Ty} {ts : AMap String Nat}
    (ht : TermMap g.terminals ts) {f : Fault} (h : lowerTerminals cs (g, ts) = .error f) :
    (∃ l1 c l2, cs = l1 ++ c :: l2 ∧ f = .duplicateTerminal c.from_ ∧
      (c.from_ ∈ g.terminals ∨ ∃ d ∈ l1, d.from_ = c.from_)) ∨
    (f = .u32Overflow ∧ 4294967296 < g.terminals.length + cs.length) := by
  induction cs generalizing g ts with
  | nil => cases h
  | cons c cs ih =>
    rcases Except.bind_eq_error.1 h with h | ⟨⟨g', idx⟩, h1, h2⟩
    · rcases Except.bind_eq_error.1 h with h | ⟨_, _, h⟩
      · right
        refine ⟨(tryU32_error h).1, ?_⟩
        unfold tryU32 at h
        split at h
        · cases h
        · simp; omega
      · cases h
    · obtain ⟨i, hi, h3⟩ := Except.bind_eq_ok.1 h1
      cases h3
      obtain ⟨rfl, hlt⟩ := tryU32_ok.1 hi
      simp only at h2
      split at h2
      · next hs =>
        cases h2
        left
        refine ⟨[], c, cs, rfl, rfl, .inl ?_⟩
        by_contra hc
        rw [ht.none_iff.2 hc] at hs
        cases hs
      · next hs =>
        have hs' : c.from_ ∉ g.terminals := by
          rw [← ht.none_iff]; simpa using hs
        rcases ih (ht.snoc hs') h2 with ⟨l1, c', l2, rfl, h4, h5⟩ | ⟨h4, h5⟩
        · left
          refine ⟨c :: l1, c', l2, rfl, h4, ?_⟩
          rcases h5 with h5 | ⟨d, hd, h5⟩
          · rcases List.mem_append.1 h5 with h5 | h5
            · exact .inl h5
            · simp at h5
              exact .inr ⟨c, by simp, h5.symm⟩
          · exact .inr ⟨d, by simp [hd], h5⟩
        · right
          simp at h5 ⊢
          exact ⟨h4, by omega⟩

theorem addSymbol_error {nts ts : AMap String Nat} {s : AstSymbol} {b : Option Name} {f : Fault}
    (h : addSymbol nts ts b s = .error f) :
    (∃ n, s.plain = some (.nt n) ∧ nts.get? n = none ∧ f = .undefinedNonTerminal n) ∨
    (∃ t, s.plain = some (.term t) ∧ ts.get? t = none ∧ f = .unknownTerminal t) ∨
    (s.plain = none ∧ f = .repeatUnsupported) := by
  induction s generalizing b with
  | nonTerminal n =>
    unfold addSymbol at h
    split at h
    · next hn => cases h; exact .inl ⟨n, rfl, hn, rfl⟩
    · cases h
  | terminal t =>
    unfold addSymbol at h
    split at h
    · next hn => cases h; exact .inr (.inl ⟨t, rfl, hn, rfl⟩)
    · cases h
  | repeat_ _ _ => cases h; exact .inr (.inr ⟨rfl, rfl⟩)
  | named x s ih => exact ih h

theorem lowerSymbols_error {nts ts : AMap String Nat} {ss : List AstSymbol} {f : Fault}
    (h : lowerSymbols nts ts ss = .error f) : ∃ s ∈ ss, addSymbol nts ts none s = .error f := by
  induction ss with
  | nil => cases h
  | cons s ss ih =>
    rcases Except.bind_eq_error.1 h with h | ⟨_, _, h⟩
    · exact ⟨s, by simp, h⟩
    · rcases Except.bind_eq_error.1 h with h | ⟨_, _, h⟩
      · obtain ⟨x, hx, hx'⟩ := ih h
        exact ⟨x, by simp [hx], hx'⟩
      · cases h

theorem lowerProductionsOf_length {nts ts : AMap String Nat} {name : String}
    {ps : List (AstProduction X)} {g g' : Grammar X Ty}
    (h : ps.foldlM (lowerProduction nts ts name) g = .ok g') :
    g'.nonTerminals.length = g.nonTerminals.length := by
  obtain ⟨_, h, _⟩ := lowerProductionsOf_ok h
  exact h.length

theorem lowerProduction_error {nts ts : AMap String Nat} {name : String} {g : Grammar X Ty}
    {p : AstProduction X} {i : Nat} (hi : nts.get? name = some i)
    (hlt : i < g.nonTerminals.length) {f : Fault}
    (h : lowerProduction nts ts name g p = .error f) :
    (∃ s ∈ p.symbols, addSymbol nts ts none s = .error f) ∨
      (f = .fallibleUnsupported ∧ ∃ e, p.action = .fallible e) := by
  rcases Except.bind_eq_error.1 h with h | ⟨syms, _, h⟩
  · exact .inl (lowerSymbols_error h)
  · rw [hi] at h
    simp only at h
    split at h
    · next e he => cases h; exact .inr ⟨rfl, e, he⟩
    · unfold Grammar.addProduction at h
      split at h
      · next hn => rw [List.getElem?_eq_none_iff] at hn; omega
      · cases h

/-- Every failure of lowering has its documented cause. -/
theorem lower_error {mkPath : String → X} {asts : List (AstNonTerminal X Ty)}
    {convs : List (Conversion Ty)} (hsz : (asts.map (·.width)).sum ≤ 4294967296) {f : Fault}
    (h : lower mkPath asts convs = .error f) : Complaint asts convs f := by
  unfold lower at h
  rcases Except.bind_eq_error.1 h with h | ⟨⟨g0, ts⟩, h0, h⟩
  · rcases lowerTerminals_error (by intro s i; simp [Grammar.new, AMap.get?]) h with
      ⟨l1, c, l2, rfl, rfl, h1⟩ | ⟨rfl, h1⟩
    · simp [Grammar.new] at h1
      exact ⟨l1, c, l2, rfl, rfl, h1⟩
    · show 4294967296 < convs.length
      simpa [Grammar.new] using h1
  · obtain ⟨e0, htm, hnd, -⟩ := lowerTerminals_ok (by intro s i; simp [Grammar.new, AMap.get?]) h0
    simp only at h
    have hg0 : g0.nonTerminals = [] := by rw [e0]; rfl
    obtain ⟨nts, e1, hnts⟩ := lowerDeclareAll_eq (mkPath := mkPath) (asts := asts) (g := g0)
      (nts := []) (by rw [hg0]; simpa using hsz)
    rw [e1, Except.bind_ok] at h
    simp only [hg0, List.length_nil, List.nil_append] at h hnts
    have hterms : g0.terminals = convs.map (·.from_) := by rw [e0]; simp [Grammar.new]
    have hnone : ∀ n, nts.get? n = none → ∀ a ∈ asts, a.name ≠ n := by
      intro n hn
      rw [hnts n, Option.or_eq_none_iff] at hn
      exact declIdx_none_iff.1 hn.1
    have hidx : ∀ a ∈ asts, ∃ i, nts.get? a.name = some i ∧
        i < (declared mkPath 0 asts).length := by
      intro a ha
      cases hd : declIdx 0 asts a.name with
      | none => exact absurd rfl (declIdx_none_iff.1 hd a ha)
      | some i =>
        refine ⟨i, by rw [hnts, hd]; rfl, ?_⟩
        obtain ⟨_, _, _, h3⟩ := declIdx_get (mkPath := mkPath) hd
        exact (List.getElem?_eq_some_iff.1 h3).1
    have hsym : ∀ s, Occurs asts s → addSymbol nts ts none s = .error f →
        Complaint asts convs f := by
      intro s hs he
      rcases addSymbol_error he with ⟨n, h1, h2, rfl⟩ | ⟨t, h1, h2, rfl⟩ | ⟨h1, rfl⟩
      · exact ⟨⟨s, hs, h1⟩, hnone n h2⟩
      · refine ⟨⟨s, hs, h1⟩, ?_⟩
        intro c hc hct
        have := htm.none_iff.1 h2
        rw [hterms] at this
        exact this (List.mem_map.2 ⟨c, hc, hct⟩)
      · exact ⟨s, hs, h1⟩
    unfold lowerProductions at h
    obtain ⟨l1, a, l2, g2, ha, h1, h2⟩ := foldlM_error _ _ h
    have haa : a ∈ asts := by rw [ha]; simp
    have hlen2 : g2.nonTerminals.length = (declared mkPath 0 asts).length := by
      have h1' : lowerProductions nts ts l1 ⟨declared mkPath 0 asts, g0.terminals⟩ = .ok g2 := h1
      obtain ⟨_, hx, _⟩ := lowerProductions_ok h1'
      exact hx.length
    obtain ⟨p1, p, p2, g3, hp, h3, h4⟩ := foldlM_error _ _ h2
    have hpa : p ∈ a.productions := by rw [hp]; simp
    have hlen3 := lowerProductionsOf_length h3
    obtain ⟨i, hi, hlt⟩ := hidx a haa
    rcases lowerProduction_error hi (by omega) h4 with ⟨s, hs, he⟩ | ⟨rfl, e, he⟩
    · exact hsym s ⟨a, haa, p, hpa, hs⟩ he
    · exact ⟨a, haa, p, hpa, e, he⟩

theorem macroFold_error {items : List (GrammarItem X Ty)} {s : MacroState X Ty} {f : Fault}
    (h : items.foldlM macroItem s = .error f) :
    (f = .duplicateState ∧ 2 ≤ s.stateType.toList.length + (itemTypeDefs items).length) ∨
    (f = .duplicateTokenEnum ∧ 2 ≤ s.tokenEnum.toList.length + (itemTokenEnums items).length) := by
  induction items generalizing s with
  | nil => cases h
  | cons it items ih =>
    rw [List.foldlM_cons] at h
    rcases Except.bind_eq_error.1 h with h | ⟨s', h1, h2⟩
    · cases it with
      | typeDef ty =>
        simp only [macroItem] at h
        split at h
        · next hs =>
          cases h
          obtain ⟨x, hx⟩ := Option.isSome_iff_exists.1 hs
          left; simp [hx, itemTypeDefs]; omega
        · cases h
      | tokenEnum t =>
        simp only [macroItem] at h
        split at h
        · next hs =>
          cases h
          obtain ⟨x, hx⟩ := Option.isSome_iff_exists.1 hs
          right; simp [hx, itemTokenEnums]; omega
        · cases h
      | nonTerminal n => cases h
    · have := ih h2
      cases it with
      | typeDef ty =>
        simp only [macroItem] at h1
        split at h1
        · cases h1
        · next hs =>
          cases h1
          have hn : s.stateType = none := by simpa using hs
          simpa [itemTypeDefs, itemTokenEnums, hn, Nat.add_comm] using this
      | tokenEnum t =>
        simp only [macroItem] at h1
        split at h1
        · cases h1
        · next hs =>
          cases h1
          have hn : s.tokenEnum = none := by simpa using hs
          simpa [itemTypeDefs, itemTokenEnums, hn, Nat.add_comm] using this
      | nonTerminal n => cases h1; simpa [itemTypeDefs, itemTokenEnums] using this

end Parsegen
