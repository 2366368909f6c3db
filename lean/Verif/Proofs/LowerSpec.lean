import Verif.Proofs.Lower

/-! # The lowered grammar and the user's grammar -/

namespace Parsegen

variable {X Ty : Type}

/-- The relation between the user's grammar and its lowered form. -/
structure Lowered (mkPath : String → X) (asts : List (AstNonTerminal X Ty))
    (convs : List (Conversion Ty)) (g : Grammar X Ty) (nts ts : AMap String Nat) : Prop where
  terminals : g.terminals = convs.map (·.from_)
  tmap : TermMap g.terminals ts
  tnodup : (convs.map (·.from_)).Nodup
  /-- exactly the defined names have an index -/
  idx : ∀ n, (∃ j, nts.get? n = some j) ↔ ∃ a ∈ asts, a.name = n
  inj : ∀ {n m j}, nts.get? n = some j → nts.get? m = some j → n = m
  /-- the non-terminal of a name has exactly the user's productions, in order -/
  prods : ∀ {n j}, nts.get? n = some j → ∃ (nt : NonTerminal X Ty) (a : AstNonTerminal X Ty), g.nonTerminals[j]? = some nt ∧ a ∈ asts ∧
    a.name = n ∧ nt.returnTy = a.typeDecl ∧
    nt.isPublic = false ∧ List.Forall₂ (LowersProd nts ts) (userProds asts n) nt.productions
  /-- entry points are wrappers -/
  pub : ∀ {E : Nat} {nt : NonTerminal X Ty}, g.nonTerminals[E]? = some nt → nt.isPublic = true →
    ∃ (a : AstNonTerminal X Ty) (b : Nat) (n' : NonTerminal X Ty), a ∈ asts ∧ a.isPub = true ∧ nt.name = a.name ∧ nt.returnTy = a.typeDecl ∧
      nt.productions = [wrapperProd mkPath b] ∧ g.nonTerminals[b]? = some n' ∧
      n'.isPublic = false ∧ n'.returnTy = a.typeDecl ∧
      (nts.get? a.name = some b ∨ n'.productions = [])
  /-- everything else is empty -/
  priv : ∀ {j : Nat} {nt : NonTerminal X Ty}, g.nonTerminals[j]? = some nt → nt.isPublic = false →
    (∀ n, nts.get? n ≠ some j) → nt.productions = []
  /-- every `pub` definition has an entry point -/
  pub_mk : ∀ {l1 : List (AstNonTerminal X Ty)} {a l2}, asts = l1 ++ a :: l2 → a.isPub = true → ∃ (E : Nat) (nt : NonTerminal X Ty) (b : Nat) (n' : NonTerminal X Ty),
    g.nonTerminals[E]? = some nt ∧ nt.isPublic = true ∧ nt.name = a.name ∧
    nt.productions = [wrapperProd mkPath b] ∧ g.nonTerminals[b]? = some n' ∧
    ((∀ c ∈ l2, c.name ≠ a.name) → nts.get? a.name = some b) ∧
    ((∃ c ∈ l2, c.name = a.name) → n'.productions = [])
  size : g.nNonTerminals = (asts.map (·.width)).sum
  /-- names, visibility and types of all non-terminals, in order -/
  decls : g.nonTerminals.map (fun n => (n.name, n.isPublic, n.returnTy)) = asts.flatMap fun a =>
    if a.isPub then [(a.name ++ "1", false, a.typeDecl), (a.name, true, a.typeDecl)]
    else [(a.name, false, a.typeDecl)]
  /-- the wrapped non-terminal is the one declared just before its entry point -/
  wrapped : ∀ {E : Nat} {nt : NonTerminal X Ty}, g.nonTerminals[E]? = some nt →
    nt.isPublic = true → 1 ≤ E ∧ nt.productions = [wrapperProd mkPath (E - 1)] ∧
      ∃ n', g.nonTerminals[E - 1]? = some n' ∧ n'.name = nt.name ++ "1"
  /-- the number of a name -/
  num : ∀ {n j}, nts.get? n = some j → ∃ (l1 : List (AstNonTerminal X Ty)) (a : AstNonTerminal X Ty)
    (l2 : List (AstNonTerminal X Ty)), asts = l1 ++ a :: l2 ∧ a.name = n ∧
      (∀ b ∈ l2, b.name ≠ n) ∧ j = (l1.map (·.width)).sum

theorem lower_ok_iff {mkPath : String → X} {asts : List (AstNonTerminal X Ty)}
    {convs : List (Conversion Ty)} (hsz : (asts.map (·.width)).sum ≤ 4294967296)
    (hszt : convs.length ≤ 4294967296) :
    (∃ g, lower mkPath asts convs = .ok g) ↔
      (convs.map (·.from_)).Nodup ∧
      ∀ a ∈ asts, ∀ p ∈ a.productions, (∃ e, p.action = .infallible e) ∧
        ∀ s ∈ p.symbols, (∃ n, s.plain = some (.nt n) ∧ ∃ b ∈ asts, b.name = n) ∨
          (∃ t, s.plain = some (.term t) ∧ ∃ c ∈ convs, c.from_ = t) := by
  have htm : TermMap (Grammar.new : Grammar X Ty).terminals [] := by
    intro s i; simp [Grammar.new, AMap.get?]
  have hdecl : ∀ g0 : Grammar X Ty, g0.nonTerminals = [] → ∃ nts',
      lowerDeclareAll mkPath asts (g0, []) =
        .ok (⟨declared mkPath 0 asts, g0.terminals⟩, nts') ∧
      ∀ n, nts'.get? n = declIdx 0 asts n := by
    intro g0 hg0
    obtain ⟨nts', h1, h2⟩ := lowerDeclareAll_eq (mkPath := mkPath) (asts := asts) (g := g0)
      (nts := []) (by rw [hg0]; simpa using hsz)
    rw [hg0] at h1 h2
    exact ⟨nts', by simpa using h1, by intro n; rw [h2 n]; simp [AMap.get?]⟩
  have hres : ∀ {nts ts : AMap String Nat}, (∀ n, nts.get? n = declIdx 0 asts n) →
      TermMap (convs.map (·.from_)) ts → ∀ s, Resolves nts ts s ↔
        (∃ n, s.plain = some (.nt n) ∧ ∃ b ∈ asts, b.name = n) ∨
          (∃ t, s.plain = some (.term t) ∧ ∃ c ∈ convs, c.from_ = t) := by
    intro nts ts h1 h2 s
    have e1 : ∀ n, (∃ i, nts.get? n = some i) ↔ ∃ b ∈ asts, b.name = n := by
      intro n
      rw [h1]
      constructor
      · rintro ⟨i, hi⟩
        obtain ⟨a, ha, hn, _⟩ := declIdx_get (mkPath := mkPath) hi
        exact ⟨a, ha, hn⟩
      · rintro ⟨b, hb, hbn⟩
        cases hr : declIdx 0 asts n with
        | none => exact absurd hbn (declIdx_none_iff.1 hr b hb)
        | some i => exact ⟨i, rfl⟩
    have e2 : ∀ t, (∃ i, ts.get? t = some i) ↔ ∃ c ∈ convs, c.from_ = t := by
      intro t
      constructor
      · rintro ⟨i, hi⟩
        have := List.mem_iff_getElem?.2 ⟨i, (h2 t i).1 hi⟩
        exact List.mem_map.1 this
      · rintro hc
        obtain ⟨i, hi⟩ := List.mem_iff_getElem?.1 (List.mem_map.2 hc)
        exact ⟨i, (h2 t i).2 hi⟩
    unfold Resolves
    simp only [← e1, ← e2]
    constructor
    · rintro (⟨n, i, h, h'⟩ | ⟨n, i, h, h'⟩)
      · exact Or.inl ⟨n, h, i, h'⟩
      · exact Or.inr ⟨n, h, i, h'⟩
    · rintro (⟨n, h, i, h'⟩ | ⟨n, h, i, h'⟩)
      · exact Or.inl ⟨n, i, h, h'⟩
      · exact Or.inr ⟨n, i, h, h'⟩
  constructor
  · rintro ⟨g, h⟩
    unfold lower at h
    obtain ⟨⟨g0, ts⟩, h0, h⟩ := Except.bind_eq_ok.1 h
    obtain ⟨hg0, htm', _, hnd, _⟩ := lowerTerminals_ok htm h0
    obtain ⟨nts, hd, hget⟩ := hdecl g0 (by rw [hg0]; rfl)
    simp only at h
    rw [hd] at h
    simp only [Except.bind_ok] at h
    have hneeds := lowerProductions_needs h
    refine ⟨hnd, ?_⟩
    intro a ha p hp
    obtain ⟨h1, h2⟩ := hneeds a ha p hp
    refine ⟨h2, fun s hs => (hres hget ?_ s).1 (h1 s hs)⟩
    rw [hg0] at htm'
    simpa [Grammar.new] using htm'
  · rintro ⟨hnd, hp⟩
    obtain ⟨⟨g0, ts⟩, h0⟩ := lowerTerminals_mk (X := X) (g := Grammar.new) (cs := convs) htm
      (by intro c _; simp [Grammar.new]) hnd (by simpa [Grammar.new] using hszt)
    obtain ⟨hg0, htm', _, _, _⟩ := lowerTerminals_ok htm h0
    obtain ⟨nts, hd, hget⟩ := hdecl g0 (by rw [hg0]; rfl)
    have htm'' : TermMap (convs.map (·.from_)) ts := by
      rw [hg0] at htm'
      simpa [Grammar.new] using htm'
    obtain ⟨g, hg⟩ := lowerProductions_mk (nts := nts) (ts := ts) (asts := asts)
      (g := ⟨declared mkPath 0 asts, g0.terminals⟩) (by
        intro a ha
        cases hr : declIdx 0 asts a.name with
        | none => exact absurd rfl (declIdx_none_iff.1 hr a ha)
        | some i =>
          obtain ⟨b, _, _, hget'⟩ := declIdx_get (mkPath := mkPath) hr
          exact ⟨i, by rw [hget, hr], by simpa using (List.getElem?_eq_some_iff.1 hget').1⟩) (by
        intro a ha p hp'
        obtain ⟨h1, h2⟩ := hp a ha p hp'
        exact ⟨fun s hs => (hres hget htm'' s).2 (h2 s hs), h1⟩)
    refine ⟨g, ?_⟩
    unfold lower
    rw [h0]
    simp only [Except.bind_ok]
    rw [hd]
    simp only [Except.bind_ok]
    exact hg

theorem lower_ok {mkPath : String → X} {asts : List (AstNonTerminal X Ty)}
    {convs : List (Conversion Ty)} (hsz : (asts.map (·.width)).sum ≤ 4294967296)
    {g : Grammar X Ty} (h : lower mkPath asts convs = .ok g) :
    ∃ nts ts, Lowered mkPath asts convs g nts ts := by
  have htm : TermMap (Grammar.new : Grammar X Ty).terminals [] := by
    intro s i; simp [Grammar.new, AMap.get?]
  unfold lower at h
  obtain ⟨⟨g0, ts⟩, h0, h⟩ := Except.bind_eq_ok.1 h
  obtain ⟨hg0, htm', _, hnd, _⟩ := lowerTerminals_ok htm h0
  have hg0n : g0.nonTerminals = [] := by rw [hg0]; rfl
  have hg0t : g0.terminals = convs.map (·.from_) := by rw [hg0]; simp [Grammar.new]
  obtain ⟨nts, hd, hget⟩ := lowerDeclareAll_eq (mkPath := mkPath) (asts := asts) (g := g0)
      (nts := []) (by rw [hg0n]; simpa using hsz)
  rw [hg0n] at hd hget
  simp only [AMap.get?_nil, Option.or_none, List.length_nil, List.nil_append] at hd hget
  simp only at h
  rw [hd] at h
  simp only [Except.bind_ok] at h
  obtain ⟨news, hex, hnews⟩ := lowerProductions_ok h
  have hgt : g.terminals = g0.terminals := hex.terminals
  -- productions by name
  have hprods : ∀ n j, nts.get? n = some j → prodsAt nts asts j = userProds asts n := by
    intro n j hn
    unfold prodsAt userProds
    congr 1
    apply List.filter_congr
    intro a ha
    by_cases han : a.name = n
    · rw [han, hn]; simp
    · have h1 : (a.name == n) = false := by simpa using han
      rw [h1]
      simp only [beq_eq_false_iff_ne, ne_eq]
      intro h'
      rw [hget] at hn h'
      exact han (declIdx_inj h' hn)
  have hpriv : ∀ {j : Nat}, (∀ n, nts.get? n ≠ some j) → news j = [] := by
    intro j hj
    have := hnews j
    have he : prodsAt nts asts j = [] := by
      unfold prodsAt
      rw [List.filter_eq_nil_iff.2 ?_]
      · rfl
      · intro a _; simpa using hj a.name
    rw [he] at this
    exact List.forall₂_nil_left_iff.1 this
  have hgetj : ∀ {j : Nat} {nt : NonTerminal X Ty}, g.nonTerminals[j]? = some nt →
      ∃ d, (declared mkPath 0 asts)[j]? = some d ∧ nt.name = d.name ∧ nt.isPublic = d.isPublic ∧
        nt.returnTy = d.returnTy ∧ nt.productions = d.productions ++ news j := by
    intro j nt hj
    rw [hex.get j] at hj
    simp only [Option.map_eq_some_iff] at hj
    obtain ⟨d, hd, rfl⟩ := hj
    exact ⟨d, hd, rfl, rfl, rfl, rfl⟩
  have hgetd : ∀ {j : Nat} {d : NonTerminal X Ty}, (declared mkPath 0 asts)[j]? = some d →
      g.nonTerminals[j]? = some { d with productions := d.productions ++ news j } := by
    intro j d hj
    rw [hex.get j]
    simp only [hj, Option.map_some]
  have hnoidx : ∀ {j : Nat} {d : NonTerminal X Ty}, (declared mkPath 0 asts)[j]? = some d →
      d.isPublic = true → ∀ n, nts.get? n ≠ some j := by
    intro j d hj hp n hn
    rw [hget] at hn
    obtain ⟨a, _, _, ha⟩ := declIdx_get (mkPath := mkPath) hn
    rw [Nat.sub_zero] at ha
    rw [ha] at hj
    cases hj; cases hp
  refine ⟨nts, ts, ?_⟩
  constructor
  · exact hgt.trans hg0t
  · rw [hgt]; exact htm'
  · exact hnd
  · intro n
    rw [hget]
    constructor
    · rintro ⟨i, hi⟩
      obtain ⟨a, ha, hn, _⟩ := declIdx_get (mkPath := mkPath) hi
      exact ⟨a, ha, hn⟩
    · rintro ⟨b, hb, hbn⟩
      cases hr : declIdx 0 asts n with
      | none => exact absurd hbn (declIdx_none_iff.1 hr b hb)
      | some i => exact ⟨i, rfl⟩
  · intro n m j h1 h2
    rw [hget] at h1 h2
    exact declIdx_inj h1 h2
  · intro n j hn
    have hn' := hn
    rw [hget] at hn'
    obtain ⟨a, ha, han, hd'⟩ := declIdx_get (mkPath := mkPath) hn'
    rw [Nat.sub_zero] at hd'
    refine ⟨_, a, hgetd hd', ha, han, rfl, rfl, ?_⟩
    simp only [List.nil_append]
    rw [← hprods n j hn]
    exact hnews j
  · intro E nt hE hp
    obtain ⟨d, hd', h1, h2, h3, h4⟩ := hgetj hE
    rw [hp] at h2
    have hno := hpriv (hnoidx hd' h2.symm)
    rcases declared_get hd' with ⟨_, h5⟩ | ⟨a, ha, hap, hk, rfl, hb, huniq⟩
    · rw [h5] at h2; cases h2
    · refine ⟨a, 0 + E - 1, ⟨a.name ++ "1", [] ++ news (E - 1), a.typeDecl, false⟩, ha, hap, h1, h3,
        by rw [h4, hno]; simp, ?_, ?_, ?_, ?_⟩
      · have := hgetd hb; simpa using this
      · rfl
      · rfl
      · by_cases hex' : ∃ n, nts.get? n = some (E - 1)
        · obtain ⟨n, hn⟩ := hex'
          left
          have := huniq n (by rw [← hget]; simpa using hn)
          rw [← this]; simpa using hn
        · right
          simp only [List.nil_append]
          exact hpriv (fun n hn => hex' ⟨n, hn⟩)
  · intro j nt hj hp hno
    obtain ⟨d, hd', h1, h2, h3, h4⟩ := hgetj hj
    rw [h4, hpriv hno]
    rcases declared_get hd' with ⟨h5, _⟩ | ⟨a, _, _, _, rfl, _⟩
    · rw [h5]; rfl
    · rw [hp] at h2; cases h2
  · intro l1 a l2 hasts hp
    obtain ⟨k, h1, h2, h3, h4⟩ := declared_wrapper (mkPath := mkPath) (off := 0) hasts hp
    rw [Nat.zero_add] at h2 h3 h4
    refine ⟨k + 1, _, k, _, hgetd h2, rfl, rfl, ?_, hgetd h1, ?_, ?_⟩
    · simp only [hpriv (hnoidx h2 rfl)]; simp
    · intro h; rw [hget]; exact h3 h
    · intro h
      simp only [List.nil_append]
      by_cases hex' : ∃ n, nts.get? n = some k
      · obtain ⟨n, hn⟩ := hex'
        exfalso
        rw [hget] at hn
        have hw := declared_get h2
        rcases hw with ⟨h5, _⟩ | ⟨b, _, _, _, hb, _, huniq⟩
        · cases h5
        · have := huniq n (by simpa using hn)
          have hab : a.name = b.name := congrArg NonTerminal.name hb
          rw [this, ← hab] at hn
          exact h4 h hn
      · exact hpriv (fun n hn => hex' ⟨n, hn⟩)
  · have hl := hex.length
    unfold Grammar.nNonTerminals
    rw [hl]
    simp [declared_length]
  · have h1 : g.nonTerminals.map (fun n => (n.name, n.isPublic, n.returnTy)) =
        (declared mkPath 0 asts).map (fun n => (n.name, n.isPublic, n.returnTy)) := by
      apply List.ext_getElem?
      intro i
      rw [List.getElem?_map, List.getElem?_map, hex.get i]
      cases (declared mkPath 0 asts)[i]? <;> rfl
    rw [h1]
    have h2 : ∀ (l : List (AstNonTerminal X Ty)) (off : Nat),
        (declared mkPath off l).map (fun n => (n.name, n.isPublic, n.returnTy)) =
          l.flatMap fun a =>
            if a.isPub then [(a.name ++ "1", false, a.typeDecl), (a.name, true, a.typeDecl)]
            else [(a.name, false, a.typeDecl)] := by
      intro l
      induction l with
      | nil => intro off; rfl
      | cons a l ih =>
        intro off
        rw [declared, List.map_append, ih, List.flatMap_cons]
        congr 1
        unfold declOne
        split <;> rfl
    exact h2 asts 0
  · intro E nt hE hp
    obtain ⟨d, hd', h1, h2, h3, h4⟩ := hgetj hE
    rw [hp] at h2
    have hno := hpriv (hnoidx hd' h2.symm)
    rcases declared_get hd' with ⟨_, h5⟩ | ⟨a, ha, hap, hk, rfl, hb, huniq⟩
    · rw [h5] at h2; cases h2
    · refine ⟨hk, by rw [h4, hno]; simp, _, hgetd hb, ?_⟩
      simp [h1]
  · intro n j hn
    rw [hget] at hn
    have := declIdx_num hn
    simpa using this

end Parsegen
