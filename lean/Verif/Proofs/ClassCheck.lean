import Verif.Proofs.Classes
import Verif.Props.Harmless

/-! # LL(1) and SLR(1), checked by computation

Checks of guessed tables, sound by the theorems below.  They are not part of the modelled code. -/

namespace Parsegen

variable {X Ty : Type} {defs : List (AstNonTerminal X Ty)}

/-- Guesses: the non-terminals that derive the empty string, FIRST sets, FOLLOW sets. -/
structure Guess where
  nul : List String
  first : String → List String
  follow : String → List (Option String)

/-- What the symbols can begin with. -/
def Guess.firstOf (G : Guess) : List USym → List String
  | [] => []
  | .term t :: _ => [t]
  | .nt A :: l => G.first A ++ if G.nul.contains A then G.firstOf l else []

/-- What can come when the symbols are followed by `k`. -/
def Guess.ahead (G : Guess) (l : List USym) (k : List (Option String)) : List (Option String) :=
  (G.firstOf l).map some ++ if l.all (USym.isIn G.nul) then k else []

/-- FOLLOW sets contain what they should because of a part of a production of `A`. -/
def Guess.followOk (G : Guess) (A : String) : List USym → Bool
  | [] => true
  | .term _ :: l => G.followOk A l
  | .nt B :: l => (G.ahead l (G.follow A)).all (G.follow B).contains && G.followOk A l

/-- The guess is closed under the equations. -/
def Guess.check (G : Guess) (defs : List (AstNonTerminal X Ty)) : Bool :=
  defs.all fun d => (!d.isPub || (G.follow d.name).contains none) && d.productions.all fun p =>
    (!p.rhs.all (USym.isIn G.nul) || G.nul.contains d.name) &&
    (G.firstOf p.rhs).all (G.first d.name).contains && G.followOk d.name p.rhs

variable {G : Guess}

theorem Guess.check_prod (h : G.check defs = true) {A : String} {p : AstProduction X}
    (hp : p ∈ userProds defs A) : (p.rhs.all (USym.isIn G.nul) = true → A ∈ G.nul) ∧
      (∀ t ∈ G.firstOf p.rhs, t ∈ G.first A) ∧ G.followOk A p.rhs = true := by
  obtain ⟨d, hd, hpd⟩ := List.mem_flatMap.1 hp
  rw [List.mem_filter, beq_iff_eq] at hd
  obtain ⟨hd, rfl⟩ := hd
  have h := List.all_eq_true.1 h d hd
  rw [Bool.and_eq_true] at h
  have h := List.all_eq_true.1 h.2 p hpd
  simp only [Bool.and_eq_true, Bool.or_eq_true, Bool.not_eq_true', List.all_eq_true,
    List.contains_iff_mem] at h
  refine ⟨fun hh => ?_, h.1.2, h.2⟩
  rcases h.1.1 with h1 | h1
  · rw [hh] at h1; cases h1
  · exact h1

theorem Guess.check_pub (h : G.check defs = true) {d : AstNonTerminal X Ty} (hd : d ∈ defs)
    (hp : d.isPub = true) : none ∈ G.follow d.name := by
  have h := List.all_eq_true.1 h d hd
  simp only [Bool.and_eq_true, hp, Bool.not_true, Bool.false_or, List.contains_iff_mem] at h
  exact h.1

theorem Guess.firstOf_append (a b : List USym) : G.firstOf (a ++ b) = G.firstOf a ++
    if a.all (USym.isIn G.nul) then G.firstOf b else [] := by
  induction a with
  | nil => simp [firstOf]
  | cons s a ih =>
    match s with
    | .term t => simp [firstOf, USym.isIn]
    | .nt A =>
      simp only [List.cons_append, firstOf, ih, List.all_cons, USym.isIn]
      by_cases hA : A ∈ G.nul <;> simp [hA]

theorem Guess.mem_ahead {l : List USym} {k : List (Option String)} {c : Option String} :
    c ∈ G.ahead l k ↔ (∃ t ∈ G.firstOf l, some t = c) ∨ l.all (USym.isIn G.nul) = true ∧ c ∈ k := by
  unfold ahead
  rw [List.mem_append, List.mem_map]
  split <;> simp_all

theorem Guess.mem_ahead_append {a b : List USym} {k : List (Option String)} {c : Option String} :
    c ∈ G.ahead (a ++ b) k ↔ c ∈ G.ahead a (G.ahead b k) := by
  rw [mem_ahead, mem_ahead, firstOf_append, mem_ahead, List.all_append, Bool.and_eq_true]
  by_cases ha : a.all (USym.isIn G.nul) = true
  · simp only [ha, if_true, List.mem_append, true_and]
    constructor
    · rintro (⟨t, h | h, rfl⟩ | h)
      · exact .inl ⟨t, h, rfl⟩
      · exact .inr (.inl ⟨t, h, rfl⟩)
      · exact .inr (.inr h)
    · rintro (⟨t, h, rfl⟩ | ⟨t, h, rfl⟩ | h)
      · exact .inl ⟨t, .inl h, rfl⟩
      · exact .inl ⟨t, .inr h, rfl⟩
      · exact .inr h
  · simp [ha]

/-- One step backwards. -/
theorem Guess.ahead_produces (h : G.check defs = true) {u v : List USym} (s : UProduces defs u v)
    {k : List (Option String)} {c : Option String} (hc : c ∈ G.ahead v k) : c ∈ G.ahead u k := by
  cases s with
  | mk l r rhs name p hp hs =>
    obtain ⟨h1, h2, -⟩ := Guess.check_prod h hp
    rw [AstProduction.rhs_eq hs] at h1 h2
    rw [List.append_assoc, Guess.mem_ahead_append] at hc
    rw [show l ++ .nt name :: r = l ++ ([.nt name] ++ r) from rfl, Guess.mem_ahead_append]
    rw [Guess.mem_ahead] at hc ⊢
    rcases hc with hc | ⟨hl, hc⟩
    · exact .inl hc
    · refine .inr ⟨hl, ?_⟩
      rw [Guess.mem_ahead_append] at hc ⊢
      rw [Guess.mem_ahead] at hc ⊢
      rcases hc with ⟨t, ht, rfl⟩ | ⟨hr, hc⟩
      · exact .inl ⟨t, by simp [Guess.firstOf, h2 t ht], rfl⟩
      · exact .inr ⟨by simp [USym.isIn, h1 hr], hc⟩

theorem Guess.ahead_derives (h : G.check defs = true) {u v : List USym} (s : UDerives defs u v)
    {k : List (Option String)} {c : Option String} (hc : c ∈ G.ahead v k) : c ∈ G.ahead u k := by
  induction s with
  | refl => exact hc
  | tail _ s ih => exact ih (Guess.ahead_produces h s hc)

/-- Guessed lookaheads are not too small. -/
theorem UFollows.guessed (h : G.check defs = true) {z : List USym} {c : Option String}
    (hc : UFollows defs z c) : c ∈ G.ahead z [none] := by
  match c, hc with
  | some t, ⟨x, hx⟩ => exact G.ahead_derives h hx (by simp [Guess.ahead, Guess.firstOf])
  | none, hx => exact G.ahead_derives h hx (by simp [Guess.ahead])

theorem Guess.followOk_split {A B : String} {α β : List USym}
    (h : G.followOk A (α ++ .nt B :: β) = true) :
    ∀ c ∈ G.ahead β (G.follow A), c ∈ G.follow B := by
  induction α with
  | nil =>
    simp only [List.nil_append, followOk, Bool.and_eq_true, List.all_eq_true, List.contains_iff_mem] at h
    exact h.1
  | cons s α ih =>
    match s with
    | .term t => exact ih h
    | .nt C =>
      simp only [List.cons_append, followOk, Bool.and_eq_true] at h
      exact ih h.2

theorem Guess.ahead_mono {l : List USym} {k k' : List (Option String)} (h : ∀ c ∈ k, c ∈ k')
    {c : Option String} (hc : c ∈ G.ahead l k) : c ∈ G.ahead l k' := by
  rw [mem_ahead] at hc ⊢
  rcases hc with hc | ⟨h1, h2⟩
  · exact .inl hc
  · exact .inr ⟨h1, h _ h2⟩

/-- In sentential forms, what follows is in the guessed sets. -/
theorem Guess.follow_form (h : G.check defs = true) {S : String} (hS : none ∈ G.follow S) {φ : List USym}
    (hd : UDerives defs [.nt S] φ) : ∀ {α : List USym} {A : String} {β : List USym},
      φ = α ++ .nt A :: β → ∀ c ∈ G.ahead β [none], c ∈ G.follow A := by
  induction hd with
  | refl =>
    intro α A β e c hc
    match α, e with
    | [], e =>
      cases e
      simp only [ahead, firstOf, List.map_nil, List.all_nil, if_true, List.nil_append,
        List.mem_singleton] at hc
      exact hc ▸ hS
    | _ :: α, e => simp at e
  | tail hd s ih =>
    intro α A β e c hc
    cases s with
    | mk l r rhs name p hp hs =>
      have hf := (Guess.check_prod h hp).2.2
      rw [AstProduction.rhs_eq hs] at hf
      rw [List.append_assoc] at e
      rcases List.append_eq_append_iff.1 e with ⟨a', e1, e2⟩ | ⟨c', e1, e2⟩
      · rcases List.append_eq_append_iff.1 e2 with ⟨a2, e3, e4⟩ | ⟨c2, e3, e4⟩
        · -- in `r`
          refine ih (α := l ++ .nt name :: a2) ?_ c hc
          rw [e4]; simp
        · -- in `rhs`, or at the beginning of `r`
          match c2, e4 with
          | [], e4 =>
            simp only [List.nil_append] at e4
            refine ih (α := l ++ [.nt name]) ?_ c hc
            rw [← e4]; simp
          | x :: c2, e4 =>
            cases e4
            rw [e3] at hf
            refine Guess.followOk_split hf c ?_
            rw [List.append_eq, Guess.mem_ahead_append] at hc
            exact Guess.ahead_mono (fun c hc => ih (α := l) rfl c hc) hc
      · match c', e2 with
        | [], e2 =>
          simp only [List.append_nil] at e1
          subst e1
          match rhs, e2 with
          | [], e2 =>
            simp only [List.nil_append] at e2
            exact ih (α := l ++ [.nt name]) (by rw [← e2]; simp) c hc
          | x :: rhs, e2 =>
            cases e2
            refine Guess.followOk_split (α := []) hf c ?_
            rw [List.append_eq, Guess.mem_ahead_append] at hc
            exact Guess.ahead_mono (fun c hc => ih (α := l) rfl c hc) hc
        | x :: c', e2 =>
          cases e2
          refine ih (α := α) (β := c' ++ .nt name :: r) (by rw [e1]; simp) c ?_
          refine Guess.ahead_produces h ?_ hc
          rw [List.append_eq, ← List.append_assoc]
          exact .mk c' r rhs name p hp hs

/-- Guessed FOLLOW sets are not too small. -/
theorem UInFollow.guessed (h : G.check defs = true) {d : AstNonTerminal X Ty} (hd : d ∈ defs)
    (hp : d.isPub = true) {A : String} {c : Option String} (hc : UInFollow defs d.name A c) :
    c ∈ G.follow A := by
  obtain ⟨α, β, h1, h2⟩ := hc
  exact Guess.follow_form h (Guess.check_pub h hd hp) h1 rfl c (h2.guessed h)

/-! ## LL(1) -/

/-- No two productions of a non-terminal are predicted by the same lookahead. -/
def ll1Check (G : Guess) (defs : List (AstNonTerminal X Ty)) : Bool :=
  G.check defs && defs.all fun d => (userProds defs d.name).zipIdx.all fun p =>
    (userProds defs d.name).zipIdx.all fun q => p.2 == q.2 ||
      (G.ahead p.1.rhs (G.follow d.name)).all fun c => !(G.ahead q.1.rhs (G.follow d.name)).contains c

theorem UPredicts.guessed (h : G.check defs = true) {d : AstNonTerminal X Ty} (hd : d ∈ defs)
    (hp : d.isPub = true) {A : String} {rhs : List USym} {c : Option String}
    (hc : UPredicts defs d.name A rhs c) : c ∈ G.ahead rhs (G.follow A) := by
  rcases hc with ⟨t, rfl, ht⟩ | ⟨h1, h2⟩
  · have := ht.guessed h
    rw [Guess.mem_ahead] at this ⊢
    rcases this with h3 | ⟨_, h4⟩
    · exact .inl h3
    · simp at h4
  · refine G.ahead_derives h h1 ?_
    simpa [Guess.ahead, Guess.firstOf] using h2.guessed h hd hp

/-- The check is sound. -/
theorem ll1_of_check (h : ll1Check G defs = true) : ULL1Table defs := by
  unfold ll1Check at h
  rw [Bool.and_eq_true] at h
  obtain ⟨hG, h⟩ := h
  intro d hd hpub A i rhs j rhs' c hi hj hc hc'
  obtain ⟨p, hp, hps⟩ := hi
  obtain ⟨q, hq, hqs⟩ := hj
  obtain ⟨dA, hdA, -⟩ := List.mem_flatMap.1 (List.mem_of_getElem? hp)
  rw [List.mem_filter, beq_iff_eq] at hdA
  obtain ⟨hdA, rfl⟩ := hdA
  have h1 := List.all_eq_true.1 (List.all_eq_true.1 (List.all_eq_true.1 h dA hdA) (p, i)
    (by rw [List.mem_zipIdx_iff_getElem?]; exact hp)) (q, j) (by rw [List.mem_zipIdx_iff_getElem?]; exact hq)
  simp only [Bool.or_eq_true, beq_iff_eq, List.all_eq_true, Bool.not_eq_true'] at h1
  rcases h1 with h1 | h1
  · exact h1
  · have h2 := h1 c (by rw [AstProduction.rhs_eq hps]; exact hc.guessed hG hd hpub)
    have h3 := hc'.guessed hG hd hpub
    rw [← AstProduction.rhs_eq hqs, ← List.contains_iff_mem, h2] at h3
    cases h3

/-! ## SLR(1) -/

/-- A guessed LR(0) automaton: the items of a state (name, production, position of the dot), and the
next state. -/
structure Guess0 where
  items : Nat → List (String × Nat × Nat)
  next : Nat → USym → Nat

/-- The state after some symbols. -/
def Guess0.walk (M : Guess0) (q : Nat) (γ : List USym) : Nat := γ.foldl M.next q

/-- The right-hand side of production `i` of `B`. -/
def rhsOf (defs : List (AstNonTerminal X Ty)) (B : String) (i : Nat) : List USym :=
  (((userProds defs B)[i]?).map AstProduction.rhs).getD []

/-- An item of a state moves on and brings its closure. -/
def Guess0.itemOk (M : Guess0) (defs : List (AstNonTerminal X Ty)) (q : Nat) (it : String × Nat × Nat) :
    Bool :=
  match (rhsOf defs it.1 it.2.1)[it.2.2]? with
  | none => true
  | some s => (M.items (M.next q s)).contains (it.1, it.2.1, it.2.2 + 1) &&
    match s with
    | .term _ => true
    | .nt C => (List.range (userProds defs C).length).all fun j => (M.items q).contains (C, j, 0)

/-- The lookaheads for which an item of a state asks for a move, and the move. -/
def Guess0.moves (G : Guess) (defs : List (AstNonTerminal X Ty)) (it : String × Nat × Nat) :
    List (Option String × UMove) :=
  match (rhsOf defs it.1 it.2.1)[it.2.2]? with
  | none => (G.follow it.1).map fun c => (c, .reduce it.1 it.2.1)
  | some (.term t) => [(some t, .shift)]
  | some (.nt _) => []

/-- All moves of a state. -/
def Guess0.movesAt (G : Guess) (M : Guess0) (defs : List (AstNonTerminal X Ty)) (S : String) (q : Nat) :
    List (Option String × UMove) :=
  (M.items q).flatMap (Guess0.moves G defs) ++ if q = M.next 0 (.nt S) then [(none, .accept)] else []

/-- For start symbol `S`, the automaton, with states below `n` or without items, is closed and has no
conflicts. -/
def uslrCheckFrom (G : Guess) (M : Guess0) (n : Nat) (defs : List (AstNonTerminal X Ty)) (S : String) :
    Bool :=
  ((List.range (userProds defs S).length).all fun i => (M.items 0).contains (S, i, 0)) &&
  ((List.range n).all fun q => (M.items q).all (M.itemOk defs q) &&
    (M.movesAt G defs S q).all fun x => (M.movesAt G defs S q).all fun y => x.1 != y.1 || x.2 == y.2) &&
  decide (M.next 0 (.nt S) < n)

/-- SLR(1), for all `pub` non-terminals: one automaton for each. -/
def uslrCheck (G : Guess) (M : String → Guess0) (n : Nat) (defs : List (AstNonTerminal X Ty)) : Bool :=
  G.check defs && defs.all fun d => !d.isPub || uslrCheckFrom G (M d.name) n defs d.name

section

variable {M : Guess0} {n : Nat} {S : String}

theorem rhsOf_eq {B : String} {i : Nat} {rhs : List USym} (h : UHasProd defs B i rhs) :
    rhsOf defs B i = rhs := by
  obtain ⟨p, h1, h2⟩ := h
  simp [rhsOf, h1, AstProduction.rhs_eq h2]

theorem UHasProd.lt {B : String} {i : Nat} {rhs : List USym} (h : UHasProd defs B i rhs) :
    i < (userProds defs B).length := by
  obtain ⟨p, h1, h2⟩ := h
  exact (List.getElem?_eq_some_iff.1 h1).1

/-- States without items are not numbered below `n`. -/
def Guess0.Small (M : Guess0) (n : Nat) : Prop := ∀ q it, it ∈ M.items q → q < n

/-- The dot moves over symbols. -/
theorem Guess0.walk_item (hsm : M.Small n) (h : uslrCheckFrom G M n defs S = true) {B : String} {i : Nat}
    {α β : List USym} : ∀ {α0 : List USym} {q : Nat}, UHasProd defs B i (α0 ++ α ++ β) →
      (B, i, α0.length) ∈ M.items q → (B, i, α0.length + α.length) ∈ M.items (M.walk q α) := by
  induction α with
  | nil => intro α0 q _ h; exact h
  | cons s α ih =>
    intro α0 q hp hq
    simp only [uslrCheckFrom, Bool.and_eq_true, List.all_eq_true, List.mem_range] at h
    have h1 := (h.1.2 q (hsm q _ hq)).1 _ hq
    have e : (rhsOf defs B i)[α0.length]? = some s := by rw [rhsOf_eq hp]; simp
    simp only [Guess0.itemOk, e, Bool.and_eq_true, List.contains_iff_mem] at h1
    have := ih (α0 := α0 ++ [s]) (q := M.next q s) (by simpa using hp) (by simpa using h1.1)
    simpa [Guess0.walk, Nat.add_comm, Nat.add_left_comm, Nat.add_assoc] using this

/-- The items of non-terminals that are expected. -/
theorem UContext.walk (hsm : M.Small n) (h : uslrCheckFrom G M n defs S = true) {δ : List USym}
    {B : String} {z : List USym} (hC : UContext defs S δ B z) :
    ∀ j < (userProds defs B).length, (B, j, 0) ∈ M.items (M.walk 0 δ) := by
  have h0 := h
  simp only [uslrCheckFrom, Bool.and_eq_true, List.all_eq_true, List.mem_range, List.contains_iff_mem] at h
  induction hC with
  | root => exact h.1.1
  | @child δ B z i α C β _ _ hp ih =>
    intro j hj
    have h1 := ih i hp.lt
    have h2 : (B, i, 0 + α.length) ∈ M.items (M.walk (M.walk 0 δ) α) :=
      Guess0.walk_item hsm h0 (α0 := []) (β := .nt C :: β) (by simpa using hp) h1
    have h3 := (h.1.2 _ (hsm _ _ h2)).1 _ h2
    have e : (rhsOf defs B i)[0 + α.length]? = some (.nt C) := by rw [rhsOf_eq hp]; simp
    simp only [Guess0.itemOk, e, Bool.and_eq_true, List.all_eq_true, List.mem_range,
      List.contains_iff_mem] at h3
    have := h3.2 j hj
    simpa [Guess0.walk, List.foldl_append] using this

theorem UItem0.walk (hsm : M.Small n) (h : uslrCheckFrom G M n defs S = true) {γ : List USym}
    {B : String} {i : Nat} {α β : List USym} (hi : UItem0 defs S γ B i α β) :
    (B, i, α.length) ∈ M.items (M.walk 0 γ) := by
  obtain ⟨δ, z, hC, _, hp, rfl⟩ := hi
  have := Guess0.walk_item hsm h (α0 := []) (α := α) (β := β) (by simpa using hp) (hC.walk hsm h i hp.lt)
  simpa [Guess0.walk, List.foldl_append] using this

end

/-- The check is sound. -/
theorem slr1_of_check {M : String → Guess0} {n : Nat} (hsm : ∀ S, (M S).Small n)
    (h : uslrCheck G M n defs = true) : USLR1 defs := by
  unfold uslrCheck at h
  rw [Bool.and_eq_true] at h
  obtain ⟨hG, h⟩ := h
  intro d hd hpub γ c m m' hm hm'
  have h := List.all_eq_true.1 h d hd
  simp only [hpub, Bool.not_true, Bool.false_or] at h
  have key : ∀ {m}, USLRWants defs d.name γ c m →
      (c, m) ∈ (M d.name).movesAt G defs d.name ((M d.name).walk 0 γ) := by
    intro m hm
    unfold Guess0.movesAt
    rw [List.mem_append]
    match m, hm with
    | .shift, ⟨B, i, α, t, β, hi, e⟩ =>
      subst e
      refine .inl (List.mem_flatMap.2 ⟨_, hi.walk (hsm _) h, ?_⟩)
      obtain ⟨_, _, _, _, hp, _⟩ := hi
      have e : (rhsOf defs B i)[α.length]? = some (.term t) := by rw [rhsOf_eq hp]; simp
      simp [Guess0.moves, e]
    | .reduce B i, ⟨⟨α, hi⟩, hf⟩ =>
      refine .inl (List.mem_flatMap.2 ⟨_, hi.walk (hsm _) h, ?_⟩)
      obtain ⟨_, _, _, _, hp, _⟩ := hi
      have e : (rhsOf defs B i)[α.length]? = none := by rw [rhsOf_eq hp]; simp
      simp only [Guess0.moves, e, List.mem_map]
      exact ⟨c, hf.guessed hG hd hpub, rfl⟩
    | .accept, ⟨e1, e2⟩ =>
      subst e1 e2
      exact .inr (by simp [Guess0.walk])
  have k := key hm
  have k' := key hm'
  have h0 := h
  simp only [uslrCheckFrom, Bool.and_eq_true, List.all_eq_true, List.mem_range, decide_eq_true_eq] at h
  have hq : (M d.name).walk 0 γ < n := by
    unfold Guess0.movesAt at k
    rcases List.mem_append.1 k with k | k
    · obtain ⟨it, hit, _⟩ := List.mem_flatMap.1 k
      exact hsm _ _ _ hit
    · split at k
      · next e => rw [e]; exact h.2
      · simp at k
  have := (h.1.2 _ hq).2 _ k _ k'
  simpa using this

end Parsegen
