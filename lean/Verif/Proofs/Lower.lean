import Mathlib.Data.List.Forall2
import Verif.Proofs.Util
import Verif.Proofs.Derivation
import Verif.Model.Lower
import Verif.Spec.User
import Verif.Spec.First

/-! # What `lower` produces -/

namespace Parsegen

variable {X Ty : Type}

/-! ## Terminals -/

/-- The terminal map agrees with the terminal list. -/
def TermMap (l : List String) (ts : AMap String Nat) : Prop :=
  ∀ s (i : Nat), ts.get? s = some i ↔ l[i]? = some s

theorem TermMap.none_iff {l : List String} {ts : AMap String Nat} (h : TermMap l ts) {s : String} :
    ts.get? s = none ↔ s ∉ l := by
  constructor
  · intro hn hm
    obtain ⟨i, hi⟩ := List.mem_iff_getElem?.1 hm
    rw [(h s i).2 hi] at hn; cases hn
  · intro hn
    cases hg : ts.get? s with
    | none => rfl
    | some i => exact absurd (List.mem_iff_getElem?.2 ⟨i, (h s i).1 hg⟩) hn

theorem TermMap.snoc {l : List String} {ts : AMap String Nat} (h : TermMap l ts) {s : String}
    (hs : s ∉ l) : TermMap (l ++ [s]) (ts.insert s l.length) := by
  intro s' i
  rw [AMap.get?_insert]
  by_cases hss : s' = s
  · subst hss
    rw [if_pos rfl]
    constructor
    · rintro h'; cases h'; simp
    · intro h'
      by_cases hi : i < l.length
      · rw [List.getElem?_append_left hi] at h'
        exact absurd (List.mem_iff_getElem?.2 ⟨i, h'⟩) hs
      · have := (List.getElem?_eq_some_iff.1 h').1
        simp at this
        congr 1; omega
  · rw [if_neg (by first | exact hss | exact fun h => hss h.symm), h s' i]
    constructor
    · intro h'; rw [List.getElem?_append_left (List.getElem?_eq_some_iff.1 h').1]; exact h'
    · intro h'
      by_cases hi : i < l.length
      · rwa [List.getElem?_append_left hi] at h'
      · have := (List.getElem?_eq_some_iff.1 h').1
        simp at this
        have hi' : i = l.length := by omega
        subst hi'
        rw [List.getElem?_concat_length] at h'
        cases h'; exact absurd rfl hss

theorem lowerTerminals_ok {cs : List (Conversion Ty)} {g : Grammar X Ty} {ts : AMap String Nat}
    (ht : TermMap g.terminals ts) {g' : Grammar X Ty} {ts' : AMap String Nat}
    (h : lowerTerminals cs (g, ts) = .ok (g', ts')) :
    g' = { g with terminals := g.terminals ++ cs.map (·.from_) } ∧ TermMap g'.terminals ts' ∧
      (∀ c ∈ cs, c.from_ ∉ g.terminals) ∧ (cs.map (·.from_)).Nodup ∧
      (cs = [] ∨ g.terminals.length + cs.length ≤ 4294967296) := by
  induction cs generalizing g ts with
  | nil => cases h; simpa using ht
  | cons c cs ih =>
    unfold lowerTerminals at h
    unfold Grammar.newTerminal tryU32 at h
    split at h
    · next hlt =>
      simp only [Except.bind_ok] at h
      split at h
      · cases h
      · next hnone =>
        have hc : c.from_ ∉ g.terminals := by
          rw [← ht.none_iff]; simpa using hnone
        obtain ⟨h1, h2, h3, h4, h5⟩ := ih (by exact ht.snoc hc) h
        refine ⟨by rw [h1]; simp, h2, ?_, ?_, ?_⟩
        · intro c' hc'
          rcases List.mem_cons.1 hc' with rfl | hc'
          · exact hc
          · have := h3 c' hc'; simp at this; exact this.1
        · rw [List.map_cons, List.nodup_cons]
          refine ⟨?_, h4⟩
          intro hm
          obtain ⟨c', hc', he⟩ := List.mem_map.1 hm
          have := h3 c' hc'; simp at this; exact this.2 he
        · right
          rcases h5 with rfl | h5
          · simp; omega
          · simp at h5 ⊢; omega
    · simp at h

theorem lowerTerminals_mk {cs : List (Conversion Ty)} {g : Grammar X Ty} {ts : AMap String Nat}
    (ht : TermMap g.terminals ts) (h1 : ∀ c ∈ cs, c.from_ ∉ g.terminals)
    (h2 : (cs.map (·.from_)).Nodup) (h3 : g.terminals.length + cs.length ≤ 4294967296) :
    ∃ r, lowerTerminals cs (g, ts) = .ok r := by
  induction cs generalizing g ts with
  | nil => exact ⟨_, rfl⟩
  | cons c cs ih =>
    unfold lowerTerminals
    unfold Grammar.newTerminal tryU32
    simp only [List.length_cons] at h3
    rw [if_pos (by omega)]
    simp only [Except.bind_ok]
    have hc := h1 c (by simp)
    have hn := ht.none_iff.2 hc
    rw [hn]
    simp only [Option.isSome_none, Bool.false_eq_true, if_false]
    rw [List.map_cons, List.nodup_cons] at h2
    refine ih (by exact ht.snoc hc) ?_ h2.2 (by simp; omega)
    intro c' hc'
    simp only [List.mem_append, List.mem_singleton, not_or]
    refine ⟨h1 c' (by simp [hc']), ?_⟩
    intro he
    exact h2.1 (List.mem_map.2 ⟨c', hc', he⟩)

/-! ## Declarations -/

/-- The body of the entry wrapper of the non-terminal at index `i`. -/
def wrapperProd (mkPath : String → X) (i : Nat) : Production X :=
  ⟨[⟨some ⟨false, "x"⟩, .nonTerminal i⟩], mkPath "x"⟩

/-- Number of lowered non-terminals declared for `a`. -/
def AstNonTerminal.width (a : AstNonTerminal X Ty) : Nat := if a.isPub then 2 else 1

/-- The lowered non-terminals declared for `a`, from index `off` on. -/
def declOne (mkPath : String → X) (off : Nat) (a : AstNonTerminal X Ty) : List (NonTerminal X Ty) :=
  if a.isPub then
    [⟨a.name ++ "1", [], a.typeDecl, false⟩, ⟨a.name, [wrapperProd mkPath off], a.typeDecl, true⟩]
  else [⟨a.name, [], a.typeDecl, false⟩]

/-- The lowered non-terminals after the declaration phase, from index `off` on. -/
def declared (mkPath : String → X) : Nat → List (AstNonTerminal X Ty) → List (NonTerminal X Ty)
  | _, [] => []
  | off, a :: rest => declOne mkPath off a ++ declared mkPath (off + a.width) rest

/-- The index a name refers to: that of its last declaration. -/
def declIdx : Nat → List (AstNonTerminal X Ty) → String → Option Nat
  | _, [], _ => none
  | off, a :: rest, n =>
    (declIdx (off + a.width) rest n).or (if a.name = n then some off else none)

variable {mkPath : String → X}

theorem declOne_length (off : Nat) (a : AstNonTerminal X Ty) :
    (declOne mkPath off a).length = a.width := by
  unfold declOne AstNonTerminal.width
  split <;> rfl

theorem AstNonTerminal.one_le_width (a : AstNonTerminal X Ty) : 1 ≤ a.width := by
  unfold AstNonTerminal.width; split <;> omega

theorem declIdx_cons_inv {a : AstNonTerminal X Ty} {rest : List (AstNonTerminal X Ty)} {off : Nat}
    {n : String} {i : Nat} (h : declIdx off (a :: rest) n = some i) :
    declIdx (off + a.width) rest n = some i ∨
      (declIdx (off + a.width) rest n = none ∧ a.name = n ∧ i = off) := by
  rw [declIdx] at h
  cases hr : declIdx (off + a.width) rest n with
  | none =>
    rw [hr] at h
    simp only [Option.none_or] at h
    split at h
    · next hn => exact Or.inr ⟨rfl, hn, by cases h; rfl⟩
    · cases h
  | some j => rw [hr] at h; exact Or.inl h

theorem declIdx_ge {asts : List (AstNonTerminal X Ty)} {off : Nat} {n : String} {i : Nat}
    (h : declIdx off asts n = some i) : off ≤ i := by
  induction asts generalizing off with
  | nil => cases h
  | cons a rest ih =>
    rcases declIdx_cons_inv h with h | ⟨_, _, rfl⟩
    · have := ih h; omega
    · exact Nat.le_refl _

theorem declIdx_inj {asts : List (AstNonTerminal X Ty)} {off : Nat} {n m : String} {i : Nat}
    (h : declIdx off asts n = some i) (h' : declIdx off asts m = some i) : n = m := by
  induction asts generalizing off with
  | nil => cases h
  | cons a rest ih =>
    have hw := a.one_le_width
    rcases declIdx_cons_inv h with h | ⟨_, h, hi⟩ <;>
    rcases declIdx_cons_inv h' with h' | ⟨_, h', hi'⟩
    · exact ih h h'
    · have := declIdx_ge h; omega
    · have := declIdx_ge h'; omega
    · rw [← h, ← h']

theorem declIdx_none_iff {asts : List (AstNonTerminal X Ty)} {off : Nat} {n : String} :
    declIdx off asts n = none ↔ ∀ a ∈ asts, a.name ≠ n := by
  induction asts generalizing off with
  | nil => simp [declIdx]
  | cons a rest ih =>
    unfold declIdx
    rw [Option.or_eq_none_iff, ih]
    constructor
    · rintro ⟨h1, h2⟩ b hb
      rcases List.mem_cons.1 hb with rfl | hb
      · intro he; rw [if_pos he] at h2; cases h2
      · exact h1 b hb
    · intro h
      exact ⟨fun b hb => h b (by simp [hb]), if_neg (h a (by simp))⟩

theorem declIdx_num {asts : List (AstNonTerminal X Ty)} {off : Nat} {n : String} {i : Nat}
    (h : declIdx off asts n = some i) : ∃ l1 a l2, asts = l1 ++ a :: l2 ∧ a.name = n ∧
      (∀ b ∈ l2, b.name ≠ n) ∧ i = off + (l1.map (·.width)).sum := by
  induction asts generalizing off with
  | nil => cases h
  | cons a rest ih =>
    rcases declIdx_cons_inv h with h | ⟨h, hn, rfl⟩
    · obtain ⟨l1, b, l2, rfl, h1, h2, h3⟩ := ih h
      exact ⟨a :: l1, b, l2, rfl, h1, h2, by simp [h3]; omega⟩
    · exact ⟨[], a, rest, rfl, hn, declIdx_none_iff.1 h, by simp⟩

theorem declared_length {asts : List (AstNonTerminal X Ty)} {off : Nat} :
    (declared mkPath off asts).length = (asts.map (·.width)).sum := by
  induction asts generalizing off with
  | nil => rfl
  | cons a rest ih =>
    rw [declared, List.length_append, ih, declOne_length]; simp

theorem declared_drop (a : AstNonTerminal X Ty) (rest : List (AstNonTerminal X Ty)) (off j : Nat) :
    (declared mkPath off (a :: rest))[j + a.width]? =
      (declared mkPath (off + a.width) rest)[j]? := by
  rw [declared, List.getElem?_append_right (by rw [declOne_length]; omega), declOne_length]
  congr 1; omega

theorem declared_take (a : AstNonTerminal X Ty) (rest : List (AstNonTerminal X Ty)) (off j : Nat)
    (h : j < a.width) : (declared mkPath off (a :: rest))[j]? = (declOne mkPath off a)[j]? := by
  rw [declared, List.getElem?_append_left (by rw [declOne_length]; exact h)]

theorem declIdx_get {asts : List (AstNonTerminal X Ty)} {off : Nat} {n : String} {i : Nat}
    (h : declIdx off asts n = some i) :
    ∃ a ∈ asts, a.name = n ∧ (declared mkPath off asts)[i - off]? =
      some ⟨if a.isPub then a.name ++ "1" else a.name, [], a.typeDecl, false⟩ := by
  induction asts generalizing off with
  | nil => cases h
  | cons a rest ih =>
    rcases declIdx_cons_inv h with h | ⟨_, hn, rfl⟩
    · have hj := declIdx_ge h
      obtain ⟨b, hb, hbn, hget⟩ := ih h
      refine ⟨b, by simp [hb], hbn, ?_⟩
      rw [← hget, ← declared_drop]
      congr 1; omega
    · refine ⟨a, by simp, hn, ?_⟩
      rw [Nat.sub_self, declared_take _ _ _ _ a.one_le_width]
      unfold declOne
      by_cases hp : a.isPub = true <;> simp [hp]

/-- Every declared non-terminal is a plain one without productions or an entry wrapper. -/
theorem declared_get {asts : List (AstNonTerminal X Ty)} {off k : Nat} {n : NonTerminal X Ty}
    (h : (declared mkPath off asts)[k]? = some n) :
    (n.productions = [] ∧ n.isPublic = false) ∨
    ∃ a ∈ asts, a.isPub = true ∧ 1 ≤ k ∧
      n = ⟨a.name, [wrapperProd mkPath (off + k - 1)], a.typeDecl, true⟩ ∧
      (declared mkPath off asts)[k - 1]? = some ⟨a.name ++ "1", [], a.typeDecl, false⟩ ∧
      ∀ m, declIdx off asts m = some (off + k - 1) → m = a.name := by
  induction asts generalizing off k with
  | nil => simp [declared] at h
  | cons a rest ih =>
    have hw := a.one_le_width
    by_cases hk : a.width ≤ k
    · obtain ⟨k, rfl⟩ : ∃ k', k = k' + a.width := ⟨k - a.width, by omega⟩
      rw [declared_drop] at h
      rcases ih h with h1 | ⟨b, hb, hbp, h1, h2, h3, h4⟩
      · exact Or.inl h1
      · right
        have he : off + a.width + k - 1 = off + (k + a.width) - 1 := by omega
        rw [he] at h2 h4
        refine ⟨b, by simp [hb], hbp, by omega, h2, ?_, ?_⟩
        · rw [← h3, ← declared_drop]
          congr 1; omega
        · intro m hm
          rcases declIdx_cons_inv hm with hm | ⟨_, _, hm⟩
          · exact h4 m hm
          · omega
    · rw [declared_take _ _ _ _ (by omega)] at h
      unfold declOne at h
      by_cases hp : a.isPub = true
      · have hw2 : a.width = 2 := by simp [AstNonTerminal.width, hp]
        rw [if_pos hp] at h
        match k, hk, h with
        | 0, _, h => left; simp at h; subst h; exact ⟨rfl, rfl⟩
        | 1, _, h =>
          right
          simp at h
          refine ⟨a, by simp, hp, Nat.le_refl _, by rw [← h]; simp, ?_, ?_⟩
          · rw [declared_take _ _ _ _ (by omega)]; simp [declOne, hp]
          · intro m hm
            rcases declIdx_cons_inv hm with hm | ⟨_, hm, _⟩
            · have := declIdx_ge hm; omega
            · exact hm.symm
        | k + 2, hk, _ => omega
      · have hw2 : a.width = 1 := by simp [AstNonTerminal.width, hp]
        rw [if_neg hp] at h
        match k, hk, h with
        | 0, _, h => left; simp at h; subst h; exact ⟨rfl, rfl⟩
        | k + 1, hk, _ => omega

/-- Every `pub` declaration has its wrapper, which refers to the declaration's own index. -/
theorem declared_wrapper {asts : List (AstNonTerminal X Ty)} {off : Nat}
    {l1 l2 : List (AstNonTerminal X Ty)} {a : AstNonTerminal X Ty} (ha : asts = l1 ++ a :: l2)
    (hp : a.isPub = true) :
    ∃ k, (declared mkPath off asts)[k]? = some ⟨a.name ++ "1", [], a.typeDecl, false⟩ ∧
      (declared mkPath off asts)[k + 1]? =
      some ⟨a.name, [wrapperProd mkPath (off + k)], a.typeDecl, true⟩ ∧
      ((∀ b ∈ l2, b.name ≠ a.name) → declIdx off asts a.name = some (off + k)) ∧
      ((∃ b ∈ l2, b.name = a.name) → declIdx off asts a.name ≠ some (off + k)) := by
  subst ha
  induction l1 generalizing off with
  | nil =>
    have hw : a.width = 2 := by simp [AstNonTerminal.width, hp]
    refine ⟨0, ?_, ?_, ?_, ?_⟩
    · rw [List.nil_append, declared_take _ _ _ _ (by omega)]; simp [declOne, hp]
    · rw [List.nil_append, declared_take _ _ _ _ (by omega)]; simp [declOne, hp]
    · intro h
      rw [List.nil_append, declIdx, declIdx_none_iff.2 h]; simp
    · rintro ⟨b, hb, hbn⟩ h
      rcases declIdx_cons_inv h with h | ⟨h, _⟩
      · have := declIdx_ge h; omega
      · exact (declIdx_none_iff.1 h) b hb hbn
  | cons c l1 ih =>
    obtain ⟨k, h1, h2, h3, h4⟩ := ih (off := off + c.width)
    have hc := c.one_le_width
    refine ⟨k + c.width, ?_, ?_, ?_, ?_⟩
    · rw [List.cons_append, declared_drop]; exact h1
    · rw [List.cons_append, show k + c.width + 1 = k + 1 + c.width by omega, declared_drop, h2,
        show off + c.width + k = off + (k + c.width) by omega]
    · intro h
      rw [List.cons_append, declIdx, h3 h]
      simp; omega
    · intro hb h
      rcases declIdx_cons_inv h with h | ⟨h, _⟩
      · exact h4 hb (Eq.trans h (by congr 1; omega))
      · exact absurd rfl ((declIdx_none_iff.1 h) a (by simp))

theorem asU32_of_lt {n : Nat} (h : n < 4294967296) : asU32 n = n := Nat.mod_eq_of_lt h

theorem lowerDeclare_eq {a : AstNonTerminal X Ty} {g : Grammar X Ty} {nts : AMap String Nat}
    (hb : g.nonTerminals.length + a.width ≤ 4294967296) :
    lowerDeclare mkPath a (g, nts) =
      .ok (⟨g.nonTerminals ++ declOne mkPath g.nonTerminals.length a, g.terminals⟩,
        nts.insert a.name g.nonTerminals.length) := by
  unfold lowerDeclare Grammar.addNonTerminal declOne
  by_cases hp : a.isPub = true
  · have hw : a.width = 2 := by simp [AstNonTerminal.width, hp]
    have h1 : asU32 g.nonTerminals.length = g.nonTerminals.length := asU32_of_lt (by omega)
    have h2 : asU32 (g.nonTerminals.length + 1) = g.nonTerminals.length + 1 :=
      asU32_of_lt (by omega)
    simp [hp, Grammar.addProduction, h1, h2, wrapperProd, bind, Except.bind]
  · have hw : a.width = 1 := by simp [AstNonTerminal.width, hp]
    have h1 : asU32 g.nonTerminals.length = g.nonTerminals.length := asU32_of_lt (by omega)
    simp [hp, h1]

theorem lowerDeclareAll_eq {asts : List (AstNonTerminal X Ty)} {g : Grammar X Ty}
    {nts : AMap String Nat}
    (hb : g.nonTerminals.length + (asts.map (·.width)).sum ≤ 4294967296) :
    ∃ nts', lowerDeclareAll mkPath asts (g, nts) =
      .ok (⟨g.nonTerminals ++ declared mkPath g.nonTerminals.length asts, g.terminals⟩, nts') ∧
      ∀ n, nts'.get? n = (declIdx g.nonTerminals.length asts n).or (nts.get? n) := by
  induction asts generalizing g nts with
  | nil => exact ⟨nts, by simp [lowerDeclareAll, declared], by simp [declIdx]⟩
  | cons a rest ih =>
    simp only [List.map_cons, List.sum_cons] at hb
    unfold lowerDeclareAll
    rw [lowerDeclare_eq (by omega)]
    simp only [Except.bind_ok]
    have hlen : (g.nonTerminals ++ declOne mkPath g.nonTerminals.length a).length =
        g.nonTerminals.length + a.width := by
      rw [List.length_append, declOne_length]
    obtain ⟨nts', h1, h2⟩ := ih
      (g := ⟨g.nonTerminals ++ declOne mkPath g.nonTerminals.length a, g.terminals⟩)
      (nts := nts.insert a.name g.nonTerminals.length) (by simp only [hlen]; omega)
    refine ⟨nts', ?_, ?_⟩
    · rw [h1]
      simp only [hlen]
      rw [declared, List.append_assoc]
    · intro n
      rw [h2]
      simp only [hlen]
      rw [declIdx, AMap.get?_insert]
      by_cases hn : a.name = n
      · subst hn; cases declIdx (g.nonTerminals.length + a.width) rest a.name <;> simp
      · cases declIdx (g.nonTerminals.length + a.width) rest n <;> simp [hn]

/-! ## Productions -/

theorem AstSymbol.boundName_eq (s : AstSymbol) : s.boundName = s.boundVar.map (·.name) := by
  induction s with
  | named b s ih =>
    unfold AstSymbol.boundName AstSymbol.boundVar
    rw [ih]
    cases s.boundVar <;> rfl
  | _ => rfl

/-- `bs` is the lowered form of the user's symbol `s`. -/
def LowersSym (nts ts : AMap String Nat) (s : AstSymbol) (bs : BoundSymbol) : Prop :=
  bs.binder = s.boundVar ∧
    ((∃ n i, s.plain = some (.nt n) ∧ nts.get? n = some i ∧ bs.symbol = .nonTerminal i) ∨
     (∃ t i, s.plain = some (.term t) ∧ ts.get? t = some i ∧ bs.symbol = .terminal i))

theorem LowersSym.boundName {nts ts : AMap String Nat} {s : AstSymbol} {bs : BoundSymbol}
    (h : LowersSym nts ts s bs) : bs.binder.map (·.name) = s.boundName := by
  rw [h.1, s.boundName_eq]

/-- The user's symbol `s` can be lowered. -/
def Resolves (nts ts : AMap String Nat) (s : AstSymbol) : Prop :=
  (∃ n i, s.plain = some (.nt n) ∧ nts.get? n = some i) ∨
  (∃ t i, s.plain = some (.term t) ∧ ts.get? t = some i)

theorem addSymbol_ok {nts ts : AMap String Nat} {s : AstSymbol} {b : Option Name}
    {bs : BoundSymbol} (h : addSymbol nts ts b s = .ok bs) :
    bs.binder = s.boundVar.or b ∧
    ((∃ n i, s.plain = some (.nt n) ∧ nts.get? n = some i ∧ bs.symbol = .nonTerminal i) ∨
     (∃ t i, s.plain = some (.term t) ∧ ts.get? t = some i ∧ bs.symbol = .terminal i)) := by
  induction s generalizing b with
  | terminal t =>
    unfold addSymbol at h
    split at h
    · cases h
    · next i hi => cases h; exact ⟨rfl, Or.inr ⟨t, i, rfl, hi, rfl⟩⟩
  | nonTerminal n =>
    unfold addSymbol at h
    split at h
    · cases h
    · next i hi => cases h; exact ⟨rfl, Or.inl ⟨n, i, rfl, hi, rfl⟩⟩
  | repeat_ op s ih => cases h
  | named n s ih =>
    obtain ⟨h1, h2⟩ := ih (b := some n) h
    refine ⟨?_, h2⟩
    rw [h1]
    unfold AstSymbol.boundVar
    cases s <;> simp [AstSymbol.boundVar]

theorem addSymbol_mk {nts ts : AMap String Nat} {s : AstSymbol} (b : Option Name)
    (h : Resolves nts ts s) : ∃ bs, addSymbol nts ts b s = .ok bs := by
  induction s generalizing b with
  | terminal t =>
    rcases h with ⟨n, i, h1, h2⟩ | ⟨n, i, h1, h2⟩
    · cases h1
    · cases h1; exact ⟨_, by rw [addSymbol, h2]⟩
  | nonTerminal n =>
    rcases h with ⟨n, i, h1, h2⟩ | ⟨n, i, h1, h2⟩
    · cases h1; exact ⟨_, by rw [addSymbol, h2]⟩
    · cases h1
  | repeat_ op s ih => rcases h with ⟨n, i, h1, h2⟩ | ⟨n, i, h1, h2⟩ <;> cases h1
  | named n s ih => exact ih (some n) h

theorem addSymbol_lowers {nts ts : AMap String Nat} {s : AstSymbol} {bs : BoundSymbol}
    (h : addSymbol nts ts none s = .ok bs) : LowersSym nts ts s bs := by
  have := addSymbol_ok h
  simpa [LowersSym] using this

theorem lowerSymbols_ok {nts ts : AMap String Nat} {ss : List AstSymbol} {bs : List BoundSymbol}
    (h : lowerSymbols nts ts ss = .ok bs) : List.Forall₂ (LowersSym nts ts) ss bs := by
  induction ss generalizing bs with
  | nil => cases h; exact .nil
  | cons s ss ih =>
    unfold lowerSymbols at h
    obtain ⟨b, hb, h⟩ := Except.bind_eq_ok.1 h
    obtain ⟨bs', hbs, h⟩ := Except.bind_eq_ok.1 h
    cases h
    exact .cons (addSymbol_lowers hb) (ih hbs)

theorem lowerSymbols_mk {nts ts : AMap String Nat} {ss : List AstSymbol}
    (h : ∀ s ∈ ss, Resolves nts ts s) : ∃ bs, lowerSymbols nts ts ss = .ok bs := by
  induction ss with
  | nil => exact ⟨_, rfl⟩
  | cons s ss ih =>
    obtain ⟨bs, hbs⟩ := ih (fun s' hs' => h s' (by simp [hs']))
    obtain ⟨b, hb⟩ := addSymbol_mk none (h s (by simp))
    exact ⟨b :: bs, by rw [lowerSymbols, hb, hbs]; rfl⟩

/-- `pr` is the lowered form of the user's production `p`. -/
def LowersProd (nts ts : AMap String Nat) (p : AstProduction X) (pr : Production X) : Prop :=
  List.Forall₂ (LowersSym nts ts) p.symbols pr.symbols ∧ p.action = .infallible pr.action

/-- The user's production `p` can be lowered. -/
def ProdOk (nts ts : AMap String Nat) (p : AstProduction X) : Prop :=
  (∀ s ∈ p.symbols, Resolves nts ts s) ∧ ∃ e, p.action = .infallible e

/-- `g'` is `g` with the productions `news j` appended to those of non-terminal `j`. -/
structure Extends (g g' : Grammar X Ty) (news : Nat → List (Production X)) : Prop where
  terminals : g'.terminals = g.terminals
  get : ∀ j : Nat, g'.nonTerminals[j]? =
    (g.nonTerminals[j]?).map fun n => { n with productions := n.productions ++ news j }

theorem Extends.refl (g : Grammar X Ty) : Extends g g (fun _ => []) :=
  ⟨rfl, by intro j; cases g.nonTerminals[j]? <;> simp⟩

theorem Extends.trans {g1 g2 g3 : Grammar X Ty} {n1 n2 : Nat → List (Production X)}
    (h1 : Extends g1 g2 n1) (h2 : Extends g2 g3 n2) : Extends g1 g3 (fun j => n1 j ++ n2 j) :=
  ⟨h2.terminals.trans h1.terminals, by
    intro j
    rw [h2.get, h1.get]
    cases g1.nonTerminals[j]? <;> simp⟩

theorem Extends.length {g g' : Grammar X Ty} {n : Nat → List (Production X)}
    (h : Extends g g' n) : g'.nonTerminals.length = g.nonTerminals.length := by
  apply Nat.le_antisymm
  · by_cases hl : g'.nonTerminals.length ≤ g.nonTerminals.length
    · exact hl
    · have := h.get g.nonTerminals.length
      rw [List.getElem?_eq_none (Nat.le_refl _)] at this
      simp at this; omega
  · by_cases hl : g.nonTerminals.length ≤ g'.nonTerminals.length
    · exact hl
    · have := h.get g'.nonTerminals.length
      rw [List.getElem?_eq_none (Nat.le_refl _)] at this
      have := this.symm
      simp at this; omega

theorem addProduction_ok {g g' : Grammar X Ty} {nt : Nat} {ss : List BoundSymbol} {e : X}
    (h : g.addProduction nt ss e = .ok g') :
    Extends g g' (fun j => if j = nt then [⟨ss, e⟩] else []) := by
  unfold Grammar.addProduction at h
  split at h
  · cases h
  · next n hn =>
    cases h
    refine ⟨rfl, ?_⟩
    intro j
    by_cases hj : j = nt
    · subst hj
      rw [List.getElem?_set_self (List.getElem?_eq_some_iff.1 hn).1, hn]
      simp
    · simp only [hj, if_false, List.append_nil]
      rw [List.getElem?_set_ne (fun h => hj h.symm)]
      cases g.nonTerminals[j]? <;> simp

theorem lowerProduction_ok {nts ts : AMap String Nat} {name : String} {g g' : Grammar X Ty}
    {p : AstProduction X} (h : lowerProduction nts ts name g p = .ok g') :
    ∃ i pr, nts.get? name = some i ∧ LowersProd nts ts p pr ∧
      Extends g g' (fun j => if j = i then [pr] else []) := by
  unfold lowerProduction at h
  obtain ⟨bs, hbs, h⟩ := Except.bind_eq_ok.1 h
  split at h
  · cases h
  · next i hi =>
    split at h
    · cases h
    · next e he => exact ⟨i, ⟨bs, e⟩, hi, ⟨lowerSymbols_ok hbs, he⟩, addProduction_ok h⟩

theorem forall₂_append' {α β : Type} {R : α → β → Prop} {a b : List α} {c d : List β}
    (h1 : List.Forall₂ R a c) (h2 : List.Forall₂ R b d) : List.Forall₂ R (a ++ b) (c ++ d) := by
  induction h1 with
  | nil => exact h2
  | cons h _ ih => exact .cons h ih

/-- The productions lowering adds to index `j`. -/
def prodsAt (nts : AMap String Nat) (asts : List (AstNonTerminal X Ty)) (j : Nat) :
    List (AstProduction X) :=
  (asts.filter fun a => nts.get? a.name == some j).flatMap (·.productions)

theorem lowerProductionsOf_ok {nts ts : AMap String Nat} {name : String}
    {ps : List (AstProduction X)} {g g' : Grammar X Ty}
    (h : ps.foldlM (lowerProduction nts ts name) g = .ok g') :
    ∃ news, Extends g g' news ∧ (ps ≠ [] → (nts.get? name).isSome) ∧
      ∀ j, List.Forall₂ (LowersProd nts ts) (if nts.get? name = some j then ps else []) (news j) := by
  induction ps generalizing g with
  | nil =>
    cases h
    refine ⟨_, Extends.refl _, by simp, ?_⟩
    intro j; split <;> exact .nil
  | cons p ps ih =>
    rw [List.foldlM_cons] at h
    obtain ⟨g1, h1, h⟩ := Except.bind_eq_ok.1 h
    obtain ⟨i, pr, hi, hpr, he⟩ := lowerProduction_ok h1
    obtain ⟨news, he', _, hn⟩ := ih h
    refine ⟨_, he.trans he', by simp [hi], ?_⟩
    intro j
    have := hn j
    rw [hi] at this ⊢
    by_cases hj : j = i
    · subst hj
      simp only [if_true] at this ⊢
      exact .cons hpr this
    · have hj' : ¬ (some i = some j) := by simpa using fun h => hj h.symm
      rw [if_neg hj'] at this ⊢
      rw [if_neg hj]
      exact this

theorem lowerProductions_ok {nts ts : AMap String Nat} {asts : List (AstNonTerminal X Ty)}
    {g g' : Grammar X Ty} (h : lowerProductions nts ts asts g = .ok g') :
    ∃ news, Extends g g' news ∧
      ∀ j, List.Forall₂ (LowersProd nts ts) (prodsAt nts asts j) (news j) := by
  unfold lowerProductions at h
  induction asts generalizing g with
  | nil => cases h; exact ⟨_, Extends.refl _, fun j => .nil⟩
  | cons a asts ih =>
    rw [List.foldlM_cons] at h
    obtain ⟨g1, h1, h⟩ := Except.bind_eq_ok.1 h
    obtain ⟨n1, he1, _, hn1⟩ := lowerProductionsOf_ok h1
    obtain ⟨n2, he2, hn2⟩ := ih h
    refine ⟨_, he1.trans he2, ?_⟩
    intro j
    have h1 := hn1 j
    have h2 := hn2 j
    unfold prodsAt at h2 ⊢
    rw [List.filter_cons]
    by_cases hj : nts.get? a.name = some j
    · rw [if_pos hj] at h1
      simp only [hj, beq_self_eq_true, if_true, List.flatMap_cons]
      exact forall₂_append' h1 h2
    · rw [if_neg hj] at h1
      have : (nts.get? a.name == some j) = false := by simpa using hj
      rw [this]
      simpa using forall₂_append' h1 h2

theorem lowerProductionsOf_mk {nts ts : AMap String Nat} {name : String}
    {ps : List (AstProduction X)} {g : Grammar X Ty} {i : Nat} (hi : nts.get? name = some i)
    (hlt : i < g.nonTerminals.length) (hp : ∀ p ∈ ps, ProdOk nts ts p) :
    ∃ g', ps.foldlM (lowerProduction nts ts name) g = .ok g' := by
  induction ps generalizing g with
  | nil => exact ⟨g, rfl⟩
  | cons p ps ih =>
    obtain ⟨h1, e, he⟩ := hp p (by simp)
    obtain ⟨bs, hbs⟩ := lowerSymbols_mk h1
    obtain ⟨n, hn⟩ : ∃ n, g.nonTerminals[i]? = some n := ⟨_, List.getElem?_eq_getElem hlt⟩
    have hstep : ∃ g1, lowerProduction nts ts name g p = .ok g1 := by
      unfold lowerProduction
      rw [hbs]
      simp only [Except.bind_ok]
      rw [hi, he]
      simp only
      unfold Grammar.addProduction
      rw [hn]
      exact ⟨_, rfl⟩
    obtain ⟨g1, hg1⟩ := hstep
    obtain ⟨_, _, _, _, hex⟩ := lowerProduction_ok hg1
    obtain ⟨g', hg'⟩ := ih (g := g1) (by rw [hex.length]; exact hlt) (fun p hp' => hp p (by simp [hp']))
    exact ⟨g', by rw [List.foldlM_cons, hg1]; exact hg'⟩

theorem lowerProductions_mk {nts ts : AMap String Nat} {asts : List (AstNonTerminal X Ty)}
    {g : Grammar X Ty}
    (hn : ∀ a ∈ asts, ∃ i, nts.get? a.name = some i ∧ i < g.nonTerminals.length)
    (hp : ∀ a ∈ asts, ∀ p ∈ a.productions, ProdOk nts ts p) :
    ∃ g', lowerProductions nts ts asts g = .ok g' := by
  unfold lowerProductions
  induction asts generalizing g with
  | nil => exact ⟨g, rfl⟩
  | cons a asts ih =>
    obtain ⟨i, hi, hlt⟩ := hn a (by simp)
    obtain ⟨g1, hg1⟩ := lowerProductionsOf_mk hi hlt (hp a (by simp))
    obtain ⟨_, hex, _⟩ := lowerProductionsOf_ok hg1
    obtain ⟨g', hg'⟩ := ih (g := g1) (by
      intro b hb
      obtain ⟨j, hj, hjl⟩ := hn b (by simp [hb])
      exact ⟨j, hj, by rw [hex.length]; exact hjl⟩) (fun b hb => hp b (by simp [hb]))
    exact ⟨g', by rw [List.foldlM_cons, hg1]; exact hg'⟩

theorem lowerProduction_needs {nts ts : AMap String Nat} {name : String} {g g' : Grammar X Ty}
    {p : AstProduction X} (h : lowerProduction nts ts name g p = .ok g') : ProdOk nts ts p := by
  obtain ⟨_, pr, _, ⟨h1, h2⟩, _⟩ := lowerProduction_ok h
  refine ⟨?_, _, h2⟩
  intro s hs
  clear h2
  generalize p.symbols = l1 at *
  generalize pr.symbols = l2 at *
  induction h1 with
  | nil => cases hs
  | cons hr _ ih =>
    rcases List.mem_cons.1 hs with rfl | hs
    · rcases hr.2 with ⟨n, i, h1, h2, _⟩ | ⟨n, i, h1, h2, _⟩
      · exact Or.inl ⟨n, i, h1, h2⟩
      · exact Or.inr ⟨n, i, h1, h2⟩
    · exact ih hs

theorem lowerProductions_needs {nts ts : AMap String Nat} {asts : List (AstNonTerminal X Ty)}
    {g g' : Grammar X Ty} (h : lowerProductions nts ts asts g = .ok g') :
    ∀ a ∈ asts, ∀ p ∈ a.productions, ProdOk nts ts p := by
  unfold lowerProductions at h
  induction asts generalizing g with
  | nil => intro a ha; cases ha
  | cons a asts ih =>
    rw [List.foldlM_cons] at h
    obtain ⟨g1, h1, h⟩ := Except.bind_eq_ok.1 h
    intro b hb
    rcases List.mem_cons.1 hb with rfl | hb
    · clear ih h
      generalize b.productions = ps at *
      induction ps generalizing g with
      | nil => intro p hp; cases hp
      | cons p ps ih =>
        rw [List.foldlM_cons] at h1
        obtain ⟨g2, h2, h1⟩ := Except.bind_eq_ok.1 h1
        intro q hq
        rcases List.mem_cons.1 hq with rfl | hq
        · exact lowerProduction_needs h2
        · exact ih h1 q hq
    · exact ih h b hb

end Parsegen
