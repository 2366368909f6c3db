import Verif.Spec.Display
import Verif.Proofs.Codegen

/-! # Reading the dumps -/

namespace Parsegen

variable {A Ty : Type} {dbg : String → Chars}

/-- The text does not go on with a character in `P`. -/
def StopsAt (P : Char → Bool) (x : Chars) : Prop := ∀ c r, x = c :: r → P c = false

theorem span_inj {P : Char → Bool} {s t x y : Chars} (hs : ∀ c ∈ s, P c = true)
    (ht : ∀ c ∈ t, P c = true) (hx : StopsAt P x) (hy : StopsAt P y) (h : s ++ x = t ++ y) :
    s = t ∧ x = y := by
  induction s generalizing t with
  | nil =>
    cases t with
    | nil => exact ⟨rfl, h⟩
    | cons c t =>
      have := hx c (t ++ y) h
      rw [ht c (by simp)] at this
      cases this
  | cons c s ih =>
    cases t with
    | nil =>
      have := hy c (s ++ x) h.symm
      rw [hs c (by simp)] at this
      cases this
    | cons d t =>
      simp only [List.cons_append, List.cons.injEq] at h
      obtain ⟨rfl, h⟩ := h
      obtain ⟨rfl, h2⟩ := ih (fun c hc => hs c (by simp [hc])) (fun c hc => ht c (by simp [hc])) h
      exact ⟨rfl, h2⟩

theorem numText_digit {n : Nat} : ∀ c ∈ numText n, c.isDigit = true := fun _ hc =>
  Nat.isDigit_of_mem_toDigits (by omega) (by omega) hc

theorem numText_inj {n m : Nat} {x y : Chars} (hx : StopsAt Char.isDigit x) (hy : StopsAt Char.isDigit y)
    (h : numText n ++ x = numText m ++ y) : n = m ∧ x = y := by
  obtain ⟨h1, h2⟩ := span_inj numText_digit numText_digit hx hy h
  refine ⟨?_, h2⟩
  unfold numText at h1
  rw [← Nat.ofDigitChars_ten_toDigits (n := n), h1, Nat.ofDigitChars_ten_toDigits]

theorem numText_head (n : Nat) : ∃ c r, numText n = c :: r ∧ c.isDigit = true := by
  cases h : numText n with
  | nil => exact absurd h Nat.toDigits_ne_nil
  | cons c r => exact ⟨c, r, rfl, numText_digit (n := n) c (by simp [h])⟩

theorem ident_inj {s t : String} {x y : Chars} (hs : IsIdentText s) (ht : IsIdentText t)
    (hx : StopsAt identChar x) (hy : StopsAt identChar y) (h : s.toList ++ x = t.toList ++ y) :
    s = t ∧ x = y := by
  obtain ⟨h1, h2⟩ := span_inj hs.2 ht.2 hx hy h
  exact ⟨String.toList_inj.1 h1, h2⟩

theorem ident_head {s : String} (hs : IsIdentText s) :
    ∃ c r, s.toList = c :: r ∧ identChar c = true := by
  cases h : s.toList with
  | nil => exact absurd (String.toList_inj.1 (by simpa using h)) hs.1
  | cons c r => exact ⟨c, r, rfl, hs.2 c (by simp [h])⟩

theorem stops_cons {P : Char → Bool} {c : Char} {x : Chars} (h : P c = false) : StopsAt P (c :: x) := by
  intro d r e
  cases e
  exact h

/-! ## Symbols -/

def symText (dbg : String → Chars) : USym → Chars
  | .nt n => n.toList
  | .term t => dbg t

def USym.OK : USym → Prop
  | .nt n => IsIdentText n
  | .term _ => True

def symHead (c : Char) : Bool := identChar c || c == '"'

theorem symText_head (hd : IsDebugStr dbg) {u : USym} (h : u.OK) :
    ∃ c r, symText dbg u = c :: r ∧ symHead c = true := by
  cases u with
  | nt n =>
    obtain ⟨c, r, e, hc⟩ := ident_head h
    exact ⟨c, r, e, by simp [symHead, hc]⟩
  | term t =>
    obtain ⟨r, e⟩ := hd.quote t
    exact ⟨_, r, e, rfl⟩

theorem symText_inj (hd : IsDebugStr dbg) {u v : USym} (hu : u.OK) (hv : v.OK) {x y : Chars}
    (hx : StopsAt identChar x) (hy : StopsAt identChar y) (h : symText dbg u ++ x = symText dbg v ++ y) :
    u = v ∧ x = y := by
  cases u with
  | nt n =>
    cases v with
    | nt m =>
      obtain ⟨rfl, h2⟩ := ident_inj hu hv hx hy h
      exact ⟨rfl, h2⟩
    | term t =>
      obtain ⟨c, r, e, hc⟩ := ident_head hu
      obtain ⟨r', e'⟩ := hd.quote t
      simp only [symText, e, e', List.cons_append, List.cons.injEq] at h
      rw [h.1] at hc
      cases hc
  | term t =>
    cases v with
    | nt m =>
      obtain ⟨c, r, e, hc⟩ := ident_head hv
      obtain ⟨r', e'⟩ := hd.quote t
      simp only [symText, e, e', List.cons_append, List.cons.injEq] at h
      rw [← h.1] at hc
      cases hc
    | term t' =>
      obtain ⟨rfl, h2⟩ := hd.delim h
      exact ⟨rfl, h2⟩

theorem showNonTerminal_ok {g : Grammar A Ty} {i : Nat} {t : Chars} :
    showNonTerminal g i = .ok t ↔ ∃ n, g.nonTerminals[i]? = some n ∧ t = n.name.toList := by
  unfold showNonTerminal
  split
  · next h => simp [h]
  · next n h =>
    simp only [Except.ok.injEq, h, Option.some.injEq]
    exact ⟨fun e => ⟨n, rfl, e.symm⟩, fun ⟨m, e, e2⟩ => by rw [e2, e]⟩

theorem showTerminal_ok {g : Grammar A Ty} {i : Nat} {t : Chars} :
    showTerminal dbg g i = .ok t ↔ ∃ n, g.terminals[i]? = some n ∧ t = dbg n := by
  unfold showTerminal
  split
  · next h => simp [h]
  · next n h =>
    simp only [Except.ok.injEq, h, Option.some.injEq]
    exact ⟨fun e => ⟨n, rfl, e.symm⟩, fun ⟨m, e, e2⟩ => by rw [e2, e]⟩

theorem showSymbol_ok {g : Grammar A Ty} {s : Symbol} {t : Chars} :
    showSymbol dbg g s = .ok t ↔ ∃ u, g.named s = some u ∧ t = symText dbg u := by
  cases s with
  | nonTerminal i =>
    simp only [showSymbol, showNonTerminal_ok, Grammar.named, Option.map_eq_some_iff]
    constructor
    · rintro ⟨n, h, rfl⟩
      exact ⟨_, ⟨n, h, rfl⟩, rfl⟩
    · rintro ⟨_, ⟨n, h, rfl⟩, rfl⟩
      exact ⟨n, h, rfl⟩
  | terminal i =>
    simp only [showSymbol, showTerminal_ok, Grammar.named, Option.map_eq_some_iff]
    constructor
    · rintro ⟨n, h, rfl⟩
      exact ⟨_, ⟨n, h, rfl⟩, rfl⟩
    · rintro ⟨_, ⟨n, h, rfl⟩, rfl⟩
      exact ⟨n, h, rfl⟩

theorem Grammar.IdentNames.named_ok {g : Grammar A Ty} (hg : g.IdentNames) {s : Symbol} {u : USym}
    (h : g.named s = some u) : u.OK := by
  cases s with
  | nonTerminal i =>
    obtain ⟨n, h1, rfl⟩ := Option.map_eq_some_iff.1 h
    exact hg n (List.mem_of_getElem? h1)
  | terminal i =>
    obtain ⟨n, h1, rfl⟩ := Option.map_eq_some_iff.1 h
    trivial

/-! ## Sequences of symbols, some of which are preceded by the cursor -/

def markedText (dbg : String → Chars) (m : Bool × USym) : Chars :=
  (if m.1 then ['|'] else []) ++ symText dbg m.2

def seqText (dbg : String → Chars) : List (Bool × USym) → Chars
  | [] => []
  | [m] => markedText dbg m
  | m :: l => markedText dbg m ++ ' ' :: seqText dbg l

/-- What may follow a sequence. -/
def AfterSeq (x : Chars) : Prop :=
  ∃ c r, (x = c :: r ∨ x = '|' :: c :: r) ∧ (c = ',' ∨ c = ')' ∨ c = '\n')

theorem AfterSeq.stops {x : Chars} (h : AfterSeq x) : StopsAt identChar x := by
  obtain ⟨c, r, rfl | rfl, hc⟩ := h
  · refine stops_cons ?_
    rcases hc with rfl | rfl | rfl <;> rfl
  · exact stops_cons rfl

theorem AfterSeq.no_space {x : Chars} (h : AfterSeq (' ' :: x)) : False := by
  obtain ⟨c, r, e | e, hc⟩ := h
  · cases e
    rcases hc with h | h | h <;> cases h
  · cases e

theorem AfterSeq.no_marked (hd : IsDebugStr dbg) {m : Bool × USym} (hm : m.2.OK) {x : Chars}
    (h : AfterSeq (markedText dbg m ++ x)) : False := by
  obtain ⟨d, r', e', hd'⟩ := symText_head hd hm
  obtain ⟨b, u⟩ := m
  simp only [markedText, e'] at h
  obtain ⟨c, r, e, hc⟩ := h
  have hcf : symHead c = false := by rcases hc with rfl | rfl | rfl <;> rfl
  cases b with
  | false =>
    rcases e with e | e
    · simp only [Bool.false_eq_true, if_false, List.nil_append, List.cons_append, List.cons.injEq] at e
      rw [← e.1, hd'] at hcf
      cases hcf
    · simp only [Bool.false_eq_true, if_false, List.nil_append, List.cons_append, List.cons.injEq] at e
      rw [e.1] at hd'
      cases hd'
  | true =>
    rcases e with e | e
    · simp only [if_true, List.cons_append, List.nil_append, List.cons.injEq] at e
      rcases hc with rfl | rfl | rfl <;> cases e.1
    · simp only [if_true, List.cons_append, List.nil_append, List.cons.injEq] at e
      rw [← e.2.1, hd'] at hcf
      cases hcf

theorem markedText_inj (hd : IsDebugStr dbg) {m m' : Bool × USym} (hm : m.2.OK) (hm' : m'.2.OK)
    {x y : Chars} (hx : StopsAt identChar x) (hy : StopsAt identChar y)
    (h : markedText dbg m ++ x = markedText dbg m' ++ y) : m = m' ∧ x = y := by
  obtain ⟨b, u⟩ := m
  obtain ⟨b', u'⟩ := m'
  obtain ⟨d, r, e, he⟩ := symText_head hd hm
  obtain ⟨d', r', e', he'⟩ := symText_head hd hm'
  have hbar : symHead '|' = false := rfl
  cases b <;> cases b'
  · simp only [markedText, Bool.false_eq_true, if_false, List.nil_append] at h
    obtain ⟨rfl, h1⟩ := symText_inj hd hm hm' hx hy h
    exact ⟨rfl, h1⟩
  · simp only [markedText, Bool.false_eq_true, if_false, if_true, List.nil_append, e,
      List.cons_append, List.cons.injEq] at h
    rw [h.1, hbar] at he
    cases he
  · simp only [markedText, Bool.false_eq_true, if_false, if_true, List.nil_append, e',
      List.cons_append, List.cons.injEq] at h
    rw [← h.1, hbar] at he'
    cases he'
  · simp only [markedText, if_true, List.cons_append, List.nil_append, List.cons.injEq, true_and] at h
    obtain ⟨rfl, h1⟩ := symText_inj hd hm hm' hx hy h
    exact ⟨rfl, h1⟩

theorem seqText_inj (hd : IsDebugStr dbg) {l l' : List (Bool × USym)} (hl : ∀ m ∈ l, m.2.OK)
    (hl' : ∀ m ∈ l', m.2.OK) {x y : Chars} (hx : AfterSeq x) (hy : AfterSeq y)
    (h : seqText dbg l ++ x = seqText dbg l' ++ y) : l = l' ∧ x = y := by
  induction l generalizing l' with
  | nil =>
    match l' with
    | [] => exact ⟨rfl, h⟩
    | [m] =>
      simp only [seqText, List.nil_append] at h
      exact (AfterSeq.no_marked hd (hl' m (by simp)) (h ▸ hx)).elim
    | m :: m2 :: l2 =>
      simp only [seqText, List.nil_append, List.append_assoc] at h
      exact (AfterSeq.no_marked hd (hl' m (by simp)) (h ▸ hx)).elim
  | cons m l ih =>
    match l' with
    | [] =>
      cases l with
      | nil =>
        simp only [seqText, List.nil_append] at h
        exact (AfterSeq.no_marked hd (hl m (by simp)) (h ▸ hy)).elim
      | cons m2 l =>
        simp only [seqText, List.nil_append, List.append_assoc] at h
        exact (AfterSeq.no_marked hd (hl m (by simp)) (h ▸ hy)).elim
    | [m'] =>
      cases l with
      | nil =>
        simp only [seqText] at h
        obtain ⟨rfl, h1⟩ := markedText_inj hd (hl m (by simp)) (hl' m' (by simp)) hx.stops hy.stops h
        exact ⟨rfl, h1⟩
      | cons m2 l =>
        simp only [seqText, List.append_assoc, List.cons_append] at h
        obtain ⟨rfl, h1⟩ := markedText_inj hd (hl m (by simp)) (hl' m' (by simp)) (stops_cons rfl)
          hy.stops h
        exact (AfterSeq.no_space (h1 ▸ hy)).elim
    | m' :: m2' :: l2' =>
      cases l with
      | nil =>
        simp only [seqText, List.append_assoc, List.cons_append] at h
        obtain ⟨rfl, h1⟩ := markedText_inj hd (hl m (by simp)) (hl' m' (by simp)) hx.stops
          (stops_cons rfl) h
        exact (AfterSeq.no_space (h1 ▸ hx)).elim
      | cons m2 l =>
        simp only [seqText, List.append_assoc, List.cons_append] at h
        obtain ⟨rfl, h1⟩ := markedText_inj hd (hl m (by simp)) (hl' m' (by simp)) (stops_cons rfl)
          (stops_cons rfl) h
        simp only [List.cons.injEq, true_and] at h1
        obtain ⟨e, h⟩ := ih (fun m hm => hl m (by simp [hm])) (l' := m2' :: l2')
          (fun m hm => hl' m (by simp [hm])) h1
        exact ⟨by rw [e], h⟩


theorem Except.map_ok {α β ε : Type} {x : Except ε α} {f : α → β} {b : β}
    (h : (do let a ← x; .ok (f a) : Except ε β) = .ok b) : ∃ a, x = .ok a ∧ b = f a := by
  cases x with
  | error e => cases h
  | ok a => cases h; exact ⟨a, rfl, rfl⟩

/-- The sequence with the marks at the numbers in `mk`, counted from `k`. -/
def marks (mk : Nat → Bool) (us : List USym) (k : Nat) : List (Bool × USym) :=
  (us.zipIdx k).map fun x => (mk x.2, x.1)

theorem mapM_seqText {g : Grammar A Ty} {mk : Nat → Bool} {n : Nat}
    {f : BoundSymbol × Nat → Except Fault Chars}
    (hf : ∀ x t, f x = .ok t → ∃ u, showSymbol dbg g x.1.symbol = .ok u ∧
      t = (if mk x.2 then ['|'] else []) ++ u ++ if x.2 ≠ n - 1 then [' '] else [])
    {l : List BoundSymbol} :
    ∀ {k : Nat} {r : List Chars}, k + l.length = n → (l.zipIdx k).mapM f = .ok r →
      ∃ us, (l.map (·.symbol)).map g.named = us.map some ∧ r.flatten = seqText dbg (marks mk us k) := by
  induction l with
  | nil =>
    intro k r _ h
    cases h
    exact ⟨[], rfl, rfl⟩
  | cons s l ih =>
    intro k r hk h
    rw [mapM_ok_iff] at h
    simp only [List.zipIdx_cons] at h
    cases h with
    | @cons _ t _ r h1 h2 =>
      obtain ⟨u, hu, rfl⟩ := hf _ _ h1
      obtain ⟨v, hv, rfl⟩ := showSymbol_ok.1 hu
      simp only [List.length_cons] at hk
      obtain ⟨us, e1, e2⟩ := ih (k := k + 1) (by omega) (mapM_ok_iff.2 h2)
      refine ⟨v :: us, by simp [hv, e1], ?_⟩
      have hl : us.length = l.length := by
        have := congrArg List.length e1
        simpa using this.symm
      simp only [List.flatten_cons, e2, marks, List.zipIdx_cons, List.map_cons]
      cases us with
      | nil =>
        have : k = n - 1 := by simp at hl; omega
        simp [this, seqText, markedText]
      | cons u us =>
        have : k ≠ n - 1 := by simp at hl; omega
        simp [this, seqText, markedText, List.zipIdx_cons]

theorem lit_space : txt " " = [' '] := by decide
theorem lit_bar : txt "|" = ['|'] := by decide

theorem showProduction_ok {g : Grammar A Ty} {p : Production A} {t : Chars}
    (h : showProduction dbg g p = .ok t) :
    ∃ us, p.syms.map g.named = us.map some ∧ t = seqText dbg (marks (fun _ => false) us 0) := by
  obtain ⟨r, h1, rfl⟩ := Except.map_ok h
  refine mapM_seqText (n := p.symbols.length) ?_ (by simp) h1
  intro x t hx
  obtain ⟨u, h1, rfl⟩ := Except.map_ok hx
  exact ⟨u, h1, by simp [lit_space]⟩

theorem marks_ok {g : Grammar A Ty} (hg : g.IdentNames) {mk : Nat → Bool} {us : List USym} {k : Nat}
    {ss : List Symbol} (h : ss.map g.named = us.map some) : ∀ m ∈ marks mk us k, m.2.OK := by
  intro m hm
  obtain ⟨⟨u, i⟩, h1, rfl⟩ := List.mem_map.1 hm
  have hu : u ∈ us := by
    have := List.mem_zipIdx h1
    rw [this.2.2]
    exact List.getElem_mem _
  have : some u ∈ ss.map g.named := h ▸ List.mem_map_of_mem hu
  obtain ⟨s, -, hs⟩ := List.mem_map.1 this
  exact hg.named_ok hs

theorem marks_snd (mk : Nat → Bool) (us : List USym) (k : Nat) : (marks mk us k).map (·.2) = us := by
  simp [marks, List.map_map, Function.comp_def]

theorem marks_inj {mk mk' : Nat → Bool} {us us' : List USym} (h : marks mk us 0 = marks mk' us' 0) :
    us = us' ∧ ∀ i < us.length, mk i = mk' i := by
  have e : us = us' := by rw [← marks_snd mk us 0, h, marks_snd]
  subst e
  refine ⟨rfl, fun i hi => ?_⟩
  have := congrArg (·[i]?) h
  simp [marks, List.getElem?_eq_getElem hi] at this
  exact this

/-- A printed right-hand side determines the symbols. -/
theorem showProduction_inj (hd : IsDebugStr dbg) {g g' : Grammar A Ty} (hg : g.IdentNames)
    (hg' : g'.IdentNames) {p p' : Production A} {t t' x y : Chars}
    (h : showProduction dbg g p = .ok t) (h' : showProduction dbg g' p' = .ok t') (hx : AfterSeq x)
    (hy : AfterSeq y) (e : t ++ x = t' ++ y) : p.syms.map g.named = p'.syms.map g'.named ∧ x = y := by
  obtain ⟨us, h1, rfl⟩ := showProduction_ok h
  obtain ⟨us', h1', rfl⟩ := showProduction_ok h'
  obtain ⟨e1, e2⟩ := seqText_inj hd (marks_ok hg h1) (marks_ok hg' h1') hx hy e
  obtain ⟨rfl, -⟩ := marks_inj e1
  exact ⟨by rw [h1, h1'], e2⟩

/-! ## Lists -/

/-- Pieces that begin with characters the continuation does not begin with, and whose ends can be
seen. -/
theorem flatten_inj {α β ρ : Type} {f : α → Except Fault Chars} {f' : β → Except Fault Chars}
    {r : α → ρ} {r' : β → ρ} {B : Char → Bool} {l : List α} {l' : List β} {ss ss' : List Chars}
    {x y : Chars} (h : List.Forall₂ (fun a s => f a = .ok s) l ss)
    (h' : List.Forall₂ (fun a s => f' a = .ok s) l' ss')
    (hb : ∀ a s, f a = .ok s → ∃ c u, s = c :: u ∧ B c = true)
    (hb' : ∀ a s, f' a = .ok s → ∃ c u, s = c :: u ∧ B c = true)
    (hx : StopsAt B x) (hy : StopsAt B y)
    (hinj : ∀ a ∈ l, ∀ b ∈ l', ∀ s s' u v, f a = .ok s → f' b = .ok s' → s ++ u = s' ++ v →
      r a = r' b ∧ u = v)
    (e : ss.flatten ++ x = ss'.flatten ++ y) : l.map r = l'.map r' ∧ x = y := by
  induction h generalizing l' ss' with
  | nil =>
    cases h' with
    | nil => exact ⟨rfl, e⟩
    | cons h1 h2 =>
      obtain ⟨c, u, rfl, hc⟩ := hb' _ _ h1
      have := hx c _ e
      rw [hc] at this
      cases this
  | @cons a s l ss h1 h2 ih =>
    cases h' with
    | nil =>
      obtain ⟨c, u, rfl, hc⟩ := hb _ _ h1
      have := hy c _ e.symm
      rw [hc] at this
      cases this
    | @cons b s' l' ss' h1' h2' =>
      simp only [List.flatten_cons, List.append_assoc] at e
      obtain ⟨e1, e2⟩ := hinj a (by simp) b (by simp) _ _ _ _ h1 h1' e
      obtain ⟨e3, e4⟩ := ih h2' (fun a ha b hb => hinj a (by simp [ha]) b (by simp [hb])) e2
      exact ⟨by simp [e1, e3], e4⟩

/-! ## Literals -/

theorem lit_two : txt "  " = [' ', ' '] := by decide
theorem lit_nl : txt "\n" = ['\n'] := by decide
theorem lit_colon : txt ": " = [':', ' '] := by decide
theorem lit_pub : txt "pub" = ['p', 'u', 'b'] := by decide
theorem lit_eqo : txt " = {" = [' ', '=', ' ', '{'] := by decide
theorem lit_cl : txt "}" = ['}'] := by decide
theorem lit_op : txt "{" = ['{'] := by decide
theorem lit_empty : txt "" = [] := by decide
theorem lit_comma : txt ", " = [',', ' '] := by decide
theorem lit_plusEmpty : txt " (+ empty)" = [' ', '(', '+', ' ', 'e', 'm', 'p', 't', 'y', ')'] := by decide
theorem lit_four : txt "    " = [' ', ' ', ' ', ' '] := by decide
theorem lit_rb : txt "]" = [']'] := by decide
theorem lit_eoi : txt ", $]" = [',', ' ', '$', ']'] := by decide
theorem lit_lb : txt "[" = ['['] := by decide
theorem lit_arrow : txt " -> " = [' ', '-', '>', ' '] := by decide
theorem lit_gotoL : txt "  GOTO " = [' ', ' ', 'G', 'O', 'T', 'O', ' '] := by decide
theorem lit_colono : txt ": {" = [':', ' ', '{'] := by decide
theorem lit_shiftL : txt "Shift " = ['S', 'h', 'i', 'f', 't', ' '] := by decide
theorem lit_reduceL : txt "Reduce (" = ['R', 'e', 'd', 'u', 'c', 'e', ' ', '('] := by decide
theorem lit_ntidx : txt ") (nt_idx=" = [')', ' ', '(', 'n', 't', '_', 'i', 'd', 'x', '='] := by decide
theorem lit_pidx : txt ", p_idx=" = [',', ' ', 'p', '_', 'i', 'd', 'x', '='] := by decide
theorem lit_rp : txt ")" = [')'] := by decide
theorem lit_acceptL : txt "Accept" = ['A', 'c', 'c', 'e', 'p', 't'] := by decide
theorem lit_eof : txt "  EOF -> " = [' ', ' ', 'E', 'O', 'F', ' ', '-', '>', ' '] := by decide

/-! ## Grammars -/

/-- What a printed non-terminal tells. -/
def NonTerminal.rule (g : Grammar A Ty) (n : NonTerminal A Ty) :
    String × Bool × List (List (Option USym)) :=
  (n.name, n.isPublic, n.productions.map fun p => p.syms.map g.named)

theorem map_zipIdx_fst {α β : Type} (r : α → β) (l : List α) (k : Nat) :
    (l.zipIdx k).map (fun x => r x.1) = l.map r := by
  induction l generalizing k with
  | nil => rfl
  | cons a l ih => simp [List.zipIdx_cons, ih]

theorem head_num {n : Nat} {r : Chars} :
    ∃ c u, numText n ++ r = c :: u ∧ Char.isDigit c = true := by
  obtain ⟨c, u, e, h⟩ := numText_head n
  exact ⟨c, u ++ r, by simp [e], h⟩

theorem head_two {r : Chars} : ∃ c u, txt "  " ++ r = c :: u ∧ (c == ' ') = true :=
  ⟨' ', ' ' :: r, by simp [lit_two], rfl⟩

theorem showGrammar_inj (hd : IsDebugStr dbg) {g g' : Grammar A Ty} (hg : g.IdentNames)
    (hg' : g'.IdentNames) {t : Chars} (h : showGrammar dbg g = .ok t) (h' : showGrammar dbg g' = .ok t) :
    g.rules = g'.rules := by
  obtain ⟨l, h1, rfl⟩ := Except.map_ok h
  obtain ⟨l', h1', e⟩ := Except.map_ok h'
  rw [mapM_ok_iff] at h1 h1'
  have key := flatten_inj (r := fun x => x.1.rule g) (r' := fun x => x.1.rule g') (x := []) (y := [])
    (B := Char.isDigit) h1 h1' ?_ ?_ (by intro c r e; cases e) (by intro c r e; cases e) ?_
    (by simpa using e)
  · have := key.1
    rw [map_zipIdx_fst (NonTerminal.rule g), map_zipIdx_fst (NonTerminal.rule g')] at this
    exact this
  · intro a s ha
    obtain ⟨ps, -, rfl⟩ := Except.map_ok ha
    simp only [List.append_assoc]
    exact head_num
  · intro a s ha
    obtain ⟨ps, -, rfl⟩ := Except.map_ok ha
    simp only [List.append_assoc]
    exact head_num
  · rintro ⟨n, i⟩ hn ⟨n', i'⟩ hn' s s' u v ha ha' e
    have hi : IsIdentText n.name := hg n (List.fst_mem_of_mem_zipIdx hn)
    have hi' : IsIdentText n'.name := hg' n' (List.fst_mem_of_mem_zipIdx hn')
    obtain ⟨ps, hps, rfl⟩ := Except.map_ok ha
    obtain ⟨ps', hps', rfl⟩ := Except.map_ok ha'
    rw [mapM_ok_iff] at hps hps'
    simp only [lit_colon, lit_pub, lit_empty, lit_space, lit_eqo, lit_nl, lit_cl, List.append_assoc,
      List.cons_append, List.nil_append] at e
    obtain ⟨-, e⟩ := numText_inj (stops_cons rfl) (stops_cons rfl) e
    simp only [List.cons.injEq, true_and] at e
    obtain ⟨c, r, hc, hcc⟩ := ident_head hi
    obtain ⟨c', r', hc', hcc'⟩ := ident_head hi'
    have hpub : n.isPublic = n'.isPublic := by
      cases h1 : n.isPublic <;> cases h2 : n'.isPublic
      · rfl
      · simp [h1, h2] at e
      · simp [h1, h2] at e
      · rfl
    rw [hpub] at e
    simp only [List.append_cancel_left_eq, List.cons.injEq, true_and] at e
    obtain ⟨hname, e⟩ := ident_inj hi hi' (stops_cons rfl) (stops_cons rfl) e
    simp only [List.cons.injEq, true_and] at e
    have key := flatten_inj (r := fun x => x.1.syms.map g.named) (r' := fun x => x.1.syms.map g'.named)
      (B := fun c => c == ' ') hps hps' ?_ ?_ (stops_cons rfl) (stops_cons rfl) ?_ e
    · obtain ⟨k1, k2⟩ := key
      rw [map_zipIdx_fst (fun p : Production A => p.syms.map g.named),
        map_zipIdx_fst (fun p : Production A => p.syms.map g'.named)] at k1
      simp only [List.cons.injEq, true_and] at k2
      exact ⟨by simp [NonTerminal.rule, hname, hpub, k1], k2⟩
    · intro a s ha
      obtain ⟨t, -, rfl⟩ := Except.map_ok ha
      simp only [List.append_assoc]
      exact head_two
    · intro a s ha
      obtain ⟨t, -, rfl⟩ := Except.map_ok ha
      simp only [List.append_assoc]
      exact head_two
    · rintro ⟨p, j⟩ - ⟨p', j'⟩ - s s' u v ha ha' e
      obtain ⟨t, ht, rfl⟩ := Except.map_ok ha
      obtain ⟨t', ht', rfl⟩ := Except.map_ok ha'
      simp only [lit_two, lit_colon, lit_nl, List.append_assoc, List.cons_append, List.nil_append,
        List.cons.injEq, true_and] at e
      obtain ⟨-, e⟩ := numText_inj (stops_cons rfl) (stops_cons rfl) e
      simp only [List.cons.injEq, true_and] at e
      obtain ⟨e1, e2⟩ := showProduction_inj hd hg hg' ht ht' ⟨_, _, .inl rfl, by simp⟩
        ⟨_, _, .inl rfl, by simp⟩ e
      simp only [List.cons.injEq, true_and] at e2
      exact ⟨e1, e2⟩

/-! ## FIRST sets -/

def commaText (dbg : String → Chars) : List String → Chars
  | [] => []
  | [t] => dbg t
  | t :: l => dbg t ++ ',' :: ' ' :: commaText dbg l

theorem commaText_inj (hd : IsDebugStr dbg) {l l' : List String} {x y : Chars}
    (h : commaText dbg l ++ '}' :: x = commaText dbg l' ++ '}' :: y) : l = l' ∧ x = y := by
  induction l generalizing l' with
  | nil =>
    match l' with
    | [] => exact ⟨rfl, by simpa [commaText] using h⟩
    | [t] =>
      obtain ⟨r, e⟩ := hd.quote t
      simp [commaText, e] at h
    | t :: t2 :: l2 =>
      obtain ⟨r, e⟩ := hd.quote t
      simp [commaText, e] at h
  | cons t l ih =>
    match l' with
    | [] =>
      obtain ⟨r, e⟩ := hd.quote t
      cases l <;> simp [commaText, e] at h
    | [t'] =>
      cases l with
      | nil =>
        obtain ⟨e1, e2⟩ := hd.delim h
        simp only [List.cons.injEq, true_and] at e2
        exact ⟨by rw [e1], e2⟩
      | cons t2 l =>
        simp only [commaText, List.append_assoc, List.cons_append] at h
        obtain ⟨e1, e2⟩ := hd.delim h
        simp at e2
    | t' :: t2' :: l2' =>
      cases l with
      | nil =>
        simp only [commaText, List.append_assoc, List.cons_append] at h
        obtain ⟨e1, e2⟩ := hd.delim h
        simp at e2
      | cons t2 l =>
        simp only [commaText, List.append_assoc, List.cons_append] at h
        obtain ⟨e1, e2⟩ := hd.delim h
        simp only [List.cons.injEq, true_and] at e2
        obtain ⟨e3, e4⟩ := ih (l' := t2' :: l2') e2
        exact ⟨by rw [e1, e3], e4⟩

theorem mapM_commaText {g : Grammar A Ty} {n : Nat} {l : List Nat} :
    ∀ {k : Nat} {r : List Chars}, k + l.length = n →
      ((l.zipIdx k).mapM fun x => do
        let t ← showTerminal dbg g x.1
        .ok (t ++ if x.2 ≠ n - 1 then txt ", " else []) : Except Fault (List Chars)) = .ok r →
      ∃ ts, (l.map fun t => g.terminals[t]?) = ts.map some ∧ r.flatten = commaText dbg ts := by
  induction l with
  | nil =>
    intro k r _ h
    cases h
    exact ⟨[], rfl, rfl⟩
  | cons s l ih =>
    intro k r hk h
    rw [mapM_ok_iff] at h
    simp only [List.zipIdx_cons] at h
    cases h with
    | @cons _ t _ r h1 h2 =>
      obtain ⟨u, hu, rfl⟩ := Except.map_ok h1
      obtain ⟨v, hv, rfl⟩ := showTerminal_ok.1 hu
      simp only [List.length_cons] at hk
      obtain ⟨us, e1, e2⟩ := ih (k := k + 1) (by omega) (mapM_ok_iff.2 h2)
      refine ⟨v :: us, by simp [hv, e1], ?_⟩
      have hl : us.length = l.length := by
        have := congrArg List.length e1
        simpa using this.symm
      simp only [List.flatten_cons, e2]
      cases us with
      | nil =>
        have : k = n - 1 := by simp at hl; omega
        simp [this, commaText]
      | cons u us =>
        have : k ≠ n - 1 := by simp at hl; omega
        simp [this, commaText, lit_comma]

theorem showFirstSet_ok {h : HashOrder} {g : Grammar A Ty} {s : FirstSet} {t : Chars}
    (hs : showFirstSet dbg h g s = .ok t) :
    ∃ ts, ((h.iter s.terminals).map fun t => g.terminals[t]?) = ts.map some ∧
      t = '{' :: (commaText dbg ts ++ '}' :: if s.empty then txt " (+ empty)" else []) := by
  obtain ⟨l, h1, rfl⟩ := Except.map_ok hs
  obtain ⟨ts, e1, e2⟩ := mapM_commaText (by simpa using (h.perm s.terminals).length_eq) h1
  exact ⟨ts, e1, by simp [e2, lit_op, lit_cl]⟩

/-- What a printed FIRST set tells. -/
def FirstSet.told (h : HashOrder) (g : Grammar A Ty) (s : FirstSet) : Bool × List (Option String) :=
  (s.empty, (h.iter s.terminals).map fun t => g.terminals[t]?)

theorem showFirstTable_inj (hd : IsDebugStr dbg) {h h' : HashOrder} {g : Grammar A Ty}
    (hg : g.IdentNames) {F F' : FirstTable} {t : Chars}
    (h1 : showFirstTable dbg h g F = .ok t) (h2 : showFirstTable dbg h' g F' = .ok t) :
    F.map (·.told h g) = F'.map (·.told h' g) := by
  obtain ⟨l, k1, rfl⟩ := Except.map_ok h1
  obtain ⟨l', k2, e⟩ := Except.map_ok h2
  rw [mapM_ok_iff] at k1 k2
  simp only [List.append_assoc, List.append_cancel_left_eq] at e
  have key := flatten_inj (r := fun x => x.1.told h g) (r' := fun x => x.1.told h' g)
    (B := fun c => c == ' ') k1 k2 ?_ ?_ (stops_cons rfl) (stops_cons rfl) ?_
    (by rw [lit_cl] at e; exact e)
  · have := key.1
    rw [map_zipIdx_fst (FirstSet.told h g), map_zipIdx_fst (FirstSet.told h' g)] at this
    exact this
  · intro a s ha
    obtain ⟨n, -, ha⟩ := Except.bind_eq_ok.1 ha
    obtain ⟨n, -, rfl⟩ := Except.map_ok ha
    exact ⟨_, _, by simp only [lit_four, List.append_assoc, List.cons_append]; rfl, rfl⟩
  · intro a s ha
    obtain ⟨n, -, ha⟩ := Except.bind_eq_ok.1 ha
    obtain ⟨n, -, rfl⟩ := Except.map_ok ha
    exact ⟨_, _, by simp only [lit_four, List.append_assoc, List.cons_append]; rfl, rfl⟩
  · rintro ⟨S, i⟩ - ⟨S', i'⟩ - s s' u v ha ha' e
    obtain ⟨n, hn, ha⟩ := Except.bind_eq_ok.1 ha
    obtain ⟨q, hq, rfl⟩ := Except.map_ok ha
    obtain ⟨n', hn', ha'⟩ := Except.bind_eq_ok.1 ha'
    obtain ⟨q', hq', rfl⟩ := Except.map_ok ha'
    obtain ⟨m, hm, rfl⟩ := showNonTerminal_ok.1 hn
    obtain ⟨m', hm', rfl⟩ := showNonTerminal_ok.1 hn'
    obtain ⟨ts, e1, rfl⟩ := showFirstSet_ok hq
    obtain ⟨ts', e1', rfl⟩ := showFirstSet_ok hq'
    simp only [lit_four, lit_colon, lit_nl, List.append_assoc, List.cons_append, List.nil_append,
      List.cons.injEq, true_and] at e
    obtain ⟨-, e⟩ := ident_inj (hg m (List.mem_of_getElem? hm)) (hg m' (List.mem_of_getElem? hm'))
      (stops_cons rfl) (stops_cons rfl) e
    simp only [List.cons.injEq, true_and] at e
    obtain ⟨e2, e⟩ := commaText_inj hd e
    subst e2
    have he : S.empty = S'.empty := by
      cases h1 : S.empty <;> cases h2 : S'.empty
      · rfl
      · simp [h1, h2, lit_plusEmpty] at e
      · simp [h1, h2, lit_plusEmpty] at e
      · rfl
    rw [he] at e
    simp only [List.append_cancel_left_eq, List.cons.injEq, true_and] at e
    exact ⟨by simp [FirstSet.told, he, e1, e1'], e⟩

/-- By number instead of by name. -/
theorem FirstSet.told_mem {h h' : HashOrder} {g : Grammar A Ty} (hn : g.terminals.Nodup)
    {s s' : FirstSet} (e : s.told h g = s'.told h' g) {t : Nat} (ht : t < g.nTerminals)
    (hs : t ∈ s.terminals) : t ∈ s'.terminals := by
  have e := congrArg (·.2) e
  have h1 : g.terminals[t]? ∈ (h'.iter s'.terminals).map fun t => g.terminals[t]? := by
    rw [show (h'.iter s'.terminals).map (fun t => g.terminals[t]?) = _ from e.symm]
    exact List.mem_map_of_mem ((h.mem_iter).2 hs)
  obtain ⟨t', h2, h3⟩ := List.mem_map.1 h1
  have ht : t < g.terminals.length := ht
  rw [List.getElem?_eq_getElem ht, List.getElem?_eq_some_iff] at h3
  obtain ⟨ht', h3⟩ := h3
  have := (hn.getElem_inj_iff).1 h3
  subst this
  exact (h'.mem_iter).1 h2

/-! ## Hash maps -/

theorem AMap.get?_mem_keys {K V : Type} [DecidableEq K] {m : AMap K V} {k : K} {v : V}
    (h : m.get? k = some v) : k ∈ m.map (·.1) := by
  induction m with
  | nil => cases h
  | cons e m ih =>
    obtain ⟨k', v'⟩ := e
    simp only [AMap.get?] at h
    split at h
    · next e => simp [e]
    · exact List.mem_cons_of_mem _ (ih h)

theorem AMap.mem_entries {K V : Type} [DecidableEq K] {h : HashOrder} {m : AMap K V} {k : K} {v : V} :
    (k, v) ∈ m.entries h ↔ m.get? k = some v := by
  simp only [AMap.entries, List.mem_filterMap, Option.map_eq_some_iff, Prod.mk.injEq]
  constructor
  · rintro ⟨k', -, v', h1, rfl, rfl⟩
    exact h1
  · intro hk
    exact ⟨k, by rw [h.mem_iter, List.mem_eraseDups]; exact AMap.get?_mem_keys hk, v, hk, rfl, rfl⟩

theorem AMap.get?_inner {K1 K2 V : Type} [DecidableEq K1] [DecidableEq K2] (m : AMap (K1 × K2) V)
    (s : K1) (k : K2) :
    AMap.get? (m.filterMap fun e => if e.1.1 = s then some (e.1.2, e.2) else none) k =
      m.get? (s, k) := by
  induction m with
  | nil => rfl
  | cons e m ih =>
    obtain ⟨⟨s', k'⟩, v⟩ := e
    simp only [List.filterMap_cons, AMap.get?, Prod.mk.injEq]
    by_cases hs : s' = s
    · simp only [hs, if_true, true_and, AMap.get?, ih]
    · simp only [hs, if_false, false_and, ih]

/-! ## Tables -/

theorem showAction_inj (hd : IsDebugStr dbg) {g : Grammar A Ty} (hg : g.IdentNames)
    {a a' : LRAction A} {t t' u v : Chars} (h : showAction dbg g a = .ok t)
    (h' : showAction dbg g a' = .ok t') (e : t ++ '\n' :: u = t' ++ '\n' :: v) :
    a.plain = a'.plain ∧ u = v := by
  have red : ∀ {nt p act t}, showAction dbg g (LRAction.reduce nt p act) = .ok t →
      ∃ n pr q, g.nonTerminals[nt]? = some n ∧ showProduction dbg g pr = .ok q ∧
        t = txt "Reduce (" ++ n.name.toList ++ txt " -> " ++ q ++ txt ") (nt_idx=" ++ numText nt ++
          txt ", p_idx=" ++ numText p ++ txt ")" := by
    intro nt p act t h
    simp only [showAction] at h
    split at h
    · cases h
    · next pr hp =>
      obtain ⟨n, hn, h⟩ := Except.bind_eq_ok.1 h
      obtain ⟨q, hq, rfl⟩ := Except.map_ok h
      obtain ⟨m, hm, rfl⟩ := showNonTerminal_ok.1 hn
      exact ⟨m, pr, q, hm, hq, rfl⟩
  cases a with
  | shift s =>
    cases h
    cases a' with
    | shift s' =>
      cases h'
      simp only [List.append_assoc, List.append_cancel_left_eq] at e
      obtain ⟨e1, e2⟩ := numText_inj (stops_cons rfl) (stops_cons rfl) e
      simp only [List.cons.injEq, true_and] at e2
      exact ⟨by rw [e1], e2⟩
    | reduce nt p act =>
      obtain ⟨_, _, _, _, _, rfl⟩ := red h'
      simp [lit_shiftL, lit_reduceL] at e
    | accept =>
      cases h'
      simp [lit_shiftL, lit_acceptL] at e
  | reduce nt p act =>
    obtain ⟨n, pr, q, hn, hq, rfl⟩ := red h
    cases a' with
    | shift s' =>
      cases h'
      simp [lit_shiftL, lit_reduceL] at e
    | reduce nt' p' act' =>
      obtain ⟨n', pr', q', hn', hq', rfl⟩ := red h'
      simp only [List.append_assoc, List.append_cancel_left_eq] at e
      simp only [lit_arrow, lit_ntidx, lit_pidx, lit_rp, List.cons_append, List.nil_append] at e
      obtain ⟨-, e⟩ := ident_inj (hg n (List.mem_of_getElem? hn)) (hg n' (List.mem_of_getElem? hn'))
        (stops_cons rfl) (stops_cons rfl) e
      simp only [List.cons.injEq, true_and] at e
      obtain ⟨-, e⟩ := showProduction_inj hd hg hg hq hq' ⟨_, _, .inl rfl, by simp⟩
        ⟨_, _, .inl rfl, by simp⟩ e
      simp only [List.cons.injEq, true_and] at e
      obtain ⟨e1, e⟩ := numText_inj (stops_cons rfl) (stops_cons rfl) e
      simp only [List.cons.injEq, true_and] at e
      obtain ⟨e2, e⟩ := numText_inj (stops_cons rfl) (stops_cons rfl) e
      simp only [List.cons.injEq, true_and] at e
      exact ⟨by simp [LRAction.plain, e1, e2], e⟩
    | accept =>
      cases h'
      simp [lit_reduceL, lit_acceptL] at e
  | accept =>
    cases h
    cases a' with
    | shift s' =>
      cases h'
      simp [lit_shiftL, lit_acceptL] at e
    | reduce nt p act =>
      obtain ⟨_, _, _, _, _, rfl⟩ := red h'
      simp [lit_acceptL, lit_reduceL] at e
    | accept =>
      cases h'
      exact ⟨rfl, by simpa using e⟩

/-- No action begins like a number. -/
theorem showAction_head {g : Grammar A Ty} {a : LRAction A} {t : Chars}
    (h : showAction dbg g a = .ok t) : ∃ c u, t = c :: u ∧ c.isDigit = false := by
  cases a with
  | shift s => cases h; exact ⟨'S', _, rfl, rfl⟩
  | reduce nt p act =>
    simp only [showAction] at h
    split at h
    · cases h
    · obtain ⟨n, hn, h⟩ := Except.bind_eq_ok.1 h
      obtain ⟨q, hq, rfl⟩ := Except.map_ok h
      exact ⟨'R', _, rfl, rfl⟩
  | accept => cases h; exact ⟨'A', _, rfl, rfl⟩

/-- A line of the dump of a state. -/
def showLine (dbg : String → Chars) (g : Grammar A Ty) :
    (Option Nat × LRAction A) ⊕ (Nat × Nat) → Except Fault Chars
  | .inl e => do
    let k ← showActionKey dbg g e.1
    let t ← showAction dbg g e.2
    .ok (k ++ t ++ txt "\n")
  | .inr e => do
    let n ← showNonTerminal g e.1
    .ok (txt "  " ++ n ++ txt " -> " ++ numText e.2 ++ txt "\n")

/-- What it tells. -/
def lineTold (g : Grammar A Ty) : (Option Nat × LRAction A) ⊕ (Nat × Nat) →
    (Option (Option String) × LRAction Unit) ⊕ (Option String × Nat)
  | .inl e => .inl (e.1.map fun t => g.terminals[t]?, e.2.plain)
  | .inr e => .inr ((g.nonTerminals[e.1]?).map (·.name), e.2)

theorem showLine_inl {g : Grammar A Ty} {e : Option Nat × LRAction A} {s : Chars}
    (h : showLine dbg g (.inl e) = .ok s) : ∃ t, showAction dbg g e.2 = .ok t ∧
      ((∃ i n, e.1 = some i ∧ g.terminals[i]? = some n ∧
        s = ' ' :: ' ' :: (dbg n ++ ' ' :: '-' :: '>' :: ' ' :: (t ++ ['\n']))) ∨
      (e.1 = none ∧
        s = ' ' :: ' ' :: 'E' :: 'O' :: 'F' :: ' ' :: '-' :: '>' :: ' ' :: (t ++ ['\n']))) := by
  obtain ⟨k, hk, h⟩ := Except.bind_eq_ok.1 h
  obtain ⟨t, ht, rfl⟩ := Except.map_ok h
  refine ⟨t, ht, ?_⟩
  obtain ⟨la, a⟩ := e
  cases la with
  | none =>
    cases hk
    exact .inr ⟨rfl, by simp [lit_eof, lit_nl]⟩
  | some i =>
    obtain ⟨q, hq, rfl⟩ := Except.map_ok hk
    obtain ⟨n, hn, rfl⟩ := showTerminal_ok.1 hq
    exact .inl ⟨i, n, rfl, hn, by simp [lit_two, lit_arrow, lit_nl]⟩

theorem showLine_inr {g : Grammar A Ty} {e : Nat × Nat} {s : Chars}
    (h : showLine dbg g (.inr e : (Option Nat × LRAction A) ⊕ (Nat × Nat)) = .ok s) :
    ∃ n, g.nonTerminals[e.1]? = some n ∧
      s = ' ' :: ' ' :: (n.name.toList ++ ' ' :: '-' :: '>' :: ' ' :: (numText e.2 ++ ['\n'])) := by
  obtain ⟨k, hk, rfl⟩ := Except.map_ok h
  obtain ⟨n, hn, rfl⟩ := showNonTerminal_ok.1 hk
  exact ⟨n, hn, by simp [lit_two, lit_arrow, lit_nl]⟩

/-- A line for an action is not one for a transition. -/
theorem showLine_kind (hd : IsDebugStr dbg) {g : Grammar A Ty} (hg : g.IdentNames)
    {e : Option Nat × LRAction A} {e' : Nat × Nat} {s s' u v : Chars}
    (h : showLine dbg g (.inl e) = .ok s)
    (h' : showLine dbg g (.inr e' : (Option Nat × LRAction A) ⊕ (Nat × Nat)) = .ok s')
    (eq : s ++ u = s' ++ v) : False := by
  obtain ⟨t, ht, ⟨i, n, -, -, rfl⟩ | ⟨-, rfl⟩⟩ := showLine_inl h
  · obtain ⟨m, hm, rfl⟩ := showLine_inr h'
    obtain ⟨r, er⟩ := hd.quote n
    obtain ⟨c, r', ec, hc⟩ := ident_head (hg m (List.mem_of_getElem? hm))
    simp only [er, ec, List.cons_append, List.cons.injEq, true_and] at eq
    rw [← eq.1] at hc
    cases hc
  · obtain ⟨m, hm, rfl⟩ := showLine_inr h'
    obtain ⟨c, r, ec, hc⟩ := showAction_head ht
    obtain ⟨c', r', ec', hc'⟩ := numText_head e'.2
    have hEOF : IsIdentText "EOF" := by
      constructor
      · decide
      · decide
    simp only [List.cons_append, List.cons.injEq, true_and, List.append_assoc] at eq
    have : "EOF".toList ++ (' ' :: '-' :: '>' :: ' ' :: (t ++ (['\n'] ++ u))) =
        m.name.toList ++ (' ' :: '-' :: '>' :: ' ' :: (numText e'.2 ++ (['\n'] ++ v))) := eq
    obtain ⟨-, eq⟩ := ident_inj hEOF (hg m (List.mem_of_getElem? hm)) (stops_cons rfl)
      (stops_cons rfl) this
    simp only [ec, ec', List.cons_append, List.cons.injEq, true_and] at eq
    rw [eq.1, hc'] at hc
    cases hc

theorem showLine_inj (hd : IsDebugStr dbg) {g : Grammar A Ty} (hg : g.IdentNames)
    {e e' : (Option Nat × LRAction A) ⊕ (Nat × Nat)} {s s' u v : Chars}
    (h : showLine dbg g e = .ok s) (h' : showLine dbg g e' = .ok s') (eq : s ++ u = s' ++ v) :
    lineTold g e = lineTold g e' ∧ u = v := by
  cases e with
  | inl e =>
    cases e' with
    | inl e' =>
      obtain ⟨t, ht, hs⟩ := showLine_inl h
      obtain ⟨t', ht', hs'⟩ := showLine_inl h'
      obtain ⟨la, a⟩ := e
      obtain ⟨la', a'⟩ := e'
      rcases hs with ⟨i, n, hi, hn, rfl⟩ | ⟨hi, rfl⟩ <;> rcases hs' with ⟨i', n', hi', hn', rfl⟩ | ⟨hi', rfl⟩
      · simp only [List.cons_append, List.cons.injEq, true_and, List.append_assoc] at eq
        obtain ⟨rfl, eq1⟩ := hd.delim eq
        simp only [List.cons.injEq, true_and] at eq1
        obtain ⟨e1, e2⟩ := showAction_inj hd hg ht ht' eq1
        simp only at hi hi' e1
        exact ⟨by simp [lineTold, hi, hi', hn, hn', e1], e2⟩
      · obtain ⟨r, er⟩ := hd.quote n
        simp [er] at eq
      · obtain ⟨r, er⟩ := hd.quote n'
        simp [er] at eq
      · simp only [List.cons_append, List.cons.injEq, true_and, List.append_assoc] at eq
        obtain ⟨e1, e2⟩ := showAction_inj hd hg ht ht' eq
        simp only at hi hi' e1
        exact ⟨by simp [lineTold, hi, hi', e1], e2⟩
    | inr e' => exact (showLine_kind hd hg h h' eq).elim
  | inr e =>
    cases e' with
    | inl e' => exact (showLine_kind hd hg h' h eq.symm).elim
    | inr e' =>
      obtain ⟨n, hn, rfl⟩ := showLine_inr h
      obtain ⟨n', hn', rfl⟩ := showLine_inr h'
      simp only [List.cons_append, List.cons.injEq, true_and, List.append_assoc] at eq
      obtain ⟨e1, e2⟩ := ident_inj (hg n (List.mem_of_getElem? hn)) (hg n' (List.mem_of_getElem? hn'))
        (stops_cons rfl) (stops_cons rfl) eq
      simp only [List.cons.injEq, true_and] at e2
      obtain ⟨e3, e4⟩ := numText_inj (stops_cons rfl) (stops_cons rfl) e2
      simp only [List.cons.injEq, true_and] at e4
      exact ⟨by simp [lineTold, hn, hn', e1, e3], e4⟩

/-- The lines of a state. -/
def LRTable.lines (T : LRTable A) (h : HashOrder) (s : Nat) :
    List ((Option Nat × LRAction A) ⊕ (Nat × Nat)) :=
  ((T.actionsOf s).entries h).map .inl ++ ((T.gotosOf s).entries h).map .inr

/-- The dump of a state. -/
def showTableState (dbg : String → Chars) (h : HashOrder) (g : Grammar A Ty) (T : LRTable A) (s : Nat) :
    Except Fault Chars := do
  let as ← ((T.actionsOf s).entries h).mapM fun e => do
    let k ← showActionKey dbg g e.1
    let t ← showAction dbg g e.2
    .ok (k ++ t ++ txt "\n")
  let gs ← ((T.gotosOf s).entries h).mapM fun e => do
    let n ← showNonTerminal g e.1
    .ok (txt "  " ++ n ++ txt " -> " ++ numText e.2 ++ txt "\n")
  .ok (numText s ++ txt ": {" ++ txt "\n" ++ as.flatten ++ gs.flatten ++ txt "}" ++ txt "\n")

theorem showTableState_ok {h : HashOrder} {g : Grammar A Ty} {T : LRTable A} {s : Nat} {t : Chars}
    (hs : showTableState dbg h g T s = .ok t) :
    ∃ ls, List.Forall₂ (fun e l => showLine dbg g e = .ok l) (T.lines h s) ls ∧
      t = numText s ++ (txt ": {" ++ txt "\n") ++ ls.flatten ++ (txt "}" ++ txt "\n") := by
  obtain ⟨as, h1, hs⟩ := Except.bind_eq_ok.1 hs
  obtain ⟨gs, h2, rfl⟩ := Except.map_ok hs
  rw [mapM_ok_iff] at h1 h2
  refine ⟨as ++ gs, ?_, by simp⟩
  unfold LRTable.lines
  refine List.rel_append ?_ ?_
  · rw [List.forall₂_map_left_iff]
    exact h1
  · rw [List.forall₂_map_left_iff]
    exact h2

theorem showLine_head {g : Grammar A Ty} {e : (Option Nat × LRAction A) ⊕ (Nat × Nat)} {s : Chars}
    (h : showLine dbg g e = .ok s) : ∃ c u, s = c :: u ∧ (c == ' ') = true := by
  cases e with
  | inl e =>
    obtain ⟨t, -, ⟨_, _, -, -, rfl⟩ | ⟨-, rfl⟩⟩ := showLine_inl h
    · exact ⟨_, _, rfl, rfl⟩
    · exact ⟨_, _, rfl, rfl⟩
  | inr e =>
    obtain ⟨n, -, rfl⟩ := showLine_inr h
    exact ⟨_, _, rfl, rfl⟩

theorem showTable_inj (hd : IsDebugStr dbg) {h h' : HashOrder} {g : Grammar A Ty}
    (hg : g.IdentNames) {T T' : LRTable A} {t : Chars}
    (h1 : showTable dbg h g T = .ok t) (h2 : showTable dbg h' g T' = .ok t) :
    T.nStates = T'.nStates ∧ ∀ s < T.nStates,
      (T.lines h s).map (lineTold g) = (T'.lines h' s).map (lineTold g) := by
  obtain ⟨l, k1, rfl⟩ := Except.map_ok h1
  obtain ⟨l', k2, e⟩ := Except.map_ok h2
  rw [mapM_ok_iff] at k1 k2
  have key := flatten_inj (f := showTableState dbg h g T) (f' := showTableState dbg h' g T')
    (r := fun s => (T.lines h s).map (lineTold g)) (r' := fun s => (T'.lines h' s).map (lineTold g))
    (x := []) (y := []) (B := Char.isDigit) k1 k2 ?_ ?_ (by intro c r e; cases e)
    (by intro c r e; cases e) ?_ (by simpa using e)
  · have key := key.1
    have hn : T.nStates = T'.nStates := by simpa using congrArg List.length key
    refine ⟨hn, fun s hs => ?_⟩
    have := congrArg (·[s]?) key
    simpa [List.getElem?_range, hs, hn ▸ hs] using this
  · intro s t hs
    obtain ⟨ls, -, rfl⟩ := showTableState_ok hs
    simp only [List.append_assoc]
    exact head_num
  · intro s t hs
    obtain ⟨ls, -, rfl⟩ := showTableState_ok hs
    simp only [List.append_assoc]
    exact head_num
  · intro s _ s' _ t t' u v hs hs' e
    obtain ⟨ls, hl, rfl⟩ := showTableState_ok hs
    obtain ⟨ls', hl', rfl⟩ := showTableState_ok hs'
    simp only [List.append_assoc, lit_colono, lit_cl, lit_nl, List.cons_append, List.nil_append] at e
    obtain ⟨-, e⟩ := numText_inj (stops_cons rfl) (stops_cons rfl) e
    simp only [List.cons.injEq, true_and] at e
    obtain ⟨e1, e2⟩ := flatten_inj (r := lineTold g) (r' := lineTold g) (B := fun c => c == ' ') hl hl'
      (fun _ _ => showLine_head) (fun _ _ => showLine_head) (stops_cons rfl) (stops_cons rfl)
      (fun a _ b _ s s' u v ha hb e => showLine_inj hd hg ha hb e) e
    simp only [List.cons.injEq, true_and] at e2
    exact ⟨e1, e2⟩

theorem forall₂_left_mem {α β : Type} {R : α → β → Prop} {l : List α} {l' : List β}
    (h : List.Forall₂ R l l') {a : α} (ha : a ∈ l) : ∃ b, b ∈ l' ∧ R a b := by
  induction h with
  | nil => cases ha
  | cons h1 _ ih =>
    rcases List.mem_cons.1 ha with rfl | ha
    · exact ⟨_, List.mem_cons_self, h1⟩
    · obtain ⟨b, hb, hr⟩ := ih ha
      exact ⟨b, List.mem_cons_of_mem _ hb, hr⟩

/-- Everything printed has a name. -/
theorem showTable_line {h : HashOrder} {g : Grammar A Ty} {T : LRTable A} {t : Chars}
    (ht : showTable dbg h g T = .ok t) {s : Nat} (hs : s < T.nStates)
    {e : (Option Nat × LRAction A) ⊕ (Nat × Nat)} (he : e ∈ T.lines h s) :
    ∃ l, showLine dbg g e = .ok l := by
  obtain ⟨l, k1, rfl⟩ := Except.map_ok ht
  rw [mapM_ok_iff] at k1
  obtain ⟨q, -, hq⟩ := forall₂_left_mem k1 (List.mem_range.2 hs)
  obtain ⟨ls, hl, -⟩ := showTableState_ok hq
  obtain ⟨q, -, hq⟩ := forall₂_left_mem hl he
  exact ⟨q, hq⟩

theorem LRTable.mem_lines_inl {h : HashOrder} {T : LRTable A} {s : Nat} {la : Option Nat}
    {a : LRAction A} : .inl (la, a) ∈ T.lines h s ↔ T.getAction s la = some a := by
  simp only [LRTable.lines, List.mem_append, List.mem_map, reduceCtorEq, and_false, exists_false,
    or_false, Sum.inl.injEq, exists_eq_right, AMap.mem_entries]
  rw [show (T.actionsOf s).get? la = T.getAction s la from AMap.get?_inner _ _ _]

theorem LRTable.mem_lines_inr {h : HashOrder} {T : LRTable A} {s nt q : Nat} :
    .inr (nt, q) ∈ T.lines h s ↔ T.getGoto s nt = some q := by
  simp only [LRTable.lines, List.mem_append, List.mem_map, reduceCtorEq, and_false, exists_false,
    false_or, Sum.inr.injEq, exists_eq_right, AMap.mem_entries]
  rw [show (T.gotosOf s).get? nt = T.getGoto s nt from AMap.get?_inner _ _ _]

/-! ## Automata -/

/-- What a printed item tells. -/
def itemTold (g : Grammar A Ty) (it : Item) :
    Option String × List (Option USym) × Nat × Option (Option String) :=
  ((g.nonTerminals[it.nt]?).map (·.name), (g.rhs it.nt it.prod).map g.named, it.cursor,
    it.la.map fun t => g.terminals[t]?)

theorem showLookahead_ok {g : Grammar A Ty} {la : Option Nat} {t : Chars}
    (h : showLookahead dbg g la = .ok t) :
    (la = none ∧ t = [',', ' ', '$', ']']) ∨
      ∃ i n, la = some i ∧ g.terminals[i]? = some n ∧ t = ',' :: ' ' :: (dbg n ++ [']']) := by
  cases la with
  | none =>
    cases h
    exact .inl ⟨rfl, lit_eoi⟩
  | some i =>
    obtain ⟨q, hq, rfl⟩ := Except.map_ok h
    obtain ⟨n, hn, rfl⟩ := showTerminal_ok.1 hq
    exact .inr ⟨i, n, rfl, hn, by simp [lit_comma, lit_rb]⟩

theorem showLookahead_inj (hd : IsDebugStr dbg) {g : Grammar A Ty} {la la' : Option Nat}
    {t t' u v : Chars} (h : showLookahead dbg g la = .ok t) (h' : showLookahead dbg g la' = .ok t')
    (e : t ++ u = t' ++ v) :
    (la.map fun t => g.terminals[t]?) = (la'.map fun t => g.terminals[t]?) ∧ u = v := by
  rcases showLookahead_ok h with ⟨rfl, rfl⟩ | ⟨i, n, rfl, hn, rfl⟩ <;>
    rcases showLookahead_ok h' with ⟨rfl, rfl⟩ | ⟨i', n', rfl, hn', rfl⟩
  · exact ⟨rfl, by simpa using e⟩
  · obtain ⟨r, hr⟩ := hd.quote n'
    simp [hr] at e
  · obtain ⟨r, hr⟩ := hd.quote n
    simp [hr] at e
  · simp only [List.cons_append, List.append_assoc, List.cons.injEq, true_and] at e
    obtain ⟨e1, e2⟩ := hd.delim e
    simp only [List.nil_append, List.cons.injEq, true_and] at e2
    exact ⟨by simp [hn, hn', e1], e2⟩

theorem showItem_ok {g : Grammar A Ty} {it : Item} {t : Chars} (h : showItem dbg g it = .ok t) :
    ∃ n us q, g.nonTerminals[it.nt]? = some n ∧ (g.rhs it.nt it.prod).map g.named = us.map some ∧
      showLookahead dbg g it.la = .ok q ∧
      t = '[' :: (n.name.toList ++ ' ' :: '-' :: '>' :: ' ' ::
        (seqText dbg (marks (fun i => decide (i = it.cursor)) us 0) ++
          ((if it.cursor = us.length then ['|'] else []) ++ q))) := by
  obtain ⟨n, hn, h⟩ := Except.bind_eq_ok.1 h
  obtain ⟨m, hm, rfl⟩ := showNonTerminal_ok.1 hn
  split at h
  · cases h
  · next p hp =>
    obtain ⟨l, hl, h⟩ := Except.bind_eq_ok.1 h
    obtain ⟨q, hq, rfl⟩ := Except.map_ok h
    obtain ⟨us, e1, e2⟩ := mapM_seqText (dbg := dbg) (g := g)
      (mk := fun i => decide (i = it.cursor)) (n := p.symbols.length) (by
        intro x t hx
        obtain ⟨u, h1, rfl⟩ := Except.map_ok hx
        exact ⟨u, h1, by simp [lit_space, lit_bar]⟩) (by simp) hl
    have hr : g.rhs it.nt it.prod = p.symbols.map (·.symbol) := by
      simp [Grammar.rhs, hp, Production.syms]
    have hlen : us.length = p.symbols.length := by
      have := congrArg List.length e1
      simpa using this.symm
    refine ⟨m, us, q, hm, by rw [hr]; exact e1, hq, ?_⟩
    simp [lit_lb, lit_arrow, lit_bar, e2, hlen]

theorem showItem_inj (hd : IsDebugStr dbg) {g : Grammar A Ty} (hg : g.IdentNames)
    {it it' : Item} {t t' u v : Chars} (hc : it.cursor ≤ (g.rhs it.nt it.prod).length)
    (_hc' : it'.cursor ≤ (g.rhs it'.nt it'.prod).length) (h : showItem dbg g it = .ok t)
    (h' : showItem dbg g it' = .ok t') (e : t ++ u = t' ++ v) :
    itemTold g it = itemTold g it' ∧ u = v := by
  obtain ⟨n, us, q, hn, hus, hq, rfl⟩ := showItem_ok h
  obtain ⟨n', us', q', hn', hus', hq', rfl⟩ := showItem_ok h'
  have hlen : (g.rhs it.nt it.prod).length = us.length := by simpa using congrArg List.length hus
  have hlen' : (g.rhs it'.nt it'.prod).length = us'.length := by simpa using congrArg List.length hus'
  have after : ∀ {la q} (b : Prop) [Decidable b] (u : Chars), showLookahead dbg g la = .ok q →
      AfterSeq ((if b then ['|'] else []) ++ (q ++ u)) := by
    intro la q b _ u hq
    rcases showLookahead_ok hq with ⟨-, rfl⟩ | ⟨_, _, -, -, rfl⟩ <;> by_cases hb : b
    · exact ⟨',', _, .inr (by simp [hb]; rfl), .inl rfl⟩
    · exact ⟨',', _, .inl (by simp [hb]; rfl), .inl rfl⟩
    · exact ⟨',', _, .inr (by simp [hb]; rfl), .inl rfl⟩
    · exact ⟨',', _, .inl (by simp [hb]; rfl), .inl rfl⟩
  simp only [List.cons_append, List.append_assoc, List.cons.injEq, true_and] at e
  obtain ⟨e1, e⟩ := ident_inj (hg n (List.mem_of_getElem? hn)) (hg n' (List.mem_of_getElem? hn'))
    (stops_cons rfl) (stops_cons rfl) e
  simp only [List.cons.injEq, true_and] at e
  obtain ⟨e2, e⟩ := seqText_inj hd (marks_ok hg hus) (marks_ok hg hus') (after _ _ hq)
    (after _ _ hq') e
  obtain ⟨e3, e4⟩ := marks_inj e2
  subst e3
  have hcur : it.cursor = it'.cursor := by
    have hcomma : ∀ {la q} {u : Chars}, showLookahead dbg g la = .ok q → ∃ r, q ++ u = ',' :: r := by
      intro la q u hq
      rcases showLookahead_ok hq with ⟨-, rfl⟩ | ⟨_, _, -, -, rfl⟩
      · exact ⟨_, rfl⟩
      · exact ⟨_, rfl⟩
    obtain ⟨r, hr⟩ := hcomma (u := u) hq
    obtain ⟨r', hr'⟩ := hcomma (u := v) hq'
    rw [hr, hr'] at e
    by_cases h1 : it.cursor = us.length
    · by_cases h2 : it'.cursor = us.length
      · rw [h1, h2]
      · simp [h1, h2] at e
    · have := e4 it.cursor (by omega)
      simpa using this
  rw [hcur] at e
  simp only [List.append_cancel_left_eq] at e
  obtain ⟨e5, e6⟩ := showLookahead_inj hd hq hq' e
  exact ⟨by simp [itemTold, hn, hn', e1, hus, hus', hcur, e5], e6⟩

/-- A line of the dump of a state of the automaton. -/
def showAutoLine (dbg : String → Chars) (g : Grammar A Ty) : Item ⊕ (Symbol × Nat) → Except Fault Chars
  | .inl it => do
    let t ← showItem dbg g it
    .ok (txt "  " ++ t ++ txt "\n")
  | .inr e => do
    let t ← showSymbol dbg g e.1
    .ok (txt "  GOTO " ++ t ++ txt " -> " ++ numText e.2 ++ txt "\n")

def autoLineTold (g : Grammar A Ty) : Item ⊕ (Symbol × Nat) →
    (Option String × List (Option USym) × Nat × Option (Option String)) ⊕ (Option USym × Nat)
  | .inl it => .inl (itemTold g it)
  | .inr e => .inr (g.named e.1, e.2)

def LR1State.lines (st : LR1State) (h : HashOrder) : List (Item ⊕ (Symbol × Nat)) :=
  st.items.map .inl ++ (st.goto.entries h).map .inr

theorem showState_ok {h : HashOrder} {g : Grammar A Ty} {st : LR1State} {t : Chars}
    (hs : showState dbg h g st = .ok t) :
    ∃ ls, List.Forall₂ (fun e l => showAutoLine dbg g e = .ok l) (st.lines h) ls ∧ t = ls.flatten := by
  obtain ⟨as, h1, hs⟩ := Except.bind_eq_ok.1 hs
  obtain ⟨gs, h2, rfl⟩ := Except.map_ok hs
  rw [mapM_ok_iff] at h1 h2
  refine ⟨as ++ gs, ?_, by simp⟩
  unfold LR1State.lines
  refine List.rel_append ?_ ?_
  · rw [List.forall₂_map_left_iff]
    exact h1
  · rw [List.forall₂_map_left_iff]
    exact h2

theorem showAutoLine_head {g : Grammar A Ty} {e : Item ⊕ (Symbol × Nat)} {s : Chars}
    (h : showAutoLine dbg g e = .ok s) : ∃ c u, s = c :: u ∧ (c == ' ') = true := by
  cases e with
  | inl e =>
    obtain ⟨t, -, rfl⟩ := Except.map_ok h
    exact ⟨_, _, rfl, rfl⟩
  | inr e =>
    obtain ⟨t, -, rfl⟩ := Except.map_ok h
    exact ⟨_, _, rfl, rfl⟩

theorem showAutoLine_inl {g : Grammar A Ty} {it : Item} {s : Chars}
    (h : showAutoLine dbg g (.inl it) = .ok s) :
    ∃ t, showItem dbg g it = .ok t ∧ s = ' ' :: ' ' :: (t ++ ['\n']) := by
  obtain ⟨t, ht, rfl⟩ := Except.map_ok h
  exact ⟨t, ht, by simp [lit_two, lit_nl]⟩

theorem showAutoLine_inr {g : Grammar A Ty} {e : Symbol × Nat} {s : Chars}
    (h : showAutoLine dbg g (.inr e) = .ok s) :
    ∃ w, g.named e.1 = some w ∧ s = ' ' :: ' ' :: 'G' :: 'O' :: 'T' :: 'O' :: ' ' ::
      (symText dbg w ++ ' ' :: '-' :: '>' :: ' ' :: (numText e.2 ++ ['\n'])) := by
  obtain ⟨t, ht, rfl⟩ := Except.map_ok h
  obtain ⟨w, hw, rfl⟩ := showSymbol_ok.1 ht
  exact ⟨w, hw, by simp [lit_gotoL, lit_arrow, lit_nl]⟩

theorem showItem_bracket {g : Grammar A Ty} {it : Item} {t : Chars} (h : showItem dbg g it = .ok t) :
    ∃ r, t = '[' :: r := by
  obtain ⟨_, _, _, _, _, _, rfl⟩ := showItem_ok h
  exact ⟨_, rfl⟩

/-- The cursor is not beyond the end. -/
def LR1State.CursorsIn (g : Grammar A Ty) (st : LR1State) : Prop :=
  ∀ it ∈ st.items, it.cursor ≤ (g.rhs it.nt it.prod).length

theorem showAutoLine_inj (hd : IsDebugStr dbg) {g : Grammar A Ty} (hg : g.IdentNames)
    {e e' : Item ⊕ (Symbol × Nat)} {s s' u v : Chars}
    (hc : ∀ it, e = .inl it → it.cursor ≤ (g.rhs it.nt it.prod).length)
    (hc' : ∀ it, e' = .inl it → it.cursor ≤ (g.rhs it.nt it.prod).length)
    (h : showAutoLine dbg g e = .ok s) (h' : showAutoLine dbg g e' = .ok s') (eq : s ++ u = s' ++ v) :
    autoLineTold g e = autoLineTold g e' ∧ u = v := by
  cases e with
  | inl it =>
    obtain ⟨t, ht, rfl⟩ := showAutoLine_inl h
    cases e' with
    | inl it' =>
      obtain ⟨t', ht', rfl⟩ := showAutoLine_inl h'
      simp only [List.cons_append, List.append_assoc, List.cons.injEq, true_and, List.nil_append] at eq
      obtain ⟨e1, e2⟩ := showItem_inj hd hg (hc _ rfl) (hc' _ rfl) ht ht' eq
      simp only [List.cons.injEq, true_and] at e2
      exact ⟨by simp [autoLineTold, e1], e2⟩
    | inr e' =>
      obtain ⟨w, hw, rfl⟩ := showAutoLine_inr h'
      obtain ⟨r, rfl⟩ := showItem_bracket ht
      simp at eq
  | inr e =>
    obtain ⟨w, hw, rfl⟩ := showAutoLine_inr h
    cases e' with
    | inl it' =>
      obtain ⟨t', ht', rfl⟩ := showAutoLine_inl h'
      obtain ⟨r, rfl⟩ := showItem_bracket ht'
      simp at eq
    | inr e' =>
      obtain ⟨w', hw', rfl⟩ := showAutoLine_inr h'
      simp only [List.cons_append, List.append_assoc, List.cons.injEq, true_and, List.nil_append] at eq
      obtain ⟨e1, e2⟩ := symText_inj hd (hg.named_ok hw) (hg.named_ok hw') (stops_cons rfl)
        (stops_cons rfl) eq
      simp only [List.cons.injEq, true_and] at e2
      obtain ⟨e3, e4⟩ := numText_inj (stops_cons rfl) (stops_cons rfl) e2
      simp only [List.cons.injEq, true_and] at e4
      exact ⟨by simp [autoLineTold, hw, hw', e1, e3], e4⟩

theorem showAutomaton_inj (hd : IsDebugStr dbg) {h h' : HashOrder} {g : Grammar A Ty}
    (hg : g.IdentNames) {a a' : Automaton} {t : Chars}
    (hc : ∀ st ∈ a.states, st.CursorsIn g) (hc' : ∀ st ∈ a'.states, st.CursorsIn g)
    (h1 : showAutomaton dbg h g a = .ok t) (h2 : showAutomaton dbg h' g a' = .ok t) :
    a.states.map (fun st => (st.lines h).map (autoLineTold g)) =
      a'.states.map (fun st => (st.lines h').map (autoLineTold g)) := by
  obtain ⟨l, k1, rfl⟩ := Except.map_ok h1
  obtain ⟨l', k2, e⟩ := Except.map_ok h2
  rw [mapM_ok_iff] at k1 k2
  have key := flatten_inj (r := fun x => (x.1.lines h).map (autoLineTold g))
    (r' := fun x => (x.1.lines h').map (autoLineTold g))
    (x := []) (y := []) (B := Char.isDigit) k1 k2 ?_ ?_ (by intro c r e; cases e)
    (by intro c r e; cases e) ?_ (by simpa using e)
  · have key := key.1
    rw [map_zipIdx_fst (fun st : LR1State => (st.lines h).map (autoLineTold g)),
      map_zipIdx_fst (fun st : LR1State => (st.lines h').map (autoLineTold g))] at key
    exact key
  · intro s t hs
    obtain ⟨q, -, rfl⟩ := Except.map_ok hs
    simp only [List.append_assoc]
    exact head_num
  · intro s t hs
    obtain ⟨q, -, rfl⟩ := Except.map_ok hs
    simp only [List.append_assoc]
    exact head_num
  · rintro ⟨st, i⟩ hst ⟨st', i'⟩ hst' t t' u v hs hs' e
    have hst := hc st (List.fst_mem_of_mem_zipIdx hst)
    have hst' := hc' st' (List.fst_mem_of_mem_zipIdx hst')
    obtain ⟨q, hq, rfl⟩ := Except.map_ok hs
    obtain ⟨q', hq', rfl⟩ := Except.map_ok hs'
    obtain ⟨ls, hl, rfl⟩ := showState_ok hq
    obtain ⟨ls', hl', rfl⟩ := showState_ok hq'
    simp only [List.append_assoc, lit_colono, lit_cl, lit_nl, List.cons_append, List.nil_append] at e
    obtain ⟨-, e⟩ := numText_inj (stops_cons rfl) (stops_cons rfl) e
    simp only [List.cons.injEq, true_and] at e
    have mem : ∀ {st : LR1State} {h : HashOrder} {it : Item}, .inl it ∈ st.lines h → it ∈ st.items := by
      intro st h it hm
      simpa [LR1State.lines] using hm
    obtain ⟨e1, e2⟩ := flatten_inj (r := autoLineTold g) (r' := autoLineTold g)
      (B := fun c => c == ' ') hl hl'
      (fun _ _ => showAutoLine_head) (fun _ _ => showAutoLine_head) (stops_cons rfl) (stops_cons rfl)
      (fun a ha b hb s s' u v h1 h2 e => showAutoLine_inj hd hg
        (fun it hit => hst it (mem (hit ▸ ha))) (fun it hit => hst' it (mem (hit ▸ hb))) h1 h2 e) e
    simp only [List.cons.injEq, true_and] at e2
    exact ⟨e1, e2⟩

end Parsegen
