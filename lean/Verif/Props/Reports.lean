import Verif.Spec.Reports
import Verif.Props.Complete
import Verif.Props.Errors
import Verif.Props.Terminate
import Verif.Props.Run
import Verif.Props.LeftRecursion

/-! # C79: the language determines what is reported -/

namespace Parsegen

variable {X Ty V W Tok E : Type} {X' Ty' V' W' Tok' : Type}

/-! ## The report is unique -/

theorem looks_le {look : Nat → Option (Except E String)} {cs cs' : List String}
    (hr : ∀ (i : Nat) c, cs[i]? = some c → look i = some (.ok c))
    (hr' : ∀ (i : Nat) c, cs'[i]? = some c → look i = some (.ok c)) (h : cs.length ≤ cs'.length) :
    ∃ r, cs' = cs ++ r := by
  refine ⟨cs'.drop cs.length, ?_⟩
  have : cs = cs'.take cs.length := by
    refine List.ext_getElem? fun i => ?_
    rcases Nat.lt_or_ge i cs.length with hi | hi
    · rw [List.getElem?_take_of_lt hi, List.getElem?_eq_getElem hi,
        List.getElem?_eq_getElem (Nat.lt_of_lt_of_le hi h)]
      have a := hr i _ (List.getElem?_eq_getElem hi)
      have b := hr' i _ (List.getElem?_eq_getElem (Nat.lt_of_lt_of_le hi h))
      rw [a] at b
      simpa using b
    · rw [List.getElem?_eq_none hi, List.getElem?_eq_none (by simp; omega)]
  conv => lhs; rw [← List.take_append_drop cs.length cs', ← this]

/-- The part of the input that was consumed, and how it went on. -/
theorem Reports.inv {L : List String → Prop} {terms : List String}
    {look : Nat → Option (Except E String)} {o : Outcome Unit E} {n : Nat}
    (h : Reports L terms look o n) : ∃ cs : List String, n = cs.length + 1 ∧
      (∀ (i : Nat) c, cs[i]? = some c → look i = some (.ok c)) ∧ (∃ rest, L (cs ++ rest)) ∧
      ∀ c, look cs.length = some (.ok c) → ∀ rest, ¬ L (cs ++ c :: rest) := by
  cases h with
  | ok cs hr he hs => exact ⟨cs, rfl, hr, ⟨[], by simpa using hs⟩, by simp [he]⟩
  | lexer cs err hr he hv => exact ⟨cs, rfl, hr, hv, by simp [he]⟩
  | unexpected cs c names hr he hv hn hs hm =>
    refine ⟨cs, rfl, hr, hv, fun c' hc => ?_⟩
    rw [he] at hc
    cases hc
    exact hn
  | ended cs names hr he hv hn hs hm => exact ⟨cs, rfl, hr, hv, by simp [he]⟩

theorem Reports.le {L : List String → Prop} {terms terms' : List String}
    {look : Nat → Option (Except E String)} {o o' : Outcome Unit E} {n n' : Nat}
    (h : Reports L terms look o n) (h' : Reports L terms' look o' n') : n' ≤ n := by
  obtain ⟨cs, rfl, hr, hv, hn⟩ := h.inv
  obtain ⟨cs', rfl, hr', ⟨rest, hv'⟩, hn'⟩ := h'.inv
  apply Nat.le_of_not_lt
  intro hlt
  obtain ⟨r, rfl⟩ := looks_le hr hr' (by omega)
  cases r with
  | nil => simp at hlt
  | cons c r =>
    have := hr' cs.length c (by simp)
    exact hn c this (r ++ rest) (by simpa using hv')

theorem sublist_ext {l l' t : List String} (ht : t.Nodup) (h : l.Sublist t) (h' : l'.Sublist t)
    (he : ∀ x, x ∈ l ↔ x ∈ l') : l = l' := by
  induction t generalizing l l' with
  | nil => rw [List.sublist_nil.1 h, List.sublist_nil.1 h']
  | cons a t ih =>
    rw [List.nodup_cons] at ht
    cases h with
    | cons _ h =>
      cases h' with
      | cons _ h' => exact ih ht.2 h h' he
      | cons_cons _ h' => exact absurd (h.subset ((he a).2 (by simp))) ht.1
    | cons_cons _ h =>
      cases h' with
      | cons _ h' => exact absurd (h'.subset ((he a).1 (by simp))) ht.1
      | cons_cons _ h' =>
        rename_i l l'
        rw [ih ht.2 h h' fun x => ?_]
        have := he x
        simp only [List.mem_cons] at this
        constructor
        · intro hx
          rcases this.1 (.inr hx) with rfl | h1
          · exact absurd (h.subset hx) ht.1
          · exact h1
        · intro hx
          rcases this.2 (.inr hx) with rfl | h1
          · exact absurd (h'.subset hx) ht.1
          · exact h1

/-- **C79.** There is at most one report about an input. -/
theorem c79_unique {L : List String → Prop} {terms : List String} (ht : terms.Nodup)
    {look : Nat → Option (Except E String)} {o o' : Outcome Unit E} {n n' : Nat}
    (h : Reports L terms look o n) (h' : Reports L terms look o' n') : o = o' ∧ n = n' := by
  have hnn : n = n' := Nat.le_antisymm (h'.le h) (h.le h')
  refine ⟨?_, hnn⟩
  have key : ∀ {cs cs' : List String},
      (∀ (i : Nat) c, cs[i]? = some c → look i = some (.ok c)) →
      (∀ (i : Nat) c, cs'[i]? = some c → look i = some (.ok c)) → cs.length + 1 = cs'.length + 1 →
      cs = cs' := by
    intro cs cs' hr hr' hl
    obtain ⟨r, rfl⟩ := looks_le hr hr' (by omega)
    cases r with
    | nil => simp
    | cons c r => simp at hl
  cases h with
  | ok cs hr he hs =>
    cases h' with
    | ok => rfl
    | lexer cs' _ hr' he' =>
      obtain rfl := key hr hr' hnn
      rw [he] at he'; cases he'
    | unexpected cs' _ _ hr' he' =>
      obtain rfl := key hr hr' hnn
      rw [he] at he'; cases he'
    | ended cs' _ hr' _ _ hn' =>
      obtain rfl := key hr hr' hnn
      exact absurd hs hn'
  | lexer cs err hr he hv =>
    cases h' with
    | ok cs' hr' he' =>
      obtain rfl := key hr hr' hnn
      rw [he] at he'; cases he'
    | lexer cs' _ hr' he' =>
      obtain rfl := key hr hr' hnn
      rw [he] at he'; cases he'; rfl
    | unexpected cs' _ _ hr' he' =>
      obtain rfl := key hr hr' hnn
      rw [he] at he'; cases he'
    | ended cs' _ hr' he' =>
      obtain rfl := key hr hr' hnn
      rw [he] at he'; cases he'
  | unexpected cs c names hr he hv hn hs hm =>
    cases h' with
    | ok cs' hr' he' =>
      obtain rfl := key hr hr' hnn
      rw [he] at he'; cases he'
    | lexer cs' _ hr' he' =>
      obtain rfl := key hr hr' hnn
      rw [he] at he'; cases he'
    | unexpected cs' c' names' hr' he' hv' hn' hs' hm' =>
      obtain rfl := key hr hr' hnn
      rw [he] at he'; cases he'
      rw [sublist_ext ht hs hs' fun x => (hm x).trans (hm' x).symm]
    | ended cs' _ hr' he' =>
      obtain rfl := key hr hr' hnn
      rw [he] at he'; cases he'
  | ended cs names hr he hv hn hs hm =>
    cases h' with
    | ok cs' hr' he' hs' =>
      obtain rfl := key hr hr' hnn
      exact absurd hs' hn
    | lexer cs' _ hr' he' =>
      obtain rfl := key hr hr' hnn
      rw [he] at he'; cases he'
    | unexpected cs' _ _ hr' he' =>
      obtain rfl := key hr hr' hnn
      rw [he] at he'; cases he'
    | ended cs' names' hr' he' hv' hn' hs' hm' =>
      obtain rfl := key hr hr' hnn
      rw [sublist_ext ht hs hs' fun x => (hm x).trans (hm' x).symm]

/-- The report depends only on the items that were read, and on the language. -/
theorem Reports.mono {L L' : List String → Prop} {terms : List String}
    {look look' : Nat → Option (Except E String)} {o : Outcome Unit E} {n : Nat}
    (h : Reports L terms look o n) (hl : ∀ i < n, look i = look' i) (hL : ∀ x, L x ↔ L' x) :
    Reports L' terms look' o n := by
  have key : ∀ {cs : List String}, (∀ i < cs.length + 1, look i = look' i) →
      (∀ (i : Nat) c, cs[i]? = some c → look i = some (.ok c)) →
      ∀ (i : Nat) c, cs[i]? = some c → look' i = some (.ok c) := by
    intro cs hl hr i c hc
    rw [← hl i (by have := (List.getElem?_eq_some_iff.1 hc).1; omega)]
    exact hr i c hc
  cases h with
  | ok cs hr he hs => exact .ok cs (key hl hr) (by rw [← hl _ (by omega)]; exact he) ((hL _).1 hs)
  | lexer cs err hr he hv =>
    exact .lexer cs err (key hl hr) (by rw [← hl _ (by omega)]; exact he)
      (hv.imp fun _ => (hL _).1)
  | unexpected cs c names hr he hv hn hs hm =>
    exact .unexpected cs c names (key hl hr) (by rw [← hl _ (by omega)]; exact he)
      (hv.imp fun _ => (hL _).1) (fun r h => hn r ((hL _).2 h)) hs
      fun t => (hm t).trans (exists_congr fun r => hL _)
  | ended cs names hr he hv hn hs hm =>
    exact .ended cs names (key hl hr) (by rw [← hl _ (by omega)]; exact he)
      (hv.imp fun _ => (hL _).1) (fun h => hn ((hL _).2 h)) hs
      fun t => (hm t).trans (exists_congr fun r => hL _)

/-! ## Regular programs report -/

section
variable [DecidableEq Ty] {P : Compiled X Ty V W Tok} {ep : EntryPoint}
  {input : Nat → Option (Except E Tok)} {w w' : W} {n : Nat}

theorem look_reads {toks : List Tok} (h : Reads input toks) (i : Nat) (c : String)
    (hc : (toks.map P.cls)[i]? = some c) : P.look input i = some (.ok c) := by
  rw [List.getElem?_map] at hc
  obtain ⟨t, ht, rfl⟩ := Option.map_eq_some_iff.1 hc
  unfold Compiled.look
  rw [h i t ht]
  rfl

theorem reads_same {toks toks' : List Tok} (h : Reads input toks) (h' : Reads input toks')
    (hl : toks.length = toks'.length) : toks = toks' := by
  refine List.ext_getElem? fun i => ?_
  rcases Nat.lt_or_ge i toks.length with hi | hi
  · have a := h i _ (List.getElem?_eq_getElem hi)
    have b := h' i _ (List.getElem?_eq_getElem (hl ▸ hi))
    rw [a] at b
    rw [List.getElem?_eq_getElem hi, List.getElem?_eq_getElem (hl ▸ hi)]
    simpa using b
  · rw [List.getElem?_eq_none hi, List.getElem?_eq_none (by omega)]

omit [DecidableEq Ty] in
theorem form_yields {asts : List (AstNonTerminal X Ty)} (form : List USym)
    (h : ∀ n, USym.nt n ∈ form → ∃ x, USentence asts n x) :
    ∃ z : List String, UDerives asts form (z.map .term) := by
  induction form with
  | nil => exact ⟨[], .refl _⟩
  | cons s form ih =>
    obtain ⟨z, hz⟩ := ih fun n hn => h n (List.mem_cons_of_mem _ hn)
    cases s with
    | term t => exact ⟨t :: z, hz.append_left [.term t]⟩
    | nt n =>
      obtain ⟨x, hx⟩ := h n (List.mem_cons_self ..)
      refine ⟨x ++ z, ?_⟩
      rw [List.map_append]
      exact (UDerives.append_right hx form).trans (hz.append_left _)

/-- What was consumed is the beginning of a sentence. -/
theorem consumed_viable (hP : P.Productive) (hep : ep ∈ P.gen.entries) {o : Outcome V E}
    (h : P.Returns ep input w o w' n) : ∃ toks, Reads input toks ∧ n = toks.length + 1 ∧
      ∃ rest, USentence P.defs ep.name (toks.map P.cls ++ rest) := by
  obtain ⟨toks, form, h1, h2, h3⟩ := c08_prefix hep h
  refine ⟨toks, h1, h2, ?_⟩
  obtain ⟨g, nts, ts, a, g', T, S⟩ := P.setup hep
  obtain ⟨⟨d, hd, _, hn⟩, _⟩ := c15_entry (input := input) (w := w) (w' := w') (n := n) hep
  have hp := h3.productive (S.lowered.uproductive hP) (by
    intro B hB
    simp only [List.mem_cons, List.not_mem_nil, or_false, USym.nt.injEq] at hB
    rw [hB, ← hn]
    exact hP d hd)
  obtain ⟨z, hz⟩ := form_yields form fun n hn => hp n (by simp [hn])
  refine ⟨z, ?_⟩
  show UDerives _ _ _
  rw [List.map_append, List.map_map]
  exact h3.trans (hz.append_left _)

/-- **C79.** In a regular program in which every non-terminal derives some sentence, an outcome other than
a panic is the report about the input for the language of the entry point. -/
theorem c79_reports (hR : P.Regular) (hP : P.Productive) (hep : ep ∈ P.gen.entries) {o : Outcome V E}
    (h : P.Returns ep input w o w' n) (ho : ∀ f, o ≠ .fault f) :
    Reports (USentence P.defs ep.name) (P.tokens.conversions.map (·.from_)) (P.look input) o.report n := by
  obtain ⟨toks, hr, hn, hv⟩ := consumed_viable hP hep h
  have hlen : n = (toks.map P.cls).length + 1 := by simpa using hn
  have hlook : ∀ {x}, input toks.length = x → P.look input (toks.map P.cls).length = x.map (·.map P.cls) := by
    intro x hx
    rw [List.length_map, Compiled.look, hx]
  cases o with
  | fault f => exact absurd rfl (ho f)
  | ok v =>
    obtain ⟨toks', h1, h2, h3⟩ := c01_sentence hep h
    obtain ⟨e1, e2⟩ := c13_ok_reads_all hep h
    have hl : toks.length = toks'.length := by
      have l1 := reads_unique_length hr (t2 := toks') (by rw [h2]; simp)
      have l2 := reads_unique_length h1 (t2 := toks) (by
        rw [hn, Nat.add_sub_cancel] at e1
        rw [e1]; simp)
      omega
    obtain rfl := reads_same hr h1 hl
    rw [hlen]
    exact .ok _ (look_reads hr) (hlook h2) h3
  | lexerError err =>
    obtain ⟨toks', h1, h2, h3, _⟩ := c12_lexer_error hep h
    obtain rfl := reads_same hr h1 (by omega)
    rw [hlen]
    exact .lexer _ err (look_reads hr) (hlook h2) hv
  | parserError found expected =>
    obtain ⟨toks1, a1, a2, a3, a4⟩ := c08_first_error hR hep h
    obtain rfl := reads_same hr a1 (by omega)
    obtain ⟨toks2, names, b1, b2, rfl, b4, b5⟩ := c10_expected_complete hR hP hep h
    obtain rfl := reads_same hr b1 (by omega)
    obtain ⟨toks3, c1, c2, c3⟩ := c11_found hep h
    obtain rfl := reads_same hr c1 (by omega)
    rw [hlen]
    rcases c3 with ⟨t, c3, rfl⟩ | ⟨c3, rfl⟩
    · exact .unexpected _ _ _ (look_reads hr) (hlook c3) hv (a3 t c3) b4 b5
    · exact .ended _ _ (look_reads hr) (hlook c3) hv (a4 c3) b4 b5

/-- **C79.** In a regular program in which every non-terminal derives some sentence and no action panics,
`parse` returns exactly the report about the input for the language of the entry point. -/
theorem c79_iff (hR : P.Regular) (hP : P.Productive) (hT : P.Total) (hep : ep ∈ P.gen.entries)
    {o : Outcome Unit E} :
    (∃ o' w', P.Returns ep input w o' w' n ∧ o'.report = o) ↔
      Reports (USentence P.defs ep.name) (P.tokens.conversions.map (·.from_)) (P.look input) o n := by
  have hnf : ∀ {input' : Nat → Option (Except E Tok)} {o' : Outcome V E} {w' n'},
      P.Returns ep input' w o' w' n' → ∀ f, o' ≠ .fault f := by
    intro input' o' w' n' h f e
    subst e
    exact c06_no_panic hep hT h
  constructor
  · rintro ⟨o', w', h, rfl⟩
    exact c79_reports hR hP hep h (hnf h)
  · intro h
    obtain ⟨g, nts, ts, a, g', T, S⟩ := P.setup hep
    let input' : Nat → Option (Except E Tok) := fun i => if i < n then input i else none
    have he : ∀ i < n, input' i = input i := fun i hi => if_pos hi
    obtain ⟨o', w', n', h'⟩ := c07_productive (w := w) (input := input') hP hR.names hR.first hep
      (k := n) (by simp [input'])
    have h2 := h.mono (look' := P.look input') (L' := USentence P.defs ep.name)
      (fun i hi => by unfold Compiled.look; rw [he i hi]) fun _ => Iff.rfl
    obtain ⟨e1, e2⟩ := c79_unique S.lowered.tnodup (c79_reports hR hP hep h' (hnf h')) h2
    subst e2
    exact ⟨o', w', c14_unread_input he h', e1⟩

end

/-- **C79.** Two regular programs with the same language report the same: the same verdict, after the same
number of calls of `next()`, with the same `found` and `expected` or lexer error. -/
theorem c79_same [DecidableEq Ty] [DecidableEq Ty'] {P : Compiled X Ty V W Tok}
    {Q : Compiled X' Ty' V' W' Tok'} (hP : P.Regular) (hQ : Q.Regular) (hP' : P.Productive)
    (hQ' : Q.Productive) (hT : Q.Total)
    (ht : P.tokens.conversions.map (·.from_) = Q.tokens.conversions.map (·.from_))
    {ep ep' : EntryPoint} (hep : ep ∈ P.gen.entries) (hep' : ep' ∈ Q.gen.entries)
    (hL : ∀ x, USentence P.defs ep.name x ↔ USentence Q.defs ep'.name x)
    {input : Nat → Option (Except E Tok)} {input' : Nat → Option (Except E Tok')}
    (hi : ∀ i, P.look input i = Q.look input' i) {w w1 : W} {o : Outcome V E} {n : Nat}
    (h : P.Returns ep input w o w1 n) (ho : ∀ f, o ≠ .fault f) (w' : W') :
    ∃ o' w1', Q.Returns ep' input' w' o' w1' n ∧ o'.report = o.report := by
  have := (c79_reports hP hP' hep h ho).mono (look' := Q.look input') (fun i _ => hi i) hL
  rw [ht] at this
  exact (c79_iff hQ hQ' hT hep').2 this

end Parsegen
