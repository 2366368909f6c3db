import Verif.Proofs.Layered
import Verif.Props.Precedence
import Verif.Props.UserLevel

/-! # C85: layered grammars of expressions are always accepted, and parsed as intended -/

namespace Parsegen

variable {X Ty V : Type}

section
variable {top atom lp rp : String} {leaves pres : List String} {ls : List (Level V)}

theorem layeredRules_mem {B : String} {rhs : List USym}
    (h : (B, rhs) ∈ layeredRules top atom leaves pres lp rp ls) :
    (∃ i l, ls[i]? = some l ∧ B = Levels.name atom (ls.drop i) ∧
      ((l.right = false ∧ ∃ o ∈ l.ops, rhs = [.nt (Levels.name atom (ls.drop i)), .term o,
          .nt (Levels.name atom (ls.drop (i + 1)))]) ∨
        (l.right = true ∧ ∃ o ∈ l.ops, rhs = [.nt (Levels.name atom (ls.drop (i + 1))), .term o,
          .nt (Levels.name atom (ls.drop i))]) ∨
        rhs = [.nt (Levels.name atom (ls.drop (i + 1)))])) ∨
    (B = atom ∧ ((∃ t ∈ leaves, rhs = [.term t]) ∨ (∃ t ∈ pres, rhs = [.term t, .nt atom]) ∨
      rhs = [.term lp, .nt top, .term rp])) := by
  induction ls with
  | nil =>
    simp only [layeredRules, List.mem_append, List.mem_map, List.mem_singleton, Prod.mk.injEq] at h
    rcases h with (⟨t, ht, rfl, rfl⟩ | ⟨t, ht, rfl, rfl⟩) | ⟨rfl, rfl⟩
    · exact .inr ⟨rfl, .inl ⟨t, ht, rfl⟩⟩
    · exact .inr ⟨rfl, .inr (.inl ⟨t, ht, rfl⟩)⟩
    · exact .inr ⟨rfl, .inr (.inr rfl)⟩
  | cons l ls ih =>
    simp only [layeredRules, List.mem_append, List.mem_map, List.mem_cons, Prod.mk.injEq] at h
    rcases h with ⟨o, ho, rfl, rfl⟩ | ⟨rfl, rfl⟩ | h
    · refine .inl ⟨0, l, rfl, rfl, ?_⟩
      cases hr : l.right with
      | false => exact .inl ⟨rfl, o, ho, by simp [Levels.name]⟩
      | true => exact .inr (.inl ⟨rfl, o, ho, by simp [Levels.name]⟩)
    · exact .inl ⟨0, l, rfl, rfl, .inr (.inr rfl)⟩
    · rcases ih h with ⟨i, l', h1, h2, h3⟩ | h
      · exact .inl ⟨i + 1, l', by simpa using h1, by simpa using h2, by simpa using h3⟩
      · exact .inr h

theorem levels_name {i : Nat} (h : i ≤ ls.length) :
    (ls.map (·.name) ++ [atom])[i]? = some (Levels.name atom (ls.drop i)) := by
  induction ls generalizing i with
  | nil =>
    obtain rfl : i = 0 := by simpa using h
    rfl
  | cons l ls ih =>
    cases i with
    | zero => rfl
    | succ i => simpa using ih (by simpa using h)

theorem levels_op {i j : Nat} {l l' : Level V} {o : String} (hn : (Levels.ops ls).Nodup)
    (hl : ls[i]? = some l) (ho : o ∈ l.ops) (hl' : ls[j]? = some l') (ho' : o ∈ l'.ops) : i = j := by
  induction ls generalizing i j with
  | nil => simp at hl
  | cons a ls ih =>
    simp only [Levels.ops, List.flatMap_cons] at hn
    obtain ⟨-, h2, h3⟩ := List.nodup_append.1 hn
    have key : ∀ {k : Nat} {b : Level V}, ls[k]? = some b → o ∈ b.ops → o ∉ a.ops := by
      intro k b hb hob ha
      exact h3 o ha o (List.mem_flatMap.2 ⟨b, List.mem_of_getElem? hb, hob⟩) rfl
    cases i with
    | zero =>
      cases j with
      | zero => rfl
      | succ j =>
        cases hl
        exact absurd ho (key (by simpa using hl') ho')
    | succ i =>
      cases j with
      | zero =>
        cases hl'
        exact absurd ho' (key (by simpa using hl) ho)
      | succ j => exact congrArg (· + 1) (ih h2 (by simpa using hl) (by simpa using hl'))

end

section
variable {defs : List (AstNonTerminal X Ty)} {atom lp rp : String} {leaves pres : List String} {ls : List (Level V)}

theorem Layered.numbered (h : Layered defs ls atom leaves pres lp rp) :
    Numbered defs (fun i => Levels.name atom (ls.drop i)) ls.length
      (fun i o => ∃ l, ls[i]? = some l ∧ o ∈ l.ops) (fun i => ∃ l, ls[i]? = some l ∧ l.right = true)
      (· ∈ leaves) (· ∈ pres) lp rp := by
  obtain ⟨p1, p2, p3⟩ := List.nodup_append.1 h.prefixes
  obtain ⟨p4, p5, p6⟩ := List.nodup_append.1 p1
  obtain ⟨t1, t2, t3⟩ := List.nodup_append.1 h.terminals
  obtain ⟨t4, t5, t6⟩ := List.nodup_append.1 t1
  have hop : ∀ {i : Nat} {o : String}, (∃ l : Level V, ls[i]? = some l ∧ o ∈ l.ops) → o ∈ Levels.ops ls :=
    fun ⟨l, hl, ho⟩ => List.mem_flatMap.2 ⟨l, List.mem_of_getElem? hl, ho⟩
  exact {
    rules := by
      intro B j rhs hp
      rcases layeredRules_mem ((h.rules B rhs).1 ⟨j, hp⟩) with ⟨i, l, hl, rfl, h1⟩ | ⟨rfl, h1⟩
      · have hi := (List.getElem?_eq_some_iff.1 hl).1
        rcases h1 with ⟨hr, o, ho, rfl⟩ | ⟨hr, o, ho, rfl⟩ | rfl
        · refine .inl ⟨i, o, hi, rfl, ?_, ⟨l, hl, ho⟩, rfl⟩
          rintro ⟨l', hl', hr'⟩
          rw [hl] at hl'
          cases hl'
          rw [hr] at hr'
          cases hr'
        · exact .inr (.inl ⟨i, o, hi, rfl, ⟨l, hl, hr⟩, ⟨l, hl, ho⟩, rfl⟩)
        · exact .inr (.inr (.inl ⟨i, hi, rfl, rfl⟩))
      · rcases h1 with ⟨t, ht, rfl⟩ | ⟨t, ht, rfl⟩ | rfl
        · exact .inr (.inr (.inr (.inl ⟨t, by simp [Levels.name], ht, rfl⟩)))
        · exact .inr (.inr (.inr (.inr (.inl ⟨t, by simp [Levels.name], ht, by simp [Levels.name]⟩))))
        · exact .inr (.inr (.inr (.inr (.inr ⟨by simp [Levels.name], rfl⟩))))
    once := h.once
    inj := by
      intro i j hi hj e
      have h1 := levels_name (atom := atom) hi
      have h2 := levels_name (atom := atom) hj
      rw [← e] at h2
      exact (List.getElem?_inj (by simp; omega) h.names).1 (h1.trans h2.symm)
    level := fun i j o ⟨l, hl, ho⟩ ⟨l', hl', ho'⟩ => levels_op t4 hl ho hl' ho'
    op_leaf := fun i o ho hl => t6 o (hop ho) o hl rfl
    op_lp := fun i ho => t3 lp (List.mem_append_left _ (hop ho)) lp (by simp) rfl
    op_rp := fun i ho => t3 rp (List.mem_append_left _ (hop ho)) rp (by simp) rfl
    leaf_lp := fun hl => t3 lp (List.mem_append_right _ hl) lp (by simp) rfl
    leaf_rp := fun hl => t3 rp (List.mem_append_right _ hl) rp (by simp) rfl
    pre_leaf := fun t hp hl => p6 t hp t hl rfl
    pre_lp := fun hp => p3 lp (List.mem_append_left _ hp) lp (by simp) rfl
    pre_rp := fun hp => p3 rp (List.mem_append_left _ hp) rp (by simp) rfl
    lp_rp := by simpa using t2 }

/-- **C85.** A layered grammar of expressions is LR(1), whichever of its non-terminals are `pub`. -/
theorem c85_lr1 (h : Layered defs ls atom leaves pres lp rp) : ULR1 defs := by
  intro d hd _ γ c m m' h1 h2
  obtain ⟨k, hk⟩ := List.mem_iff_getElem?.1 (h.defined d hd)
  have hk' : k ≤ ls.length := by
    have := (List.getElem?_eq_some_iff.1 hk).1
    simp at this
    omega
  rw [levels_name hk', Option.some.injEq] at hk
  rw [← hk] at h1 h2
  exact h.numbered.moves (A := fun i => Levels.name atom (ls.drop i)) hk' h1 h2

theorem layeredRules_ne {top : String} {B : String} {rhs : List USym}
    (h : (B, rhs) ∈ layeredRules top atom leaves pres lp rp ls) : rhs ≠ [] := by
  rintro rfl
  rcases layeredRules_mem h with ⟨_, _, _, _, ⟨_, _, _, h⟩ | ⟨_, _, _, h⟩ | h⟩ | ⟨_, ⟨_, _, h⟩ | ⟨_, _, h⟩ | h⟩ <;> cases h

/-- **C85.** The defect of FIRST does not concern it. -/
theorem c85_harmless (h : Layered defs ls atom leaves pres lp rp) : UHarmless defs := by
  refine .of_no_empty fun d hd p hp he => ?_
  obtain ⟨j, hj⟩ := List.mem_iff_getElem?.1
    (show p ∈ userProds defs d.name from List.mem_flatMap.2 ⟨d, List.mem_filter.2 ⟨hd, by simp⟩, hp⟩)
  exact layeredRules_ne ((h.rules d.name []).1 ⟨j, p, hj, by rw [he]; rfl⟩) rfl

/-- **C85.** Every definition derives a sentence. -/
theorem c85_productive (h : Layered defs ls atom leaves pres lp rp) : ∀ d ∈ defs, ∃ x, USentence defs d.name x := by
  obtain ⟨t, ht⟩ := List.exists_mem_of_ne_nil _ h.some_leaf
  have key : ∀ (top : String) (ls' : List (Level V)),
      (∀ B rhs, (B, rhs) ∈ layeredRules top atom leaves pres lp rp ls' → ∃ j, UHasProd defs B j rhs) →
      UDerives defs [.nt (Levels.name atom ls')] [.term t] ∧
        ∀ A ∈ ls'.map (·.name) ++ [atom], UDerives defs [.nt A] [.term t] := by
    intro top ls' hr
    induction ls' with
    | nil =>
      obtain ⟨j, p, hp, hs⟩ := hr atom [.term t] (by simp [layeredRules, ht])
      have : UDerives defs [.nt atom] [.term t] :=
        .tail (.refl _) (.mk [] [] _ atom p (List.mem_of_getElem? hp) hs)
      exact ⟨this, by simpa using this⟩
    | cons l ls ih =>
      obtain ⟨h1, h2⟩ := ih fun B rhs hm => hr B rhs (by
        simp only [layeredRules, List.mem_append, List.mem_cons]
        exact .inr (.inr hm))
      obtain ⟨j, p, hp, hs⟩ := hr l.name [.nt (Levels.name atom ls)] (by simp [layeredRules])
      have : UDerives defs [.nt l.name] [.term t] :=
        .trans (.tail (.refl _) (.mk [] [] _ l.name p (List.mem_of_getElem? hp) hs)) h1
      refine ⟨this, fun A hA => ?_⟩
      rcases List.mem_cons.1 hA with rfl | hA
      · exact this
      · exact h2 A hA
  intro d hd
  exact ⟨[t], (key _ ls fun B rhs hm => (h.rules B rhs).2 hm).2 _ (h.defined d hd)⟩

/-- **C85.** The macro accepts it, unless it is too large for its indices. -/
theorem c85_accepted [DecidableEq Ty] {order : HashOrder} {mkPath : String → X}
    {items : List (GrammarItem X Ty)} {te : TokenEnum Ty} {g : Grammar X Ty}
    (h : Layered (itemNonTerminals items) ls atom leaves pres lp rp)
    (hsz : loweredCount (itemNonTerminals items) ≤ 4294967296)
    (hm : macroItems items = .ok (itemNonTerminals items, te))
    (hl : lower mkPath (itemNonTerminals items) te.conversions = .ok g) :
    (∃ gen, parserMacro order mkPath items = .ok (gen, te)) ∨
      parserMacro order mkPath items = .error .u16Overflow ∨
      parserMacro order mkPath items = .error .u32Overflow :=
  c23_user_accepted hsz h.distinct (c85_lr1 h) hm hl

variable {W Tok E : Type} [DecidableEq Ty] {P : Compiled X Ty V W Tok} {ep : EntryPoint}
  {input : Nat → Option (Except E Tok)}

/-- **C85.** The theorems about regular programs apply. -/
theorem c85_regular (h : Layered P.defs ls atom leaves pres lp rp) (hep : ep ∈ P.gen.entries) : P.Regular :=
  Compiled.regular_of_user hep h.distinct (c85_lr1 h) (c85_harmless h)

/-- **C85.** With actions that apply the operators: `parse` of the loosest level returns `Ok` exactly for
operands with operators between them, and the value is given by precedence and associativity. -/
theorem c85_parse (h : Layered P.defs ls atom leaves pres lp rp) (hT : P.Tower atom ls) (hep : ep ∈ P.gen.entries)
    (hn : ep.name = Levels.name atom ls) {w w' : W} {v : V} :
    (∃ n, P.Returns ep input w (.ok v) w' n) ↔
      ∃ toks x r, Ends input toks ∧ Infix P.cls (P.Phrase atom) (Levels.ops ls) toks w x r w' ∧
        v = Levels.value ls x r :=
  c84_parse (c85_regular h hep) hep hT hn

end

/-! ## A sufficient condition that can be computed -/

section
variable {defs : List (AstNonTerminal X Ty)} {atom lp rp : String} {leaves pres : List String} {ls : List (Level V)}

/-- All rules as they are written. -/
def writtenRules (defs : List (AstNonTerminal X Ty)) : List (String × List (Option USym)) :=
  defs.flatMap fun d => d.productions.map fun p => (d.name, p.symbols.map (·.plain))

theorem writtenRules_filter (B : String) :
    (writtenRules defs).filter (·.1 == B) = (userProds defs B).map fun p => (B, p.symbols.map (·.plain)) := by
  induction defs with
  | nil => rfl
  | cons d defs ih =>
    have h1 : writtenRules (d :: defs) =
      (d.productions.map fun p => (d.name, p.symbols.map (·.plain))) ++ writtenRules defs := rfl
    rw [h1, List.filter_append, ih]
    by_cases hd : d.name = B
    · subst hd
      have h2 : userProds (d :: defs) d.name = d.productions ++ userProds defs d.name := by
        simp [userProds]
      rw [h2, List.map_append]
      congr 1
      exact List.filter_eq_self.2 fun x hx => by
        obtain ⟨p, _, rfl⟩ := List.mem_map.1 hx
        simp
    · have h2 : userProds (d :: defs) B = userProds defs B := by
        simp [userProds, hd]
      rw [h2]
      have : (d.productions.map fun p => (d.name, p.symbols.map (·.plain))).filter (·.1 == B) = [] :=
        List.filter_eq_nil_iff.2 fun x hx => by
          obtain ⟨p, _, rfl⟩ := List.mem_map.1 hx
          simp [hd]
      rw [this]
      rfl

theorem Layered.of_perm
    (h1 : (writtenRules defs).Perm ((layeredRules (Levels.name atom ls) atom leaves pres lp rp ls).map
      fun r => (r.1, r.2.map some)))
    (h2 : (writtenRules defs).Nodup) (h3 : ∀ d ∈ defs, d.name ∈ ls.map (·.name) ++ [atom])
    (h4 : (defs.map (·.name)).Nodup) (h5 : (ls.map (·.name) ++ [atom]).Nodup)
    (h6 : (Levels.ops ls ++ leaves ++ [lp, rp]).Nodup)
    (h8 : (pres ++ leaves ++ [lp, rp]).Nodup) (h7 : leaves ≠ []) :
    Layered defs ls atom leaves pres lp rp where
  rules := by
    have hw : ∀ (B : String) rhs, (∃ j, UHasProd defs B j rhs) ↔ (B, rhs.map some) ∈ writtenRules defs := by
      intro B rhs
      have : (B, rhs.map some) ∈ writtenRules defs ↔ (B, rhs.map some) ∈ (writtenRules defs).filter (·.1 == B) := by
        simp [List.mem_filter]
      rw [this, writtenRules_filter, List.mem_map]
      constructor
      · rintro ⟨j, p, hp, hs⟩
        exact ⟨p, List.mem_of_getElem? hp, by rw [hs]⟩
      · rintro ⟨p, hp, hs⟩
        obtain ⟨j, hj⟩ := List.mem_iff_getElem?.1 hp
        exact ⟨j, p, hj, by simpa using hs⟩
    intro B rhs
    rw [hw, h1.mem_iff, List.mem_map]
    constructor
    · rintro ⟨⟨B', rhs'⟩, hr, e⟩
      simp only [Prod.mk.injEq] at e
      obtain ⟨rfl, e⟩ := e
      rw [List.map_inj_right (fun _ _ => Option.some.inj)] at e
      exact e ▸ hr
    · exact fun hr => ⟨(B, rhs), hr, rfl⟩
  defined := h3
  distinct := h4
  once := by
    rintro B j j' rhs ⟨p, hp, hs⟩ ⟨p', hp', hs'⟩
    have hn := h2.sublist (List.filter_sublist (p := (·.1 == B)) (l := writtenRules defs))
    rw [writtenRules_filter] at hn
    have e : ((userProds defs B).map fun p => (B, p.symbols.map (·.plain)))[j]? =
        ((userProds defs B).map fun p => (B, p.symbols.map (·.plain)))[j']? := by
      simp [hp, hp', hs, hs']
    exact (List.getElem?_inj (by simpa using (List.getElem?_eq_some_iff.1 hp).1) hn).1 e
  names := h5
  terminals := h6
  prefixes := h8
  some_leaf := h7

end

/-! ## The example -/

namespace Examples

theorem ops_layered : Layered opsP.defs levels "Atom" ["n"] ["-"] "(" ")" := by
  rw [opsP_defs]
  exact .of_perm (by decide) (by decide) (by decide) (by decide) (by decide) (by decide) (by decide) (by decide)

/-- So does the grammar of sums of the other examples. -/
theorem arith_layered :
    Layered arith.defs [(⟨"Expr", ["+"], false, fun _ a b => a + b⟩ : Level Nat)] "Term" ["n"] [] "(" ")" := by
  rw [show arith.defs = arithDefs from defs_itemsOf _]
  exact .of_perm (by decide) (by decide) (by decide) (by decide) (by decide) (by decide) (by decide) (by decide)

example (ep : EntryPoint) (hep : ep ∈ opsP.gen.entries) (hn : ep.name = "Sum")
    (input : Nat → Option (Except String OpTk)) (w w' : Log) (v : Nat) :
    (∃ n, opsP.Returns ep input w (.ok v) w' n) ↔
      ∃ toks x r, Ends input toks ∧ Infix opsP.cls (opsP.Phrase "Atom") ["+", "-", "^"] toks w x r w' ∧
        v = Levels.value levels x r :=
  c85_parse ops_layered ops_tower hep hn

/-- What `c85_accepted` asks for is met. -/
theorem ops_accepted : (∃ gen, parserMacro .insertion code.mkPath opItems = .ok (gen, opTk)) := by
  have hm : macroItems opItems = .ok (itemNonTerminals opItems, opTk) := rfl
  have hk : (lower code.mkPath (itemNonTerminals opItems) opTk.conversions).isOk = true := by decide +kernel
  cases hl : lower code.mkPath (itemNonTerminals opItems) opTk.conversions with
  | error e => rw [hl] at hk; cases hk
  | ok g =>
    rcases c85_accepted (order := .insertion) (items := opItems) ops_layered (by decide +kernel) hm hl with h | h | h
    · exact h
    · have := ops_ok; rw [h] at this; cases this
    · have := ops_ok; rw [h] at this; cases this

end Examples

end Parsegen
