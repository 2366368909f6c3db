import Verif.Proofs.ClassCheck
import Verif.Props.LeftRecursion
import Verif.Props.Follow
import Verif.Props.Counterexamples

/-! # C76: grammars written for LL(1), SLR(1) and LALR(1) parser generators -/

namespace Parsegen

variable {X Ty V W Tok E : Type} {defs : List (AstNonTerminal X Ty)}

/-- **C76.** LL(1) grammars are LR(1), if every non-terminal derives some string. -/
theorem c76_ll1 (hP : UProductive defs) (hS : ∀ d ∈ defs, d.isPub = true → ∃ w, USentence defs d.name w)
    (h : ULL1 defs) : ULR1 defs := by
  intro d hd hp γ c m m' h1 h2
  exact LL1From.lr1 (h d hd hp) hP (hS d hd hp) h1 h2

theorem UDerives.split {a b v : List USym} (h : UDerives defs (a ++ b) v) :
    ∃ v1 v2, v = v1 ++ v2 ∧ UDerives defs a v1 ∧ UDerives defs b v2 := by
  generalize hu : a ++ b = u at h
  induction h with
  | refl => exact ⟨a, b, hu.symm, .refl _, .refl _⟩
  | tail _ s ih =>
    obtain ⟨v1, v2, e, h1, h2⟩ := ih
    cases s with
    | mk l r rhs name p hp hs =>
      rcases List.append_eq_append_iff.1 e with ⟨a', e1, e2⟩ | ⟨c', e1, e2⟩
      · match a', e2 with
        | [], e2 =>
          simp only [List.append_nil, List.nil_append] at e1 e2
          subst e1 e2
          exact ⟨v1, rhs ++ r, by simp, h1, h2.tail (.mk [] r rhs name p hp hs)⟩
        | x :: a', e2 =>
          cases e2
          subst e1
          exact ⟨l ++ rhs ++ a', v2, by simp, h1.tail (.mk l a' rhs name p hp hs), h2⟩
      · subst e1 e2
        exact ⟨v1, c' ++ rhs ++ r, by simp, h1, h2.tail (.mk c' r rhs name p hp hs)⟩

/-- **C76.** A grammar for which the predictive parsing table (FIRST and FOLLOW sets) has no cell with
two productions is LL(1). -/
theorem c76_ll1_table (h : ULL1Table defs) : ULL1 defs := by
  intro d hd hpub w A ν i rhs j rhs' c hS hp hp' hc hc'
  have key : ∀ {rhs}, UFollows defs (rhs ++ ν) c → UPredicts defs d.name A rhs c := by
    intro rhs hc
    match c, hc with
    | some t, ⟨x, hx⟩ =>
      obtain ⟨v1, v2, e, h1, h2⟩ := hx.split
      match v1, e with
      | [], e =>
        simp only [List.nil_append] at e
        exact .inr ⟨h1, _, _, hS, x, e ▸ h2⟩
      | _ :: v1, e =>
        cases e
        exact .inl ⟨t, rfl, _, h1⟩
    | none, hx =>
      obtain ⟨v1, v2, e, h1, h2⟩ := hx.split
      obtain ⟨rfl, rfl⟩ := List.append_eq_nil_iff.1 e.symm
      exact .inr ⟨h1, _, _, hS, h2⟩
  exact h d hd hpub A i rhs j rhs' c hp hp' (key hc) (key hc')

/-- What an LR(1) parser does, an SLR(1) parser does. -/
theorem UWants.slr {S : String} {γ : List USym} {c : Option String} {m : UMove}
    (h : UWants defs S γ c m) : USLRWants defs S γ c m := by
  cases m with
  | shift =>
    obtain ⟨δ, B, z, i, α, t, β, h1, h2, h3, h4, h5⟩ := h
    exact ⟨B, i, α, t, β, ⟨δ, z, h1, h2, h3, h4⟩, h5⟩
  | reduce B i =>
    obtain ⟨δ, z, α, h1, h2, h3, h4⟩ := h
    refine ⟨⟨α, δ, z, h1, ⟨c, h2⟩, by simpa using h3, h4⟩, δ, z, ?_, h2⟩
    clear h2 h3 h4
    induction h1 with
    | root => exact .refl _
    | @child δ B z i α C β _ _ hp ih =>
      refine ih.trans ?_
      have := hp.derives δ z
      simpa using this
  | accept => exact h

/-- **C76.** SLR(1) grammars are LALR(1). -/
theorem c76_slr1 (h : USLR1 defs) : ULALR1 defs := by
  intro d hd hp γ γ' c m m' hs h1 h2
  refine h d hd hp γ' c m m' ?_ h2.slr
  have h1 := h1.slr
  cases m with
  | shift =>
    obtain ⟨B, i, α, t, β, h3, h4⟩ := h1
    exact ⟨B, i, α, t, β, (hs.2.2 _ _ _ _).1 h3, h4⟩
  | reduce B i =>
    obtain ⟨⟨α, h3⟩, h4⟩ := h1
    exact ⟨⟨α, (hs.2.2 _ _ _ _).1 h3⟩, h4⟩
  | accept => exact ⟨hs.2.1.1 h1.1, h1.2⟩

/-- **C76.** LALR(1) grammars are LR(1). -/
theorem c76_lalr1 (h : ULALR1 defs) : ULR1 defs := by
  intro d hd hp γ c m m' h1 h2
  exact h d hd hp γ γ c m m' ⟨.rfl, .rfl, fun _ _ _ _ => .rfl⟩ h1 h2

/-- One of the three. -/
theorem ulr1_of_class (hP : UProductive defs)
    (hS : ∀ d ∈ defs, d.isPub = true → ∃ w, USentence defs d.name w)
    (h : ULL1 defs ∨ USLR1 defs ∨ ULALR1 defs) : ULR1 defs := by
  rcases h with h | h | h
  · exact c76_ll1 hP hS h
  · exact c76_lalr1 (c76_slr1 h)
  · exact c76_lalr1 h

variable [DecidableEq Ty]

/-- **C76.** The macro never reports a conflict for a grammar that is LL(1), SLR(1) or LALR(1): unless it is
too large, it is accepted. -/
theorem c76_accepted {h : HashOrder} {mkPath : String → X} {items : List (GrammarItem X Ty)}
    {t : TokenEnum Ty} {g : Grammar X Ty}
    (hsz : loweredCount (itemNonTerminals items) ≤ 4294967296)
    (hnd : ((itemNonTerminals items).map (·.name)).Nodup)
    (hP : ∀ d ∈ itemNonTerminals items, ∃ x, USentence (itemNonTerminals items) d.name x)
    (hc : ULL1 (itemNonTerminals items) ∨ USLR1 (itemNonTerminals items) ∨
      ULALR1 (itemNonTerminals items))
    (hm : macroItems items = .ok (itemNonTerminals items, t))
    (hl : lower mkPath (itemNonTerminals items) t.conversions = .ok g) :
    (∃ gen, parserMacro h mkPath items = .ok (gen, t)) ∨
      parserMacro h mkPath items = .error .u16Overflow ∨
      parserMacro h mkPath items = .error .u32Overflow := by
  obtain ⟨nts, ts, hL⟩ := lower_ok (by rw [← loweredCount_eq]; exact hsz) hl
  exact c23_user_accepted hsz hnd
    (ulr1_of_class (hL.uproductive hP) (fun d hd _ => hP d hd) hc) hm hl

variable {P : Compiled X Ty V W Tok} {ep : EntryPoint} {input : Nat → Option (Except E Tok)} {w w' : W}
  {toks : List Tok}

/-- Accepted programs. -/
theorem Compiled.ulr1_of_class (hep : ep ∈ P.gen.entries)
    (hP : ∀ d ∈ P.defs, ∃ x, USentence P.defs d.name x)
    (hc : ULL1 P.defs ∨ USLR1 P.defs ∨ ULALR1 P.defs) : ULR1 P.defs := by
  obtain ⟨g, nts, ts, a, g', T, S⟩ := P.setup hep
  exact Parsegen.ulr1_of_class (S.lowered.uproductive hP) (fun d hd _ => hP d hd) hc

/-- **C76.** If moreover nullable non-terminals are harmless, `parse` returns `Ok` exactly on the
sentences. -/
theorem c76_parses (hnd : (P.defs.map (·.name)).Nodup) (hP : ∀ d ∈ P.defs, ∃ x, USentence P.defs d.name x)
    (hc : ULL1 P.defs ∨ USLR1 P.defs ∨ ULALR1 P.defs) (hh : UHarmless P.defs)
    (hep : ep ∈ P.gen.entries) (hin : Ends input toks)
    (hu : ∀ d ∈ P.defs, ∀ p ∈ d.productions, ∀ e, p.action = .infallible e →
      ∀ env w, P.code.run e env w ≠ none) :
    (∃ v w' n, P.Returns ep input w (.ok v) w' n) ↔ P.IsSentence ep.name toks :=
  c04_user hnd (Compiled.ulr1_of_class hep hP hc) hh hep hin hu

/-- **C76.** In any case a sentence is never misread: `parse` returns the value of its derivation tree, or
panics like the actions of this tree, or refuses it. -/
theorem c76_never_wrong (hnd : (P.defs.map (·.name)).Nodup)
    (hP : ∀ d ∈ P.defs, ∃ x, USentence P.defs d.name x)
    (hc : ULL1 P.defs ∨ USLR1 P.defs ∨ ULALR1 P.defs)
    (hep : ep ∈ P.gen.entries) (hin : Ends input toks) {tr : UTree Tok}
    (htr : IsUTree P.defs P.cls ep.name toks tr) :
    (∃ v w', P.Returns ep input w (.ok v) w' (toks.length + 1) ∧
      tr.value P.defs (userValues P.code P.fields) w = some (.nt v, w')) ∨
    (tr.value P.defs (userValues P.code P.fields) w = none ∧
      ∃ w' n, P.Returns ep input w (.fault .userPanic) w' n) ∨
    ∃ found expected w' n, P.Returns ep input w (.parserError found expected) w' n :=
  c68_returns hnd (Compiled.ulr1_of_class hep hP hc) hP hep hin htr

/-! ## Derivable non-terminals, checked by computation -/

/-- Every production named derives a string, given the ones before it. -/
def productiveCheck (defs : List (AstNonTerminal X Ty)) : List String → List (String × Nat) → Bool
  | seen, [] => defs.all fun d => seen.contains d.name
  | seen, (A, i) :: l =>
    (match (userProds defs A)[i]? with
      | some p => p.symbols.all fun s => match s.plain with
        | some (.nt B) => seen.contains B
        | some (.term _) => true
        | none => false
      | none => false) && productiveCheck defs (A :: seen) l

omit [DecidableEq Ty] in
theorem productive_of_check {l : List (String × Nat)} : ∀ {seen : List String},
    (∀ A ∈ seen, ∃ w, USentence defs A w) → productiveCheck defs seen l = true →
    ∀ d ∈ defs, ∃ w, USentence defs d.name w := by
  induction l with
  | nil =>
    intro seen hs h d hd
    exact hs _ (by simpa using List.all_eq_true.1 h d hd)
  | cons x l ih =>
    intro seen hs h
    obtain ⟨A, i⟩ := x
    simp only [productiveCheck, Bool.and_eq_true] at h
    refine ih ?_ h.2
    intro B hB
    rcases List.mem_cons.1 hB with rfl | hB
    · have h1 := h.1
      split at h1
      · next p hp =>
        have : ∀ ss : List AstSymbol, (ss.all fun s => match s.plain with
            | some (.nt B) => seen.contains B
            | some (.term _) => true
            | none => false) = true → ∃ rhs w, ss.map (·.plain) = rhs.map some ∧ Yields defs rhs w := by
          intro ss
          induction ss with
          | nil => exact fun _ => ⟨[], [], rfl, .nil⟩
          | cons s ss ih =>
            intro h
            simp only [List.all_cons, Bool.and_eq_true] at h
            obtain ⟨rhs, w, e, hy⟩ := ih h.2
            have h2 := h.1
            split at h2
            · next B hB =>
              obtain ⟨w', hw'⟩ := hs B (by simpa using h2)
              exact ⟨.nt B :: rhs, w' ++ w, by simp [hB, e],
                by simpa using (yields_of_derives hw').append hy⟩
            · next t ht => exact ⟨.term t :: rhs, t :: w, by simp [ht, e], .term hy⟩
            · cases h2
        obtain ⟨rhs, w, e, hy⟩ := this _ h1
        exact ⟨w, by
          have := (Yields.nt ⟨p, hp, e⟩ hy .nil).derives
          simpa [USentence] using this⟩
      · cases h1
    · exact hs B hB

namespace Examples

/-! ## An LL(1) grammar -/

/-- Expressions as for a recursive descent parser:
```
pub Expr: u64 = { <t:Term> <r:Rest> => t + r }
Rest: u64 = { "+" <t:Term> <r:Rest> => t + r, => 0 }
Term: u64 = { <x:"n"> => x, "(" <e:Expr> ")" => e }
``` -/
def descentDefs : List (AstNonTerminal (Act Log) String) :=
  [ ⟨true, "Expr", "u64",
      [⟨[nm "t" (.nonTerminal "Term"), nm "r" (.nonTerminal "Rest")],
        logged (fun e => num e "t" + num e "r") "Expr" 0⟩]⟩,
    ⟨false, "Rest", "u64",
      [⟨[.terminal "+", nm "t" (.nonTerminal "Term"), nm "r" (.nonTerminal "Rest")],
          logged (fun e => num e "t" + num e "r") "Rest" 0⟩,
        ⟨[], logged (fun _ => 0) "Rest" 1⟩]⟩,
    ⟨false, "Term", "u64",
      [⟨[nm "x" (.terminal "n")], logged (fun e => num e "x") "Term" 0⟩,
        ⟨[.terminal "(", nm "e" (.nonTerminal "Expr"), .terminal ")"],
          logged (fun e => num e "e") "Term" 1⟩]⟩ ]

set_option maxRecDepth 10000 in
theorem descent_ok : (parserMacro .insertion code.mkPath (itemsOf descentDefs)).isOk = true := by
  decide +kernel

def descent : Compiled (Act Log) String Nat Log Tk := program descentDefs descent_ok

/-- Its FIRST and FOLLOW sets. -/
def descentGuess : Guess where
  nul := ["Rest"]
  first := fun n => if n = "Rest" then ["+"] else ["n", "("]
  follow := fun n => if n = "Term" then [some "+", some ")", none] else [some ")", none]

set_option maxRecDepth 10000 in
theorem descent_ll1 : ULL1 descentDefs :=
  c76_ll1_table (ll1_of_check (G := descentGuess) (by decide +kernel))

set_option maxRecDepth 10000 in
theorem descent_productive : ∀ d ∈ descentDefs, ∃ w, USentence descentDefs d.name w :=
  productive_of_check (seen := []) (l := [("Term", 0), ("Rest", 1), ("Expr", 0)])
    (by simp) (by decide +kernel)

set_option maxRecDepth 10000 in
theorem descent_harmless : UHarmless descentDefs :=
  .of_check ["Rest"] ["Rest"] (by decide +kernel)

/-- The parser is complete. -/
theorem descent_parses {E : Type} {ep : EntryPoint} (hep : ep ∈ descent.gen.entries)
    {input : Nat → Option (Except E Tk)} {w : Log} {toks : List Tk} (hin : Ends input toks) :
    (∃ v w' n, descent.Returns ep input w (.ok v) w' n) ↔ descent.IsSentence ep.name toks := by
  have e : descent.defs = descentDefs := defs_itemsOf _
  refine c76_parses (by rw [e]; decide) (by rw [e]; exact descent_productive)
    (.inl (by rw [e]; exact descent_ll1)) (by rw [e]; exact descent_harmless) hep hin ?_
  rw [e]
  intro d hd p hp x hx env w
  simp only [descentDefs, List.mem_cons, List.not_mem_nil, or_false] at hd
  rcases hd with rfl | rfl | rfl <;> simp only [List.mem_cons, List.not_mem_nil, or_false] at hp <;>
    rcases hp with rfl | rfl <;> cases hx <;> exact Option.some_ne_none _

/-! ## An SLR(1) grammar -/

/-- The FIRST and FOLLOW sets of `arith`. -/
def arithGuess : Guess where
  nul := []
  first := fun _ => ["n", "("]
  follow := fun _ => [some "+", some ")", none]

/-- The LR(0) automaton of `arith`, for `Expr`: in every state the items of
`Expr → Expr + Term | Term`, `Term → n | ( Expr )`. -/
def arithStates : List (List (String × Nat × Nat)) :=
  let term := [("Term", 0, 0), ("Term", 1, 0)]
  let expr := [("Expr", 0, 0), ("Expr", 1, 0)]
  [ expr ++ term, [("Expr", 0, 1)], [("Expr", 1, 1)], [("Term", 0, 1)], ("Term", 1, 1) :: expr ++ term,
    ("Expr", 0, 2) :: term, [("Expr", 0, 3)], [("Term", 1, 2), ("Expr", 0, 1)], [("Term", 1, 3)],
    term, [] ]

def arithNext (q : Nat) (s : USym) : Nat :=
  match q, s with
  | 0, .nt "Expr" => 1
  | 0, .nt "Term" => 2
  | 4, .nt "Term" => 2
  | 4, .nt "Expr" => 7
  | 1, .term "+" => 5
  | 7, .term "+" => 5
  | 5, .nt "Term" => 6
  | 7, .term ")" => 8
  | 0, .term "n" | 4, .term "n" | 5, .term "n" | 9, .term "n" => 3
  | 0, .term "(" | 4, .term "(" | 5, .term "(" | 9, .term "(" => 4
  | _, _ => 10

/-- For `Term` as start symbol, number 9 is the initial state. -/
def arithAutomaton (S : String) : Guess0 :=
  if S = "Expr" then ⟨fun q => arithStates.getD q [], arithNext⟩
  else
    let swap (q : Nat) : Nat := if q = 0 then 9 else if q = 9 then 0 else q
    ⟨fun q => arithStates.getD (swap q) [], fun q s => swap (arithNext (swap q) s)⟩

set_option maxRecDepth 10000 in
theorem arith_slr1 : USLR1 arith.defs := by
  rw [show arith.defs = arithDefs from defs_itemsOf _]
  refine slr1_of_check (G := arithGuess) (M := arithAutomaton) (n := 11) ?_ (by decide +kernel)
  intro S q it h
  by_contra hq
  have e : ∀ q, 11 ≤ q → arithStates.getD q [] = [] := by
    intro q hq
    rw [List.getD_eq_getElem?_getD, List.getElem?_eq_none (by exact hq)]
    rfl
  unfold arithAutomaton at h
  split at h
  · simp only [e q (by omega)] at h
    cases h
  · have h1 : (if q = 0 then 9 else if q = 9 then 0 else q) = q := by
      rw [if_neg (by omega), if_neg (by omega)]
    simp only [h1, e q (by omega)] at h
    cases h

/-- ... hence LALR(1) and LR(1). -/
example : ULALR1 arith.defs ∧ ULR1 arith.defs := ⟨c76_slr1 arith_slr1, c76_lalr1 (c76_slr1 arith_slr1)⟩

/-! ## A sentence of an LL(1) grammar that is refused -/

def gapGuess : Guess where
  nul := ["A"]
  first := fun n => if n = "A" then ["n"] else if n = "Y" then ["n", ")"] else ["("]
  follow := fun n => if n = "A" then [some ")"] else if n = "X" then [some "n", some ")"] else [none]

set_option maxRecDepth 10000 in
/-- **C76.** The condition on nullable non-terminals is needed also for LL(1) grammars. -/
theorem c76_counterexample : ULL1 gap.defs ∧ (∀ d ∈ gap.defs, ∃ x, USentence gap.defs d.name x) ∧
    ∃ ep ∈ gap.gen.entries, ep.name = "S" ∧ gap.IsSentence "S" [.lp, .num 1, .rp] ∧
      gap.Returns ep (stream [.lp, .num 1, .rp]) () (.parserError "n" ")") () 2 := by
  refine ⟨?_, ?_, c04_counterexample_first.2⟩
  · rw [show gap.defs = gapDefs from defs_itemsOf _]
    exact c76_ll1_table (ll1_of_check (G := gapGuess) (by decide +kernel))
  · rw [show gap.defs = gapDefs from defs_itemsOf _]
    exact productive_of_check (seen := []) (l := [("A", 0), ("Y", 0), ("X", 0), ("S", 0)])
      (by simp) (by decide +kernel)

end Examples

end Parsegen
