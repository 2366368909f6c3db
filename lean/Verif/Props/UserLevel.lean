import Verif.Proofs.UserLR
import Verif.Props.Complete
import Verif.Props.Conflicts
import Verif.Props.Errors

/-! # C04, C05, C23 with conditions on the grammar as the user wrote it -/

namespace Parsegen

variable {X Ty V W Tok E : Type} [DecidableEq Ty] {P : Compiled X Ty V W Tok} {ep : EntryPoint}
  {input : Nat → Option (Except E Tok)} {w w' : W} {toks : List Tok}

/-- Conditions on the user's grammar that make the program regular. -/
theorem Compiled.regular_of_user (hep : ep ∈ P.gen.entries) (hnd : (P.defs.map (·.name)).Nodup)
    (hlr : ULR1 P.defs) (hh : UHarmless P.defs) : P.Regular := by
  obtain ⟨g, nts, ts, a, g', T, S⟩ := P.setup hep
  refine ⟨hnd, ?_, ?_⟩
  · intro g1 h1; rw [S.lower] at h1; cases h1
    exact (S.lowered.lr1_iff S.wf hnd).2 hlr
  · intro g1 h1; rw [S.lower] at h1; cases h1
    exact generateFirstTable_enough S.wf (S.lowered.harmless S.wf hh) P.order

omit [DecidableEq Ty] in
/-- A grammar without empty productions is harmless. -/
theorem UHarmless.of_no_empty {defs : List (AstNonTerminal X Ty)}
    (h : ∀ d ∈ defs, ∀ p ∈ d.productions, p.symbols ≠ []) : UHarmless defs := by
  have key : ∀ {l r : List USym}, UDerives defs l r → l ≠ [] → r ≠ [] := by
    intro l r hd
    induction hd with
    | refl => exact id
    | tail _ s ih =>
      intro _
      cases s with
      | mk l r rhs name p hp hs =>
        obtain ⟨d, hd, hpd⟩ := List.mem_flatMap.1 hp
        have := h d (List.mem_of_mem_filter hd) p hpd
        cases rhs with
        | nil => simp at hs; exact absurd hs this
        | cons x rhs => simp
  intro A i l b r _ _ _ hb
  exact absurd rfl (key hb (by simp))

omit [DecidableEq Ty] in
/-- A grammar in which non-terminals with an empty production have no other productions (such as those
used to run an action in the middle of a production), and no other production consists of such
non-terminals only, is harmless.  `ms` are the names of these non-terminals. -/
theorem UHarmless.of_markers {defs : List (AstNonTerminal X Ty)} (ms : List String)
    (h1 : ∀ d ∈ defs, d.name ∈ ms → ∀ p ∈ d.productions, p.symbols = [])
    (h2 : ∀ d ∈ defs, d.name ∉ ms → ∀ p ∈ d.productions, ∃ s ∈ p.symbols, ∀ m ∈ ms,
      s.plain ≠ some (.nt m)) : UHarmless defs := by
  have key : ∀ {l r : List USym}, UDerives defs l r → (∃ x ∈ l, ∀ m ∈ ms, x ≠ .nt m) →
      ∃ x ∈ r, ∀ m ∈ ms, x ≠ .nt m := by
    intro l r hd
    induction hd with
    | refl => exact id
    | tail _ s ih =>
      intro hx
      obtain ⟨x, hx, hm⟩ := ih hx
      cases s with
      | mk l r rhs name p hp hs =>
        simp only [List.mem_append, List.mem_cons] at hx
        rcases hx with hx | rfl | hx
        · exact ⟨x, by simp [hx], hm⟩
        · obtain ⟨d, hd, hpd⟩ := List.mem_flatMap.1 hp
          rw [List.mem_filter, beq_iff_eq] at hd
          obtain ⟨s, hs1, hs2⟩ := h2 d hd.1 (by rw [hd.2]; exact fun hn => hm name hn rfl) p hpd
          have : s.plain ∈ rhs.map some := by rw [← hs]; exact List.mem_map_of_mem hs1
          obtain ⟨y, hy, e⟩ := List.mem_map.1 this
          exact ⟨y, by simp [hy], fun m hmm hym => hs2 m hmm (by rw [← e, hym])⟩
        · exact ⟨x, by simp [hx], hm⟩
  have step : ∀ {b : String} {r : List USym}, b ∈ ms → UDerives defs [.nt b] r →
      r = [.nt b] ∨ r = [] ∧ ∃ j, UHasProd defs b j [] := by
    intro b r hb hd
    induction hd with
    | refl => exact .inl rfl
    | tail _ s ih =>
      cases s with
      | mk l r rhs name p hp hs =>
        rcases ih with h | ⟨h, hj⟩
        · cases l with
          | nil =>
            simp only [List.nil_append, List.cons.injEq, USym.nt.injEq] at h
            obtain ⟨rfl, rfl⟩ := h
            obtain ⟨d, hd, hpd⟩ := List.mem_flatMap.1 hp
            rw [List.mem_filter, beq_iff_eq] at hd
            have he := h1 d hd.1 (by rw [hd.2]; exact hb) p hpd
            rw [he] at hs
            obtain rfl : rhs = [] := by simpa using hs.symm
            obtain ⟨j, hj⟩ := List.getElem?_of_mem hp
            exact .inr ⟨rfl, j, p, hj, by simp [he]⟩
          | cons x l => simp at h
        · simp at h
  intro A i l b r _ _ _ hb
  have hbm : b ∈ ms := by
    by_contra hn
    obtain ⟨x, hx, _⟩ := key hb ⟨.nt b, by simp, fun m hm e => hn (by cases e; exact hm)⟩
    cases hx
  refine ⟨?_, .inr ?_⟩
  · rcases step hbm hb with h | h
    · simp at h
    · exact h.2
  · intro t x hx
    rcases step hbm hx with h | h
    · simp at h
    · simp at h

/-- **C04** with conditions on the user's grammar only: no name is defined twice, the grammar is LR(1),
nullable non-terminals are harmless (for example: there are no empty productions, or only those of markers,
see `UHarmless.of_no_empty` and `UHarmless.of_markers`) and actions do not panic.  Then `parse` returns `Ok` exactly on the sentences. -/
theorem c04_user (hnd : (P.defs.map (·.name)).Nodup) (hlr : ULR1 P.defs) (hh : UHarmless P.defs)
    (hep : ep ∈ P.gen.entries) (hin : Ends input toks)
    (hu : ∀ d ∈ P.defs, ∀ p ∈ d.productions, ∀ e, p.action = .infallible e →
      ∀ env w, P.code.run e env w ≠ none) :
    (∃ v w' n, P.Returns ep input w (.ok v) w' n) ↔ P.IsSentence ep.name toks :=
  c04_accepts_iff (Compiled.regular_of_user hep hnd hlr hh) hep hin hu

/-- **C05** with conditions on the user's grammar only: an LR(1) grammar accepted by the macro is
unambiguous, whatever the computed FIRST sets are. -/
theorem c05_user (hnd : (P.defs.map (·.name)).Nodup) (hlr : ULR1 P.defs) (hep : ep ∈ P.gen.entries)
    {tr tr' : UTree Tok} (h : IsUTree P.defs P.cls ep.name toks tr)
    (h' : IsUTree P.defs P.cls ep.name toks tr') : tr = tr' := by
  obtain ⟨g, nts, ts, a, g', T, S⟩ := P.setup hep
  obtain ⟨e, nt, h1, h2, h3, he, _⟩ := S.run hep
  obtain ⟨b, hb1, hb2⟩ := S.lowered.entry_name hnd h1 h2
  rw [h3] at hb1
  have hl := (S.lowered.lr1_iff S.wf hnd).2 hlr
  have k1 := S.lowered.user_eval S.cls (algAgree_trees S.lowered) h _ (lowersPlain_nt hb1)
  have k2 := S.lowered.user_eval S.cls (algAgree_trees S.lowered) h' _ (lowersPlain_nt hb1)
  exact (hl.eval_unique S.wf he hb2 k1 k2).1

/-- **C23** for the user's grammar: if the macro stops with a conflict panic, and no name is defined
twice, the user's grammar is not LR(1). -/
theorem c23_user {h : HashOrder} {mkPath : String → X} {items : List (GrammarItem X Ty)} {f : Fault}
    (hsz : loweredCount (itemNonTerminals items) ≤ 4294967296)
    (hnd : ((itemNonTerminals items).map (·.name)).Nodup)
    (he : parserMacro h mkPath items = .error f)
    (hf : f.IsConflict) :
    ¬ ULR1 (itemNonTerminals items) := by
  intro hlr
  cases c39_panics hsz he with
  | states => exact hf
  | enums => exact hf
  | noEnum => exact hf
  | defs ht hc => cases f <;> first | exact hf | exact hc
  | size ht hl ha hb => cases f <;> first | exact hf | exact hb
  | conflict ht hl hc =>
    obtain ⟨nts, ts, hL⟩ := lower_ok (by rw [← loweredCount_eq]; exact hsz) hl
    cases hc with
    | mk _ hE _ _ _ hc hm hp => exact hc.ne ((hL.lr1_iff hL.wf hnd).2 hlr _ _ _ _ _ hE hm hp)

/-- **C23**, the other way round: for an LR(1) grammar without repeated names the macro does not panic
for a conflict. -/
theorem c23_user_accepted {h : HashOrder} {mkPath : String → X} {items : List (GrammarItem X Ty)}
    {t : TokenEnum Ty} {g : Grammar X Ty}
    (hsz : loweredCount (itemNonTerminals items) ≤ 4294967296)
    (hnd : ((itemNonTerminals items).map (·.name)).Nodup) (hlr : ULR1 (itemNonTerminals items))
    (hm : macroItems items = .ok (itemNonTerminals items, t))
    (hl : lower mkPath (itemNonTerminals items) t.conversions = .ok g) :
    (∃ gen, parserMacro h mkPath items = .ok (gen, t)) ∨
      parserMacro h mkPath items = .error .u16Overflow ∨
      parserMacro h mkPath items = .error .u32Overflow := by
  obtain ⟨nts, ts, hL⟩ := lower_ok (by rw [← loweredCount_eq]; exact hsz) hl
  have hp : parserMacro h mkPath items = (generateParser h g).map fun gen => (gen, t) := by
    simp only [parserMacro, hm, hl, bind, Except.bind]
    cases generateParser h g <;> rfl
  rw [hp]
  rcases c23_lr1_accepted (h := h) hL.wf ((hL.lr1_iff hL.wf hnd).2 hlr) with ⟨gen, hg⟩ | hg | hg
  · exact .inl ⟨gen, by rw [hg]; rfl⟩
  · exact .inr (.inl (by rw [hg]; rfl))
  · exact .inr (.inr (by rw [hg]; rfl))

/-! ## Concrete cases -/

namespace Examples

/-- `arith` has no empty productions. -/
theorem arith_harmless : UHarmless arith.defs :=
  .of_no_empty (defs := arithDefs) (by
    intro d hd p hp
    simp only [arithDefs, List.mem_cons, List.not_mem_nil, or_false] at hd
    rcases hd with rfl | rfl <;> simp only [List.mem_cons, List.not_mem_nil, or_false] at hp <;>
      rcases hp with rfl | rfl <;> simp)

/-- `arith` is LR(1). -/
theorem arith_ulr1 : ULR1 arith.defs := by
  obtain ⟨ep, hep, _⟩ := run_returns arith_run
  obtain ⟨g, nts, ts, a, g', T, S⟩ := arith.setup hep
  exact (S.lowered.lr1_iff S.wf arith_regular.names).1 (arith_regular.lr1 g S.lower)

/-- The hypotheses of `c04_user` hold for `arith`, whose parser therefore recognises exactly the
sentences. -/
example (toks : List Tk) (ep : EntryPoint) (hep : ep ∈ arith.gen.entries) (w : Log) :
    (∃ v w' n, arith.Returns (E := String) ep (stream toks) w (.ok v) w' n) ↔
      arith.IsSentence ep.name toks := by
  refine c04_user arith_regular.names arith_ulr1 arith_harmless hep ⟨?_, ?_⟩ ?_
  · intro i t ht; simp [stream, ht]
  · simp [stream]
  · intro d hd p hp e he env w
    replace hd : d ∈ arithDefs := hd
    simp only [arithDefs, List.mem_cons, List.not_mem_nil, or_false] at hd
    rcases hd with rfl | rfl <;> simp only [List.mem_cons, List.not_mem_nil, or_false] at hp <;>
      rcases hp with rfl | rfl <;> simp only [logged, AstAction.infallible.injEq] at he <;>
      subst he <;> exact Option.some_ne_none _

/-- The hypotheses of `c05_user` hold for `arith`. -/
example (toks : List Tk) (ep : EntryPoint) (hep : ep ∈ arith.gen.entries) {tr tr' : UTree Tk}
    (h : IsUTree arith.defs arith.cls ep.name toks tr)
    (h' : IsUTree arith.defs arith.cls ep.name toks tr') : tr = tr' :=
  c05_user arith_regular.names arith_ulr1 hep h h'

/-- `pub S = { A => .., B => .. };  A = { "+" => .. };  B = { "+" => .. }` -/
def twoWays : List (AstNonTerminal (Act Log) String) :=
  [ ⟨true, "S", "u64", [⟨[nm "a" (.nonTerminal "A")], logged (fun e => num e "a") "S" 0⟩,
      ⟨[nm "a" (.nonTerminal "B")], logged (fun e => num e "a") "S" 1⟩]⟩,
    ⟨false, "A", "u64", [⟨[.terminal "+"], logged (fun _ => 0) "A" 0⟩]⟩,
    ⟨false, "B", "u64", [⟨[.terminal "+"], logged (fun _ => 1) "B" 0⟩]⟩ ]

/-- The result is the panic `f`. -/
def isPanic {α : Type} (r : Except Fault α) (f : Fault) : Bool :=
  match r with
  | .error f' => decide (f' = f)
  | .ok _ => false

set_option maxRecDepth 10000 in
/-- The macro panics on `twoWays`, so it is not LR(1). -/
example : ¬ ULR1 twoWays := by
  have h : isPanic (parserMacro .insertion code.mkPath (itemsOf twoWays))
      (.reduceOverReduce 4 none 2 0 3 0) = true := by
    decide +kernel
  rw [← defs_itemsOf twoWays]
  cases he : parserMacro .insertion code.mkPath (itemsOf twoWays) with
  | ok _ => rw [he] at h; cases h
  | error f =>
    rw [he] at h
    simp only [isPanic, decide_eq_true_eq] at h
    subst h
    refine c23_user ?_ ?_ he trivial <;> rw [defs_itemsOf] <;> decide

/-- `arith` meets the hypotheses of `c23_user_accepted`. -/
example (h : HashOrder) (g : Grammar (Act Log) String)
    (hl : lower code.mkPath arithDefs tk.conversions = .ok g) :
    (∃ gen, parserMacro h code.mkPath (itemsOf arithDefs) = .ok (gen, tk)) ∨
      parserMacro h code.mkPath (itemsOf arithDefs) = .error .u16Overflow ∨
      parserMacro h code.mkPath (itemsOf arithDefs) = .error .u32Overflow := by
  refine c23_user_accepted (g := g) ?_ ?_ ?_ rfl ?_
  · rw [defs_itemsOf]; decide
  · rw [defs_itemsOf]; decide
  · rw [defs_itemsOf]; exact arith_ulr1
  · rw [defs_itemsOf]; exact hl

end Examples

end Parsegen
