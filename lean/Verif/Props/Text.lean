import Verif.Proofs.TextLoop
import Verif.Spec.Text
import Verif.Props.Emit
import Verif.Model.TextPrint

/-! # Properties of the text of the emitted functions: C58 -/

namespace Parsegen

variable {X Ty V W Tok E : Type} [DecidableEq Ty]

theorem methodName_head (g : Grammar X Ty) (convs : List (Conversion Ty)) :
    (∀ f ∈ (emitResultType g convs).2.1, f.name ≠ "parse") ∧
    ∀ k, ∀ v ∈ (emitResultType g convs).1, v.name ≠ ntMethod k := by
  obtain ⟨us, hu⟩ := ntTypes g convs
  rw [hu.methods, hu.variants]
  constructor
  · intro f hf
    rcases List.mem_append.1 hf with hf | hf
    · obtain ⟨e, _, rfl⟩ := List.mem_map.1 hf
      intro h
      have := congrArg (fun s : String => s.toList.head?) h
      simp [emitToken, tokenMethod] at this
    · obtain ⟨e, _, rfl⟩ := List.mem_map.1 hf
      intro h
      have := congrArg (fun s : String => s.toList.head?) h
      simp [emitNt, ntMethod] at this
  · intro k v hv
    rcases List.mem_append.1 hv with hv | hv
    · obtain ⟨e, _, rfl⟩ := List.mem_map.1 hv
      intro h
      have := congrArg (fun s : String => s.toList.head?) h
      simp [tokenVariant, ntMethod] at this
    · obtain ⟨e, _, rfl⟩ := List.mem_map.1 hv
      intro h
      have := congrArg (fun s : String => s.toList.head?) h
      simp [ntVariant, ntMethod] at this

theorem apart_of_emit {h : HashOrder} {lc : String → String} {g : Grammar X Ty}
    {tokens : TokenEnum Ty} {m : EModule X Ty} {gen : Generated X} (hwf : g.WF)
    (hm : emitParser h lc g tokens = .ok m) (hr : ModRel lc g tokens m gen) (hp : g.pubNames.Nodup) :
    m.Apart where
  idx := hr.idxCall
  value := hr.valueCall
  fns := base_nodup hm
  idxLocal := by
    have hx := idxName_last lc tokens.typeName
    rw [hr.idxName]
    intro hmem
    have : ∀ n ∈ idxCallLocals, n.toList.getLast? ≠ some 'x' ∨ n = "action_idx" := by decide
    rcases this _ hmem with h1 | h1
    · exact h1 hx
    · have h2 := congrArg (fun s => (s.toList.reverse.drop 4).head?) h1
      simp only [String.toList_append, List.reverse_append] at h2
      have e1 : "_terminal_idx".toList.reverse =
          'x' :: 'd' :: 'i' :: '_' :: 'l' :: "animret_".toList := by decide
      rw [e1] at h2
      have e2 : ("action_idx".toList.reverse.drop 4).head? = some 'n' := by decide
      rw [e2] at h2
      simp at h2
  valueLocal := by rw [hr.valueName]; decide
  extract := by
    intro s hs v hv
    obtain ⟨i, hi⟩ := List.getElem?_of_mem hs
    obtain ⟨ep, _, hsr⟩ := forall₂_getElem? hr.structs hi
    rw [hsr.extract]
    rw [hr.variants] at hv
    exact (methodName_head g tokens.conversions).2 _ v hv
  methods := by rw [hr.methods]; exact (methodName_head g tokens.conversions).1
  structs := (structs_names hwf hm).nodup_iff.2 hp

/-- **C58.** Executing the text of the emitted module statement by statement - `parse`,
`parse_generic`, the token functions, the action functions and the extraction methods, with variables
in memory cells, `&mut` references, `loop`, `match`, `if let`, `for`, `return` and `break` - has for
every parser struct exactly the outcomes (returned `Result` or panic, world, number of `next()` calls)
of the entry point, for which everything else is proved; and nothing that is executed fails to
compile.  (As in C48, no binder may be called `value_stack`; `pub` non-terminals have distinct names.)
-/
theorem c58_text (P : Compiled X Ty V W Tok) {lc : String → String} {m : EModule X Ty}
    (hm : P.Emits lc m) (hb : ¬ IsBinder P.defs "value_stack") (hp : (pubDefNames P.defs).Nodup)
    {ep : EntryPoint} (hep : ep ∈ P.gen.entries) (input : Nat → Option (Except E Tok)) (w : W) :
    (∀ o w' n, m.TextReturns P ep.name input w o w' n ↔ P.Returns ep input w o w' n) ∧
    ¬ m.TextIllFormed P ep.name input w := by
  have hb' : NoStackBinder P.defs := fun d hd p hp s hs e => hb ⟨d, hd, p, hp, s, hs, e⟩
  obtain ⟨s, hs, h1, h2⟩ := forall₂_getElem?' (P.emit_parse hm hb') (List.getElem?_of_mem hep).choose_spec
  have hmem := List.mem_of_getElem? hs
  obtain ⟨g, e1, e2, _, hrel⟩ := P.emits_rel hm
  obtain ⟨g0, nts, ts, a, g', T, S⟩ := P.setup hep
  have hg : g0 = g := by
    have := S.lower; rw [e1] at this; exact (Except.ok.inj this).symm
  subst hg
  have hap : m.Apart := apart_of_emit S.lowered.wf e2 hrel (by rw [pubNames_lowered S.lowered]; exact hp)
  have key : ∀ fuel, TextRel ((parse P.gen P.code P.tf input ep w fuel).map fun r =>
      (some r.1, r.2.enc)) (m.runText (P.host input) ep.name w fuel) := by
    intro fuel
    have := parse_text hap (P.host input) fuel hmem w
    rw [h1] at this
    rw [← h2 E input w fuel]
    exact this
  have huser : ∀ fuel f s', parse P.gen P.code P.tf input ep w fuel = some (.fault f, s') →
      f = .userPanic := fun fuel f s' h => (c06_only_user_panics hep ⟨fuel, s', h, rfl, rfl⟩).1
  have hobs : ∀ fuel, (m.runText (P.host input) ep.name w fuel).observed =
      (parse P.gen P.code P.tf input ep w fuel).map fun r => (r.1, r.2.world, r.2.calls) := by
    intro fuel
    have hk := key fuel
    cases hr : parse P.gen P.code P.tf input ep w fuel with
    | none =>
      rw [hr] at hk
      simp only [Option.map_none, TextRel] at hk
      rw [hk]; rfl
    | some r =>
      obtain ⟨o', s'⟩ := r
      rw [hr] at hk
      simp only [Option.map_some, TextRel] at hk ⊢
      cases o' with
      | fault f =>
        obtain ⟨S', k1, k2⟩ := hk
        have := k2 (huser fuel f s' hr)
        rw [k1]
        simp only [Res.observed, this]
        rfl
      | ok v =>
        obtain ⟨v', S', k1, k2, k3, k4⟩ := hk
        rw [k1]
        simp only [Res.observed, k2, k3, k4]
        rfl
      | lexerError v =>
        obtain ⟨v', S', k1, k2, k3, k4⟩ := hk
        rw [k1]
        simp only [Res.observed, k2, k3, k4]
        rfl
      | parserError v x =>
        obtain ⟨v', S', k1, k2, k3, k4⟩ := hk
        rw [k1]
        simp only [Res.observed, k2, k3, k4]
        rfl
  refine ⟨fun o w' n => ⟨?_, ?_⟩, ?_⟩
  · rintro ⟨fuel, hS⟩
    rw [hobs, Option.map_eq_some_iff] at hS
    obtain ⟨⟨o', s'⟩, k1, k2⟩ := hS
    cases k2
    exact ⟨fuel, s', k1, rfl, rfl⟩
  · rintro ⟨fuel, s', hr, rfl, rfl⟩
    exact ⟨fuel, by rw [hobs, hr]; rfl⟩
  · rintro ⟨fuel, hS⟩
    have hk := key fuel
    rw [hS] at hk
    cases hr : parse P.gen P.code P.tf input ep w fuel with
    | none =>
      rw [hr] at hk
      simp [TextRel] at hk
    | some r =>
      obtain ⟨o', s'⟩ := r
      rw [hr] at hk
      simp only [Option.map_some, TextRel] at hk
      cases o' with
      | fault f => obtain ⟨_, k1, _⟩ := hk; cases k1
      | ok v => obtain ⟨_, _, k1, _⟩ := hk; cases k1
      | lexerError v => obtain ⟨_, _, k1, _⟩ := hk; cases k1
      | parserError v x => obtain ⟨_, _, k1, _⟩ := hk; cases k1

/-- The modelled text of `parse_generic`, printed; compare lr_codegen.rs:174-228. -/
example : (genericText (X := String) 5 "token_terminal_idx" "token_value").print id =
    "fn parse_generic(input, extract_value, init_state, action_idx) { \
      let mut state_stack = vec![init_state]; \
      let mut value_stack = vec![]; \
      let mut token = input.next(); \
      loop { \
        let state = *state_stack.last().unwrap() as usize; \
        let terminal_idx = match &token { \
          None => 5, \
          Some(Err(err)) => return Err(ParseError::LexerError(err.clone())), \
          Some(Ok(token)) => token_terminal_idx(&token), \
        }; \
        match ACTION[state][terminal_idx] { \
          None => { \
            let found = TERMINAL_STRS[terminal_idx]; \
            let expected = EXPECTED_TERMINALS[state]; \
            return Err(ParseError::ParserError { found, expected }); \
          }, \
          Some(LRAction::Shift { next_state }) => { \
            state_stack.push(next_state); \
            let token_ = ::std::mem::replace(&mut token, input.next()); \
            if let Some(Ok(token)) = token_ { \
              value_stack.push(token_value(token)); \
            }; \
          }, \
          Some(LRAction::Reduce { non_terminal_idx, n_symbols, semantic_action_idx }) => { \
            SEMANTIC_ACTIONS[semantic_action_idx as usize](&mut value_stack); \
            for _ in 0 .. n_symbols { \
              state_stack.pop().unwrap(); \
            }; \
            let state = *state_stack.last().unwrap() as usize; \
            match GOTO[state][non_terminal_idx as usize] { \
              None => panic!(\"Stuck! (2)\"), \
              Some(next_state) => state_stack.push(next_state), \
            }; \
          }, \
          Some(LRAction::Accept) => break, \
        }; \
      }; \
      SEMANTIC_ACTIONS[action_idx](&mut value_stack); \
      Ok(extract_value(value_stack.pop().unwrap())) \
    }" := by decide +kernel

/-- Executing the text of the module for the sums grammar on `1 + (2 + 3)`. -/
example : ∃ m, Examples.arith.Emits Examples.ascii m ∧ ∃ name w',
    m.TextReturns Examples.arith name
      (Examples.stream [.num 1, .plus, .lp, .num 2, .plus, .num 3, .rp]) [] (.ok 6) w' 8 := by
  obtain ⟨m, hm⟩ := Examples.arith.emits Examples.ascii
  obtain ⟨ep, hmem, _, h⟩ := Examples.run_returns Examples.arith_run
  refine ⟨m, hm, ep.name, _, ((c58_text _ hm (by rw [arith_binder]; decide) ?_ hmem _ _).1 _ _ _).2 h⟩
  rw [show Examples.arith.defs = Examples.arithDefs from Examples.defs_itemsOf _]
  decide

end Parsegen
