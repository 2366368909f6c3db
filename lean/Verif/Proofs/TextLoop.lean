import Verif.Proofs.TextGeneric

/-! # The loop of `parse_generic`, and `parse` -/

namespace Parsegen

variable {X Ty V W Tok E α : Type}

theorem Val.outcome_lexerError (e : E) :
    (lexerErrorVal e : Val V Tok E).outcome = some (.lexerError e) := rfl

theorem Val.outcome_parserError (f x : String) :
    (parserErrorVal f x : Val V Tok E).outcome = some (.parserError f x) := rfl

theorem Val.outcome_ok (v : V) :
    (.adt "Result" "Ok" [.ext v] : Val V Tok E).outcome = some (.ok v) := rfl

/-- lr_codegen.rs:187-220: one iteration. -/
theorem eval_loopText {m : EModule X Ty} (hm : m.Apart) (H : Host X V W Tok E) (fuel d : Nat)
    (ep : EStruct Ty) (s : EState Tok V W E) :
    (eval m.text H (callFn m.text H fuel (d + 2)) fuel (loopText m.nTerminals m.idxCall m.valueCall)
        genv (s.toR ep) = .brk (s.toR ep) ∧
      m.step H.code H.toR H.inj H.input ep s = m.accept H.code ep s) ∨
    match m.step H.code H.toR H.inj H.input ep s with
    | .next s' => eval m.text H (callFn m.text H fuel (d + 2)) fuel
        (loopText m.nTerminals m.idxCall m.valueCall) genv (s.toR ep) = .val (.tuple []) (s'.toR ep)
    | .done o s' => CallEnds .ret o s'.world s'.calls (eval m.text H (callFn m.text H fuel (d + 2)) fuel
        (loopText m.nTerminals m.idxCall m.valueCall) genv (s.toR ep))
    | .noCompile => True := by
  obtain ⟨states, vals, tok, n, w⟩ := s
  have htop := eval_topState m.text H (callFn m.text H fuel (d + 2)) fuel (env := genv)
    (s := ⟨gstore ep states vals tok [], w, n⟩) (states := states) rfl rfl
  unfold EState.toR loopText Ex.body
  simp only [eval_block, evalStmts, evalStmt]
  rw [htop]
  unfold EModule.step
  simp only
  cases states with
  | nil => exact .inr ⟨_, rfl, fun h => by cases h⟩
  | cons st rest =>
    simp only [Res.bind]
    rw [show Locals.bind genv ["state"]
        (⟨gstore ep (st :: rest) vals tok [], w, n⟩ : RState V W Tok E) = ("state", 8) :: genv
        from rfl,
      show RState.push (⟨gstore ep (st :: rest) vals tok [], w, n⟩ : RState V W Tok E) [.num st] =
        ⟨gstore ep (st :: rest) vals tok [.num st], w, n⟩ from rfl]
    have hidl : List.lookup m.idxName (("state", 8) :: genv) = none := by
      have := hm.idxLocal
      simp only [idxCallLocals, List.mem_cons, List.not_mem_nil, or_false, not_or] at this
      simp only [genv, List.lookup_cons, List.lookup_nil, beq_eq_false_iff_ne.2 this.1,
        beq_eq_false_iff_ne.2 this.2.1, beq_eq_false_iff_ne.2 this.2.2.1,
        beq_eq_false_iff_ne.2 this.2.2.2.1, beq_eq_false_iff_ne.2 this.2.2.2.2.1,
        beq_eq_false_iff_ne.2 this.2.2.2.2.2.1, beq_eq_false_iff_ne.2 this.2.2.2.2.2.2.1,
        beq_eq_false_iff_ne.2 this.2.2.2.2.2.2.2]
    have hti := eval_terminalIdx hm H fuel (d + 1) (env := ("state", 8) :: genv)
      (s := ⟨gstore ep (st :: rest) vals tok [.num st], w, n⟩) (tok := tok) rfl rfl hidl
    cases hla : m.lookahead H.toR tok with
    | error e =>
      rw [hla] at hti
      simp only at hti
      rw [hti]
      exact .inr ⟨lexerErrorVal e, _, rfl, rfl, rfl, rfl⟩
    | ok r =>
      rw [hla] at hti
      simp only at hti
      cases r with
      | error e =>
        cases e with
        | noCompile => exact .inr trivial
        | panic p =>
          simp only [Gives] at hti
          rw [hti]
          exact .inr ⟨_, rfl, fun _ => ⟨rfl, rfl⟩⟩
      | ok ti =>
        simp only [Gives] at hti
        rw [hti]
        simp only
        rw [show Locals.bind (("state", 8) :: genv) ["terminal_idx"]
            (⟨gstore ep (st :: rest) vals tok [.num st], w, n⟩ : RState V W Tok E) = lenv from rfl,
          show RState.push (⟨gstore ep (st :: rest) vals tok [.num st], w, n⟩ : RState V W Tok E)
            [.num ti] = ⟨gstore ep (st :: rest) vals tok [.num st, .num ti], w, n⟩ from rfl]
        have hidx1 := eval_index m.text H (callFn m.text H fuel (d + 2)) fuel
          (e := .name "ACTION") (i := .name "state") (env := lenv)
          (s := ⟨gstore ep (st :: rest) vals tok [.num st, .num ti], w, n⟩) (w := .num st)
          (by rw [eval]; exact evalName_static _ rfl (statics_action m))
          (by rw [eval]; exact evalName_local (a := 8) _ rfl rfl)
        have htix : eval m.text H (callFn m.text H fuel (d + 2)) fuel
            (.name "terminal_idx") lenv
            ⟨gstore ep (st :: rest) vals tok [.num st, .num ti], w, n⟩ =
            .val (.num ti) ⟨gstore ep (st :: rest) vals tok [.num st, .num ti], w, n⟩ := by
          rw [eval]; exact evalName_local (a := 9) _ rfl rfl
        simp only [indexVal, List.getElem?_map] at hidx1
        rw [eval]
        cases hg : m.action[st]? with
        | none =>
          rw [hg] at hidx1
          simp only [Option.map_none] at hidx1
          refine .inr ⟨⟨gstore ep (st :: rest) vals tok [], w, n⟩, ?_, fun h => by cases h⟩
          rw [eval, hidx1]
          rfl
        | some row =>
          rw [hg] at hidx1
          simp only [Option.map_some] at hidx1
          have hidx2 := eval_index m.text H (callFn m.text H fuel (d + 2)) fuel hidx1 htix
          simp only [indexVal, List.getElem?_map] at hidx2
          rw [hidx2]
          simp only
          cases hr : row[ti]? with
          | none =>
            exact .inr ⟨⟨gstore ep (st :: rest) vals tok [], w, n⟩, rfl, fun h => by cases h⟩
          | some cell =>
            cases cell with
            | none =>
              right
              have herr := eval_errorText m H (callFn m.text H fuel (d + 2)) fuel ep (st :: rest)
                vals tok st ti w n
              have hmp : matchPat H .none (.ofOption .none : Val V Tok E) = .some (.some []) := rfl
              simp only [Option.map_some, Option.map_none, Res.bind, evalArms, hmp, List.map_nil,
                RState.push_nil]
              rw [show Locals.bind lenv []
                (⟨gstore ep (st :: rest) vals tok [.num st, .num ti], w, n⟩ : RState V W Tok E) =
                lenv from rfl]
              cases h1 : m.terminalStrs[ti]? with
              | none =>
                rw [h1] at herr
                simp only at herr
                obtain ⟨S, herr⟩ := herr
                rw [herr]
                exact ⟨_, rfl, fun h => by cases h⟩
              | some f =>
                cases h2 : m.expected[st]? with
                | none =>
                  rw [h1, h2] at herr
                  simp only at herr
                  obtain ⟨S, herr⟩ := herr
                  rw [herr]
                  exact ⟨_, rfl, fun h => by cases h⟩
                | some x =>
                  rw [h1, h2] at herr
                  simp only at herr
                  rw [herr]
                  exact ⟨parserErrorVal f x, _, rfl, rfl, rfl, rfl⟩
            | some act =>
              cases act with
              | accept => exact .inl ⟨rfl, rfl⟩
              | shift nx =>
                right
                have hsh := eval_shiftText hm H fuel (d + 1) ep (st :: rest) vals tok st ti nx w n
                have harm : ∀ k : Val V Tok E → RState V W Tok E → Res V W Tok E (Val V Tok E),
                    (Res.val (Val.ofOption (some (RtAction.toVal (.shift nx))))
                      (⟨gstore ep (st :: rest) vals tok [.num st, .num ti], w, n⟩ :
                        RState V W Tok E)).bind k = k (Val.ofOption (some
                          (.record "LRAction" "Shift" [("next_state", .num nx)])))
                      ⟨gstore ep (st :: rest) vals tok [.num st, .num ti], w, n⟩ := fun _ => rfl
                have hmp1 : matchPat H .none (.ofOption (some
                  (.record "LRAction" "Shift" [("next_state", .num nx)])) : Val V Tok E) =
                  .some .none := rfl
                have hmp2 : matchPat H (.some (.record "LRAction" "Shift" ["next_state"]))
                  (.ofOption (some (.record "LRAction" "Shift" [("next_state", .num nx)])) :
                    Val V Tok E) = .some (.some [("next_state", .num nx)]) := rfl
                simp only [Option.map_some]
                rw [harm]
                simp only [evalArms, hmp1, hmp2]
                rw [show Locals.bind lenv ([("next_state", (.num nx : Val V Tok E))].map (·.1))
                    (⟨gstore ep (st :: rest) vals tok [.num st, .num ti], w, n⟩ : RState V W Tok E) =
                    ("next_state", 10) :: lenv from rfl,
                  show RState.push (⟨gstore ep (st :: rest) vals tok [.num st, .num ti], w, n⟩ :
                    RState V W Tok E) ([("next_state", (.num nx : Val V Tok E))].map (·.2)) =
                    ⟨gstore ep (st :: rest) vals tok [.num st, .num ti, .num nx], w, n⟩ from rfl]
                revert hsh
                cases m.shift H.toR H.inj H.input nx (⟨st :: rest, vals, tok, n, w⟩ :
                  EState Tok V W E) with
                | noCompile => intro _; trivial
                | done o s' => intro h; exact h.elim
                | next s' =>
                  intro h
                  simp only at h ⊢
                  rw [h]
                  rfl
              | reduce nt c sem =>
                right
                have hrd := eval_reduceText hm H fuel d ep (st :: rest) vals tok st ti nt c sem w n
                have harm : ∀ k : Val V Tok E → RState V W Tok E → Res V W Tok E (Val V Tok E),
                    (Res.val (Val.ofOption (some (RtAction.toVal (.reduce nt c sem))))
                      (⟨gstore ep (st :: rest) vals tok [.num st, .num ti], w, n⟩ :
                        RState V W Tok E)).bind k = k (Val.ofOption (some
                          (.record "LRAction" "Reduce" [("non_terminal_idx", .num nt),
                            ("n_symbols", .num c), ("semantic_action_idx", .num sem)])))
                      ⟨gstore ep (st :: rest) vals tok [.num st, .num ti], w, n⟩ := fun _ => rfl
                have hmp1 : matchPat H .none (.ofOption (some
                  (.record "LRAction" "Reduce" [("non_terminal_idx", .num nt),
                    ("n_symbols", .num c), ("semantic_action_idx", .num sem)])) : Val V Tok E) =
                  .some .none := rfl
                have hmp2 : matchPat H (.some (.record "LRAction" "Shift" ["next_state"]))
                  (.ofOption (some (.record "LRAction" "Reduce" [("non_terminal_idx", .num nt),
                    ("n_symbols", .num c), ("semantic_action_idx", .num sem)])) :
                    Val V Tok E) = .some .none := rfl
                have hmp3 : matchPat H (.some (.record "LRAction" "Reduce"
                    ["non_terminal_idx", "n_symbols", "semantic_action_idx"]))
                  (.ofOption (some (.record "LRAction" "Reduce" [("non_terminal_idx", .num nt),
                    ("n_symbols", .num c), ("semantic_action_idx", .num sem)])) :
                    Val V Tok E) = .some (.some [("non_terminal_idx", .num nt),
                    ("n_symbols", .num c), ("semantic_action_idx", .num sem)]) := rfl
                simp only [Option.map_some]
                rw [harm]
                simp only [evalArms, hmp1, hmp2, hmp3]
                rw [show Locals.bind lenv ([("non_terminal_idx", (.num nt : Val V Tok E)),
                      ("n_symbols", .num c), ("semantic_action_idx", .num sem)].map (·.1))
                    (⟨gstore ep (st :: rest) vals tok [.num st, .num ti], w, n⟩ : RState V W Tok E) =
                    renv from rfl,
                  show RState.push (⟨gstore ep (st :: rest) vals tok [.num st, .num ti], w, n⟩ :
                    RState V W Tok E) ([("non_terminal_idx", (.num nt : Val V Tok E)),
                      ("n_symbols", .num c), ("semantic_action_idx", .num sem)].map (·.2)) =
                    ⟨gstore ep (st :: rest) vals tok
                      [.num st, .num ti, .num nt, .num c, .num sem], w, n⟩ from rfl]
                revert hrd
                cases m.reduce H.code nt c sem (⟨st :: rest, vals, tok, n, w⟩ :
                  EState Tok V W E) with
                | noCompile => intro _; trivial
                | done o s' =>
                  rintro ⟨⟨f, rfl⟩, h⟩
                  obtain ⟨S, h1, h2⟩ := h .ret
                  simp only
                  rw [h1]
                  exact ⟨_, rfl, h2⟩
                | next s' =>
                  intro h
                  simp only at h ⊢
                  rw [h]
                  rfl

theorem EModule.accept_ne_next (m : EModule X Ty) (u : UserCode X V W) (ep : EStruct Ty)
    (s s' : EState Tok V W E) : m.accept u ep s ≠ .next s' := by
  unfold EModule.accept
  have hstep : ∀ (e : EFault) (t : EState Tok V W E), e.step t ≠ .next s' := by
    intro e t; cases e <;> simp [EFault.step]
  cases m.callAction u ep.action s.values s.world with
  | error e => exact hstep e s
  | ok a =>
    obtain ⟨vals, w⟩ := a
    cases vals with
    | nil => simp
    | cons v vals =>
      simp only
      cases m.callMethod ep.extract v with
      | error e => exact hstep e _
      | ok b => cases b <;> simp

/-- lr_codegen.rs:186-221 -/
theorem loopSem_text {m : EModule X Ty} (hm : m.Apart) (H : Host X V W Tok E) (fuel d : Nat)
    (ep : EStruct Ty) (k : Nat) (s : EState Tok V W E) :
    match m.loop H.code H.toR H.inj H.input ep k s with
    | none => loopSem k (eval m.text H (callFn m.text H fuel (d + 2)) fuel
        (loopText m.nTerminals m.idxCall m.valueCall) genv) (s.toR ep) = .fuel
    | some (none, _) => True
    | some (some o, s') =>
      (∃ s1, loopSem k (eval m.text H (callFn m.text H fuel (d + 2)) fuel
        (loopText m.nTerminals m.idxCall m.valueCall) genv) (s.toR ep) =
          .val (.tuple []) (s1.toR ep) ∧ m.accept H.code ep s1 = .done o s') ∨
      CallEnds .ret o s'.world s'.calls (loopSem k (eval m.text H (callFn m.text H fuel (d + 2)) fuel
        (loopText m.nTerminals m.idxCall m.valueCall) genv) (s.toR ep)) := by
  induction k generalizing s with
  | zero => rfl
  | succ k ih =>
    rw [EModule.loop, loopSem]
    have hb := eval_loopText hm H fuel d ep s
    rcases hb with ⟨h1, h2⟩ | hb
    · rw [h1]
      cases hst : m.step H.code H.toR H.inj H.input ep s with
      | next s' => rw [hst] at h2; exact absurd h2.symm (m.accept_ne_next _ _ _ _)
      | noCompile => trivial
      | done o s' => exact .inl ⟨s, rfl, h2 ▸ hst⟩
    · cases hst : m.step H.code H.toR H.inj H.input ep s with
      | noCompile => trivial
      | next s' =>
        rw [hst] at hb
        simp only at hb ⊢
        rw [hb]
        exact ih s'
      | done o s' =>
        rw [hst] at hb
        right
        simp only at hb ⊢
        cases o with
        | fault f =>
          obtain ⟨S, h1, h2⟩ := hb
          rw [h1]; exact ⟨S, rfl, h2⟩
        | ok v =>
          obtain ⟨v', S, h1, h2⟩ := hb
          rw [h1]; exact ⟨v', S, rfl, h2⟩
        | lexerError e =>
          obtain ⟨v', S, h1, h2⟩ := hb
          rw [h1]; exact ⟨v', S, rfl, h2⟩
        | parserError f x =>
          obtain ⟨v', S, h1, h2⟩ := hb
          rw [h1]; exact ⟨v', S, rfl, h2⟩

/-- What follows the loop: lr_codegen.rs:223-227. -/
def tailText : List (Stmt X) × Ex X :=
  ([.semi (.call (.index (.name "SEMANTIC_ACTIONS") (.name "action_idx")) [.refMut "value_stack"])],
    .call (.path "Result" "Ok")
      [.call (.name "extract_value") [.method (.method (.name "value_stack") "pop" []) "unwrap" []]])

theorem eval_tail {m : EModule X Ty} (hm : m.Apart) (H : Host X V W Tok E) (fuel d : Nat)
    {ep : EStruct Ty} (hep : ep ∈ m.structs) (s : EState Tok V W E) {o : Outcome V E}
    {s' : EState Tok V W E} (ho : m.accept H.code ep s = .done o s') :
    CallEnds .val o s'.world s'.calls
      ((evalStmts m.text H (callFn m.text H fuel (d + 2)) fuel tailText.1 genv (s.toR ep)).bind
        fun env s => eval m.text H (callFn m.text H fuel (d + 2)) fuel tailText.2 env s) := by
  obtain ⟨states, vals, tok, n, w⟩ := s
  have hsem := eval_semantic hm H fuel d (env := genv) (ep := ep) (states := states) (vals := vals)
    (tok := tok) (post := []) (w := w) (n := n) (i := .name "action_idx")
    (k := ep.action) (by rw [eval]; exact evalName_local (a := 4) _ rfl rfl) rfl rfl
  unfold EModule.accept at ho
  simp only [tailText, EState.toR, evalStmts, evalStmt]
  simp only at ho
  cases hca : m.callAction H.code ep.action vals w with
  | error e =>
    rw [hca] at ho hsem
    cases e with
    | noCompile => cases ho
    | panic p =>
      cases ho
      obtain ⟨S, h1, h2, h3⟩ := hsem
      rw [h1]
      exact ⟨S, rfl, fun _ => ⟨h2, h3⟩⟩
  | ok a =>
    obtain ⟨vals', w'⟩ := a
    rw [hca] at ho hsem
    simp only at ho hsem
    rw [hsem]
    simp only [Res.bind]
    have hpop := eval_pop m.text H (callFn m.text H fuel (d + 2)) fuel (x := "value_stack")
      (env := genv) (s := ⟨gstore ep states vals' tok [], w', n⟩) (a := 6)
      (l := vals'.reverse.map EVal.toVal) rfl rfl
    rw [stackVal_last, stackVal_pop,
      show RState.set (⟨gstore ep states vals' tok [], w', n⟩ : RState V W Tok E) 6
        (.vec (vals'.tail.reverse.map EVal.toVal)) = ⟨gstore ep states vals'.tail tok [], w', n⟩
        from rfl] at hpop
    have hun := eval_unwrap m.text H (callFn m.text H fuel (d + 2)) fuel
      (e := .method (.name "value_stack") "pop" []) rfl hpop
    have hex : ∀ S : RState V W Tok E, S.store = gstore ep states vals' tok [] →
        eval m.text H (callFn m.text H fuel (d + 2)) fuel (.name "extract_value") genv S =
        .val (.fn (.assoc "SemanticActionResult" ep.extract)) S := by
      intro S hS
      rw [eval]; exact evalName_local (a := 2) _ rfl (by rw [hS]; rfl)
    have hpath : ∀ S : RState V W Tok E,
        eval m.text H (callFn m.text H fuel (d + 2)) fuel (.path "Result" "Ok") genv S =
        .val (.fn (.assoc "Result" "Ok")) S := fun S => by rw [eval]
    rw [eval, hpath]
    simp only [Res.bind, evalAll]
    rw [eval, hex _ rfl]
    simp only [Res.bind, evalAll]
    rw [hun]
    cases vals' with
    | nil =>
      cases ho
      exact ⟨_, rfl, fun h => by cases h⟩
    | cons v rest =>
      simp only [List.head?_cons, Option.map_some, Option.elim_some, List.tail_cons]
      have hvar : (m.text : Program X V Tok E).variants.lookup
          ("SemanticActionResult", ep.extract) = none := by
        rw [List.lookup_eq_none_iff]
        intro q hq
        simp only [EModule.text, List.mem_cons, List.mem_map] at hq
        rcases hq with rfl | rfl | rfl | rfl | ⟨v, hv, rfl⟩
        · rfl
        · rfl
        · rfl
        · rfl
        · have := hm.extract ep hep v hv
          simp [Ne.symm this]
      have happ : apply (m.text : Program X V Tok E) (callFn m.text H fuel (d + 2))
          (.fn (.assoc "SemanticActionResult" ep.extract)) [v.toVal]
          ⟨gstore ep states rest tok [], w', n⟩ =
          callFn m.text H fuel (d + 2) (.assoc "SemanticActionResult" ep.extract) [v.toVal]
          ⟨gstore ep states rest tok [], w', n⟩ := by
        simp only [apply, hvar]
        rfl
      rw [happ]
      have hg := Gives.method m H fuel (d + 1) ep.extract v
        (⟨gstore ep states rest tok [], w', n⟩ : RState V W Tok E)
      simp only at ho
      cases hcm : m.callMethod ep.extract v with
      | error e =>
        rw [hcm] at ho hg
        cases e with
        | noCompile => cases ho
        | panic p =>
          cases ho
          simp only [Gives] at hg
          rw [hg]
          exact ⟨_, rfl, fun _ => ⟨rfl, rfl⟩⟩
      | ok b =>
        rw [hcm] at ho hg
        simp only [Gives] at hg
        rw [hg]
        cases b with
        | tok vs => cases ho
        | nt r =>
          cases ho
          exact ⟨.adt "Result" "Ok" [.ext r], _, rfl, rfl, rfl, rfl⟩

/-- How the emitted function and its text compare. -/
def TextRel (r : Option (Option (Outcome V E) × EState Tok V W E))
    (t : Res V W Tok E (Val V Tok E)) : Prop :=
  match r with
  | none => t = .fuel
  | some (none, _) => True
  | some (some o, s') => CallEnds .val o s'.world s'.calls t

theorem CallEnds.leave {o : Outcome V E} {w : W} {n : Nat} {t : Res V W Tok E (Val V Tok E)}
    (h : CallEnds .val o w n t) : CallEnds .val o w n ((((t.pop 5).finish 1).pop 1).finish 0) := by
  cases o with
  | fault f =>
    obtain ⟨S, rfl, h2⟩ := h
    exact ⟨_, rfl, h2⟩
  | ok v =>
    obtain ⟨v', S, rfl, h2⟩ := h
    exact ⟨v', _, rfl, h2⟩
  | lexerError e =>
    obtain ⟨v', S, rfl, h2⟩ := h
    exact ⟨v', _, rfl, h2⟩
  | parserError f x =>
    obtain ⟨v', S, rfl, h2⟩ := h
    exact ⟨v', _, rfl, h2⟩

theorem CallEnds.leaveRet {o : Outcome V E} {w : W} {n : Nat} {t : Res V W Tok E (Val V Tok E)}
    (h : CallEnds .ret o w n t)
    (k : Val V Tok E → RState V W Tok E → Res V W Tok E (Val V Tok E)) :
    CallEnds .val o w n (((((t.bind k).pop 5).finish 1).pop 1).finish 0) := by
  cases o with
  | fault f =>
    obtain ⟨S, rfl, h2⟩ := h
    exact ⟨_, rfl, h2⟩
  | ok v =>
    obtain ⟨v', S, rfl, h2⟩ := h
    exact ⟨v', _, rfl, h2⟩
  | lexerError e =>
    obtain ⟨v', S, rfl, h2⟩ := h
    exact ⟨v', _, rfl, h2⟩
  | parserError f x =>
    obtain ⟨v', S, rfl, h2⟩ := h
    exact ⟨v', _, rfl, h2⟩

theorem parse_text {m : EModule X Ty} (hm : m.Apart) (H : Host X V W Tok E) (fuel : Nat)
    {ep : EStruct Ty} (hep : ep ∈ m.structs) (w : W) :
    TextRel (m.parse H.code H.toR H.inj H.input ep w fuel) (m.runText H ep.name w fuel) := by
  have hfn := hm.fn_parse (V := V) (Tok := Tok) (E := E) hep
  simp only [Program.fn?] at hfn
  have hgn : (m.text : Program X V Tok E).fns.find? (·.name = .free "parse_generic") =
      some (genericText m.nTerminals m.idxCall m.valueCall) := by
    simp [EModule.text, genericText]
  -- `parse`
  have h1 : m.runText H ep.name w fuel =
      ((callFn m.text H fuel 3 (.free "parse_generic") [.iter,
        .fn (.assoc "SemanticActionResult" ep.extract), .num ep.state, .num ep.action]
        (⟨[.iter], w, 0⟩ : RState V W Tok E)).pop 1).finish 0 := by
    unfold EModule.runText
    rw [callFn]
    simp only [hfn]
    rfl
  -- `parse_generic`
  have h2 : callFn m.text H fuel 3 (.free "parse_generic") [.iter,
        .fn (.assoc "SemanticActionResult" ep.extract), .num ep.state, .num ep.action]
        (⟨[.iter], w, 0⟩ : RState V W Tok E) =
      (((loopSem fuel (eval m.text H (callFn m.text H fuel 2) fuel
          (loopText m.nTerminals m.idxCall m.valueCall) genv)
          ((⟨[ep.state], [], H.input 0, 1, w⟩ : EState Tok V W E).toR ep)).bind fun _ s =>
        (evalStmts m.text H (callFn m.text H fuel 2) fuel tailText.1 genv s).bind
        fun env s => eval m.text H (callFn m.text H fuel 2) fuel tailText.2 env s).pop 5).finish 1 := by
    rw [callFn]
    simp only [hgn]
    rw [show (genericText m.nTerminals m.idxCall m.valueCall : FnDecl X).body = .block [
      .let_ true "state_stack" (.vec [.name "init_state"]),
      .let_ true "value_stack" (.vec []),
      .let_ true "token" (.method (.name "input") "next" []),
      .semi (.loop (loopText m.nTerminals m.idxCall m.valueCall)),
      .semi (.call (.index (.name "SEMANTIC_ACTIONS") (.name "action_idx"))
        [.refMut "value_stack"])] tailText.2 from rfl]
    rw [eval_block]
    rw [if_pos (by rfl)]
    congr 2
    simp only [evalStmts, evalStmt, tailText]
    have hloop : ∀ s : RState V W Tok E, eval m.text H (callFn m.text H fuel 2) fuel
        (.loop (loopText m.nTerminals m.idxCall m.valueCall)) genv s =
        loopSem fuel (eval m.text H (callFn m.text H fuel 2) fuel
          (loopText m.nTerminals m.idxCall m.valueCall) genv) s := fun s => by rw [eval]
    have e1 : eval (m.text : Program X V Tok E) H (callFn m.text H fuel 2) fuel
        (.vec [.name "init_state"])
        [("input", 1), ("extract_value", 2), ("init_state", 3), ("action_idx", 4)]
        ⟨[.iter, .iter, .fn (.assoc "SemanticActionResult" ep.extract), .num ep.state,
          .num ep.action], w, 0⟩ = .val (.vec [.num ep.state])
        ⟨[.iter, .iter, .fn (.assoc "SemanticActionResult" ep.extract), .num ep.state,
          .num ep.action], w, 0⟩ := rfl
    have e2 : eval (m.text : Program X V Tok E) H (callFn m.text H fuel 2) fuel (.vec [])
        [("state_stack", 5), ("input", 1), ("extract_value", 2), ("init_state", 3),
          ("action_idx", 4)]
        ⟨[.iter, .iter, .fn (.assoc "SemanticActionResult" ep.extract), .num ep.state,
          .num ep.action, .vec [.num ep.state]], w, 0⟩ = .val (.vec [])
        ⟨[.iter, .iter, .fn (.assoc "SemanticActionResult" ep.extract), .num ep.state,
          .num ep.action, .vec [.num ep.state]], w, 0⟩ := rfl
    have e3 : eval (m.text : Program X V Tok E) H (callFn m.text H fuel 2) fuel
        (.method (.name "input") "next" [])
        [("value_stack", 6), ("state_stack", 5), ("input", 1), ("extract_value", 2),
          ("init_state", 3), ("action_idx", 4)]
        ⟨[.iter, .iter, .fn (.assoc "SemanticActionResult" ep.extract), .num ep.state,
          .num ep.action, .vec [.num ep.state], .vec []], w, 0⟩ = .val (.ofItem (H.input 0))
        ⟨[.iter, .iter, .fn (.assoc "SemanticActionResult" ep.extract), .num ep.state,
          .num ep.action, .vec [.num ep.state], .vec []], w, 1⟩ := rfl
    rw [show Locals.bind [] (genericText m.nTerminals m.idxCall m.valueCall : FnDecl X).params
        (⟨[.iter], w, 0⟩ : RState V W Tok E) =
        [("input", 1), ("extract_value", 2), ("init_state", 3), ("action_idx", 4)] from rfl,
      show RState.push (⟨[.iter], w, 0⟩ : RState V W Tok E) [.iter,
        .fn (.assoc "SemanticActionResult" ep.extract), .num ep.state, .num ep.action] =
        ⟨[.iter, .iter, .fn (.assoc "SemanticActionResult" ep.extract), .num ep.state,
          .num ep.action], w, 0⟩ from rfl, e1]
    simp only [Res.bind]
    rw [show Locals.bind [("input", 1), ("extract_value", 2), ("init_state", 3), ("action_idx", 4)]
        ["state_stack"] (⟨[.iter, .iter, .fn (.assoc "SemanticActionResult" ep.extract),
          .num ep.state, .num ep.action], w, 0⟩ : RState V W Tok E) =
        [("state_stack", 5), ("input", 1), ("extract_value", 2), ("init_state", 3),
          ("action_idx", 4)] from rfl,
      show RState.push (⟨[.iter, .iter, .fn (.assoc "SemanticActionResult" ep.extract),
          .num ep.state, .num ep.action], w, 0⟩ : RState V W Tok E) [.vec [.num ep.state]] =
        ⟨[.iter, .iter, .fn (.assoc "SemanticActionResult" ep.extract), .num ep.state,
          .num ep.action, .vec [.num ep.state]], w, 0⟩ from rfl, e2]
    simp only
    rw [show Locals.bind [("state_stack", 5), ("input", 1), ("extract_value", 2), ("init_state", 3),
          ("action_idx", 4)] ["value_stack"]
          (⟨[.iter, .iter, .fn (.assoc "SemanticActionResult" ep.extract),
          .num ep.state, .num ep.action, .vec [.num ep.state]], w, 0⟩ : RState V W Tok E) =
        [("value_stack", 6), ("state_stack", 5), ("input", 1), ("extract_value", 2),
          ("init_state", 3), ("action_idx", 4)] from rfl,
      show RState.push (⟨[.iter, .iter, .fn (.assoc "SemanticActionResult" ep.extract),
          .num ep.state, .num ep.action, .vec [.num ep.state]], w, 0⟩ : RState V W Tok E) [.vec []] =
        ⟨[.iter, .iter, .fn (.assoc "SemanticActionResult" ep.extract), .num ep.state,
          .num ep.action, .vec [.num ep.state], .vec []], w, 0⟩ from rfl, e3]
    simp only
    rw [show Locals.bind [("value_stack", 6), ("state_stack", 5), ("input", 1), ("extract_value", 2),
          ("init_state", 3), ("action_idx", 4)] ["token"]
          (⟨[.iter, .iter, .fn (.assoc "SemanticActionResult" ep.extract),
          .num ep.state, .num ep.action, .vec [.num ep.state], .vec []], w, 1⟩ :
            RState V W Tok E) = genv from rfl,
      show RState.push (⟨[.iter, .iter, .fn (.assoc "SemanticActionResult" ep.extract),
          .num ep.state, .num ep.action, .vec [.num ep.state], .vec []], w, 1⟩ :
            RState V W Tok E) [.ofItem (H.input 0)] =
        (⟨[ep.state], [], H.input 0, 1, w⟩ : EState Tok V W E).toR ep from rfl, hloop]
    generalize loopSem fuel _ _ = r
    cases r <;> rfl
  have hl := loopSem_text hm H fuel 0 ep fuel (⟨[ep.state], [], H.input 0, 1, w⟩ : EState Tok V W E)
  rw [h1, h2]
  unfold EModule.parse TextRel
  cases hr : m.loop H.code H.toR H.inj H.input ep fuel
      (⟨[ep.state], [], H.input 0, 1, w⟩ : EState Tok V W E) with
  | none =>
    rw [hr] at hl
    simp only at hl ⊢
    rw [hl]
    rfl
  | some a =>
    obtain ⟨o, s'⟩ := a
    cases o with
    | none => trivial
    | some o =>
      rw [hr] at hl
      simp only at hl ⊢
      rcases hl with ⟨s1, hl, hacc⟩ | hl
      · rw [hl]
        simp only [Res.bind]
        have ht := eval_tail hm H fuel 0 hep s1 hacc
        simp only [Res.bind] at ht
        revert ht
        generalize (match evalStmts m.text H (callFn m.text H fuel 2) fuel tailText.1 genv
          (s1.toR ep) with
          | .val a s => eval m.text H (callFn m.text H fuel 2) fuel tailText.2 a s
          | .ret v s => .ret v s
          | .brk s => .brk s
          | .panic f s => .panic f s
          | .noCompile => .noCompile
          | .fuel => .fuel) = t
        intro ht
        exact ht.leave
      · exact hl.leaveRet _

end Parsegen
