import Verif.Proofs.TextFn

/-! # The text of `parse_generic` -/

namespace Parsegen

variable {X Ty V W Tok E α : Type}

/-- The cells while `parse_generic` runs: `input` of `parse`, then the variables of `parse_generic`. -/
def gstore (ep : EStruct Ty) (states : List Nat) (vals : List (EVal V)) (tok : Option (Except E Tok))
    (post : List (Val V Tok E)) : List (Val V Tok E) :=
  .iter :: .iter :: .fn (.assoc "SemanticActionResult" ep.extract) :: .num ep.state ::
    .num ep.action :: .vec (states.reverse.map .num) :: stackVal vals :: .ofItem tok :: post

/-- The variables of `parse_generic`. -/
def genv : Locals := [("token", 7), ("value_stack", 6), ("state_stack", 5), ("input", 1),
  ("extract_value", 2), ("init_state", 3), ("action_idx", 4)]

/-- The variables in the body of the loop. -/
def lenv : Locals := ("terminal_idx", 9) :: ("state", 8) :: genv

/-- The state of the program that represents a state of the loop. -/
def EState.toR (ep : EStruct Ty) (s : EState Tok V W E) : RState V W Tok E :=
  ⟨gstore ep s.states s.values s.token [], s.world, s.calls⟩

/-- How a call ends: `k` is `return`ing or giving a value. -/
def CallEnds (k : Val V Tok E → RState V W Tok E → Res V W Tok E α) (o : Outcome V E) (w : W) (n : Nat)
    (r : Res V W Tok E α) : Prop :=
  match o with
  | .fault f => ∃ S, r = .panic f S ∧ (f = .userPanic → S.world = w ∧ S.calls = n)
  | o => ∃ v S, r = k v S ∧ v.outcome = some o ∧ S.world = w ∧ S.calls = n

theorem CallEnds.panic {k : Val V Tok E → RState V W Tok E → Res V W Tok E α} {f : Fault} {w : W}
    {n : Nat} {S : RState V W Tok E} (h : f = .userPanic → S.world = w ∧ S.calls = n) :
    CallEnds k (.fault f) w n (.panic f S) := ⟨S, rfl, h⟩

section lookups

variable (m : EModule X Ty)

theorem statics_action : (m.text : Program X V Tok E).statics.lookup "ACTION" =
    some (.vec (m.action.map fun row => .vec (row.map fun c => .ofOption (c.map RtAction.toVal)))) :=
  rfl

theorem statics_goto : (m.text : Program X V Tok E).statics.lookup "GOTO" =
    some (.vec (m.goto.map fun row => .vec (row.map fun c => .ofOption (c.map .num)))) := rfl

theorem statics_semantic : (m.text : Program X V Tok E).statics.lookup "SEMANTIC_ACTIONS" =
    some (.vec (m.semantic.map fun f => .fn (.free f))) := rfl

theorem statics_expected : (m.text : Program X V Tok E).statics.lookup "EXPECTED_TERMINALS" =
    some (.vec (m.expected.map .str)) := rfl

theorem statics_strs : (m.text : Program X V Tok E).statics.lookup "TERMINAL_STRS" =
    some (.vec (m.terminalStrs.map .str)) := rfl

theorem statics_none {x : String} (hx : x ∉ fixedStatics) :
    (m.text : Program X V Tok E).statics.lookup x = none := by
  simp only [fixedStatics, List.mem_cons, List.not_mem_nil, or_false, not_or] at hx
  obtain ⟨h1, h2, h3, h4, h5⟩ := hx
  simp [EModule.text, List.lookup_cons, beq_eq_false_iff_ne.2 h1, beq_eq_false_iff_ne.2 h2,
    beq_eq_false_iff_ne.2 h3, beq_eq_false_iff_ne.2 h4, beq_eq_false_iff_ne.2 h5]

end lookups

theorem evalName_static (P : Program X V Tok E) {x : String} {env : Locals} {s : RState V W Tok E}
    {v : Val V Tok E} (h1 : env.lookup x = none) (h2 : P.statics.lookup x = some v) :
    evalName P x env s = .val v s := by
  simp [evalName, h1, h2]

theorem evalName_fn (P : Program X V Tok E) {x : String} {env : Locals} {s : RState V W Tok E}
    (h1 : env.lookup x = none) (h2 : P.statics.lookup x = none) :
    evalName P x env s = .val (.fn (.free x)) s := by
  simp [evalName, h1, h2]

variable (P : Program X V Tok E) (H : Host X V W Tok E) (call : CallSem V W Tok E) (fuel : Nat)

theorem eval_name (x : String) (env : Locals) (s : RState V W Tok E) :
    eval P H call fuel (.name x) env s = evalName P x env s := by rw [eval]

theorem eval_index {e i : Ex X} {env : Locals} {s : RState V W Tok E} {v w : Val V Tok E}
    (he : eval P H call fuel e env s = .val v s) (hi : eval P H call fuel i env s = .val w s) :
    eval P H call fuel (.index e i) env s = indexVal v w s := by
  rw [eval]; simp only [he, Res.bind, hi]

/-- lr_codegen.rs:187, 213 -/
theorem eval_topState {env : Locals} {s : RState V W Tok E} {states : List Nat}
    (h1 : env.lookup "state_stack" = some 5)
    (h2 : s.store[5]? = some (.vec (states.reverse.map .num))) :
    eval P H call fuel topState env s = match states with
      | [] => .panic .unwrapNone s
      | x :: _ => .val (.num x) s := by
  have hp : place (.name "state_stack" : Ex X) env s = some 5 := by simp [place, h1, h2]
  have hl := eval_last P H call fuel hp h2
  have hun := eval_unwrap P H call fuel (e := .method (.name "state_stack") "last" []) rfl hl
  unfold topState
  rw [eval, eval]
  rw [hun]
  cases states with
  | nil => rfl
  | cons x l => simp [Res.bind]

/-- What `Err(ParseError::LexerError(e))` is. -/
def lexerErrorVal (e : E) : Val V Tok E :=
  .adt "Result" "Err" [.adt "ParseError" "LexerError" [.err e]]

/-- lr_codegen.rs:188-192 -/
theorem eval_terminalIdx {m : EModule X Ty} (hm : m.Apart) (H : Host X V W Tok E) (fuel d : Nat)
    {env : Locals} {s : RState V W Tok E} {tok : Option (Except E Tok)}
    (h1 : env.lookup "token" = some 7) (h2 : s.store[7]? = some (.ofItem tok))
    (h3 : env.lookup m.idxName = none) :
    match m.lookahead H.toR tok with
    | .error e => eval m.text H (callFn m.text H fuel (d + 1)) fuel
        (terminalIdxText m.nTerminals m.idxCall) env s = .ret (lexerErrorVal e) s
    | .ok r => Gives s r (fun k => .val (.num k) s)
        (eval m.text H (callFn m.text H fuel (d + 1)) fuel
          (terminalIdxText m.nTerminals m.idxCall) env s) := by
  unfold terminalIdxText
  rw [eval, eval, eval, evalName_local _ h1 h2]
  simp only [Res.bind]
  rcases tok with _ | e | t
  · simp [EModule.lookahead, Gives, Val.ofItem, Val.ofOption, evalArms, matchPat, Pat.none, matchPats,
      eval, Res.pop]
  · have hv1 : (m.text : Program X V Tok E).variants.lookup ("ParseError", "LexerError") = some 1 := rfl
    have hv2 : (m.text : Program X V Tok E).variants.lookup ("Result", "Err") = some 1 := rfl
    simp [EModule.lookahead, Val.ofItem, Val.ofOption, evalArms, matchPat, Pat.none, Pat.some,
      matchPats, eval, evalAll, place, Locals.bind, RState.push, hasMethod, callMethod, Res.bind,
      apply, hv1, hv2, Res.pop, RState.pop, lexerErrorVal]
  · have hx : m.idxName ≠ "token" := fun e => hm.idxLocal (by rw [e]; decide)
    have hl : (("token", s.store.length) :: env).lookup m.idxName = none := by
      rw [List.lookup_cons, beq_eq_false_iff_ne.2 hx]; exact h3
    have hs : (m.text : Program X V Tok E).statics.lookup m.idxName = none :=
      statics_none m (hm.names.2.2.2.2 _ (by simp [EModule.fnItems]))
    have hg := Gives.idx hm H fuel d t (s.push [.tok t])
    have hn : ∀ s' : RState V W Tok E, evalName (m.text : Program X V Tok E) m.idxName
        (("token", s.store.length) :: env) s' = .val (.fn (.free m.idxName)) s' :=
      fun s' => evalName_fn _ hl hs
    have ht : evalName (m.text : Program X V Tok E) "token" (("token", s.store.length) :: env)
        (s.push [.tok t]) = .val (.tok t) (s.push [.tok t]) :=
      evalName_local (a := s.store.length) _ (by simp) (by simp [RState.push])
    have he : evalArms (m.text : Program X V Tok E) H (callFn m.text H fuel (d + 1)) fuel
        [(.none, .num m.nTerminals),
          (.some (.ctor "Result" "Err" [.var "err"]),
            .return_ (.call (.path "Result" "Err")
              [.call (.path "ParseError" "LexerError") [.method (.name "err") "clone" []]])),
          (.some (.ctor "Result" "Ok" [.var "token"]), .call (.name m.idxCall) [.ref (.name "token")])]
        (.ofItem (.some (.ok t))) env s =
        (callFn m.text H fuel (d + 1) (.free m.idxName) [.tok t] (s.push [.tok t])).pop
          s.store.length := by
      simp [Val.ofItem, Val.ofOption, evalArms, matchPat, Pat.none, Pat.some, matchPats, eval, evalAll,
        Locals.bind, Res.bind, hm.idx, hn, ht, apply]
    rw [he]
    simp only [EModule.lookahead]
    cases hc : m.callIdx (H.toR t) with
    | ok k =>
      rw [hc] at hg
      simp only [Gives] at hg ⊢
      rw [hg]; simp [Res.pop]
    | error e =>
      cases e with
      | noCompile => trivial
      | panic f =>
        rw [hc] at hg
        simp only [Gives] at hg ⊢
        rw [hg]; simp [Res.pop]

/-- `SEMANTIC_ACTIONS[i](&mut value_stack)` -/
theorem eval_semantic {m : EModule X Ty} (hm : m.Apart) (H : Host X V W Tok E) (fuel d : Nat)
    {env : Locals} {ep : EStruct Ty} {states : List Nat} {vals : List (EVal V)}
    {tok : Option (Except E Tok)} {post : List (Val V Tok E)} {w : W} {n : Nat} {i : Ex X} {k : Nat}
    (hi : eval m.text H (callFn m.text H fuel (d + 2)) fuel i env
      ⟨gstore ep states vals tok post, w, n⟩ = .val (.num k) ⟨gstore ep states vals tok post, w, n⟩)
    (h1 : env.lookup "value_stack" = some 6) (h2 : env.lookup "SEMANTIC_ACTIONS" = none) :
    match m.callAction H.code k vals w with
    | .ok (vals', w') => eval m.text H (callFn m.text H fuel (d + 2)) fuel
        (.call (.index (.name "SEMANTIC_ACTIONS") i) [.refMut "value_stack"]) env
        ⟨gstore ep states vals tok post, w, n⟩ =
        .val (.tuple []) ⟨gstore ep states vals' tok post, w', n⟩
    | .error (.panic p) => PanicsIn p w n (eval m.text H (callFn m.text H fuel (d + 2)) fuel
        (.call (.index (.name "SEMANTIC_ACTIONS") i) [.refMut "value_stack"]) env
        ⟨gstore ep states vals tok post, w, n⟩)
    | .error .noCompile => True := by
  have hidx := eval_index m.text H (callFn m.text H fuel (d + 2)) fuel
    (e := .name "SEMANTIC_ACTIONS") (env := env)
    (s := ⟨gstore ep states vals tok post, w, n⟩)
    (by rw [eval]; exact evalName_static _ h2 (statics_semantic m)) hi
  rw [eval, hidx]
  unfold EModule.callAction indexVal
  simp only [List.getElem?_map]
  cases hk : m.semantic[k]? with
  | none => exact ⟨_, rfl, rfl, rfl⟩
  | some name =>
    simp only [Option.map_some, Res.bind, evalAll, eval, h1, apply]
    cases hf : m.actionFns.find? (·.name = name) with
    | none => trivial
    | some f =>
      exact runFn_text H fuel d (r := 6) (gstore ep states vals tok post) vals rfl w n f
        (hm.fn_action hf)

/-! ## The arms -/

/-- What `Err(ParseError::ParserError { found, expected })` is. -/
def parserErrorVal (f x : String) : Val V Tok E :=
  .adt "Result" "Err" [.record "ParseError" "ParserError" [("found", .str f), ("expected", .str x)]]

/-- lr_codegen.rs:194-200 -/
theorem eval_errorText (m : EModule X Ty) (H : Host X V W Tok E) (call : CallSem V W Tok E)
    (fuel : Nat) (ep : EStruct Ty) (states : List Nat) (vals : List (EVal V))
    (tok : Option (Except E Tok)) (st ti : Nat) (w : W) (n : Nat) :
    match m.terminalStrs[ti]?, m.expected[st]? with
    | some f, some x => eval m.text H call fuel errorText lenv
        ⟨gstore ep states vals tok [.num st, .num ti], w, n⟩ =
        .ret (parserErrorVal f x) ⟨gstore ep states vals tok [.num st, .num ti], w, n⟩
    | _, _ => ∃ s, eval m.text H call fuel errorText lenv
        ⟨gstore ep states vals tok [.num st, .num ti], w, n⟩ = .panic .indexOutOfBounds s := by
  have hv2 : (m.text : Program X V Tok E).variants.lookup ("Result", "Err") = some 1 := rfl
  have e1 : eval m.text H call fuel (.index (.name "TERMINAL_STRS") (.name "terminal_idx")) lenv
      ⟨gstore ep states vals tok [.num st, .num ti], w, n⟩ =
      indexVal (.vec (m.terminalStrs.map .str)) (.num ti)
        ⟨gstore ep states vals tok [.num st, .num ti], w, n⟩ :=
    eval_index _ _ _ _
      (by rw [eval]; exact evalName_static _ rfl (statics_strs m))
      (by rw [eval]; exact evalName_local (a := 9) _ rfl rfl)
  have e2 : ∀ f, eval m.text H call fuel (.index (.name "EXPECTED_TERMINALS") (.name "state"))
      (("found", 10) :: lenv) ⟨gstore ep states vals tok [.num st, .num ti, .str f], w, n⟩ =
      indexVal (.vec (m.expected.map .str)) (.num st)
        ⟨gstore ep states vals tok [.num st, .num ti, .str f], w, n⟩ := fun f =>
    eval_index _ _ _ _
      (by rw [eval]; exact evalName_static _ rfl (statics_expected m))
      (by rw [eval]; exact evalName_local (a := 8) _ rfl rfl)
  unfold errorText Ex.body
  rw [eval_block]
  simp only [evalStmts, evalStmt, e1, indexVal, List.getElem?_map]
  cases h1 : m.terminalStrs[ti]? with
  | none => exact ⟨_, rfl⟩
  | some f =>
    simp only [Option.map_some, Res.bind]
    have := e2 f
    simp only [indexVal, List.getElem?_map] at this
    rw [show Locals.bind lenv ["found"]
      (⟨gstore ep states vals tok [.num st, .num ti], w, n⟩ : RState V W Tok E) =
        ("found", 10) :: lenv from rfl,
      show RState.push (⟨gstore ep states vals tok [.num st, .num ti], w, n⟩ : RState V W Tok E)
        [.str f] = ⟨gstore ep states vals tok [.num st, .num ti, .str f], w, n⟩ from rfl, this]
    cases h2 : m.expected[st]? with
    | none => exact ⟨_, rfl⟩
    | some x =>
      simp only [Option.map_some]
      rfl

theorem EModule.construct_ne_panic (m : EModule X Ty) (name : String) (us : List V) (p : Fault) :
    m.construct name us ≠ .error (.panic p) := by
  unfold EModule.construct
  intro hc
  split at hc
  · cases hc
  · split at hc <;> cases hc

theorem EModule.callValue_ne_panic (m : EModule X Ty) (inj : RVal → V) (v : RVal) (p : Fault) :
    m.callValue inj v ≠ .error (.panic p) := by
  unfold EModule.callValue
  split
  · generalize m.valueArms = arms
    induction arms with
    | nil => simp [EModule.runValueArms]
    | cons a arms ih =>
      simp only [EModule.runValueArms]
      cases matchR a.pat v with
      | none => exact ih
      | some b =>
        simp only
        cases a.args.mapM fun x => b.lookup x with
        | none => simp
        | some vs => exact m.construct_ne_panic _ _ _
  · simp

theorem states_push (nx : Nat) (states : List Nat) :
    (states.reverse.map (Val.num : Nat → Val V Tok E)) ++ [.num nx] =
      (nx :: states).reverse.map .num := by simp

theorem stack_push (v : EVal V) (vals : List (EVal V)) :
    (vals.reverse.map (EVal.toVal : EVal V → Val V Tok E)) ++ [v.toVal] =
      (v :: vals).reverse.map EVal.toVal := by simp

/-- The value of `replace`'s arguments and result in lr_codegen.rs:203. -/
theorem eval_replace (m : EModule X Ty) (H : Host X V W Tok E) (call : CallSem V W Tok E)
    (fuel : Nat) (ep : EStruct Ty) (states : List Nat) (vals : List (EVal V))
    (tok : Option (Except E Tok)) (post : List (Val V Tok E)) (w : W) (n : Nat) {env : Locals}
    (h1 : env.lookup "token" = some 7) (h2 : env.lookup "input" = some 1) :
    eval m.text H call fuel
      (.call (.path "::std::mem" "replace") [.refMut "token", .method (.name "input") "next" []]) env
      ⟨gstore ep states vals tok post, w, n⟩ =
      .val (.ofItem tok) ⟨gstore ep states vals (H.input n) post, w, n + 1⟩ := by
  have hn := eval_next m.text H call fuel (x := "input") (env := env)
    (s := ⟨gstore ep states vals tok post, w, n⟩) (a := 1) (by simp [place, h2, gstore]) rfl
  rw [eval, eval]
  simp only [Res.bind, evalAll]
  rw [eval]
  simp only [h1, hn]
  rfl

/-- lr_codegen.rs:201-207 -/
theorem eval_shiftText {m : EModule X Ty} (hm : m.Apart) (H : Host X V W Tok E) (fuel d : Nat)
    (ep : EStruct Ty) (states : List Nat) (vals : List (EVal V))
    (tok : Option (Except E Tok)) (st ti nx : Nat) (w : W) (n : Nat) :
    match m.shift H.toR H.inj H.input nx (⟨states, vals, tok, n, w⟩ : EState Tok V W E) with
    | .next s' => eval m.text H (callFn m.text H fuel (d + 1)) fuel (shiftText m.valueCall)
        (("next_state", 10) :: lenv)
        ⟨gstore ep states vals tok [.num st, .num ti, .num nx], w, n⟩ =
        .val (.tuple []) ⟨gstore ep s'.states s'.values s'.token [.num st, .num ti, .num nx],
          s'.world, s'.calls⟩
    | .done _ _ => False
    | .noCompile => True := by
  have hpush : eval m.text H (callFn m.text H fuel (d + 1)) fuel
      (.method (.name "state_stack") "push" [.name "next_state"]) (("next_state", 10) :: lenv)
      ⟨gstore ep states vals tok [.num st, .num ti, .num nx], w, n⟩ =
      .val (.tuple []) ⟨gstore ep (nx :: states) vals tok [.num st, .num ti, .num nx], w, n⟩ := by
    refine (eval_push (v := .num nx) m.text H _ fuel (a := 5) rfl rfl
      (by rw [eval]; exact evalName_local (a := 10) _ rfl rfl) rfl).trans ?_
    rw [states_push]; rfl
  have hrep := eval_replace m H (callFn m.text H fuel (d + 1)) fuel ep (nx :: states) vals tok
    [.num st, .num ti, .num nx] w n (env := ("next_state", 10) :: lenv) rfl rfl
  have htok_ : ∀ call : CallSem V W Tok E, eval m.text H call fuel (.name "token_")
      (("token_", 11) :: ("next_state", 10) :: lenv)
      ⟨gstore ep (nx :: states) vals (H.input n) [.num st, .num ti, .num nx, .ofItem tok], w, n + 1⟩ =
      .val (.ofItem tok) ⟨gstore ep (nx :: states) vals (H.input n)
        [.num st, .num ti, .num nx, .ofItem tok], w, n + 1⟩ := fun call => by
    rw [eval]; exact evalName_local (a := 11) _ rfl rfl
  have hmain : eval m.text H (callFn m.text H fuel (d + 1)) fuel (shiftText m.valueCall)
        (("next_state", 10) :: lenv)
        ⟨gstore ep states vals tok [.num st, .num ti, .num nx], w, n⟩ =
      ((eval m.text H (callFn m.text H fuel (d + 1)) fuel
        (.ifLet (.some (.ctor "Result" "Ok" [.var "token"])) (.name "token_") (.body [
          .semi (.method (.name "value_stack") "push" [.call (.name m.valueCall) [.name "token"]])]))
        (("token_", 11) :: ("next_state", 10) :: lenv)
        ⟨gstore ep (nx :: states) vals (H.input n) [.num st, .num ti, .num nx, .ofItem tok], w,
          n + 1⟩).bind fun _ s => .val (.tuple []) s).pop 11 := by
    unfold shiftText Ex.body
    rw [eval_block]
    simp only [evalStmts, evalStmt, hpush, hrep, Res.bind]
    rw [show Locals.bind (("next_state", 10) :: lenv) ["token_"] (⟨gstore ep (nx :: states) vals
        (H.input n) [.num st, .num ti, .num nx], w, n + 1⟩ : RState V W Tok E) =
        ("token_", 11) :: ("next_state", 10) :: lenv from rfl,
      show RState.push (⟨gstore ep (nx :: states) vals
        (H.input n) [.num st, .num ti, .num nx], w, n + 1⟩ : RState V W Tok E) [.ofItem tok] =
        ⟨gstore ep (nx :: states) vals (H.input n) [.num st, .num ti, .num nx, .ofItem tok], w,
          n + 1⟩ from rfl]
    generalize eval m.text H (callFn m.text H fuel (d + 1)) fuel (.ifLet _ _ _) _ _ = r
    cases r <;> rfl
  rw [hmain, eval, htok_]
  simp only [EModule.shift]
  rcases tok with _ | e | t
  · rfl
  · rfl
  · simp only
    cases hc : m.callValue H.inj (H.toR t) with
    | error e =>
      cases e with
      | noCompile => trivial
      | panic p => exact absurd hc (m.callValue_ne_panic _ _ _)
    | ok v =>
      simp only
      have hs : (m.text : Program X V Tok E).statics.lookup m.valueName = none :=
        statics_none m (hm.names.2.2.2.2 _ (by simp [EModule.fnItems]))
      have hl : List.lookup m.valueName
          (("token", 12) :: ("token_", 11) :: ("next_state", 10) :: lenv) = none := by
        have := hm.valueLocal
        simp only [valueCallLocals, idxCallLocals, List.cons_append, List.nil_append, List.mem_cons,
          List.not_mem_nil, or_false, not_or] at this
        simp only [lenv, genv, List.lookup_cons, List.lookup_nil, beq_eq_false_iff_ne.2 this.1,
          beq_eq_false_iff_ne.2 this.2.1, beq_eq_false_iff_ne.2 this.2.2.1,
          beq_eq_false_iff_ne.2 this.2.2.2.1, beq_eq_false_iff_ne.2 this.2.2.2.2.1,
          beq_eq_false_iff_ne.2 this.2.2.2.2.2.1, beq_eq_false_iff_ne.2 this.2.2.2.2.2.2.1,
          beq_eq_false_iff_ne.2 this.2.2.2.2.2.2.2.1, beq_eq_false_iff_ne.2 this.2.2.2.2.2.2.2.2.1,
          beq_eq_false_iff_ne.2 this.2.2.2.2.2.2.2.2.2.1,
          beq_eq_false_iff_ne.2 this.2.2.2.2.2.2.2.2.2.2]
      have hg := Gives.value hm H fuel d t (⟨gstore ep (nx :: states) vals (H.input n)
        [.num st, .num ti, .num nx, .ofItem (.some (.ok t)), .tok t], w, n + 1⟩ : RState V W Tok E)
      rw [hc] at hg
      simp only [Gives] at hg
      have harg : eval m.text H (callFn m.text H fuel (d + 1)) fuel
          (.call (.name m.valueCall) [.name "token"])
          (("token", 12) :: ("token_", 11) :: ("next_state", 10) :: lenv)
          ⟨gstore ep (nx :: states) vals (H.input n)
            [.num st, .num ti, .num nx, .ofItem (.some (.ok t)), .tok t], w, n + 1⟩ =
          .val v.toVal ⟨gstore ep (nx :: states) vals (H.input n)
            [.num st, .num ti, .num nx, .ofItem (.some (.ok t)), .tok t], w, n + 1⟩ := by
        rw [eval, eval, hm.value, evalName_fn _ hl hs]
        simp only [Res.bind, evalAll]
        rw [eval, evalName_local (a := 12) (v := .tok t) _ rfl rfl]
        exact hg
      have hp := eval_push m.text H (callFn m.text H fuel (d + 1)) fuel (x := "value_stack") (a := 6)
        (l := vals.reverse.map EVal.toVal) (l' := vals.reverse.map EVal.toVal)
        rfl rfl harg rfl
      have hb : eval m.text H (callFn m.text H fuel (d + 1)) fuel
          (.body [.semi (.method (.name "value_stack") "push"
            [.call (.name m.valueCall) [.name "token"]])])
          (("token", 12) :: ("token_", 11) :: ("next_state", 10) :: lenv)
          ⟨gstore ep (nx :: states) vals (H.input n)
            [.num st, .num ti, .num nx, .ofItem (.some (.ok t)), .tok t], w, n + 1⟩ =
          .val (.tuple []) ⟨gstore ep (nx :: states) (v :: vals) (H.input n)
            [.num st, .num ti, .num nx, .ofItem (.some (.ok t)), .tok t], w, n + 1⟩ := by
        unfold Ex.body
        rw [eval_block]
        simp only [evalStmts, evalStmt, hp, Res.bind]
        rw [stack_push]
        rfl
      have hmp : matchPat H (.some (.ctor "Result" "Ok" [.var "token"]))
          (.ofItem (.some (.ok t)) : Val V Tok E) = .some (.some [("token", .tok t)]) := rfl
      simp only [Res.bind, hmp]
      rw [show Locals.bind (("token_", 11) :: ("next_state", 10) :: lenv)
          ([("token", (.tok t : Val V Tok E))].map (·.1)) (⟨gstore ep (nx :: states) vals
          (H.input n) [.num st, .num ti, .num nx, .ofItem (.some (.ok t))], w, n + 1⟩ :
            RState V W Tok E) = ("token", 12) :: ("token_", 11) :: ("next_state", 10) :: lenv from rfl,
        show RState.push (⟨gstore ep (nx :: states) vals (H.input n)
          [.num st, .num ti, .num nx, .ofItem (.some (.ok t))], w, n + 1⟩ : RState V W Tok E)
          ([("token", (.tok t : Val V Tok E))].map (·.2)) = ⟨gstore ep (nx :: states) vals (H.input n)
            [.num st, .num ti, .num nx, .ofItem (.some (.ok t)), .tok t], w, n + 1⟩ from rfl, hb]
      rfl

/-- lr_codegen.rs:210-212 -/
theorem forSem_pops (m : EModule X Ty) (H : Host X V W Tok E) (call : CallSem V W Tok E)
    (fuel : Nat) (ep : EStruct Ty) (vals : List (EVal V)) (tok : Option (Except E Tok))
    (post : List (Val V Tok E)) (w : W) (n : Nat) {env : Locals}
    (h1 : env.lookup "state_stack" = some 5) (k : Nat) (states : List Nat) :
    if states.length < k then
      ∃ S, forSem k (eval m.text H call fuel (.body [
        .semi (.method (.method (.name "state_stack") "pop" []) "unwrap" [])]) env)
        ⟨gstore ep states vals tok post, w, n⟩ = .panic .unwrapNone S
    else forSem k (eval m.text H call fuel (.body [
        .semi (.method (.method (.name "state_stack") "pop" []) "unwrap" [])]) env)
        ⟨gstore ep states vals tok post, w, n⟩ =
        .val (.tuple []) ⟨gstore ep (states.drop k) vals tok post, w, n⟩ := by
  induction k generalizing states with
  | zero => simp [forSem]
  | succ k ih =>
    have hpop : eval m.text H call fuel (.method (.name "state_stack") "pop" []) env
        ⟨gstore ep states vals tok post, w, n⟩ =
        .val (.ofOption (states.head?.map .num)) ⟨gstore ep states.tail vals tok post, w, n⟩ := by
      rw [eval_pop (a := 5) (l := states.reverse.map .num) _ _ _ _ (by simp [place, h1, gstore]) rfl]
      cases states with
      | nil => rfl
      | cons x states => simp [gstore, RState.set]
    have hun := eval_unwrap m.text H call fuel (e := .method (.name "state_stack") "pop" []) rfl hpop
    cases states with
    | nil =>
      simp only [List.length_nil, Nat.zero_lt_succ, if_true]
      refine ⟨⟨gstore ep [] vals tok post, w, n⟩, ?_⟩
      rw [forSem]
      unfold Ex.body
      rw [eval_block]
      simp only [evalStmts, evalStmt, hun]
      simp [Res.bind, Res.pop, RState.pop]
    | cons x states =>
      have hb : eval m.text H call fuel (.body [
          .semi (.method (.method (.name "state_stack") "pop" []) "unwrap" [])]) env
          ⟨gstore ep (x :: states) vals tok post, w, n⟩ =
          .val (.tuple []) ⟨gstore ep states vals tok post, w, n⟩ := by
        unfold Ex.body
        rw [eval_block]
        simp only [evalStmts, evalStmt, hun]
        simp [Res.bind, Res.pop, RState.pop, eval_unit, gstore]
      rw [forSem, hb]
      simpa using ih states

/-- The variables in the `Reduce` arm. -/
def renv : Locals :=
  ("non_terminal_idx", 10) :: ("n_symbols", 11) :: ("semantic_action_idx", 12) :: lenv

/-- lr_codegen.rs:208-218 -/
theorem eval_reduceText {m : EModule X Ty} (hm : m.Apart) (H : Host X V W Tok E) (fuel d : Nat)
    (ep : EStruct Ty) (states : List Nat) (vals : List (EVal V))
    (tok : Option (Except E Tok)) (st ti nt c sem : Nat) (w : W) (n : Nat) :
    match m.reduce H.code nt c sem (⟨states, vals, tok, n, w⟩ : EState Tok V W E) with
    | .next s' => eval m.text H (callFn m.text H fuel (d + 2)) fuel reduceText' renv
        ⟨gstore ep states vals tok [.num st, .num ti, .num nt, .num c, .num sem], w, n⟩ =
        .val (.tuple []) ⟨gstore ep s'.states s'.values s'.token
          [.num st, .num ti, .num nt, .num c, .num sem], s'.world, s'.calls⟩
    | .done o s' => (∃ f, o = .fault f) ∧ ∀ k, CallEnds k o s'.world s'.calls
        (eval m.text H (callFn m.text H fuel (d + 2)) fuel reduceText' renv
          ⟨gstore ep states vals tok [.num st, .num ti, .num nt, .num c, .num sem], w, n⟩)
    | .noCompile => True := by
  generalize hpost : ([.num st, .num ti, .num nt, .num c, .num sem] : List (Val V Tok E)) = post
  have hlen : ∀ states vals tok, (gstore ep states vals tok post).length = 13 := by
    subst hpost; intros; rfl
  have hsem := eval_semantic hm H fuel d (env := renv) (ep := ep) (states := states) (vals := vals)
    (tok := tok) (post := post) (w := w) (n := n) (i := .cast (.name "semantic_action_idx"))
    (k := sem) (by
      rw [eval, eval, evalName_local (a := 12) (v := .num sem) _ rfl (by subst hpost; rfl)]; rfl)
    rfl rfl
  unfold reduceText' Ex.body
  rw [eval_block]
  simp only [evalStmts, evalStmt, EModule.reduce]
  cases hca : m.callAction H.code sem vals w with
  | error e =>
    rw [hca] at hsem
    cases e with
    | noCompile => trivial
    | panic p =>
      obtain ⟨S, h1, h2, h3⟩ := hsem
      refine ⟨⟨p, rfl⟩, fun k => ⟨S.pop 13, ?_, fun _ => ⟨h2, h3⟩⟩⟩
      rw [h1]
      simp only [Res.bind, Res.pop, hlen]
  | ok a =>
    obtain ⟨vals', w'⟩ := a
    rw [hca] at hsem
    simp only at hsem ⊢
    rw [hsem]
    simp only [Res.bind]
    have hfor := forSem_pops m H (callFn m.text H fuel (d + 2)) fuel ep vals' tok post w' n
      (env := renv) rfl c states
    have hforRange : eval m.text H (callFn m.text H fuel (d + 2)) fuel
        (.forRange (.name "n_symbols") (.body [
          .semi (.method (.method (.name "state_stack") "pop" []) "unwrap" [])])) renv
        ⟨gstore ep states vals' tok post, w', n⟩ =
        forSem c (eval m.text H (callFn m.text H fuel (d + 2)) fuel (.body [
          .semi (.method (.method (.name "state_stack") "pop" []) "unwrap" [])]) renv)
        ⟨gstore ep states vals' tok post, w', n⟩ := by
      rw [eval, eval, evalName_local (a := 11) (v := .num c) _ rfl (by subst hpost; rfl)]; rfl
    unfold Ex.body at hforRange hfor
    rw [hforRange]
    by_cases hlt : states.length < c
    · rw [if_pos hlt] at hfor ⊢
      obtain ⟨S, hS⟩ := hfor
      refine ⟨⟨_, rfl⟩, fun k => ⟨S.pop 13, ?_, fun h => by cases h⟩⟩
      rw [hS]
      simp only [Res.pop, hlen]
    · rw [if_neg hlt] at hfor ⊢
      rw [hfor]
      simp only
      have htop := eval_topState m.text H (callFn m.text H fuel (d + 2)) fuel (env := renv)
        (s := ⟨gstore ep (states.drop c) vals' tok post, w', n⟩) (states := states.drop c) rfl rfl
      rw [htop]
      cases hdrop : states.drop c with
      | nil =>
        exact ⟨⟨_, rfl⟩, fun k => ⟨_, rfl, fun h => by cases h⟩⟩
      | cons x rest =>
        simp only
        have henv : Locals.bind renv ["state"]
            (⟨gstore ep (x :: rest) vals' tok post, w', n⟩ : RState V W Tok E) =
            ("state", 13) :: renv := by subst hpost; rfl
        have hst : RState.push (⟨gstore ep (x :: rest) vals' tok post, w', n⟩ : RState V W Tok E)
            [.num x] = ⟨gstore ep (x :: rest) vals' tok (post ++ [.num x]), w', n⟩ := rfl
        rw [henv, hst]
        have hidx1 := eval_index m.text H (callFn m.text H fuel (d + 2)) fuel
          (e := .name "GOTO") (i := .name "state") (env := ("state", 13) :: renv)
          (s := ⟨gstore ep (x :: rest) vals' tok (post ++ [.num x]), w', n⟩) (w := .num x)
          (by rw [eval]; exact evalName_static _ rfl (statics_goto m))
          (by rw [eval]; exact evalName_local (a := 13) _ rfl (by subst hpost; rfl))
        have hntx : eval m.text H (callFn m.text H fuel (d + 2)) fuel
            (.cast (.name "non_terminal_idx")) (("state", 13) :: renv)
            ⟨gstore ep (x :: rest) vals' tok (post ++ [.num x]), w', n⟩ =
            .val (.num nt) ⟨gstore ep (x :: rest) vals' tok (post ++ [.num x]), w', n⟩ := by
          rw [eval, eval, evalName_local (a := 10) (v := .num nt) _ rfl (by subst hpost; rfl)]; rfl
        simp only [indexVal, List.getElem?_map] at hidx1
        rw [eval]
        cases hg : m.goto[x]? with
        | none =>
          rw [hg] at hidx1
          simp only [Option.map_none] at hidx1
          refine ⟨⟨_, rfl⟩, fun k => ⟨⟨gstore ep (x :: rest) vals' tok post, w', n⟩, ?_,
            fun h => by cases h⟩⟩
          rw [eval, hidx1]
          subst hpost; rfl
        | some row =>
          rw [hg] at hidx1
          simp only [Option.map_some] at hidx1
          have hidx2 := eval_index m.text H (callFn m.text H fuel (d + 2)) fuel hidx1 hntx
          simp only [indexVal, List.getElem?_map] at hidx2
          rw [hidx2]
          simp only
          cases hr : row[nt]? with
          | none =>
            refine ⟨⟨_, rfl⟩, fun k => ⟨⟨gstore ep (x :: rest) vals' tok post, w', n⟩, ?_,
              fun h => by cases h⟩⟩
            subst hpost; rfl
          | some cell =>
            cases cell with
            | none =>
              refine ⟨⟨_, rfl⟩, fun k => ⟨⟨gstore ep (x :: rest) vals' tok post, w', n⟩, ?_,
                fun h => by cases h⟩⟩
              subst hpost; rfl
            | some nx =>
              simp only [Option.map_some, Res.bind]
              have hmp : matchPat H .none (.ofOption (.some (.num nx)) : Val V Tok E) =
                .some .none := rfl
              have hmp2 : matchPat H (.some (.var "next_state"))
                (.ofOption (.some (.num nx)) : Val V Tok E) =
                .some (.some [("next_state", .num nx)]) := rfl
              simp only [evalArms, hmp, hmp2]
              have hp := eval_push m.text H (callFn m.text H fuel (d + 2)) fuel
                (x := "state_stack") (a := 5) (e := .name "next_state") (v := .num nx)
                (env := ("next_state", 14) :: ("state", 13) :: renv)
                (s := ⟨gstore ep (x :: rest) vals' tok (post ++ [.num x, .num nx]), w', n⟩)
                (l := (x :: rest).reverse.map .num) (l' := (x :: rest).reverse.map .num) rfl rfl
                (by rw [eval]; exact evalName_local (a := 14) _ rfl (by subst hpost; rfl)) rfl
              rw [states_push] at hp
              subst hpost
              rw [show Locals.bind (("state", 13) :: renv) ([("next_state",
                  (.num nx : Val V Tok E))].map (·.1)) (⟨gstore ep (x :: rest) vals' tok
                  ([.num st, .num ti, .num nt, .num c, .num sem] ++ [.num x]), w', n⟩ :
                  RState V W Tok E) = ("next_state", 14) :: ("state", 13) :: renv from rfl,
                show RState.push (⟨gstore ep (x :: rest) vals' tok
                  ([.num st, .num ti, .num nt, .num c, .num sem] ++ [.num x]), w', n⟩ :
                  RState V W Tok E) ([("next_state", (.num nx : Val V Tok E))].map (·.2)) =
                  ⟨gstore ep (x :: rest) vals' tok
                  ([.num st, .num ti, .num nt, .num c, .num sem] ++ [.num x, .num nx]), w', n⟩
                  from rfl, hp]
              rfl

end Parsegen
