import Verif.Proofs.Text

/-! # The text of the action functions -/

namespace Parsegen

variable {X Ty V W Tok E α : Type}

section methods

variable (P : Program X V Tok E) (H : Host X V W Tok E) (call : CallSem V W Tok E) (fuel : Nat)

theorem eval_block (ss : List (Stmt X)) (e : Ex X) (env : Locals) (s : RState V W Tok E) :
    eval P H call fuel (.block ss e) env s = ((evalStmts P H call fuel ss env s).bind fun env s =>
      eval P H call fuel e env s).pop s.store.length := by rw [eval]

theorem eval_unit (env : Locals) (s : RState V W Tok E) :
    eval P H call fuel .unit env s = .val (.tuple []) s := rfl

theorem eval_pop {x : String} {env : Locals} {s : RState V W Tok E} {a : Nat}
    {l : List (Val V Tok E)} (hp : place (.name x : Ex X) env s = some a)
    (ha : s.store[a]? = some (.vec l)) :
    eval P H call fuel (.method (.name x) "pop" []) env s =
      .val (.ofOption l.getLast?) (s.set a (.vec l.dropLast)) := by
  simp [eval, hp, ha, hasMethod, evalAll, Res.bind, callMethod]

theorem eval_last {x : String} {env : Locals} {s : RState V W Tok E} {a : Nat}
    {l : List (Val V Tok E)} (hp : place (.name x : Ex X) env s = some a)
    (ha : s.store[a]? = some (.vec l)) :
    eval P H call fuel (.method (.name x) "last" []) env s = .val (.ofOption l.getLast?) s := by
  simp [eval, hp, ha, hasMethod, evalAll, Res.bind, callMethod]

theorem eval_push {x : String} {e : Ex X} {env : Locals} {s s' : RState V W Tok E} {a : Nat}
    {l l' : List (Val V Tok E)} {v : Val V Tok E} (hp : place (.name x : Ex X) env s = some a)
    (ha : s.store[a]? = some (.vec l)) (he : eval P H call fuel e env s = .val v s')
    (ha' : s'.store[a]? = some (.vec l')) :
    eval P H call fuel (.method (.name x) "push" [e]) env s =
      .val (.tuple []) (s'.set a (.vec (l' ++ [v]))) := by
  simp [eval, hp, ha, hasMethod, evalAll, he, Res.bind, ha', callMethod]

theorem eval_push_panic {x : String} {e : Ex X} {env : Locals} {s s' : RState V W Tok E} {a : Nat}
    {l : List (Val V Tok E)} {f : Fault} (hp : place (.name x : Ex X) env s = some a)
    (ha : s.store[a]? = some (.vec l)) (he : eval P H call fuel e env s = .panic f s') :
    eval P H call fuel (.method (.name x) "push" [e]) env s = .panic f s' := by
  simp [eval, hp, ha, hasMethod, evalAll, he, Res.bind]

theorem eval_next {x : String} {env : Locals} {s : RState V W Tok E} {a : Nat}
    (hp : place (.name x : Ex X) env s = some a) (ha : s.store[a]? = some .iter) :
    eval P H call fuel (.method (.name x) "next" []) env s =
      .val (.ofItem (H.input s.calls)) { s with calls := s.calls + 1 } := by
  simp [eval, hp, ha, hasMethod, evalAll, Res.bind, callMethod]

theorem eval_unwrap {e : Ex X} {env : Locals} {s s' : RState V W Tok E} {o : Option (Val V Tok E)}
    (hp : place e env s = none) (he : eval P H call fuel e env s = .val (.ofOption o) s') :
    eval P H call fuel (.method e "unwrap" []) env s =
      o.elim (.panic .unwrapNone s') (fun v => .val v s') := by
  cases o <;> simp [eval, hp, he, hasMethod, evalAll, Res.bind, callMethod, Val.ofOption]

theorem eval_extract {e : Ex X} {m : String} {env : Locals} {s s' : RState V W Tok E} {v : EVal V}
    (hp : place e env s = none) (he : eval P H call fuel e env s = .val v.toVal s') :
    eval P H call fuel (.method e m []) env s = call (.assoc "SemanticActionResult" m) [v.toVal] s' := by
  simp [eval, hp, he, hasMethod, evalAll, Res.bind, callMethod, EVal.toVal]

end methods

theorem set_append_lt {β : Type} {l l' : List β} {r : Nat} {x : β} (h : r < l.length) :
    (l ++ l').set r x = l.set r x ++ l' := by
  rw [List.set_append_left _ _ h]

theorem stackVal_pop (st : List (EVal V)) :
    (st.reverse.map (EVal.toVal : EVal V → Val V Tok E)).dropLast = st.tail.reverse.map EVal.toVal := by
  cases st <;> simp

theorem stackVal_last (st : List (EVal V)) :
    (st.reverse.map (EVal.toVal : EVal V → Val V Tok E)).getLast? = st.head?.map EVal.toVal := by
  cases st <;> simp

/-- A panic in the same world after as many calls of `next()`. -/
def PanicsIn (f : Fault) (w : W) (k : Nat) (r : Res V W Tok E α) : Prop :=
  ∃ s, r = .panic f s ∧ s.world = w ∧ s.calls = k

theorem runStmts_text (m : EModule X Ty) (H : Host X V W Tok E) (fuel d : Nat) {r : Nat}
    (base : List (Val V Tok E)) (hr : r < base.length) (w : W) (k : Nat) (ss : List EStmt) :
    ∀ (env : LEnv V) (loc : Locals) (cells : List (Val V Tok E)) (st : List (EVal V)),
      LRel base.length r cells env loc →
      match m.runStmts ss env st with
      | .ok (env', st') => ∃ loc' cells', LRel base.length r cells' env' loc' ∧
          evalStmts m.text H (callFn m.text H fuel (d + 1)) fuel (ss.map stmtText) loc
            ⟨base.set r (stackVal st) ++ cells, w, k⟩ =
          .val loc' ⟨base.set r (stackVal st') ++ cells', w, k⟩
      | .error (.panic f) => PanicsIn f w k
          (evalStmts m.text H (callFn m.text H fuel (d + 1)) fuel (ss.map stmtText) loc
            ⟨base.set r (stackVal st) ++ cells, w, k⟩)
      | .error .noCompile => True := by
  induction ss with
  | nil =>
    intro env loc cells st h
    exact ⟨loc, cells, h, by simp [evalStmts]⟩
  | cons t ss ih =>
    intro env loc cells st h
    have hvs := h "value_stack"
    have hcell : (base.set r (stackVal st) ++ cells)[r]? = some (stackVal st) := by
      rw [List.getElem?_append_left (by simpa using hr)]; simp [hr]
    have hset : ∀ v : Val V Tok E, (base.set r (stackVal st) ++ cells).set r v =
        base.set r v ++ cells := by
      intro v; rw [set_append_lt (by simpa using hr), List.set_set]
    have hplace : env "value_stack" = some .stack → place (.name "value_stack" : Ex X) loc
        (⟨base.set r (stackVal st) ++ cells, w, k⟩ : RState V W Tok E) = some r := by
      intro he
      rw [he] at hvs
      obtain ⟨i, h1, h2⟩ := hvs
      have : (base.set r (stackVal st) ++ cells)[base.length + i]? = some (.ref r) := by
        rw [List.getElem?_append_right (by simp)]; simpa using h2
      simp [place, h1, this]
    have hpop : env "value_stack" = some .stack → eval m.text H (callFn m.text H fuel (d + 1)) fuel
        (.method (.name "value_stack") "pop" []) loc
          ⟨base.set r (stackVal st) ++ cells, w, k⟩ =
        .val (.ofOption (st.head?.map EVal.toVal)) ⟨base.set r (stackVal st.tail) ++ cells, w, k⟩ := by
      intro he
      have hc := hcell
      unfold stackVal at hc
      rw [eval_pop _ _ _ _ (hplace he) hc]
      simp only [RState.set]
      rw [hset, stackVal_pop, stackVal_last]
      rfl
    cases t with
    | pop =>
      simp only [EModule.runStmts]
      cases he : env "value_stack" with
      | none => trivial
      | some l =>
        cases l with
        | val b => trivial
        | stack =>
          have := ih env loc cells st.tail h
          simp only [List.map_cons, stmtText, evalStmts, evalStmt, hpop he, Res.bind]
          exact this
    | letPop isMut n meth =>
      simp only [EModule.runStmts]
      cases he : env "value_stack" with
      | none => trivial
      | some l =>
        cases l with
        | val b => trivial
        | stack =>
          have hun := eval_unwrap (m.text) H (callFn m.text H fuel (d + 1)) fuel
            (e := .method (.name "value_stack") "pop" []) rfl (hpop he)
          cases st with
          | nil =>
            refine ⟨⟨base.set r (stackVal []) ++ cells, w, k⟩, ?_, rfl, rfl⟩
            simp only [List.map_cons, stmtText, evalStmts, evalStmt]
            rw [eval, show place (.method (.method (.name "value_stack") "pop" []) "unwrap" []
              : Ex X) _ _ = none from rfl]
            simp only [hun]
            rfl
          | cons v st =>
            have hex := eval_extract m.text H (callFn m.text H fuel (d + 1)) fuel (m := meth)
              (e := .method (.method (.name "value_stack") "pop" []) "unwrap" []) (v := v) rfl hun
            have hmeth := Gives.method m H fuel d meth v
              (⟨base.set r (stackVal st) ++ cells, w, k⟩ : RState V W Tok E)
            simp only [List.tail_cons] at hex
            simp only
            cases hcm : m.callMethod meth v with
            | error e =>
              cases e with
              | noCompile => trivial
              | panic f =>
                rw [hcm] at hmeth
                simp only [Gives] at hmeth
                rw [hmeth] at hex
                refine ⟨⟨base.set r (stackVal st) ++ cells, w, k⟩, ?_, rfl, rfl⟩
                simp only [List.map_cons, stmtText, evalStmts, evalStmt, hex]
                rfl
            | ok b =>
              rw [hcm] at hmeth
              simp only [Gives] at hmeth
              rw [hmeth] at hex
              have hb := h.bind n b
                (⟨base.set r (stackVal st) ++ cells, w, k⟩ : RState V W Tok E) (by simp)
              have := ih _ _ _ st hb
              simp only [List.map_cons, stmtText, evalStmts, evalStmt, hex, Res.bind,
                RState.push, List.append_assoc]
              exact this

theorem evalStmts_append (P : Program X V Tok E) (H : Host X V W Tok E) (call : CallSem V W Tok E)
    (fuel : Nat) (a b : List (Stmt X)) (env : Locals) (s : RState V W Tok E) :
    evalStmts P H call fuel (a ++ b) env s =
      (evalStmts P H call fuel a env s).bind fun env s => evalStmts P H call fuel b env s := by
  induction a generalizing env s with
  | nil => rfl
  | cons t a ih =>
    simp only [List.cons_append, evalStmts]
    cases evalStmt P H call fuel t env s <;> simp [Res.bind, ih]

/-- A call of an action function. -/
theorem runFn_text {m : EModule X Ty} (H : Host X V W Tok E) (fuel d : Nat) {r : Nat}
    (base : List (Val V Tok E)) (st : List (EVal V)) (hr : base[r]? = some (stackVal st)) (w : W)
    (k : Nat) (f : EActionFn X) {name : String}
    (hf : (m.text : Program X V Tok E).fn? (.free name) = some (actionFnText f)) :
    match m.runFn H.code f st w with
    | .ok (st', w') => callFn m.text H fuel (d + 2) (.free name) [.ref r] ⟨base, w, k⟩ =
        .val (.tuple []) ⟨base.set r (stackVal st'), w', k⟩
    | .error (.panic p) => PanicsIn p w k
        (callFn m.text H fuel (d + 2) (.free name) [.ref r] ⟨base, w, k⟩)
    | .error .noCompile => True := by
  have hlt : r < base.length := (List.getElem?_eq_some_iff.1 hr).1
  have hbase : base.set r (stackVal st) = base := by
    apply List.ext_getElem?
    intro i
    by_cases hi : r = i
    · subst hi; rw [hr]; simp [hlt]
    · simp [hi]
  have h0 : LRel base.length r [(.ref r : Val V Tok E)]
      (fun n => if n = "value_stack" then some (.stack : LVal V) else none)
      (Locals.bind [] ["value_stack"] (⟨base, w, k⟩ : RState V W Tok E)) := by
    intro x
    by_cases hx : x = "value_stack"
    · subst hx; simp [Locals.bind]
    · have : (x == "value_stack") = false := by simp [hx]
      simp [hx, Locals.bind, List.lookup_cons, this]
  have hst := runStmts_text m H fuel d base hlt w k f.stmts _ _ _ st h0
  rw [hbase] at hst
  have hfn := hf
  simp only [Program.fn?] at hfn
  have hcall : callFn m.text H fuel (d + 2) (.free name) [.ref r] ⟨base, w, k⟩ =
      (eval m.text H (callFn m.text H fuel (d + 1)) fuel (actionFnText f).body
        (Locals.bind [] ["value_stack"] ⟨base, w, k⟩) ⟨base ++ [.ref r], w, k⟩).finish
        base.length := by
    rw [callFn]
    simp only [hfn]
    rfl
  rw [hcall]
  clear hcall hfn
  unfold EModule.runFn
  simp only [bind, Except.bind]
  cases hrun : m.runStmts f.stmts
      (fun n => if n = "value_stack" then some (.stack : LVal V) else none) st with
  | error e =>
    rw [hrun] at hst
    cases e with
    | noCompile => trivial
    | panic p =>
      obtain ⟨s, h1, h2, h3⟩ := hst
      refine ⟨(s.pop (base ++ [(.ref r : Val V Tok E)]).length).pop base.length, ?_, h2, h3⟩
      simp only [actionFnText, Ex.body, eval, evalStmts_append, h1, Res.bind, Res.pop, Res.finish]
  | ok a =>
    obtain ⟨env', st'⟩ := a
    rw [hrun] at hst
    obtain ⟨loc', cells', h1, h2⟩ := hst
    have hvs := h1 "value_stack"
    simp only
    cases he : env' "value_stack" with
    | none => trivial
    | some l =>
      cases l with
      | val b => trivial
      | stack =>
        rw [he] at hvs
        obtain ⟨i, h3, h4⟩ := hvs
        have hcell : ∀ w k, (⟨base.set r (stackVal st') ++ cells', w, k⟩ : RState V W Tok E).store[r]? =
            some (stackVal st') := by
          intro w k
          simp only
          rw [List.getElem?_append_left (by simpa using hlt)]; simp [hlt]
        have hplace : place (.name "value_stack" : Ex X) loc'
            (⟨base.set r (stackVal st') ++ cells', w, k⟩ : RState V W Tok E) = some r := by
          have : (base.set r (stackVal st') ++ cells')[base.length + i]? = some (.ref r) := by
            rw [List.getElem?_append_right (by simp)]; simpa using h4
          simp [place, h3, this]
        have hvis : visible loc' (⟨base.set r (stackVal st') ++ cells', w, k⟩ : RState V W Tok E) =
            env'.user := by
          have h1' := h1
          rw [← List.length_set (i := r) (a := (stackVal st' : Val V Tok E)) (as := base)] at h1'
          exact h1'.visible w k
        have huser : eval m.text H (callFn m.text H fuel (d + 1)) fuel (.user f.action) loc'
            ⟨base.set r (stackVal st') ++ cells', w, k⟩ =
            match H.code.run f.action env'.user w with
            | none => .panic .userPanic ⟨base.set r (stackVal st') ++ cells', w, k⟩
            | some (v, w') => .val (.ext v) ⟨base.set r (stackVal st') ++ cells', w', k⟩ := by
          rw [eval, hvis]
          simp only
          cases H.code.run f.action env'.user w <;> rfl
        have h5 : eval m.text H (callFn m.text H fuel (d + 1)) fuel
            (.path "SemanticActionResult" f.variant) loc'
            ⟨base.set r (stackVal st') ++ cells', w, k⟩ =
            .val (.fn (.assoc "SemanticActionResult" f.variant))
              ⟨base.set r (stackVal st') ++ cells', w, k⟩ := by rw [eval]
        simp only
        cases hu : H.code.run f.action env'.user w with
        | none =>
          rw [hu] at huser
          simp only at huser
          refine ⟨((⟨base.set r (stackVal st') ++ cells', w, k⟩ : RState V W Tok E).pop
            (base ++ [(.ref r : Val V Tok E)]).length).pop base.length, ?_, rfl, rfl⟩
          have hmeth : eval m.text H (callFn m.text H fuel (d + 1)) fuel
              (.method (.name "value_stack") "push"
                [.call (.path "SemanticActionResult" f.variant) [.user f.action]]) loc'
              ⟨base.set r (stackVal st') ++ cells', w, k⟩ =
              .panic .userPanic ⟨base.set r (stackVal st') ++ cells', w, k⟩ := by
            refine eval_push_panic _ _ _ _ hplace (hcell w k) ?_
            rw [eval]
            simp only [h5, Res.bind, evalAll, huser]
          simp only [actionFnText, Ex.body, eval_block, evalStmts_append, h2, Res.bind, evalStmts,
            evalStmt, hmeth, Res.pop, Res.finish]
        | some a =>
          obtain ⟨v, w'⟩ := a
          rw [hu] at huser
          simp only at huser ⊢
          cases hc : m.construct f.variant [v] with
          | error e =>
            cases e with
            | noCompile => trivial
            | panic f =>
              unfold EModule.construct at hc
              split at hc
              · cases hc
              · split at hc <;> cases hc
          | ok rv =>
            have harg : eval m.text H (callFn m.text H fuel (d + 1)) fuel
                (.call (.path "SemanticActionResult" f.variant) [.user f.action]) loc'
                ⟨base.set r (stackVal st') ++ cells', w, k⟩ =
                .val rv.toVal ⟨base.set r (stackVal st') ++ cells', w', k⟩ := by
              rw [eval]
              simp only [h5, Res.bind, evalAll, huser]
              exact apply_construct m _ hc _
            have hpush := eval_push m.text H (callFn m.text H fuel (d + 1)) fuel hplace
              (hcell w k) harg (hcell w' k)
            simp only [actionFnText, Ex.body, eval_block, evalStmts_append, h2, Res.bind, evalStmts,
              evalStmt, hpush, Res.pop, Res.finish, eval_unit]
            congr 1
            simp only [RState.pop, RState.set]
            congr 1
            rw [set_append_lt (by simpa using hlt), List.set_set, List.take_take,
              List.take_append_of_le_length (by simp)]
            rw [List.take_of_length_le (by simp)]
            simp [stackVal]

end Parsegen
