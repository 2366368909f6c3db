import Verif.Proofs.Machine

/-! # Soundness of the emitted parser loop -/

namespace Parsegen

variable {X Ty V W Tok E : Type}

/-! ## Items on the stack -/

section items
variable {A : Type} {g : Grammar A Ty} {F : FirstTable}

/-- The symbols before the cursor are the last symbols read. -/
theorem ItemsAt.split {e : Nat} {γ : List Symbol} {x : Item} (h : ItemsAt g F e γ x) :
    ∀ α, g.HasProd x.nt x.prod α →
      ∃ γ', γ = γ' ++ α.take x.cursor ∧ ItemsAt g F e γ' ⟨x.nt, x.prod, 0, x.la⟩ := by
  induction h with
  | entry => intro α _; exact ⟨[], by simp, .entry⟩
  | @advance γ nt p α s β la h hp ih =>
    intro α' hα'
    have : α' = α ++ s :: β := hα'.rhs_eq.symm.trans hp.rhs_eq
    subst this
    obtain ⟨γ', h1, h2⟩ := ih _ hp
    refine ⟨γ', ?_, h2⟩
    simp only at h1 ⊢
    rw [h1, List.append_assoc]
    congr 1
    rw [List.take_left, List.take_append, List.take_of_length_le (by omega)]
    simp
  | @pred γ nt p α b β la q δ c h hp hq hf ih =>
    intro α' _
    exact ⟨γ, by simp, .pred h hp hq hf⟩

/-- An item with its cursor at the start is an entry item or predicted. -/
theorem ItemsAt.start_inv {e : Nat} {γ : List Symbol} {x : Item} (h : ItemsAt g F e γ x)
    (hc : x.cursor = 0) : (γ = [] ∧ x = ⟨e, 0, 0, none⟩) ∨
      ∃ nt p α β la, ItemsAt g F e γ ⟨nt, p, α.length, la⟩ ∧
        g.HasProd nt p (α ++ .nonTerminal x.nt :: β) ∧ InFirst F la β x.la := by
  cases h with
  | entry => exact Or.inl ⟨rfl, rfl⟩
  | advance h hp => simp at hc
  | pred h hp hq hf => exact Or.inr ⟨_, _, _, _, _, h, hp, hf⟩

/-- A complete item: its right-hand side is on top, and its left-hand side is expected below. -/
theorem ItemsAt.complete {e : Nat} {γ : List Symbol} {b p : Nat} {α : List Symbol}
    {c : Option Nat} (h : ItemsAt g F e γ ⟨b, p, α.length, c⟩) (hp : g.HasProd b p α)
    (he : g.isPublic e = true) (hb : g.isPublic b = false) :
    ∃ γ', γ = γ' ++ α ∧ ItemsAt g F e γ' ⟨b, p, 0, c⟩ ∧ ∃ nt q α' β la,
      ItemsAt g F e γ' ⟨nt, q, α'.length, la⟩ ∧ g.HasProd nt q (α' ++ .nonTerminal b :: β) ∧
        InFirst F la β c := by
  obtain ⟨γ', h1, h2⟩ := h.split α hp
  simp only [List.take_length] at h1
  refine ⟨γ', h1, h2, ?_⟩
  rcases h2.start_inv rfl with ⟨_, h3⟩ | ⟨nt, q, α', β, la, h3, h4, h5⟩
  · cases h3; rw [he] at hb; cases hb
  · exact ⟨nt, q, α', β, la, h3, h4, h5⟩

end items

/-! ## The state stack -/

/-- `Stk At e γ sts`: the state stack `sts` (top first) is the path of `γ` from entry point `e`. -/
inductive Stk (At : Nat → List Symbol → Nat → Prop) (e : Nat) : List Symbol → List Nat → Prop
  | base {q} (h : At e [] q) : Stk At e [] [q]
  | push {γ sts s q} (h : Stk At e γ sts) (hq : At e (γ ++ [s]) q) : Stk At e (γ ++ [s]) (q :: sts)

variable {At : Nat → List Symbol → Nat → Prop} {e : Nat}

theorem Stk.top {γ : List Symbol} {sts : List Nat} (h : Stk At e γ sts) :
    ∃ q rest, sts = q :: rest ∧ At e γ q := by
  cases h with
  | base h => exact ⟨_, _, rfl, h⟩
  | push h hq => exact ⟨_, _, rfl, hq⟩

theorem Stk.length {γ : List Symbol} {sts : List Nat} (h : Stk At e γ sts) :
    sts.length = γ.length + 1 := by
  induction h with
  | base => rfl
  | push h hq ih => simp [ih]

theorem Stk.pop {γ : List Symbol} {s : Symbol} {sts : List Nat} (h : Stk At e (γ ++ [s]) sts) :
    Stk At e γ sts.tail := by
  have : ∀ {δ}, Stk At e δ sts → δ = γ ++ [s] → Stk At e γ sts.tail := by
    intro δ h
    cases h with
    | base => intro h; simp at h
    | push h' hq =>
      intro he
      obtain ⟨rfl, _⟩ := List.append_inj' he rfl
      exact h'
  exact this h rfl

theorem Stk.drop {γ δ : List Symbol} {sts : List Nat} (h : Stk At e (γ ++ δ) sts) :
    Stk At e γ (sts.drop δ.length) := by
  induction δ using List.reverseRecOn generalizing sts with
  | nil => simpa using h
  | append_singleton δ s ih =>
    rw [← List.append_assoc] at h
    have := ih h.pop
    simpa [Nat.add_comm] using this

/-! ## The invariant of the loop -/

/-- The lookahead terminal of a token. -/
def lookahead (tf : TokenFns Tok V) : Option (Except E Tok) → Option (Option Nat)
  | none => some none
  | some (.ok t) => some (some (tf.terminalIdx t))
  | some (.error _) => none

/-- Loop invariant of `parse_generic`. -/
structure RunInv [DecidableEq Ty] (g : Grammar X Ty) (u : UserCode X V W) (tf : TokenFns Tok V)
    (At : Nat → List Symbol → Nat → Prop) (e : Nat) (input : Nat → Option (Except E Tok)) (w0 : W)
    (s : PState Tok V W E) (γ : List Symbol) (toks : List Tok) : Prop where
  stk : Stk At e γ s.states
  eval : ∃ vs, Eval g tf.terminalIdx (g.stackAlg u tf) γ toks w0 vs s.world ∧ s.values = vs.reverse
  reads : Reads input toks
  token : s.token = input toks.length
  calls : s.calls = toks.length + 1
  priv : ∀ b, .nonTerminal b ∈ γ → g.isPublic b = false

variable [DecidableEq Ty] {g : Grammar X Ty} {F : FirstTable} {gen : Generated X}
  {u : UserCode X V W} {tf : TokenFns Tok V} {input : Nat → Option (Except E Tok)} {w0 : W}

theorem reads_snoc {toks : List Tok} {t : Tok} (h : Reads input toks)
    (ht : input toks.length = some (.ok t)) : Reads input (toks ++ [t]) := by
  intro i t' hi
  by_cases hl : i < toks.length
  · rw [List.getElem?_append_left hl] at hi; exact h i t' hi
  · have := (List.getElem?_eq_some_iff.1 hi).1
    have hi' : i = toks.length := by simp at this; omega
    subst hi'
    rw [List.getElem?_concat_length] at hi; cases hi
    exact ht

theorem laOk_lookahead {nT : Nat} (hc : tf.Consistent nT) {tok : Option (Except E Tok)}
    {c : Option Nat} (h : lookahead tf tok = some c) : LaOk nT c := by
  intro t ht
  subst ht
  unfold lookahead at h
  split at h <;> simp at h
  subst h; exact hc.lt _

/-- What a step does: moves to a state satisfying the invariant, or stops. -/
inductive StepSpec (g : Grammar X Ty) (F : FirstTable) (gen : Generated X) (u : UserCode X V W)
    (tf : TokenFns Tok V) (At : Nat → List Symbol → Nat → Prop) (e : Nat)
    (input : Nat → Option (Except E Tok)) (w0 : W) (ep : EntryPoint) (s : PState Tok V W E)
    (γ : List Symbol) (toks : List Tok) : StepResult Tok V W E → Prop
  /-- shift -/
  | shift {t r nt p α β la s'} (htok : s.token = some (.ok t))
      (hact : gen.act (s.states.headD 0) (some (tf.terminalIdx t)) = some (some (.shift r)))
      (hit : ItemsAt g F e γ ⟨nt, p, α.length, la⟩)
      (hp : g.HasProd nt p (α ++ .terminal (tf.terminalIdx t) :: β))
      (hs : s' = shiftStep tf input r s)
      (hinv : RunInv g u tf At e input w0 s' (γ ++ [.terminal (tf.terminalIdx t)]) (toks ++ [t])) :
      StepSpec g F gen u tf At e input w0 ep s γ toks (.next s')
  /-- reduce -/
  | reduce {c b p α γ' k s'} (hla : lookahead tf s.token = some c)
      (hact : gen.act (s.states.headD 0) c = some (some (.reduce b α.length k)))
      (hγ : γ = γ' ++ α) (hp : g.HasProd b p α) (hit : ItemsAt g F e γ ⟨b, p, α.length, c⟩)
      (hpriv : g.isPublic b = false) (htok : s'.token = s.token)
      (hval : ∃ us rest v, us.length = α.length ∧ s.values = us.reverse ++ rest ∧
        (g.stackAlg u tf).node b p us s.world = some (v, s'.world) ∧ s'.values = v :: rest)
      (hinv : RunInv g u tf At e input w0 s' (γ' ++ [.nonTerminal b]) toks) :
      StepSpec g F gen u tf At e input w0 ep s γ toks (.next s')
  /-- the action of a reduction panics -/
  | panic {c b p α γ' k} (hla : lookahead tf s.token = some c)
      (hact : gen.act (s.states.headD 0) c = some (some (.reduce b α.length k)))
      (hγ : γ = γ' ++ α) (hp : g.HasProd b p α) (hit : ItemsAt g F e γ ⟨b, p, α.length, c⟩)
      (hpriv : g.isPublic b = false)
      (hval : ∃ us rest ts w1, us.length = α.length ∧ s.values = us.reverse ++ rest ∧
        Eval g tf.terminalIdx (g.stackAlg u tf) α ts w1 us s.world ∧
        (g.stackAlg u tf).node b p us s.world = none) :
      StepSpec g F gen u tf At e input w0 ep s γ toks (.done (.fault .userPanic) s)
  /-- lexer error -/
  | lexer {err} (htok : s.token = some (.error err)) :
      StepSpec g F gen u tf At e input w0 ep s γ toks (.done (.lexerError err) s)
  /-- syntax error -/
  | syntax {c found expected} (hla : lookahead tf s.token = some c)
      (hact : gen.act (s.states.headD 0) c = some none)
      (hf : (g.terminals ++ ["end-of-input"])[laCol g.nTerminals c]? = some found)
      (he : gen.expected[s.states.headD 0]? = some expected) :
      StepSpec g F gen u tf At e input w0 ep s γ toks (.done (.parserError found expected) s)
  /-- accept -/
  | accept {b v w' s'} (htok : s.token = none) (hγ : γ = [.nonTerminal b])
      (hact : gen.act (s.states.headD 0) none = some (some .accept))
      (hp : g.HasProd e 0 [.nonTerminal b])
      (heval : Eval g tf.terminalIdx (g.alg u tf.fields) [.nonTerminal e] toks w0 [.nt v] w')
      (hs : s' = { s with values := [], world := w' })
      (hval : ∃ us : List (SAR V), s.values = us.reverse ∧
        g.nodeValue u e 0 (us.map SAR.toB) s.world = some (.nt v, w')) :
      StepSpec g F gen u tf At e input w0 ep s γ toks (.done (.ok v) s')
  /-- the entry wrapper's action panics -/
  | acceptPanic {b us} (htok : s.token = none)
      (hact : gen.act (s.states.headD 0) none = some (some .accept)) (hγ : γ = [.nonTerminal b])
      (hp : g.HasProd e 0 [.nonTerminal b])
      (hev : Eval g tf.terminalIdx (g.stackAlg u tf) [.nonTerminal b] toks w0 us s.world)
      (hnode : (g.stackAlg u tf).node e 0 us s.world = none) :
      StepSpec g F gen u tf At e input w0 ep s γ toks (.done (.fault .userPanic) s)

theorem parseStep_spec (hwf : g.WF) (hT : Tables g F gen At) (hc : tf.Consistent g.nTerminals)
    {ep : EntryPoint} (he : g.isPublic e = true)
    (hext : (semanticActionVariants g)[e]? = some ep.extract)
    (hsem : gen.IsSem g ep.actionIdx e 0) {s : PState Tok V W E} {γ : List Symbol}
    {toks : List Tok} (hi : RunInv g u tf At e input w0 s γ toks) :
    StepSpec g F gen u tf At e input w0 ep s γ toks (parseStep gen u tf input ep s) := by
  obtain ⟨q, rest, hst, hq⟩ := hi.stk.top
  have hhead : s.states.headD 0 = q := by rw [hst]; rfl
  unfold parseStep
  rw [hst]
  simp only
  cases hla : lookaheadIdx gen tf s.token with
  | error err =>
    simp only
    apply StepSpec.lexer
    unfold lookaheadIdx at hla
    split at hla
    · cases hla
    · next h => cases hla; exact h
    · cases hla
  | ok ti =>
    simp only
    have hcex : ∃ c, lookahead tf s.token = some c ∧ ti = laCol gen.nTerminals c := by
      unfold lookaheadIdx at hla
      unfold lookahead
      split at hla
      · next h => cases hla; rw [h]; exact ⟨none, rfl, rfl⟩
      · cases hla
      · next t h => cases hla; rw [h]; exact ⟨some (tf.terminalIdx t), rfl, rfl⟩
    obtain ⟨c, hlook, rfl⟩ := hcex
    have hcok : LaOk g.nTerminals c := laOk_lookahead hc hlook
    obtain ⟨o, ho⟩ := hT.cell he hq hcok
    have ho' := ho
    unfold Generated.act at ho'
    obtain ⟨row, hrow, hcell⟩ := Option.bind_eq_some_iff.1 ho'
    rw [hrow]
    simp only
    rw [hcell]
    cases o with
    | none =>
      simp only
      have h1 : ∃ f, gen.terminalStrs[laCol gen.nTerminals c]? = some f := by
        rw [hT.strs, hT.nT]
        refine ⟨_, List.getElem?_eq_getElem ?_⟩
        rw [List.length_append]
        show laCol g.nTerminals c < g.nTerminals + 1
        cases c with
        | none => simp [laCol]
        | some t => have := hcok t rfl; simp only [laCol]; omega
      obtain ⟨f, hf⟩ := h1
      have h2 := hT.expected he hq
      rw [hf, h2]
      simp only
      refine StepSpec.syntax hlook (by rw [hhead]; exact ho) ?_ (by rw [hhead]; exact h2)
      rw [← hT.nT, ← hT.strs]; exact hf
    | some act =>
      obtain ⟨vs, hev, hvals⟩ := hi.eval
      cases act with
      | shift r =>
        simp only
        obtain ⟨t, nt, p, α, β, la, hct, hit, hp, hat⟩ := hT.shift_of he hq hcok ho
        subst hct
        obtain ⟨tk, htk, hidx⟩ : ∃ tk, s.token = some (.ok tk) ∧ tf.terminalIdx tk = t := by
          unfold lookahead at hlook
          split at hlook <;> simp at hlook
          next tk h => exact ⟨tk, h, hlook⟩
        subst hidx
        refine StepSpec.shift htk (by rw [hhead]; exact ho) hit hp rfl ?_
        refine ⟨?_, ?_, ?_, ?_, ?_, ?_⟩
        · exact .push hi.stk hat
        · refine ⟨vs ++ [tf.value tk], ?_, ?_⟩
          · exact hev.append (.term rfl (.nil _))
          · simp only [shiftStep, htk, hvals, List.reverse_append, List.reverse_singleton,
              List.singleton_append]
        · exact reads_snoc hi.reads (by rw [← hi.token]; exact htk)
        · simp [shiftStep, hi.calls]
        · simp [shiftStep, hi.calls]
        · intro b hb
          exact hi.priv b (by simpa using hb)
      | reduce b n k =>
        simp only
        obtain ⟨p, α, hp, rfl, hit, hpriv, pr, f, hpr, hf, hsf⟩ := hT.reduce_of he hq hcok ho
        obtain ⟨γ', hγ, hit0, nt, q', α', β, la, hit', hp', _⟩ := hit.complete hp he hpriv
        subst hγ
        obtain ⟨t1, t2, us1, us2, w1, htoks, hus, hev1, hev2⟩ := hev.split
        have hsyms : pr.syms = α := by
          rw [← rhs_of_getProduction hpr]; exact hp.rhs_eq
        have htag := eval_tagged hc hev2
        rw [← hsyms] at htag
        have hvals' : s.values = us2.reverse ++ us1.reverse := by
          rw [hvals, hus, List.reverse_append]
        have hdrop := hi.stk.drop
        obtain ⟨q0, rest0, hst0, hq0⟩ := hdrop.top
        obtain ⟨r, hgo, hat⟩ := hT.goto_mk he hq0 hit' hp'
        unfold Generated.go at hgo
        obtain ⟨grow, hgrow, hgcell⟩ := Option.bind_eq_some_iff.1 hgo
        have hlen : ¬ s.states.length < α.length := by
          rw [hi.stk.length]; simp; omega
        rcases semFn_run (u := u) (tf := tf) hpr hsf htag us1.reverse s.world with
          ⟨v, w', hnode, hrun⟩ | ⟨hnode, hrun⟩
        · have hred : reduceStep gen u b α.length k s =
              .ok { s with states := r :: q0 :: rest0, values := v :: us1.reverse, world := w' } := by
            unfold reduceStep
            rw [hf]
            simp only
            rw [hvals', hrun]
            simp only [Except.bind_ok]
            rw [if_neg hlen, hst0]
            simp only
            rw [hgrow]
            simp only
            rw [hgcell]
          rw [hred]
          refine StepSpec.reduce hlook (by rw [hhead]; exact ho) rfl hp hit hpriv rfl
            ⟨us2, us1.reverse, v, hev2.length_eq, hvals', hnode, rfl⟩ ?_
          refine ⟨?_, ?_, hi.reads, hi.token, hi.calls, ?_⟩
          · have := Stk.push hdrop hat
            rw [hst0] at this; exact this
          · refine ⟨us1 ++ [v], ?_, ?_⟩
            · have hlast : Eval g tf.terminalIdx (g.stackAlg u tf) [.nonTerminal b] t2 w1 [v] w' := by
                have := Eval.nt (ss := []) (t2 := []) hp hev2 hnode (.nil _)
                simpa using this
              rw [htoks]
              exact hev1.append hlast
            · simp
          · intro b' hb'
            rcases List.mem_append.1 hb' with hb' | hb'
            · exact hi.priv b' (List.mem_append.2 (Or.inl hb'))
            · simp at hb'; subst hb'; exact hpriv
        · have hred : reduceStep gen u b α.length k s = .error .userPanic := by
            unfold reduceStep
            rw [hf]
            simp only
            rw [hvals', hrun]
            rfl
          rw [hred]
          exact StepSpec.panic hlook (by rw [hhead]; exact ho) rfl hp hit hpriv
            ⟨us2, us1.reverse, t2, w1, hev2.length_eq, hvals', hev2, hnode⟩
      | accept =>
        simp only
        obtain ⟨rfl, hit⟩ := hT.accept_of he hq hcok ho
        have htk : s.token = none := by
          unfold lookahead at hlook
          split at hlook
          · next h => exact h
          · simp at hlook
          · cases hlook
        obtain ⟨_, b, hp⟩ := hwf.pub he
        obtain ⟨γ', hγ, hit0⟩ := hit.split _ hp
        have hγ' : γ' = [] := by
          rcases hit0.start_inv rfl with ⟨h1, _⟩ | ⟨nt, q', α', β, la, h3, h4, _⟩
          · exact h1
          · have := hwf.nt_priv h4 (b := e) (by simp)
            rw [he] at this; cases this
        subst hγ'
        simp only [List.take_succ_cons, List.take_zero, List.nil_append] at hγ
        subst hγ
        obtain ⟨pr, f, hpr, hf, hsf⟩ := hsem
        have hsyms : pr.syms = [.nonTerminal b] := by
          rw [← rhs_of_getProduction hpr]; exact hp.rhs_eq
        have htag := eval_tagged hc hev
        rw [← hsyms] at htag
        unfold acceptStep
        rw [hf]
        simp only
        rcases semFn_run (u := u) (tf := tf) hpr hsf htag [] s.world with
          ⟨v, w', hnode, hrun⟩ | ⟨hnode, hrun⟩
        · rw [List.append_nil, ← hvals] at hrun
          rw [hrun]
          simp only
          obtain ⟨x, k, hnv, hk, rfl⟩ := stackAlg_node hnode
          rw [hext] at hk; cases hk
          simp only [extract, if_true]
          refine StepSpec.accept htk rfl (by rw [hhead]; exact ho) hp ?_ rfl ⟨vs, hvals, hnv⟩
          have h1 := eval_toB hc hev
          have := Eval.nt (ss := []) (t2 := []) (alg := g.alg u tf.fields) hp h1 hnv (.nil _)
          simpa using this
        · rw [List.append_nil, ← hvals] at hrun
          rw [hrun]
          simp only
          exact StepSpec.acceptPanic htk (by rw [hhead]; exact ho) rfl hp hev hnode

end Parsegen
