import Verif.Proofs.Interactive
import Verif.Proofs.Complete
import Verif.Proofs.Transfer

/-! # Evaluation interleaved with reading: the values computed by the interactive parser -/

namespace Parsegen

variable {X A Ty V W Tok E Val : Type}

/-- `UIEval` for the lowered grammar. -/
inductive IEval (g : Grammar A Ty) (ti : Tok → Nat) (alg : Alg Tok Val W)
    (next : W → Option (Except E Tok) × W) :
    List Symbol → List Tok → W × Option (Except E Tok) → List Val → W × Option (Except E Tok) → Prop
  | nil (r) : IEval g ti alg next [] [] r [] r
  | term {t i ss ts w vs r'} (ht : ti t = i)
      (h : IEval g ti alg next ss ts ((next w).2, (next w).1) vs r') :
      IEval g ti alg next (.terminal i :: ss) (t :: ts) (w, some (.ok t)) (alg.leaf t :: vs) r'
  | nt {b p α t1 t2 r us w1 la1 v w2 ss vs r3} (hp : g.HasProd b p α)
      (hc : IEval g ti alg next α t1 r us (w1, la1)) (ha : alg.node b p us w1 = some (v, w2))
      (h : IEval g ti alg next ss t2 (w2, la1) vs r3) :
      IEval g ti alg next (.nonTerminal b :: ss) (t1 ++ t2) r (v :: vs) r3

section basic
variable {g : Grammar A Ty} {ti : Tok → Nat} {alg : Alg Tok Val W}
  {next : W → Option (Except E Tok) × W}

theorem IEval.append {a b : List Symbol} {t1 t2 r vs r1 us r2}
    (h1 : IEval g ti alg next a t1 r vs r1) (h2 : IEval g ti alg next b t2 r1 us r2) :
    IEval g ti alg next (a ++ b) (t1 ++ t2) r (vs ++ us) r2 := by
  induction h1 with
  | nil => exact h2
  | term ht _ ih => exact .term ht (ih h2)
  | nt hp hc ha _ _ ih =>
    rw [List.append_assoc]
    exact .nt hp hc ha (ih h2)

theorem IEval.split {a b : List Symbol} {ts r vs r2} (h : IEval g ti alg next (a ++ b) ts r vs r2) :
    ∃ t1 t2 vs1 vs2 r1, ts = t1 ++ t2 ∧ vs = vs1 ++ vs2 ∧
      IEval g ti alg next a t1 r vs1 r1 ∧ IEval g ti alg next b t2 r1 vs2 r2 := by
  induction a generalizing ts r vs with
  | nil => exact ⟨[], ts, [], vs, r, rfl, rfl, .nil r, h⟩
  | cons s a ih =>
    cases h with
    | term ht h =>
      obtain ⟨t1, t2, vs1, vs2, w1, rfl, rfl, h1, h2⟩ := ih h
      exact ⟨_ :: t1, t2, _ :: vs1, vs2, w1, rfl, rfl, .term ht h1, h2⟩
    | nt hp hc ha h =>
      obtain ⟨t1, t2, vs1, vs2, w1, rfl, rfl, h1, h2⟩ := ih h
      exact ⟨_ ++ t1, t2, _ :: vs1, vs2, w1, by simp, rfl, .nt hp hc ha h1, h2⟩

theorem IEval.length_eq {ss ts r vs r'} (h : IEval g ti alg next ss ts r vs r') :
    vs.length = ss.length := by
  induction h <;> simp_all

theorem IEval.nt_inv {b toks r vs w' la'}
    (h : IEval g ti alg next [.nonTerminal b] toks r vs (w', la')) :
    ∃ p α us w1 v, vs = [v] ∧ g.HasProd b p α ∧ IEval g ti alg next α toks r us (w1, la') ∧
      alg.node b p us w1 = some (v, w') := by
  cases h with
  | nt hp hc ha h =>
    cases h
    exact ⟨_, _, _, _, _, rfl, hp, by simpa using hc, ha⟩

end basic

section stack
variable [DecidableEq Ty] {g : Grammar X Ty} {u : UserCode X V W} {tf : TokenFns Tok V}
  {next : W → Option (Except E Tok) × W}

theorem ieval_tagged {nT : Nat} (hc : tf.Consistent nT) {ss : List Symbol} {ts : List Tok}
    {r vs r'} (h : IEval g tf.terminalIdx (g.stackAlg u tf) next ss ts r vs r') :
    List.Forall₂ (Tagged (semanticActionVariants g)) ss vs := by
  induction h with
  | nil => exact .nil
  | @term t i ss ts w vs r' ht h ih =>
    refine .cons ?_ ih
    exact ⟨tf.fields t, by rw [← ht]; exact hc.value t⟩
  | nt hp hch ha h ih1 ih2 =>
    refine .cons ?_ ih2
    obtain ⟨x, k, _, h2, h3⟩ := stackAlg_node ha
    exact ⟨k, x, h2, h3⟩

theorem ieval_toB {nT : Nat} (hc : tf.Consistent nT) {ss : List Symbol} {ts : List Tok} {r vs r'}
    (h : IEval g tf.terminalIdx (g.stackAlg u tf) next ss ts r vs r') :
    IEval g tf.terminalIdx (g.alg u tf.fields) next ss ts r (vs.map SAR.toB) r' := by
  induction h with
  | nil => exact .nil _
  | @term t i ss ts w vs r' ht h ih =>
    have := IEval.term (alg := g.alg u tf.fields) ht ih
    rw [List.map_cons]
    have e : SAR.toB ((g.stackAlg u tf).leaf t) = (g.alg u tf.fields).leaf t := by
      show SAR.toB (tf.value t) = _
      rw [hc.value]; rfl
    rw [e]; exact this
  | nt hp hch ha h ih1 ih2 =>
    obtain ⟨x, k, h1, h2, rfl⟩ := stackAlg_node ha
    exact .nt hp ih1 h1 ih2

theorem ieval_ofB (hv : ∀ nt p α, g.HasProd nt p α → ∃ k, (semanticActionVariants g)[nt]? = some k)
    {nT : Nat} (hc : tf.Consistent nT) {ss : List Symbol} {ts : List Tok} {r us r'}
    (h : IEval g tf.terminalIdx (g.alg u tf.fields) next ss ts r us r') :
    ∃ vs, IEval g tf.terminalIdx (g.stackAlg u tf) next ss ts r vs r' ∧ us = vs.map SAR.toB := by
  induction h with
  | nil w => exact ⟨[], .nil w, rfl⟩
  | @term t i ss ts w vs r' ht h ih =>
    obtain ⟨vs', h1, rfl⟩ := ih
    refine ⟨_, .term ht h1, ?_⟩
    rw [List.map_cons]
    congr 1
    show _ = SAR.toB (tf.value t)
    rw [hc.value]; rfl
  | @nt b p α t1 t2 r us w1 la1 v w2 ss vs r3 hp hch ha h ih1 ih2 =>
    obtain ⟨cs, h1, rfl⟩ := ih1
    obtain ⟨vs', h2, rfl⟩ := ih2
    obtain ⟨k, hk⟩ := hv b p α hp
    have hx : ∃ x, v = .nt x := by
      have ha' : g.nodeValue u b p (cs.map SAR.toB) w1 = some (v, w2) := ha
      unfold Grammar.nodeValue at ha'
      split at ha'
      · cases ha'
      · next pr hpr =>
        cases hr : u.run pr.action (bindEnv pr.symbols (cs.map SAR.toB)) w1 with
        | none => rw [hr] at ha'; cases ha'
        | some r => rw [hr] at ha'; cases ha'; exact ⟨_, rfl⟩
    obtain ⟨x, rfl⟩ := hx
    refine ⟨.nonTerminal k x :: vs', .nt hp h1 ?_ h2, rfl⟩
    have ha' : g.nodeValue u b p (cs.map SAR.toB) w1 = some (.nt x, w2) := ha
    unfold Grammar.stackAlg
    simp only [ha', hk]

end stack

/-! ## Transfer to the user's grammar -/

section user
variable {mkPath : String → X} {asts : List (AstNonTerminal X Ty)}
  {convs : List (Conversion Ty)} {g : Grammar X Ty} {nts ts : AMap String Nat}
  {next : W → Option (Except E Tok) × W}

theorem Lowered.ieval_user (hl : Lowered mkPath asts convs g nts ts) {ti : Tok → Nat}
    {cls : Tok → String} (hcls : ClassName g ti cls) {alg : Alg Tok Val W}
    {ualg : UAlg X Tok Val W} (hag : AlgAgree asts g nts ts alg ualg) {α : List Symbol}
    {toks : List Tok} {r vs r'} (h : IEval g ti alg next α toks r vs r') :
    ∀ ss, List.Forall₂ (LowersPlain nts ts) ss α → UIEval asts cls ualg next ss toks r vs r' := by
  induction h with
  | nil w => intro ss hs; cases hs; exact .nil w
  | @term t i ss' ts' w vs w' ht h ih =>
    intro ss hs
    cases hs with
    | cons h1 h2 =>
      rcases h1 with ⟨n, j, hp, hj, he⟩ | ⟨n, j, hp, hj, he⟩
      · cases he
      · cases he
        rw [hag.leaf]
        refine .term ?_ (ih _ h2)
        rw [hp]
        have h3 := (hl.tmap n i).1 hj
        rw [← ht, hcls t] at h3
        cases h3; rfl
  | nt hp hc ha h ih1 ih2 =>
    intro ss hs
    cases hs with
    | cons h1 h2 =>
      rcases h1 with ⟨n, j, hpl, hj, he⟩ | ⟨n, j, hpl, hj, he⟩
      · cases he
        obtain ⟨q, pr, hq, hlow, hpr, rfl⟩ := hl.hasProd_user hj hp
        refine .nt hpl hq (ih1 _ hlow.plain) ?_ (ih2 _ h2)
        rw [← hag.node hj hq hpr hlow]; exact ha
      · cases he

theorem Lowered.user_ieval (hl : Lowered mkPath asts convs g nts ts) {ti : Tok → Nat}
    {cls : Tok → String} (hcls : ClassName g ti cls) {alg : Alg Tok Val W}
    {ualg : UAlg X Tok Val W} (hag : AlgAgree asts g nts ts alg ualg) {ss : List AstSymbol}
    {toks : List Tok} {r vs r'} (h : UIEval asts cls ualg next ss toks r vs r') :
    ∀ α, List.Forall₂ (LowersPlain nts ts) ss α → IEval g ti alg next α toks r vs r' := by
  induction h with
  | nil w => intro α hs; cases hs; exact .nil w
  | @term s t ss' ts' w vs w' hs' h ih =>
    intro α hs
    cases hs with
    | cons h1 h2 =>
      rcases h1 with ⟨n, j, hp, hj, he⟩ | ⟨n, j, hp, hj, he⟩
      · rw [hs'] at hp; cases hp
      · subst he
        rw [← hag.leaf]
        refine .term ?_ (ih _ h2)
        rw [hs'] at hp
        cases hp
        have h3 := (hl.tmap _ (ti t)).2 (hcls t)
        rw [hj] at h3
        cases h3; rfl
  | nt hs' hp hc ha h ih1 ih2 =>
    intro α hs
    cases hs with
    | cons h1 h2 =>
      rcases h1 with ⟨n, j, hpl, hj, he⟩ | ⟨n, j, hpl, hj, he⟩
      · subst he
        rw [hs'] at hpl; cases hpl
        obtain ⟨pr, hlow, hpr, hprod⟩ := hl.user_hasProd hj hp
        refine .nt hprod (ih1 _ hlow.plain) ?_ (ih2 _ h2)
        rw [hag.node hj hp hpr hlow]; exact ha
      · rw [hs'] at hpl; cases hpl

theorem Lowered.names_of_ieval (hl : Lowered mkPath asts convs g nts ts) {ti : Tok → Nat}
    {cls : Tok → String} (hcls : ClassName g ti cls) {alg : Alg Tok Val W}
    {α : List Symbol} {toks : List Tok} {r vs r'}
    (h : IEval g ti alg next α toks r vs r') (hpriv : ∀ b, .nonTerminal b ∈ α → g.isPublic b = false) :
    ∃ ss, List.Forall₂ (LowersPlain nts ts) ss α := by
  induction h with
  | nil => exact ⟨[], .nil⟩
  | @term t i ss ts' w vs w' ht h ih =>
    obtain ⟨ss', h'⟩ := ih (fun b hb => hpriv b (List.mem_cons_of_mem _ hb))
    refine ⟨.terminal (cls t) :: ss', .cons (Or.inr ⟨cls t, i, rfl, ?_, rfl⟩) h'⟩
    rw [← ht]
    exact (hl.tmap (cls t) (ti t)).2 (hcls t)
  | @nt b p α t1 t2 r us w1 la1 v w2 ss vs r3 hp hc ha h _ ih =>
    obtain ⟨ss', h'⟩ := ih (fun b hb => hpriv b (List.mem_cons_of_mem _ hb))
    obtain ⟨n, hn⟩ := hl.name_of_hasProd hp (hpriv b (by simp))
    exact ⟨.nonTerminal n :: ss', .cons (Or.inl ⟨n, b, rfl, hn, rfl⟩) h'⟩

/-- The value of an entry point is the value of the user's non-terminal. -/
theorem Lowered.ientry_values (u : UserCode X V W) {fields : Tok → List V}
    (hl : Lowered u.mkPath asts convs g nts ts) {ti : Tok → Nat} {cls : Tok → String}
    (hcls : ClassName g ti cls) {e : Nat} {nt : NonTerminal X Ty}
    (hE : g.nonTerminals[e]? = some nt) (hpub : nt.isPublic = true) {toks : List Tok}
    {r : W × Option (Except E Tok)} {v : V} {w' : W} {la' : Option (Except E Tok)}
    (h : IEval g ti (g.alg u fields) next [.nonTerminal e] toks r [.nt v] (w', la')) :
    UIEval asts cls (userValues u fields) next [.nonTerminal nt.name] toks r [.nt v] (w', la') := by
  obtain ⟨a, b, n', ha, hap, han, _, hw, hb, hbp, _, hor⟩ := hl.pub hE hpub
  obtain ⟨p, α, us, w1, v', hv, hp, hc, hnode⟩ := h.nt_inv
  cases hv
  have hpα : p = 0 ∧ α = [.nonTerminal b] := by
    obtain ⟨n2, pr, h1, h2, h3⟩ := hp
    rw [hE] at h1; cases h1
    rw [hw] at h2
    obtain ⟨h4, h5⟩ := List.getElem?_eq_some_iff.1 h2
    simp at h4; subst h4
    refine ⟨rfl, ?_⟩
    rw [h3]; simp at h5; rw [← h5]; rfl
  obtain ⟨rfl, rfl⟩ := hpα
  rcases hor with hnts | hempty
  · obtain ⟨v0, hv0⟩ : ∃ v0, us = [v0] := by
      have := hc.length_eq
      match us, this with
      | [v0], _ => exact ⟨v0, rfl⟩
    subst hv0
    have h1 := hl.ieval_user hcls (algAgree_values u fields) hc _ (lowersPlain_nt hnts)
    rw [← han] at h1
    have hv0 : ∃ r, v0 = .nt r := by
      cases h1 with
      | term hs h => cases hs
      | nt hs hp hc ha h => cases h; exact userValues_node_nt ha
    obtain ⟨r, rfl⟩ := hv0
    rw [hl.wrapper_node u hE hpub] at hnode
    cases hnode
    exact h1
  · exfalso
    obtain ⟨q, β, _, _, _, _, hq, _⟩ := hc.nt_inv
    obtain ⟨n2, pr, h1, h2, _⟩ := hq
    rw [hb] at h1; cases h1
    rw [hempty] at h2; simp at h2

end user

/-! ## The invariant of the loop -/

/-- Loop invariant of the interactive `parse_generic`. -/
structure IRunInv [DecidableEq Ty] (g : Grammar X Ty) (F : FirstTable) (u : UserCode X V W) (tf : TokenFns Tok V)
    (At : Nat → List Symbol → Nat → Prop) (e : Nat) (next : W → Option (Except E Tok) × W) (w0 : W)
    (s : IState Tok V W E) (γ : List Symbol) (toks : List Tok) : Prop where
  stk : Stk At e γ s.states
  eval : ∃ vs, IEval g tf.terminalIdx (g.stackAlg u tf) next γ toks ((next w0).2, (next w0).1) vs
    (s.world, s.token) ∧ s.values = vs.reverse
  items : s.items = toks.map (fun t => some (.ok t)) ++ [s.token]
  priv : ∀ b, .nonTerminal b ∈ γ → g.isPublic b = false
  live : ∃ it, ItemsAt g F e γ it

variable [DecidableEq Ty] {g : Grammar X Ty} {F : FirstTable} {gen : Generated X}
  {u : UserCode X V W} {tf : TokenFns Tok V} {next : W → Option (Except E Tok) × W} {w0 : W}
  {At : Nat → List Symbol → Nat → Prop} {e : Nat}

theorem iRunInv_init {ep : EntryPoint} (hini : At e [] ep.initState) :
    IRunInv g F u tf At e next w0 (iParseInit next ep w0) [] [] :=
  ⟨.base hini, ⟨[], .nil _, rfl⟩, rfl, by simp, _, .entry⟩

omit [DecidableEq Ty] in
/-- The cell of the action table decides what a step does. -/
theorem iParseStep_act {ep : EntryPoint} {s : IState Tok V W E} {q : Nat} {sts : List Nat}
    {c : Option Nat} {act : RtAction} (hst : s.states = q :: sts)
    (hla : lookahead tf s.token = some c) (ha : gen.act q c = some (some act)) :
    iParseStep gen u tf next ep s = match act with
      | .shift nx => .next (iShiftStep tf next nx s)
      | .reduce nt n sem => match reduceStep gen u nt n sem s.core with
        | .ok c => .next { s with states := c.states, values := c.values, world := c.world }
        | .error e => .done (.fault e) s
      | .accept =>
        let r := acceptStep gen u ep.extract ep.actionIdx s.core
        .done r.1 { s with values := r.2.values, world := r.2.world } := by
  have hidx : lookaheadIdx gen tf s.token = .ok (laCol gen.nTerminals c) := by
    unfold lookahead at hla
    unfold lookaheadIdx
    split at hla
    · next h => cases hla; rw [h]; rfl
    · next h => cases hla; rw [h]; rfl
    · cases hla
  unfold Generated.act at ha
  obtain ⟨row, hrow, hcell⟩ := Option.bind_eq_some_iff.1 ha
  unfold iParseStep
  rw [hst]
  simp only
  rw [hidx]
  simp only
  rw [hrow]
  simp only
  rw [hcell]
  cases act with
  | shift nx => rfl
  | reduce nt n k => rfl
  | accept => rfl

omit [DecidableEq Ty] in
theorem iParseStep_none {ep : EntryPoint} {s : IState Tok V W E} {q : Nat} {sts : List Nat}
    {c : Option Nat} (hst : s.states = q :: sts)
    (hla : lookahead tf s.token = some c) (ha : gen.act q c = some none) :
    ∃ o, iParseStep gen u tf next ep s = .done o s ∧ (∀ v, o ≠ .ok v) ∧ o ≠ .fault .userPanic := by
  have hidx : lookaheadIdx gen tf s.token = .ok (laCol gen.nTerminals c) := by
    unfold lookahead at hla
    unfold lookaheadIdx
    split at hla
    · next h => cases hla; rw [h]; rfl
    · next h => cases hla; rw [h]; rfl
    · cases hla
  unfold Generated.act at ha
  obtain ⟨row, hrow, hcell⟩ := Option.bind_eq_some_iff.1 ha
  unfold iParseStep
  rw [hst]
  simp only
  rw [hidx]
  simp only
  rw [hrow]
  simp only
  rw [hcell]
  simp only
  split
  · exact ⟨_, rfl, (by intro v h; cases h), by intro h; cases h⟩
  · exact ⟨_, rfl, (by intro v h; cases h), by intro h; cases h⟩

omit [DecidableEq Ty] in
theorem iParseStep_error {ep : EntryPoint} {s : IState Tok V W E} {q : Nat} {sts : List Nat}
    (hst : s.states = q :: sts) (hla : lookahead tf s.token = none) :
    ∃ err, iParseStep gen u tf next ep s = .done (.lexerError err) s := by
  have hidx : ∃ err, lookaheadIdx gen tf s.token = .error err := by
    unfold lookahead at hla
    unfold lookaheadIdx
    split at hla
    · cases hla
    · cases hla
    · next h => rw [h]; exact ⟨_, rfl⟩
  obtain ⟨err, hidx⟩ := hidx
  refine ⟨err, ?_⟩
  unfold iParseStep
  rw [hst]
  simp only
  rw [hidx]

theorem iRunInv_shift {s : IState Tok V W E} {γ : List Symbol} {toks : List Tok}
    (hi : IRunInv g F u tf At e next w0 s γ toks) {tk : Tok} {r : Nat}
    (htk : s.token = some (.ok tk)) (hat : At e (γ ++ [.terminal (tf.terminalIdx tk)]) r)
    {nt p : Nat} {α β : List Symbol} {la : Option Nat} (hit : ItemsAt g F e γ ⟨nt, p, α.length, la⟩)
    (hp : g.HasProd nt p (α ++ .terminal (tf.terminalIdx tk) :: β)) :
    IRunInv g F u tf At e next w0 (iShiftStep tf next r s) (γ ++ [.terminal (tf.terminalIdx tk)])
      (toks ++ [tk]) := by
  obtain ⟨vs, hev, hvals⟩ := hi.eval
  refine ⟨.push hi.stk hat, ?_, ?_, ?_, _, .advance hit hp⟩
  · refine ⟨vs ++ [tf.value tk], ?_, ?_⟩
    · rw [htk] at hev
      exact hev.append (.term rfl (.nil _))
    · simp only [iShiftStep, htk, hvals, List.reverse_append, List.reverse_singleton,
        List.singleton_append]
  · simp only [iShiftStep, hi.items, htk, List.map_append, List.map_cons, List.map_nil]
  · intro b hb
    exact hi.priv b (by simpa using hb)

/-- What a reduction does. -/
theorem iReduce_spec (hT : Tables g F gen At) (hc : tf.Consistent g.nTerminals)
    (he : g.isPublic e = true) {s : IState Tok V W E} {γ : List Symbol} {toks : List Tok}
    (hi : IRunInv g F u tf At e next w0 s γ toks) {q : Nat} (hq : At e γ q) {c : Option Nat}
    (hcok : LaOk g.nTerminals c) {b n k : Nat}
    (ho : gen.act q c = some (some (.reduce b n k))) :
    ∃ p α γ' us rest, g.HasProd b p α ∧ n = α.length ∧ γ = γ' ++ α ∧ us.length = α.length ∧
      ItemsAt g F e γ ⟨b, p, α.length, c⟩ ∧ g.isPublic b = false ∧ s.values = us.reverse ++ rest ∧
      (∃ ts r1, IEval g tf.terminalIdx (g.stackAlg u tf) next α ts r1 us (s.world, s.token)) ∧
      ((∃ v sts w', (g.stackAlg u tf).node b p us s.world = some (v, w') ∧
          reduceStep gen u b n k s.core =
            .ok { s.core with states := sts, values := v :: rest, world := w' } ∧
          IRunInv g F u tf At e next w0
            { s with states := sts, values := v :: rest, world := w' } (γ' ++ [.nonTerminal b]) toks) ∨
        ((g.stackAlg u tf).node b p us s.world = none ∧
          reduceStep gen u b n k s.core = .error .userPanic)) := by
  obtain ⟨vs, hev, hvals⟩ := hi.eval
  obtain ⟨p, α, hp, rfl, hit, hpriv, pr, f, hpr, hf, hsf⟩ := hT.reduce_of he hq hcok ho
  obtain ⟨γ', hγ, hit0, nt, q', α', β, la, hit', hp', _⟩ := hit.complete hp he hpriv
  subst hγ
  obtain ⟨t1, t2, us1, us2, r1, htoks, hus, hev1, hev2⟩ := hev.split
  have hsyms : pr.syms = α := by
    rw [← rhs_of_getProduction hpr]; exact hp.rhs_eq
  have htag := ieval_tagged hc hev2
  rw [← hsyms] at htag
  have hvals0 : s.values = us2.reverse ++ us1.reverse := by
    rw [hvals, hus, List.reverse_append]
  have hvals' : s.core.values = us2.reverse ++ us1.reverse := hvals0
  have hdrop := hi.stk.drop
  obtain ⟨q0, rest0, hst0, hq0⟩ := hdrop.top
  obtain ⟨r, hgo, hat⟩ := hT.goto_mk he hq0 hit' hp'
  unfold Generated.go at hgo
  obtain ⟨grow, hgrow, hgcell⟩ := Option.bind_eq_some_iff.1 hgo
  have hlen : ¬ s.core.states.length < α.length := by
    show ¬ s.states.length < α.length
    rw [hi.stk.length]; simp; omega
  refine ⟨p, α, γ', us2, us1.reverse, hp, rfl, rfl, hev2.length_eq, hit, hpriv, hvals0, ⟨t2, r1, hev2⟩, ?_⟩
  rcases semFn_run (u := u) (tf := tf) hpr hsf htag us1.reverse s.world with
    ⟨v, w', hnode, hrun⟩ | ⟨hnode, hrun⟩
  · left
    have hst0' : s.core.states.drop α.length = q0 :: rest0 := hst0
    have hrun' : f.run u (us2.reverse ++ us1.reverse) s.core.world = .ok (v :: us1.reverse, w') :=
      hrun
    refine ⟨v, r :: q0 :: rest0, w', hnode, ?_, ?_⟩
    · unfold reduceStep
      rw [hf]
      simp only
      rw [hvals', hrun']
      simp only [Except.bind_ok]
      rw [if_neg hlen, hst0']
      simp only
      rw [hgrow]
      simp only
      rw [hgcell]
    refine ⟨?_, ?_, hi.items, ?_, _, .advance hit' hp'⟩
    · have := Stk.push hdrop hat
      rw [hst0] at this; exact this
    · refine ⟨us1 ++ [v], ?_, ?_⟩
      · have hlast : IEval g tf.terminalIdx (g.stackAlg u tf) next [.nonTerminal b] t2 r1 [v]
            (w', s.token) := by
          have := IEval.nt (ss := []) (t2 := []) hp hev2 hnode (.nil _)
          simpa using this
        rw [htoks]
        exact hev1.append hlast
      · simp
    · intro b' hb'
      rcases List.mem_append.1 hb' with hb' | hb'
      · exact hi.priv b' (List.mem_append.2 (Or.inl hb'))
      · simp at hb'; subst hb'; exact hpriv
  · right
    have hrun' : f.run u (us2.reverse ++ us1.reverse) s.core.world = .error .userPanic := hrun
    refine ⟨hnode, ?_⟩
    unfold reduceStep
    rw [hf]
    simp only
    rw [hvals', hrun']
    rfl

/-- What accepting does. -/
theorem iAccept_spec (hwf : g.WF) (hT : Tables g F gen At) (hc : tf.Consistent g.nTerminals)
    {ep : EntryPoint} (he : g.isPublic e = true)
    (hext : (semanticActionVariants g)[e]? = some ep.extract)
    (hsem : gen.IsSem g ep.actionIdx e 0) {s : IState Tok V W E} {γ : List Symbol}
    {toks : List Tok} (hi : IRunInv g F u tf At e next w0 s γ toks) {q : Nat} (hq : At e γ q)
    {c : Option Nat} (hlook : lookahead tf s.token = some c)
    (ho : gen.act q c = some (some .accept)) :
    s.token = none ∧
    ((∃ v us w', (acceptStep gen u ep.extract ep.actionIdx s.core) =
        (.ok v, { s.core with values := [], world := w' }) ∧ s.values = [us] ∧
        (g.alg u tf.fields : Alg Tok (BVal V) W).node e 0 [us.toB] s.world = some (.nt v, w') ∧
        IEval g tf.terminalIdx (g.alg u tf.fields) next [.nonTerminal e] toks
          ((next w0).2, (next w0).1) [.nt v] (w', none)) ∨
      ((acceptStep gen u ep.extract ep.actionIdx s.core).1 = .fault .userPanic ∧
        ∃ k x, s.values = [.nonTerminal k x] ∧
          (g.stackAlg u tf).node e 0 [.nonTerminal k x] s.world = none)) := by
  obtain ⟨vs, hev, hvals⟩ := hi.eval
  obtain ⟨rfl, hit⟩ := hT.accept_of he hq (laOk_lookahead hc hlook) ho
  have htk : s.token = none := by
    unfold lookahead at hlook
    split at hlook
    · next h => exact h
    · simp at hlook
    · cases hlook
  refine ⟨htk, ?_⟩
  obtain ⟨_, b, hp⟩ := hwf.pub he
  obtain ⟨γ', hγ, hit0⟩ := hit.split _ hp
  have hγ' : γ' = [] := by
    rcases hit0.start_inv rfl with ⟨h1, _⟩ | ⟨nt, q', α', β, la, h3, h4, _⟩
    · exact h1
    · have := hwf.nt_priv h4 (b := e) (by simp)
      rw [he] at this; cases this
  subst hγ'
  simp only [List.take_succ_cons, List.take_zero, List.nil_append] at hγ
  subst hγ
  obtain ⟨pr, f, hpr, hf, hsf⟩ := hsem
  have hsyms : pr.syms = [.nonTerminal b] := by
    rw [← rhs_of_getProduction hpr]; exact hp.rhs_eq
  have htag := ieval_tagged hc hev
  rw [← hsyms] at htag
  obtain ⟨x, rfl⟩ : ∃ x, vs = [x] := by
    match vs, hev.length_eq with
    | [x], _ => exact ⟨x, rfl⟩
  have hvals1 : s.values = [x] := by rw [hvals]; rfl
  unfold acceptStep
  rw [hf]
  simp only
  rcases semFn_run (u := u) (tf := tf) hpr hsf htag [] s.world with
    ⟨v, w', hnode, hrun⟩ | ⟨hnode, hrun⟩
  · left
    rw [List.append_nil, ← hvals] at hrun
    have hrun' : f.run u s.core.values s.core.world = .ok ([v], w') := hrun
    rw [hrun']
    simp only
    obtain ⟨y, k, hnv, hk, rfl⟩ := stackAlg_node hnode
    rw [hext] at hk; cases hk
    simp only [extract, if_true]
    refine ⟨y, x, w', rfl, hvals1, hnv, ?_⟩
    have h1 := ieval_toB hc hev
    rw [htk] at h1
    have := IEval.nt (ss := []) (t2 := []) (alg := g.alg u tf.fields) hp h1 hnv (.nil _)
    simpa using this
  · right
    rw [List.append_nil, ← hvals] at hrun
    have hrun' : f.run u s.core.values s.core.world = .error .userPanic := hrun
    rw [hrun']
    rw [hsyms] at htag
    cases htag with
    | cons h1 _ =>
      obtain ⟨k, y, _, rfl⟩ := h1
      exact ⟨rfl, k, y, hvals1, hnode⟩

/-- A step keeps the invariant; `Ok` is returned only with a derivation of everything read. -/
theorem iParseStep_spec (hwf : g.WF) (hT : Tables g F gen At) (hc : tf.Consistent g.nTerminals)
    {ep : EntryPoint} (he : g.isPublic e = true)
    (hext : (semanticActionVariants g)[e]? = some ep.extract)
    (hsem : gen.IsSem g ep.actionIdx e 0) {s : IState Tok V W E} {γ : List Symbol}
    {toks : List Tok} (hi : IRunInv g F u tf At e next w0 s γ toks) :
    (∀ s', iParseStep gen u tf next ep s = .next s' →
      ∃ γ' toks', IRunInv g F u tf At e next w0 s' γ' toks') ∧
    ∀ v s', iParseStep gen u tf next ep s = .done (.ok v) s' →
      s.token = none ∧ IEval g tf.terminalIdx (g.alg u tf.fields) next [.nonTerminal e] toks
        ((next w0).2, (next w0).1) [.nt v] (s'.world, none) := by
  obtain ⟨q, rest, hst, hq⟩ := hi.stk.top
  cases hlook : lookahead tf s.token with
  | none =>
    obtain ⟨err, h0⟩ := iParseStep_error (gen := gen) (u := u) (next := next) (ep := ep) hst hlook
    rw [h0]
    exact ⟨(fun s' h => by cases h), fun v s' h => by cases h⟩
  | some c =>
  have hcok : LaOk g.nTerminals c := laOk_lookahead hc hlook
  obtain ⟨o, ho⟩ := hT.cell he hq hcok
  cases o with
  | none =>
    obtain ⟨o, h0, h1, _⟩ := iParseStep_none (u := u) (next := next) (ep := ep) hst hlook ho
    rw [h0]
    exact ⟨(fun s' h => by cases h), fun v s' h => by cases h; exact absurd rfl (h1 v)⟩
  | some act =>
  rw [iParseStep_act hst hlook ho]
  cases act with
  | shift r =>
    simp only
    obtain ⟨t, nt, p, α, β, la, hct, hit, hp, hat⟩ := hT.shift_of he hq hcok ho
    subst hct
    obtain ⟨tk, htk, hidx⟩ : ∃ tk, s.token = some (.ok tk) ∧ tf.terminalIdx tk = t := by
      unfold lookahead at hlook
      split at hlook <;> simp at hlook
      next tk h => exact ⟨tk, h, hlook⟩
    subst hidx
    exact ⟨(fun s' h => by cases h; exact ⟨_, _, iRunInv_shift hi htk hat hit hp⟩), fun v s' h => by cases h⟩
  | reduce b n k =>
    simp only
    obtain ⟨p, α, γ', us, rs, hp, _, _, _, _, _, _, _, h⟩ := iReduce_spec hT hc he hi hq hcok ho
    rcases h with ⟨v, sts, w', _, h1, h2⟩ | ⟨_, h1⟩
    · rw [h1]
      exact ⟨(fun s' h => by cases h; exact ⟨_, _, h2⟩), fun v s' h => by cases h⟩
    · rw [h1]
      exact ⟨(fun s' h => by cases h), fun v s' h => by cases h⟩
  | accept =>
    simp only
    refine ⟨(by intro s' h; cases h), ?_⟩
    intro v0 s' h
    obtain ⟨htk, h1⟩ := iAccept_spec hwf hT hc he hext hsem hi hq hlook ho
    refine ⟨htk, ?_⟩
    rcases h1 with ⟨v, us, w', h1, _, _, h2⟩ | ⟨h1, _⟩
    · rw [h1] at h
      cases h
      exact h2
    · rw [IStepResult.done.injEq, h1] at h
      cases h.1

/-- A panic comes from the user's code. -/
theorem iParseStep_panic (hwf : g.WF) (hT : Tables g F gen At) (hc : tf.Consistent g.nTerminals)
    {ep : EntryPoint} (he : g.isPublic e = true)
    (hext : (semanticActionVariants g)[e]? = some ep.extract)
    (hsem : gen.IsSem g ep.actionIdx e 0) {s : IState Tok V W E} {γ : List Symbol}
    {toks : List Tok} (hi : IRunInv g F u tf At e next w0 s γ toks) {s' : IState Tok V W E}
    (h : iParseStep gen u tf next ep s = .done (.fault .userPanic) s') :
    (s'.world = s.world ∧ ∃ b p α us ts r1, g.HasProd b p α ∧ g.isPublic b = false ∧
      IEval g tf.terminalIdx (g.stackAlg u tf) next α ts r1 us (s.world, s.token) ∧
      (g.stackAlg u tf).node b p us s.world = none) ∨
    ∃ k x, (g.stackAlg u tf).node e 0 [.nonTerminal k x] s.world = none := by
  obtain ⟨q, rest, hst, hq⟩ := hi.stk.top
  cases hlook : lookahead tf s.token with
  | none =>
    obtain ⟨err, h0⟩ := iParseStep_error (gen := gen) (u := u) (next := next) (ep := ep) hst hlook
    rw [h0] at h
    cases h
  | some c =>
  have hcok : LaOk g.nTerminals c := laOk_lookahead hc hlook
  obtain ⟨o, ho⟩ := hT.cell he hq hcok
  cases o with
  | none =>
    obtain ⟨o, h0, _, h1⟩ := iParseStep_none (u := u) (next := next) (ep := ep) hst hlook ho
    rw [h0] at h
    cases h
    exact absurd rfl h1
  | some act =>
  rw [iParseStep_act hst hlook ho] at h
  cases act with
  | shift r => cases h
  | reduce b n k =>
    simp only at h
    obtain ⟨p, α, γ', us, rs, hp, _, _, _, _, hpriv, _, ⟨ts, r1, hev⟩, h2⟩ :=
      iReduce_spec hT hc he hi hq hcok ho
    rcases h2 with ⟨v, sts, w', _, h1, h2⟩ | ⟨h2, h1⟩
    · rw [h1] at h; cases h
    · rw [h1] at h
      cases h
      exact .inl ⟨rfl, b, p, α, us, ts, r1, hp, hpriv, hev, h2⟩
  | accept =>
    simp only at h
    obtain ⟨htk, h1⟩ := iAccept_spec hwf hT hc he hext hsem hi hq hlook ho
    rcases h1 with ⟨v, us, w', h1, _, _, h2⟩ | ⟨h1, k, x, _, h2⟩
    · rw [h1] at h
      cases h
    · exact .inr ⟨k, x, h2⟩

/-- The invariant at the last step of a run. -/
theorem iParseLoop_last (hwf : g.WF) (hT : Tables g F gen At) (hc : tf.Consistent g.nTerminals)
    {ep : EntryPoint} (he : g.isPublic e = true)
    (hext : (semanticActionVariants g)[e]? = some ep.extract)
    (hsem : gen.IsSem g ep.actionIdx e 0) {fuel : Nat} {s : IState Tok V W E} {γ : List Symbol}
    {toks : List Tok} (hi : IRunInv g F u tf At e next w0 s γ toks) {o : Outcome V E}
    {s' : IState Tok V W E} (h : iParseLoop gen u tf next ep fuel s = some (o, s')) :
    ∃ s1 γ1 toks1, IRunInv g F u tf At e next w0 s1 γ1 toks1 ∧
      iParseStep gen u tf next ep s1 = .done o s' := by
  induction fuel generalizing s γ toks with
  | zero => cases h
  | succ fuel ih =>
    unfold iParseLoop at h
    split at h
    · next hd => cases h; exact ⟨s, γ, toks, hi, hd⟩
    · next s1 hd =>
      obtain ⟨γ1, toks1, hi1⟩ := (iParseStep_spec hwf hT hc he hext hsem hi).1 _ hd
      exact ih hi1 h

/-- The invariant at every moment. -/
theorem iSteps_inv (hwf : g.WF) (hT : Tables g F gen At) (hc : tf.Consistent g.nTerminals)
    {ep : EntryPoint} (he : g.isPublic e = true)
    (hext : (semanticActionVariants g)[e]? = some ep.extract)
    (hsem : gen.IsSem g ep.actionIdx e 0) {s s' : IState Tok V W E} {γ : List Symbol}
    {toks : List Tok} (hi : IRunInv g F u tf At e next w0 s γ toks)
    (h : ISteps gen u tf next ep s s') :
    ∃ γ1 toks1, IRunInv g F u tf At e next w0 s' γ1 toks1 := by
  induction h with
  | refl => exact ⟨_, _, hi⟩
  | tail _ hn ih =>
    obtain ⟨γ1, toks1, hi1⟩ := ih
    exact (iParseStep_spec hwf hT hc he hext hsem hi1).1 _ hn

/-! ## Completeness -/

omit [DecidableEq Ty] in
/-- Reading starts at the lookahead. -/
theorem IEval.look {ti : Tok → Nat} {alg : Alg Tok Val W} {ss : List Symbol} {toks : List Tok} {r vs r'}
    (h : IEval g ti alg next ss toks r vs r') :
    (toks = [] → r'.2 = r.2) ∧ ∀ t rest, toks = t :: rest → r.2 = some (.ok t) := by
  induction h with
  | nil r => exact ⟨fun _ => rfl, fun t rest h => by cases h⟩
  | term ht h ih => exact ⟨(fun h => by cases h), fun t rest h => by cases h; rfl⟩
  | @nt b p α t1 t2 r us w1 la1 v w2 ss vs r3 hp hc ha h ih1 ih2 =>
    constructor
    · intro h
      obtain ⟨h1, h2⟩ := List.append_eq_nil_iff.1 h
      rw [ih2.1 h2, ← ih1.1 h1]
    · intro t rest h
      cases t1 with
      | nil =>
        rw [← ih1.1 rfl]
        exact ih2.2 t rest h
      | cons t' t1 =>
        obtain ⟨rfl, _⟩ := List.cons.inj h
        exact ih1.2 _ _ rfl

omit [DecidableEq Ty] in
theorem IEval.yields {ti : Tok → Nat} {alg : Alg Tok Val W} {ss : List Symbol} {toks : List Tok} {r vs r'}
    (h : IEval g ti alg next ss toks r vs r') :
    Eval g ti Alg.unit ss toks () (vs.map fun _ => ()) () := by
  induction h with
  | nil r => exact .nil _
  | term ht h ih => exact .term ht ih
  | nt hp hc ha h ih1 ih2 => exact .nt hp ih1 rfl ih2

omit [DecidableEq Ty] in
theorem InFirst.of_ieval (hF : FirstEnough g F) {la : Option Nat} {β : List Symbol} {c : Option Nat}
    (hβ : InFirst F la β c) {alg : Alg Tok Val W} {ss : List Symbol} {toks : List Tok} {r vs r'}
    (h : IEval g tf.terminalIdx alg next ss toks r vs r') (hss : g.BehindSyms ss)
    (hr : lookahead tf r'.2 = some c) :
    ∃ c', lookahead tf r.2 = some c' ∧ InFirst F la (ss ++ β) c' := by
  induction h with
  | nil => exact ⟨c, hr, hβ⟩
  | @term t i ss ts w vs w' ht h ih => subst ht; exact ⟨_, rfl, .term _ _⟩
  | @nt b p α t1 t2 r us w1 la1 v w2 ss vs r3 hp hc ha h _ ih =>
    have hb := hss.head
    have hd := (Eval.single_nt (alg := Alg.unit) hp hc.yields rfl).derives
    cases t1 with
    | nil =>
      obtain ⟨c', h1, h2⟩ := ih (hss.tail hd) hr
      refine ⟨c', ?_, .skip (hF.empty b hb hd) h2⟩
      rw [← hc.look.1 rfl]; exact h1
    | cons t t1 =>
      refine ⟨some (tf.terminalIdx t), by rw [hc.look.2 _ _ rfl]; rfl, ?_⟩
      exact .nt (hF.terminals b _ hb ⟨_, by simpa using hd⟩)

omit [DecidableEq Ty] in
theorem ISteps.trans {ep : EntryPoint} {s s1 s2 : IState Tok V W E}
    (h1 : ISteps gen u tf next ep s s1) (h2 : ISteps gen u tf next ep s1 s2) :
    ISteps gen u tf next ep s s2 := by
  induction h2 with
  | refl => exact h1
  | tail _ hn ih => exact .tail ih hn

omit [DecidableEq Ty] in
theorem ISteps.loop {ep : EntryPoint} {s s' : IState Tok V W E} (h : ISteps gen u tf next ep s s')
    {fuel : Nat} {r : Outcome V E × IState Tok V W E}
    (hr : iParseLoop gen u tf next ep fuel s' = some r) :
    ∃ fuel', iParseLoop gen u tf next ep fuel' s = some r := by
  induction h generalizing fuel with
  | refl => exact ⟨_, hr⟩
  | tail _ hn ih =>
    apply ih (fuel := fuel + 1)
    unfold iParseLoop
    rw [hn]
    exact hr

section complete
variable {ep : EntryPoint} (hF : FirstEnough g F) (hwf : g.WF) (hT : Tables g F gen At)
  (hc : tf.Consistent g.nTerminals) (he : g.isPublic e = true) (hn : NoConflict g F e)
include hF hwf hT hc he hn

/-- The parser follows every evaluation of what an item expects. -/
theorem icomplete_seq {α : List Symbol} {toks : List Tok} {r vs r'}
    (h : IEval g tf.terminalIdx (g.stackAlg u tf) next α toks r vs r') :
    ∀ {s : IState Tok V W E} {γ : List Symbol} {tk : List Tok} {nt p : Nat} {α0 β : List Symbol}
      {la c : Option Nat}, IRunInv g F u tf At e next w0 s γ tk → (s.world, s.token) = r →
      ItemsAt g F e γ ⟨nt, p, α0.length, la⟩ → g.HasProd nt p (α0 ++ α ++ β) →
      lookahead tf r'.2 = some c → InFirst F la β c →
      ∃ s', ISteps gen u tf next ep s s' ∧ IRunInv g F u tf At e next w0 s' (γ ++ α) (tk ++ toks) ∧
        (s'.world, s'.token) = r' ∧ s'.values = vs.reverse ++ s.values := by
  induction h with
  | nil r =>
    intro s γ tk nt p α0 β la c hi hr _ _ _ _
    exact ⟨s, .refl _, by simpa using hi, hr, rfl⟩
  | @term t i ss ts w vs r' ht h ih =>
    intro s γ tk nt p α0 β la c hi hr hit hp hla hf
    subst ht
    obtain ⟨hw, htok⟩ := Prod.mk.inj hr
    have hp' : g.HasProd nt p (α0 ++ .terminal (tf.terminalIdx t) :: (ss ++ β)) := by simpa using hp
    obtain ⟨q, sts, hq, hat⟩ := hi.stk.top
    obtain ⟨x, hx, hat'⟩ := hT.shift_mk he hat hit hp'
    have hlook : lookahead tf s.token = some (some (tf.terminalIdx t)) := by rw [htok]; rfl
    have hstep := iParseStep_act (u := u) (next := next) (ep := ep) hq hlook hx
    simp only at hstep
    have hi' := iRunInv_shift hi htok hat' hit hp'
    have hit' := ItemsAt.advance hit hp'
    have hl : α0.length + 1 = (α0 ++ [Symbol.terminal (tf.terminalIdx t)]).length := by simp
    rw [hl] at hit'
    obtain ⟨s', h1, h2, h3, h4⟩ := ih hi' (by simp [iShiftStep, hw]) hit' (by simpa using hp) hla hf
    refine ⟨s', ISteps.trans (.tail (.refl _) hstep) h1, by simpa using h2, h3, ?_⟩
    rw [h4]
    simp only [iShiftStep, htok, List.reverse_cons, List.append_assoc, List.singleton_append]
    rfl
  | @nt b p α t1 t2 r us w1 la1 v w2 ss vs r3 hp hch ha h ih1 ih2 =>
    intro s γ tk nt q α0 β la c hi hr hit hq hla hf
    have hq' : g.HasProd nt q (α0 ++ .nonTerminal b :: (ss ++ β)) := by simpa using hq
    have hpriv := hwf.privSyms hq'
    have hss : g.BehindSyms ss := hq'.behindSyms.left
    have hb := hpriv b (by simp)
    obtain ⟨c1, hc1, hf1⟩ := InFirst.of_ieval hF hf h hss hla
    simp only at hc1
    have hpred := ItemsAt.pred hit hq' hp hf1
    obtain ⟨s1, h1, h2, h3, h4⟩ := ih1 (α0 := []) (β := []) hi hr hpred (by simpa using hp) hc1 .nil
    obtain ⟨hw1, htok1⟩ := Prod.mk.inj h3
    have hall := ItemsAt.advance_all α [] [] (δ := γ) (by simpa using hpred) (by simpa using hp)
    have hall' : ItemsAt g F e (γ ++ α) ⟨b, p, α.length, c1⟩ := by simpa using hall
    obtain ⟨q1, sts, hq1, hat⟩ := h2.stk.top
    have hlook : lookahead tf s1.token = some c1 := by rw [htok1]; exact hc1
    have hlo := laOk_lookahead hc hlook
    have hw : g.Wants (ItemsAt g F e (γ ++ α)) c1 (.reduce b p) := ⟨α, hall', hp, hb.2⟩
    have hcell : ∃ k, gen.act q1 c1 = some (some (.reduce b α.length k)) := by
      rcases hT.reduce_mk he hat hall' hp hb.2 with ⟨k, hk, _⟩ | ⟨r, hr⟩ | ha
      · exact ⟨k, hk⟩
      · obtain ⟨t, nt', p', α', β, la, rfl, h1, h2, _⟩ := hT.shift_of he hat hlo hr
        cases hn _ _ _ .shift hw ⟨_, _, _, _, _, _, h1, h2, rfl⟩
      · obtain ⟨rfl, h1⟩ := hT.accept_of he hat hlo ha
        obtain ⟨_, b', hb'⟩ := hwf.pub he
        cases hn _ _ _ .accept hw ⟨e, 0, [.nonTerminal b'], h1, hb', he, rfl⟩
    obtain ⟨k, hcell⟩ := hcell
    have hstep := iParseStep_act (u := u) (next := next) (ep := ep) hq1 hlook hcell
    simp only at hstep
    obtain ⟨p', α', γ', us', rest, g1, g2, g3, g4, g5, g6, g7, _, g8⟩ :=
      iReduce_spec hT hc he h2 hat hlo hcell
    cases hn _ _ _ (.reduce b p') hw ⟨_, g5, g1, g6⟩
    have hα : α = α' := hp.rhs_eq.symm.trans g1.rhs_eq
    subst hα
    obtain ⟨rfl, _⟩ := List.append_inj' g3 rfl
    rw [h4] at g7
    have g7' : us.reverse = us'.reverse ∧ s.values = rest :=
      List.append_inj g7 (by simp [g4, hch.length_eq])
    obtain ⟨g9, rfl⟩ := g7'
    have g10 : us = us' := by simpa using congrArg List.reverse g9
    subst g10
    rw [hw1, ha] at g8
    rcases g8 with ⟨v', sts', w', e1, e2, e3⟩ | ⟨e1, _⟩
    · obtain ⟨rfl, rfl⟩ := Prod.mk.inj (Option.some.inj e1)
      rw [e2] at hstep
      simp only at hstep
      have hit' := ItemsAt.advance hit hq'
      have hl : α0.length + 1 = (α0 ++ [Symbol.nonTerminal b]).length := by simp
      rw [hl] at hit'
      obtain ⟨s', f1, f2, f3, f4⟩ := ih2 e3 (by simp [htok1]) hit' (by simpa using hq) hla hf
      refine ⟨s', h1.trans (ISteps.trans (.tail (.refl _) hstep) f1), by simpa using f2, f3, ?_⟩
      rw [f4]
      simp
    · cases e1

/-- The parser follows every evaluation of the entry point and accepts. -/
theorem icomplete_entry (hext : (semanticActionVariants g)[e]? = some ep.extract)
    (hsem : gen.IsSem g ep.actionIdx e 0) (hini : At e [] ep.initState) {b : Nat}
    (hb : g.HasProd e 0 [.nonTerminal b]) {toks : List Tok} {v : SAR V} {w' : W}
    (h : IEval g tf.terminalIdx (g.stackAlg u tf) next [.nonTerminal b] toks
      ((next w0).2, (next w0).1) [v] (w', none)) :
    ∃ fuel o s', iParse gen u tf next ep w0 fuel = some (o, s') ∧
      s'.items = toks.map (fun t => some (.ok t)) ++ [none] ∧
      ((∃ x, o = .ok x ∧ (g.alg u tf.fields : Alg Tok (BVal V) W).node e 0 [v.toB] w' =
          some (.nt x, s'.world)) ∨
        (o = .fault .userPanic ∧ ∃ k x, v = .nonTerminal k x ∧
          (g.stackAlg u tf).node e 0 [.nonTerminal k x] w' = none)) := by
  obtain ⟨s1, h1, h2, h3, h4⟩ := icomplete_seq (ep := ep) (w0 := w0) hF hwf hT hc he hn h (nt := e) (p := 0)
    (α0 := []) (β := []) (la := none) (c := none) (s := iParseInit next ep w0) (iRunInv_init hini)
    rfl .entry (by simpa using hb) rfl .nil
  obtain ⟨hw, htok⟩ := Prod.mk.inj h3
  obtain ⟨q, sts, hq, hat⟩ := h2.stk.top
  have hit : ItemsAt g F e ([] ++ [.nonTerminal b]) ⟨e, 0, [].length + 1, none⟩ :=
    ItemsAt.advance (α := []) (β := []) .entry (by simpa using hb)
  have hr := hT.accept_mk he hat hit
  have hlook : lookahead tf s1.token = some none := by rw [htok]; rfl
  have hstep := iParseStep_act (u := u) (next := next) (ep := ep) hq hlook hr
  simp only at hstep
  have h4' : s1.values = [v] := by rw [h4]; rfl
  have hit' : s1.items = toks.map (fun t => some (.ok t)) ++ [none] := by
    rw [h2.items, htok]; rfl
  obtain ⟨_, h5⟩ := iAccept_spec hwf hT hc he hext hsem h2 hat hlook hr
  obtain ⟨fuel, h6⟩ := h1.loop (fuel := 1) (r := _) (by unfold iParseLoop; rw [hstep])
  refine ⟨fuel, _, _, h6, hit', ?_⟩
  rcases h5 with ⟨x, us, w2, h7, h8, h9, _⟩ | ⟨h7, k, y, h8, h9⟩
  · left
    rw [h4'] at h8
    cases h8
    rw [h7]
    refine ⟨x, rfl, ?_⟩
    rw [← hw]; exact h9
  · right
    rw [h4'] at h8
    cases h8
    refine ⟨h7, k, y, rfl, ?_⟩
    rw [← hw]; exact h9

end complete

end Parsegen
