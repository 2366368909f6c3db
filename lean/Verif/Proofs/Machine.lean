import Verif.Proofs.Tables
import Verif.Spec.Semantics

/-! # Semantic action functions against the meaning of actions -/

namespace Parsegen

variable {X Ty V W Tok : Type}

/-- Forget the variant tags. -/
def SAR.toB : SAR V → BVal V
  | .token _ fs => .tok fs
  | .nonTerminal _ v => .nt v

/-- A stack value carries the variant tag of its symbol. -/
def Tagged (variants : List Nat) : Symbol → SAR V → Prop
  | .terminal i, v => ∃ fs, v = .token i fs
  | .nonTerminal b, v => ∃ k x, variants[b]? = some k ∧ v = .nonTerminal k x

/-- The algebra of tagged stack values. -/
def Grammar.stackAlg [DecidableEq Ty] (g : Grammar X Ty) (u : UserCode X V W)
    (tf : TokenFns Tok V) : Alg Tok (SAR V) W where
  leaf := tf.value
  node nt p vs w :=
    match g.nodeValue u nt p (vs.map SAR.toB) w, (semanticActionVariants g)[nt]? with
    | some (.nt v, w'), some k => some (.nonTerminal k v, w')
    | _, _ => none

section
variable [DecidableEq Ty] {g : Grammar X Ty} {u : UserCode X V W} {tf : TokenFns Tok V}

theorem stackAlg_node {nt p : Nat} {vs : List (SAR V)} {w : W} {r : SAR V} {w' : W}
    (h : (g.stackAlg u tf).node nt p vs w = some (r, w')) :
    ∃ v k, g.nodeValue u nt p (vs.map SAR.toB) w = some (.nt v, w') ∧
      (semanticActionVariants g)[nt]? = some k ∧ r = .nonTerminal k v := by
  unfold Grammar.stackAlg at h
  simp only at h
  split at h
  · next v w1 k h1 h2 => cases h; exact ⟨v, k, h1, h2, rfl⟩
  · cases h

/-- Values built by the stack algebra are tagged. -/
theorem eval_tagged {nT : Nat} (hc : tf.Consistent nT) {ss : List Symbol} {ts : List Tok} {w : W}
    {vs : List (SAR V)} {w' : W} (h : Eval g tf.terminalIdx (g.stackAlg u tf) ss ts w vs w') :
    List.Forall₂ (Tagged (semanticActionVariants g)) ss vs := by
  induction h with
  | nil => exact .nil
  | @term t i ss ts w vs w' ht h ih =>
    refine .cons ?_ ih
    exact ⟨tf.fields t, by rw [← ht]; exact hc.value t⟩
  | nt hp hch ha h ih1 ih2 =>
    refine .cons ?_ ih2
    obtain ⟨x, k, _, h2, h3⟩ := stackAlg_node ha
    exact ⟨k, x, h2, h3⟩

/-- Forgetting the tags gives the value semantics. -/
theorem eval_toB {nT : Nat} (hc : tf.Consistent nT) {ss : List Symbol} {ts : List Tok} {w : W}
    {vs : List (SAR V)} {w' : W} (h : Eval g tf.terminalIdx (g.stackAlg u tf) ss ts w vs w') :
    Eval g tf.terminalIdx (g.alg u tf.fields) ss ts w (vs.map SAR.toB) w' := by
  induction h with
  | nil => exact .nil _
  | @term t i ss ts w vs w' ht h ih =>
    have := Eval.term (alg := g.alg u tf.fields) ht ih
    rw [List.map_cons]
    have e : SAR.toB ((g.stackAlg u tf).leaf t) = (g.alg u tf.fields).leaf t := by
      show SAR.toB (tf.value t) = _
      rw [hc.value]; rfl
    rw [e]; exact this
  | nt hp hch ha h ih1 ih2 =>
    obtain ⟨x, k, h1, h2, rfl⟩ := stackAlg_node ha
    exact .nt hp ih1 h1 ih2

/-- Every value in the value semantics is produced by the stack algebra. -/
theorem eval_ofB (hv : ∀ nt p α, g.HasProd nt p α → ∃ k, (semanticActionVariants g)[nt]? = some k)
    {nT : Nat} (hc : tf.Consistent nT) {ss : List Symbol} {ts : List Tok} {w : W}
    {us : List (BVal V)} {w' : W}
    (h : Eval g tf.terminalIdx (g.alg u tf.fields) ss ts w us w') :
    ∃ vs, Eval g tf.terminalIdx (g.stackAlg u tf) ss ts w vs w' ∧ us = vs.map SAR.toB := by
  induction h with
  | nil w => exact ⟨[], .nil w, rfl⟩
  | @term t i ss ts w vs w' ht h ih =>
    obtain ⟨vs', h1, rfl⟩ := ih
    refine ⟨_, .term ht h1, ?_⟩
    rw [List.map_cons]
    congr 1
    show _ = SAR.toB (tf.value t)
    rw [hc.value]; rfl
  | @nt b p α t1 t2 w us w1 v w2 ss vs w3 hp hch ha h ih1 ih2 =>
    obtain ⟨cs, h1, rfl⟩ := ih1
    obtain ⟨vs', h2, rfl⟩ := ih2
    obtain ⟨k, hk⟩ := hv b p α hp
    have hx : ∃ x, v = .nt x := by
      have ha' : g.nodeValue u b p (cs.map SAR.toB) w1 = some (v, w2) := ha
      unfold Grammar.nodeValue at ha'
      split at ha'
      · cases ha'
      · next pr hpr =>
        cases hr : u.run pr.action (bindEnv pr.symbols (cs.map SAR.toB)) w1 with
        | none => rw [hr] at ha'; cases ha'
        | some r => rw [hr] at ha'; cases ha'; exact ⟨_, rfl⟩
    obtain ⟨x, rfl⟩ := hx
    refine ⟨.nonTerminal k x :: vs', .nt hp h1 ?_ h2, rfl⟩
    have ha' : g.nodeValue u b p (cs.map SAR.toB) w1 = some (.nt x, w2) := ha
    unfold Grammar.stackAlg
    simp only [ha', hk]

end

/-! ## Running the pops -/

theorem popStmts_append {variants : List Nat} {l1 l2 : List BoundSymbol} {ps : List PopStmt}
    (h : popStmts variants (l1 ++ l2) = .ok ps) :
    ∃ p1 p2, popStmts variants l1 = .ok p1 ∧ popStmts variants l2 = .ok p2 ∧ ps = p1 ++ p2 := by
  induction l1 generalizing ps with
  | nil => exact ⟨[], ps, rfl, h, rfl⟩
  | cons s l1 ih =>
    rw [List.cons_append] at h
    unfold popStmts at h
    obtain ⟨p, h1, h⟩ := Except.bind_eq_ok.1 h
    obtain ⟨ps', h2, h⟩ := Except.bind_eq_ok.1 h
    cases h
    obtain ⟨p1, p2, h3, h4, rfl⟩ := ih h2
    refine ⟨p :: p1, p2, ?_, h4, rfl⟩
    unfold popStmts
    rw [h1, Except.bind_ok, h3]; rfl

theorem runPops_append (p1 p2 : List PopStmt) (env : Env V) (st : List (SAR V)) :
    runPops (p1 ++ p2) env st = runPops p1 env st >>= fun r => runPops p2 r.1 r.2 := by
  induction p1 generalizing env st with
  | nil => rfl
  | cons p p1 ih =>
    cases p with
    | drop => exact ih env st.tail
    | bind n ex =>
      rw [List.cons_append]
      simp only [runPops]
      cases st with
      | nil => rfl
      | cons v st =>
        simp only
        cases extract ex v with
        | none => rfl
        | some b => exact ih _ st

/-- The emitted `pop`s remove one value per symbol and bind the names as specified. -/
theorem runPops_spec {variants : List Nat} {syms : List BoundSymbol} {vs : List (SAR V)}
    {pops : List PopStmt} (hp : popStmts variants syms.reverse = .ok pops)
    (ht : List.Forall₂ (Tagged variants) (syms.map (·.symbol)) vs) (env : Env V)
    (rest : List (SAR V)) :
    ∃ env', runPops pops env (vs.reverse ++ rest) = .ok (env', rest) ∧
      ∀ n, env' n = (bindEnv syms (vs.map SAR.toB) n).or (env n) := by
  induction syms generalizing vs pops rest with
  | nil =>
    cases ht
    cases hp
    exact ⟨env, rfl, fun n => rfl⟩
  | cons s syms ih =>
    simp only [List.map_cons] at ht
    cases ht with
    | @cons _ v _ vs h1 h2 =>
      rw [List.reverse_cons] at hp
      obtain ⟨p1, p2, e1, e2, rfl⟩ := popStmts_append hp
      unfold popStmts at e2
      obtain ⟨p, e3, e2⟩ := Except.bind_eq_ok.1 e2
      obtain ⟨nil', e4, e2⟩ := Except.bind_eq_ok.1 e2
      cases e4; cases e2
      obtain ⟨env', r1, r2⟩ := ih e1 h2 (v :: rest)
      have hst : (v :: vs).reverse ++ rest = vs.reverse ++ v :: rest := by simp
      rw [hst, runPops_append, r1, Except.bind_ok]
      simp only
      unfold popStmt at e3
      split at e3
      · next hb =>
        cases e3
        refine ⟨env', rfl, ?_⟩
        intro n
        rw [r2]
        simp [bindEnv, hb]
      · next nm hb =>
        have hex : ∃ ex, p = .bind nm.name ex ∧ extract ex v = some v.toB := by
          split at e3
          · next t hsym =>
            cases e3
            rw [hsym] at h1
            obtain ⟨fs, rfl⟩ := h1
            exact ⟨_, rfl, by simp [extract, SAR.toB]⟩
          · next b hsym =>
            rw [hsym] at h1
            obtain ⟨k, x, hk, rfl⟩ := h1
            rw [hk] at e3
            cases e3
            exact ⟨_, rfl, by simp [extract, SAR.toB]⟩
        obtain ⟨ex, rfl, hex⟩ := hex
        refine ⟨env'.bind nm.name v.toB, ?_, ?_⟩
        · simp only [runPops, hex]
        · intro n
          simp only [Env.bind, bindEnv, hb, Option.map_some, List.map_cons, r2]
          by_cases he : n = nm.name
          · subst he; simp
          · have : nm.name ≠ n := fun h => he h.symm
            simp [he, this]

/-- An emitted semantic action function does what its production means. -/
theorem semFn_run [DecidableEq Ty] {g : Grammar X Ty} {u : UserCode X V W} {tf : TokenFns Tok V}
    {nt p : Nat} {pr : Production X} {f : SemFn X} (hpr : g.getProduction? nt p = some pr)
    (hf : SemFor (semanticActionVariants g) nt pr f) {vs : List (SAR V)}
    (ht : List.Forall₂ (Tagged (semanticActionVariants g)) pr.syms vs) (rest : List (SAR V))
    (w : W) :
    (∃ v w', (g.stackAlg u tf).node nt p vs w = some (v, w') ∧
      f.run u (vs.reverse ++ rest) w = .ok (v :: rest, w')) ∨
    ((g.stackAlg u tf).node nt p vs w = none ∧
      f.run u (vs.reverse ++ rest) w = .error .userPanic) := by
  obtain ⟨env', h1, h2⟩ := runPops_spec hf.pops ht (fun _ => none) rest
  have henv : env' = bindEnv pr.symbols (vs.map SAR.toB) := by
    funext n; rw [h2]; cases bindEnv pr.symbols (vs.map SAR.toB) n <;> rfl
  unfold SemFn.run
  rw [h1]
  simp only [Except.bind_ok, hf.action, henv]
  have hn : (g.stackAlg u tf).node nt p vs w =
      (u.run pr.action (bindEnv pr.symbols (vs.map SAR.toB)) w).map
        fun r => (.nonTerminal f.variant r.1, r.2) := by
    unfold Grammar.stackAlg Grammar.nodeValue
    simp only [hpr, hf.variant]
    cases u.run pr.action (bindEnv pr.symbols (vs.map SAR.toB)) w <;> rfl
  rw [hn]
  cases u.run pr.action (bindEnv pr.symbols (vs.map SAR.toB)) w with
  | none => right; exact ⟨rfl, rfl⟩
  | some r => left; exact ⟨_, _, rfl, rfl⟩

end Parsegen
