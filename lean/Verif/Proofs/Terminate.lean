import Verif.Proofs.Justified
import Verif.Proofs.Trace

/-! # Termination of the emitted parser -/

namespace Parsegen

variable {X Ty V W Tok E : Type} [DecidableEq Ty] {g : Grammar X Ty} {F : FirstTable}
  {gen : Generated X} {u : UserCode X V W} {tf : TokenFns Tok V}
  {At : Nat → List Symbol → Nat → Prop} {e : Nat} {input : Nat → Option (Except E Tok)} {w0 : W}
  {c : Option Nat} {R : Option Nat → List Symbol → List Symbol → Prop}

/-- A reduction on lookahead `c` according to the tables. -/
def RStep (gen : Generated X) (At : Nat → List Symbol → Nat → Prop) (e : Nat) (c : Option Nat)
    (γ' γ : List Symbol) : Prop :=
  ∃ q b n k, At e γ q ∧ gen.act q c = some (some (.reduce b n k)) ∧
    γ' = γ.take (γ.length - n) ++ [.nonTerminal b]

/-- There is no infinite sequence of reductions from here. -/
abbrev Stop (gen : Generated X) (At : Nat → List Symbol → Nat → Prop) (e : Nat) (c : Option Nat)
    (γ : List Symbol) : Prop := Acc (RStep gen At e c) γ

omit [DecidableEq Ty] in
theorem ItemsAt.advance_list {γ : List Symbol} {nt p : Nat} {δ ν β : List Symbol} {la : Option Nat}
    (h : ItemsAt g F e γ ⟨nt, p, δ.length, la⟩) (hp : g.HasProd nt p (δ ++ ν ++ β)) :
    ItemsAt g F e (γ ++ ν) ⟨nt, p, (δ ++ ν).length, la⟩ := by
  induction ν generalizing γ δ with
  | nil => simpa using h
  | cons s ν ih =>
    have h1 := ItemsAt.advance (s := s) (β := ν ++ β) h (by simpa using hp)
    have h2 := ih (γ := γ ++ [s]) (δ := δ ++ [s]) (by simpa using h1) (by simpa using hp)
    simpa using h2

/-- A relation between symbol strings, for every lookahead, whose steps are reductions by items of `g`
with table `F`, and which does nothing but what these items ask for: where an item is complete, that
reduction; where one expects the lookahead, or the input is complete, nothing. -/
structure Guided (g : Grammar X Ty) (F : FirstTable) (e : Nat)
    (R : Option Nat → List Symbol → List Symbol → Prop) : Prop where
  reduce : ∀ {c γ α γ' b p}, ItemsAt g F e (γ ++ α) ⟨b, p, α.length, c⟩ →
    g.HasProd b p α → g.isPublic b = false → R c γ' (γ ++ α) → γ' = γ ++ [.nonTerminal b]
  shift : ∀ {γ γ' α β nt p t la}, ItemsAt g F e γ ⟨nt, p, α.length, la⟩ →
    g.HasProd nt p (α ++ .terminal t :: β) → ¬ R (some t) γ' γ
  accept : ∀ {γ γ'}, ItemsAt g F e γ ⟨e, 0, 1, none⟩ → ¬ R none γ' γ
  step : ∀ {c γ γ'}, R c γ' γ → ∃ γ0 b p α, γ = γ0 ++ α ∧
    γ' = γ0 ++ [.nonTerminal b] ∧ g.HasProd b p α ∧ g.isPublic b = false ∧
    ItemsAt g F e γ ⟨b, p, α.length, c⟩

theorem Tables.guided (hT : Tables g F gen At) (he : g.isPublic e = true) :
    Guided g F e fun c γ' γ => RStep gen At e c γ' γ ∧ LaOk g.nTerminals c where
  reduce := by
    rintro c γ α γ' b p hit hp hpriv ⟨⟨q, b', n, k, hat, hact, rfl⟩, _⟩
    rcases hT.reduce_mk he hat hit hp hpriv with ⟨k', hk, _⟩ | ⟨r, hr⟩ | hr
    · rw [hact] at hk; cases hk
      simp
    · rw [hact] at hr; cases hr
    · rw [hact] at hr; cases hr
  shift := by
    rintro γ γ' α β nt p t la hit hp ⟨⟨q, b', n, k, hat, hact, rfl⟩, _⟩
    obtain ⟨r, hr, _⟩ := hT.shift_mk he hat hit hp
    rw [hact] at hr; cases hr
  accept := by
    rintro γ γ' hit ⟨⟨q, b', n, k, hat, hact, rfl⟩, _⟩
    have hr := hT.accept_mk he hat hit
    rw [hact] at hr; cases hr
  step := by
    rintro c γ γ' ⟨⟨q, b, n, k, hat, hact, rfl⟩, hc⟩
    obtain ⟨p, α, hp, rfl, hit, hpriv, _⟩ := hT.reduce_of he hat hc hact
    obtain ⟨γ0, rfl, _, _⟩ := hit.complete hp he hpriv
    exact ⟨γ0, b, p, α, rfl, by simp, hp, hpriv, hit⟩

omit [DecidableEq Ty] in
theorem InFirst.flagged {la c : Option Nat} {ν β : List Symbol} (hν : AllFlagged F ν)
    (h : InFirst F la β c) : InFirst F la (ν ++ β) c := by
  induction ν with
  | nil => exact h
  | cons s ν ih =>
    obtain ⟨b, rfl, hb⟩ := hν s (by simp)
    exact .skip hb (ih fun s' hs' => hν s' (by simp [hs']))

omit [DecidableEq Ty] in
/-- Over a flagged non-terminal. -/
theorem stop_null (hwf : g.WF) (hG : Guided g F e R) {x : Nat}
    (hj : JNull g F x) : ∀ {γ nt p δ β la}, ItemsAt g F e γ ⟨nt, p, δ.length, la⟩ →
      g.HasProd nt p (δ ++ .nonTerminal x :: β) → InFirst F la β c →
      Acc (R c) (γ ++ [.nonTerminal x]) → Acc (R c) γ := by
  induction hj with
  | @mk x q α hq hf hj ih =>
    intro γ nt p δ β la hit hp hc hs
    have hpriv := hwf.nt_priv hp (b := x) (by simp)
    have h0 : ItemsAt g F e γ ⟨x, q, 0, c⟩ := .pred hit hp hq hc
    have key : ∀ α2 α1, α = α1 ++ α2 → ItemsAt g F e (γ ++ α1) ⟨x, q, α1.length, c⟩ →
        Acc (R c) (γ ++ α1) := by
      intro α2
      induction α2 with
      | nil =>
        intro α1 hα hi
        rw [List.append_nil] at hα
        subst hα
        exact .intro _ fun γ' h => (hG.reduce hi hq hpriv h) ▸ hs
      | cons s α2 ih2 =>
        intro α1 hα hi
        subst hα
        obtain ⟨b, rfl, hb⟩ := hf s (by simp)
        refine ih b (by simp) hi hq ?_ ?_
        · have := InFirst.flagged (F := F) (ν := α2) (β := []) (la := c) (c := c)
            (fun s' hs' => hf s' (by simp [hs'])) .nil
          simpa using this
        · have := ih2 (α1 ++ [.nonTerminal b]) (by simp)
            (by simpa using ItemsAt.advance hi hq)
          simpa using this
    simpa using key α [] rfl (by simpa using h0)

omit [DecidableEq Ty] in
/-- Over a flagged list. -/
theorem stop_flagged (hwf : g.WF) (hJ : Justified g F) (hG : Guided g F e R) {γ nt p δ ν β la} (hit : ItemsAt g F e γ ⟨nt, p, δ.length, la⟩)
    (hp : g.HasProd nt p (δ ++ ν ++ β)) (hν : AllFlagged F ν) (hc : InFirst F la β c)
    (hs : Acc (R c) (γ ++ ν)) : Acc (R c) γ := by
  induction ν generalizing γ δ with
  | nil => simpa using hs
  | cons s ν ih =>
    obtain ⟨b, rfl, hb⟩ := hν s (by simp)
    have hν' : AllFlagged F ν := fun s' hs' => hν s' (by simp [hs'])
    refine stop_null hwf hG (hJ.null b hb) hit (β := ν ++ β) (by simpa using hp)
      (hc.flagged hν') ?_
    refine ih (δ := δ ++ [.nonTerminal b]) ?_ (by simpa using hp) hν' (by simpa using hs)
    simpa using ItemsAt.advance (β := ν ++ β) hit (by simpa using hp)

omit [DecidableEq Ty] in
/-- Something can follow. -/
theorem InFirst.exists (hN : FirstNonempty g F) {nt p c : Nat} {α β : List Symbol}
    (hp : g.HasProd nt p (α ++ .nonTerminal c :: β)) (la : Option Nat) : ∃ d, InFirst F la β d := by
  have key : ∀ (β l : List Symbol), g.HasProd nt p (α ++ .nonTerminal c :: (l ++ β)) → AllFlagged F l →
      ∃ d, InFirst F la β d := by
    intro β
    induction β with
    | nil => intro _ _ _; exact ⟨la, .nil⟩
    | cons s β ih =>
      intro l hp hl
      cases s with
      | terminal t => exact ⟨_, .term t β⟩
      | nonTerminal b =>
        rcases hN nt p α c l b β hp hl with h | ⟨t, h⟩
        · obtain ⟨d, hd⟩ := ih (l ++ [.nonTerminal b]) (by simpa using hp)
            (hl.append (AllFlagged.single h))
          exact ⟨d, .skip h hd⟩
        · exact ⟨some t, .nt h⟩
  exact key β [] hp allFlagged_nil

omit [DecidableEq Ty] in
theorem FirstNonemptyAll.some (hwf : g.WF) (hN : FirstNonemptyAll g F) : FirstNonempty g F :=
  fun _ _ _ _ _ b _ hp _ => hN b (hwf.nt_lt hp (by simp)) (hwf.nt_priv hp (by simp))

omit [DecidableEq Ty] in
/-- Before a non-terminal that can begin with the lookahead. -/
theorem stop_first (hwf : g.WF) (hJ : Justified g F) (hN : FirstNonempty g F)
    (hG : Guided g F e R) {x t : Nat} (hj : JFirst g F x t) :
    ∀ {γ nt p δ β la}, ItemsAt g F e γ ⟨nt, p, δ.length, la⟩ →
      g.HasProd nt p (δ ++ .nonTerminal x :: β) → Acc (R (some t)) γ := by
  induction hj with
  | @term x q α1 t α2 hq hf =>
    intro γ nt p δ β la hit hp
    obtain ⟨d, hd⟩ := InFirst.exists hN (α := δ) (c := x) (β := β)
      (by simpa using hp) la
    have h0 : ItemsAt g F e γ ⟨x, q, ([] : List Symbol).length, d⟩ := .pred hit hp hq hd
    have h1 := h0.advance_list (ν := α1) (β := .terminal t :: α2) (by simpa using hq)
    refine stop_flagged hwf hJ hG h0 (ν := α1) (β := .terminal t :: α2) (by simpa using hq) hf
      (.term ..) ?_
    exact .intro _ fun γ' h => absurd h (hG.shift h1 (by simpa using hq))
  | @nt x q α1 b α2 t hq hf hb _ ih =>
    intro γ nt p δ β la hit hp
    obtain ⟨d, hd⟩ := InFirst.exists hN (α := δ) (c := x) (β := β)
      (by simpa using hp) la
    have h0 : ItemsAt g F e γ ⟨x, q, ([] : List Symbol).length, d⟩ := .pred hit hp hq hd
    have h1 := h0.advance_list (ν := α1) (β := .nonTerminal b :: α2) (by simpa using hq)
    refine stop_flagged hwf hJ hG h0 (ν := α1) (β := .nonTerminal b :: α2) (by simpa using hq) hf
      (.nt hb) ?_
    exact ih h1 (by simpa using hq)

omit [DecidableEq Ty] in
/-- Before something that can begin with, or be followed by, the lookahead. -/
theorem stop_after (hwf : g.WF) (hJ : Justified g F) (hN : FirstNonempty g F)
    (hG : Guided g F e R) {β : List Symbol} {la : Option Nat}
    (hc : InFirst F la β c) : ∀ {γ nt p δ}, ItemsAt g F e γ ⟨nt, p, δ.length, la⟩ →
      g.HasProd nt p (δ ++ β) → (c = la → Acc (R c) (γ ++ β)) → Acc (R c) γ := by
  induction hc with
  | nil => intro γ nt p δ _ _ hs; simpa using hs rfl
  | term t ss => intro γ nt p δ hit hp _; exact .intro _ fun γ' h => absurd h (hG.shift hit hp)
  | nt h => intro γ nt p δ hit hp _; exact stop_first hwf hJ hN hG (hJ.first _ _ h) hit hp
  | @skip b ss c hb hc ih =>
    intro γ nt p δ hit hp hs
    refine stop_null hwf hG (hJ.null b hb) hit hp hc ?_
    refine ih (δ := δ ++ [.nonTerminal b]) (by simpa using ItemsAt.advance hit hp) (by simpa using hp) ?_
    intro h
    simpa using hs h

omit [DecidableEq Ty] in
/-- After a reduction there is no infinite sequence of reductions. -/
theorem stop_reduced (hwf : g.WF) (hJ : Justified g F) (hN : FirstNonempty g F)
    (hG : Guided g F e R) (he : g.isPublic e = true) {γ : List Symbol} {it : Item}
    (hit : ItemsAt g F e γ it) : g.isPublic it.nt = false → ∀ α, g.HasProd it.nt it.prod α →
      ∀ γ0, γ = γ0 ++ α.take it.cursor → Acc (R it.la) (γ0 ++ [.nonTerminal it.nt]) := by
  induction hit with
  | entry => intro h; simp [he] at h
  | @advance γ nt p α s β la h hp ih =>
    intro hpriv α' hp' γ0 hγ
    simp only at hpriv hp' hγ ⊢
    have : α' = α ++ s :: β := hp'.rhs_eq.symm.trans hp.rhs_eq
    subst this
    refine ih hpriv _ hp γ0 ?_
    have h1 : (α ++ s :: β).take (α.length + 1) = α ++ [s] := by
      rw [show α ++ s :: β = (α ++ [s]) ++ β by simp]
      exact List.take_left' (by simp)
    rw [h1, ← List.append_assoc] at hγ
    obtain ⟨h2, _⟩ := List.append_inj' hγ rfl
    simpa using h2
  | @pred γ nt p α b β la q δ d h hp hq hf ih =>
    intro hpriv α' hp' γ0 hγ
    simp only [List.take_zero, List.append_nil] at hγ
    subst hγ
    simp only
    have h1 : ItemsAt g F e (γ ++ [.nonTerminal b]) ⟨nt, p, (α ++ [Symbol.nonTerminal b]).length, la⟩ := by
      simpa using ItemsAt.advance h hp
    refine stop_after hwf hJ hN hG hf h1 (by simpa using hp) ?_
    rintro rfl
    have h2 : ItemsAt g F e (γ ++ [.nonTerminal b] ++ β)
        ⟨nt, p, (α ++ Symbol.nonTerminal b :: β).length, d⟩ := by
      simpa using h1.advance_list (ν := β) (β := []) (by simpa using hp)
    by_cases hpub : g.isPublic nt = true
    · obtain ⟨e1, e2, e3⟩ := h2.pub hwf hpub
      simp only at e1 e2 e3
      obtain ⟨_, b', hb'⟩ := hwf.pub hpub
      subst e2
      have e4 : α ++ .nonTerminal b :: β = [.nonTerminal b'] := hp.rhs_eq.symm.trans hb'.rhs_eq
      rw [e4] at h2
      subst e1
      have e5 : d = none := e3
      subst e5
      exact .intro _ fun γ' h => absurd h (hG.accept h2)
    · have hpriv' : g.isPublic nt = false := by simpa using hpub
      obtain ⟨γ1, e1, _, _⟩ := h2.complete hp he hpriv'
      rw [e1] at h2 ⊢
      refine .intro _ fun γ' hr => ?_
      rw [hG.reduce h2 hp hpriv' hr]
      refine ih hpriv' _ hp γ1 ?_
      have e2 : γ ++ (.nonTerminal b :: β) = (γ1 ++ α) ++ (.nonTerminal b :: β) := by
        simpa using e1
      have := List.append_cancel_right e2
      simpa using this

omit [DecidableEq Ty] in
/-- Every sequence of steps ends. -/
theorem stop_guided (hwf : g.WF) (hJ : Justified g F) (hN : FirstNonempty g F)
    (hG : Guided g F e R) (he : g.isPublic e = true) (γ : List Symbol) : Acc (R c) γ := by
  refine .intro _ fun γ' h => ?_
  obtain ⟨γ0, b, p, α, rfl, rfl, hp, hpriv, hit⟩ := hG.step h
  have := stop_reduced hwf hJ hN hG he hit hpriv α hp γ0 (by simp)
  simpa using this

omit [DecidableEq Ty] in
theorem stop_of_guided (h : Acc (fun γ' γ => RStep gen At e c γ' γ ∧ LaOk g.nTerminals c) γ)
    (hc : LaOk g.nTerminals c) : Stop gen At e c γ :=
  Subrelation.accessible (fun h' => ⟨h', hc⟩) h

/-- Every sequence of reductions ends. -/
theorem stop_all (hwf : g.WF) (hJ : Justified g F) (hN : FirstNonempty g F)
    (hT : Tables g F gen At) (he : g.isPublic e = true) (hc : LaOk g.nTerminals c)
    (γ : List Symbol) : Stop gen At e c γ :=
  stop_of_guided (g := g) (stop_guided (c := c) hwf hJ hN (hT.guided he) he γ) hc

/-- The loop ends when the stream does. -/
theorem parseLoop_terminates (hwf : g.WF) (hT : Tables g F gen At)
    (hS : ∀ c γ, LaOk g.nTerminals c → Stop gen At e c γ) (hcons : tf.Consistent g.nTerminals)
    {ep : EntryPoint} (he : g.isPublic e = true)
    (hext : (semanticActionVariants g)[e]? = some ep.extract)
    (hsem : gen.IsSem g ep.actionIdx e 0) {k : Nat} (hk : ∀ t, input k ≠ some (.ok t)) :
    ∀ (m : Nat) {s : PState Tok V W E} {γ : List Symbol} {toks : List Tok},
      k - toks.length ≤ m → RunInv g u tf At e input w0 s γ toks →
      ∃ fuel r, parseLoop gen u tf input ep fuel s = some r := by
  have hle : ∀ {toks : List Tok}, Reads input toks → toks.length ≤ k := by
    intro toks hr
    rcases Nat.lt_or_ge k toks.length with h | h
    · exact absurd (hr k _ (List.getElem?_eq_getElem h)) (hk _)
    · exact h
  intro m
  induction m with
  | zero =>
    intro s γ toks hm hi
    have := hle hi.reads
    have hlen : toks.length = k := by omega
    have hnot : ∀ t, s.token ≠ some (.ok t) := by rw [hi.token, hlen]; exact hk
    by_cases hlx : ∃ c, lookahead tf s.token = some c
    · obtain ⟨c, hc⟩ := hlx
      have hacc := hS c γ (laOk_lookahead hcons hc)
      induction hacc generalizing s with
      | intro γ _ ih =>
        have hs := parseStep_spec (w0 := w0) hwf hT hcons he hext hsem hi
        cases hp : parseStep gen u tf input ep s with
        | done o s2 => exact ⟨1, (o, s2), by unfold parseLoop; rw [hp]⟩
        | next s2 =>
          rw [hp] at hs
          cases hs with
          | shift htok => exact absurd htok (hnot _)
          | @reduce c' b p α γ' k' _ hla hact hγ hpp hit hpriv htok _ hinv =>
            rw [hc] at hla; cases hla
            obtain ⟨q, sts, hq, hat⟩ := hi.stk.top
            rw [hq] at hact
            obtain ⟨fuel, r, hr⟩ := ih (γ' ++ [.nonTerminal b])
              ⟨q, b, α.length, k', hat, hact, by rw [hγ]; simp⟩ hinv
              (by rw [htok]; exact hnot) (by rw [htok]; exact hc)
            exact ⟨fuel + 1, r, by unfold parseLoop; rw [hp]; exact hr⟩
    · have hs := parseStep_spec (w0 := w0) hwf hT hcons he hext hsem hi
      cases hp : parseStep gen u tf input ep s with
      | done o s2 => exact ⟨1, (o, s2), by unfold parseLoop; rw [hp]⟩
      | next s2 =>
        rw [hp] at hs
        cases hs with
        | shift htok => exact absurd htok (hnot _)
        | reduce hla => exact absurd ⟨_, hla⟩ hlx
  | succ m ihm =>
    intro s γ toks hm hi
    by_cases hlx : ∃ c, lookahead tf s.token = some c
    · obtain ⟨c, hc⟩ := hlx
      have hacc := hS c γ (laOk_lookahead hcons hc)
      induction hacc generalizing s with
      | intro γ _ ih =>
        have hs := parseStep_spec (w0 := w0) hwf hT hcons he hext hsem hi
        cases hp : parseStep gen u tf input ep s with
        | done o s2 => exact ⟨1, (o, s2), by unfold parseLoop; rw [hp]⟩
        | next s2 =>
          rw [hp] at hs
          cases hs with
          | @shift t r nt p α β la _ htok hact hit hpp hs hinv =>
            obtain ⟨fuel, r, hr⟩ := ihm (by simp; omega) hinv
            exact ⟨fuel + 1, r, by unfold parseLoop; rw [hp]; exact hr⟩
          | @reduce c' b p α γ' k' _ hla hact hγ hpp hit hpriv htok _ hinv =>
            rw [hc] at hla; cases hla
            obtain ⟨q, sts, hq, hat⟩ := hi.stk.top
            rw [hq] at hact
            obtain ⟨fuel, r, hr⟩ := ih (γ' ++ [.nonTerminal b])
              ⟨q, b, α.length, k', hat, hact, by rw [hγ]; simp⟩ hinv
              (by rw [htok]; exact hc)
            exact ⟨fuel + 1, r, by unfold parseLoop; rw [hp]; exact hr⟩
    · have hs := parseStep_spec (w0 := w0) hwf hT hcons he hext hsem hi
      cases hp : parseStep gen u tf input ep s with
      | done o s2 => exact ⟨1, (o, s2), by unfold parseLoop; rw [hp]⟩
      | next s2 =>
        rw [hp] at hs
        cases hs with
        | shift htok => exact absurd ⟨_, by rw [htok]; rfl⟩ hlx
        | reduce hla => exact absurd ⟨_, hla⟩ hlx

end Parsegen
