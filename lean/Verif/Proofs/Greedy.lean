import Verif.Spec.Greedy
import Verif.Proofs.Knuth
import Verif.Proofs.Entry
import Verif.Proofs.Observe

/-! # Shift-preferring derivations and the run of the parser -/

namespace Parsegen

variable {X Ty V W Tok E : Type}

section user
variable {defs : List (AstNonTerminal X Ty)} {S : String}

/-- What is viable is wanted. -/
theorem UViable.wants_shift {κ : List USym} {t : String} (h : UViable defs S (κ ++ [.term t])) :
    UWants defs S κ (some t) .shift := by
  obtain ⟨α, q, β, w, h, ρ, e⟩ := h
  have e : α ++ β = κ ++ .term t :: ρ := by rw [← e]; simp
  cases h with
  | start =>
    exfalso
    rcases κ with _ | ⟨a, κ⟩
    · cases e
    · have := congrArg List.length e
      simp at this
  | @step _ A i _ _ h hp =>
    obtain ⟨z, h1, h2⟩ := rights_context h _ _ _ rfl
    rcases List.append_eq_append_iff.1 e with ⟨a', e1, e2⟩ | ⟨c', e1, e2⟩
    · subst e1 e2
      exact ⟨α, A, z, i, a', t, _, h1, ⟨_, .of_terms h2⟩, hp, rfl, rfl⟩
    · rcases c' with _ | ⟨x, c'⟩
      · rw [List.nil_append] at e2
        subst e2
        exact ⟨α, A, z, i, [], t, _, h1, ⟨_, .of_terms h2⟩, hp, by simpa using e1.symm, rfl⟩
      · rw [List.cons_append] at e2
        injection e2 with a b
        subst a
        exact h1.shift κ t c' e1

/-- What is wanted is viable, if all non-terminals are productive. -/
theorem viable_of_wants_shift (hP : UProductive defs) {κ : List USym} {t : String}
    (h : UWants defs S κ (some t) .shift) : UViable defs S (κ ++ [.term t]) := by
  obtain ⟨δ, B, z, i, α, t', β, h1, h2, h3, rfl, e⟩ := h
  cases e
  obtain ⟨w, hw⟩ := yields_of_productive (h1.productive hP)
  exact ⟨δ, _, _, w, .step (h1.rights hw) h3, β, by simp⟩

theorem UGreedy.rights {ps : List (String × Nat)} {F : List USym} (h : UGreedy defs S ps F) :
    URights defs [.nt S] F := by
  induction h with
  | start => exact .refl _
  | step α w _ hp _ _ ih => exact .tail ih (.mk α w hp)

theorem map_term_no_nt {A : String} {w : List String} {l r : List USym}
    (h : w.map USym.term = l ++ .nt A :: r) : False := by
  have : USym.nt A ∈ w.map USym.term := by rw [h]; simp
  simp at this

theorem append_terms_longer {a b : List USym} {v w : List String}
    (h : a ++ v.map USym.term = b ++ w.map USym.term) (hl : a.length < b.length) :
    ∃ t u, v = t :: (u ++ w) ∧ b = a ++ .term t :: u.map .term := by
  rcases List.append_eq_append_iff.1 h with ⟨c, h1, h2⟩ | ⟨c, h1, h2⟩
  · rcases c with _ | ⟨x, c⟩
    · subst h1; simp at hl
    · subst h1
      obtain ⟨v1, v2, rfl, h3, h4⟩ := List.map_eq_append_iff.1 h2
      rcases v1 with _ | ⟨t, u⟩
      · cases h3
      · rw [List.map_cons] at h3
        injection h3 with h5 h6
        subst h5 h6
        have := map_term_inj h4
        subst this
        exact ⟨t, u, rfl, rfl⟩
  · subst h1; simp at hl; omega

/-- At most one derivation prefers shifting, if handles that end at the same place are equal. -/
theorem UGreedy.unique (hrr : ∀ {α β γ δ : List USym} {q q' : String × Nat} {w x : List String},
      UHandle defs S α (some q) β w → UHandle defs S γ (some q') δ x → α ++ β = γ ++ δ →
      w.head? = x.head? → α = γ ∧ q = q')
    {ps ps' : List (String × Nat)} {F : List USym} (h : UGreedy defs S ps F)
    (h' : UGreedy defs S ps' F) : ps = ps' := by
  have start : ∀ {ps : List (String × Nat)} {F : List USym}, UGreedy defs S ps F → F = [.nt S] →
      ps = [] := by
    intro ps F h e
    cases h with
    | start => rfl
    | @step _ A i β α w h hp hs ha =>
      exfalso
      rcases List.eq_nil_or_concat w with rfl | ⟨w', t, rfl⟩
      · exact ha rfl (by simpa using e)
      · rw [List.concat_eq_append, List.map_append, ← List.append_assoc] at e
        have := congrArg List.getLast? e
        simp at this
  induction h generalizing ps' with
  | start => exact (start h' rfl).symm
  | @step ps A i β α w h hp hs ha ih =>
    generalize hF : α ++ β ++ w.map USym.term = F at h'
    cases h' with
    | start => exact start (.step α w h hp hs ha) hF
    | @step ps1 A' i' β' α' w' h1 hp' hs' ha' =>
      have key : α ++ β = α' ++ β' := by
        rcases Nat.lt_trichotomy (α ++ β).length (α' ++ β').length with hlt | heq | hgt
        · exfalso
          obtain ⟨t, u, rfl, e⟩ := append_terms_longer hF hlt
          exact hs t rfl ⟨_, _, _, _, .step h1.rights hp', u.map .term, by rw [e]; simp⟩
        · exact (List.append_inj hF heq).1
        · exfalso
          obtain ⟨t, u, rfl, e⟩ := append_terms_longer hF.symm hgt
          exact hs' t rfl ⟨_, _, _, _, .step h.rights hp, u.map .term, by rw [e]; simp⟩
      rw [key] at hF
      have hw := map_term_inj (List.append_cancel_left hF)
      subst hw
      obtain ⟨rfl, e⟩ := hrr (.step h.rights hp) (.step h1.rights hp') key rfl
      cases e
      rw [ih h1]

/-- In an LR(1) grammar every rightmost derivation prefers shifting. -/
theorem URights.greedy (hlr : ∀ γ c m m', UWants defs S γ c m → UWants defs S γ c m' → m = m')
    {F : List USym} (h : URights defs [.nt S] F) : ∃ ps, UGreedy defs S ps F := by
  induction h with
  | refl => exact ⟨[], .start⟩
  | tail h s ih =>
    obtain ⟨ps, ih⟩ := ih
    cases s with
    | @mk A i β α w hp =>
      have hw := (UHandle.step h hp).wants
      refine ⟨_, .step α w ih hp ?_ ?_⟩
      · intro t ht hv
        rw [ht] at hw
        cases hlr _ _ _ _ hw hv.wants_shift
      · rintro rfl e
        have := hlr _ _ _ .accept hw ⟨e, rfl⟩
        cases this

section values
variable {Val : Type} {alg : UAlg X Tok Val W}

theorem UTree.values_append (ts us : List (UTree Tok)) (w : W) :
    UTree.values defs alg (ts ++ us) w =
      (UTree.values defs alg ts w).bind fun r => (UTree.values defs alg us r.2).map fun r' =>
        (r.1 ++ r'.1, r'.2) := by
  induction ts generalizing w with
  | nil => simp [UTree.values]
  | cons t ts ih =>
    simp only [List.cons_append, UTree.values, ih]
    cases UTree.value defs alg t w with
    | none => rfl
    | some r =>
      simp only [Option.bind_eq_bind, Option.bind_some]
      cases UTree.values defs alg ts r.2 with
      | none => rfl
      | some r1 =>
        simp only [Option.bind_some]
        cases UTree.values defs alg us r1.2 <;> rfl

theorem UTree.postorderList_append (ts us : List (UTree Tok)) :
    UTree.postorderList (ts ++ us) = UTree.postorderList ts ++ UTree.postorderList us := by
  induction ts with
  | nil => rfl
  | cons t ts ih => simp [UTree.postorderList, ih]

theorem UTree.values_length {ts : List (UTree Tok)} {w w' : W} {vs : List Val}
    (h : UTree.values defs alg ts w = some (vs, w')) : vs.length = ts.length := by
  induction ts generalizing w vs with
  | nil => simp [UTree.values] at h; simp [h.1.symm]
  | cons t ts ih =>
    simp only [UTree.values, Option.bind_eq_bind, Option.bind_eq_some_iff] at h
    obtain ⟨r, h1, r1, h2, h3⟩ := h
    cases h3
    simp [ih h2]

end values

end user

variable [DecidableEq Ty]

/-- Everything about an entry point of an accepted program (complete FIRST sets are not needed). -/
structure ESetup (P : Compiled X Ty V W Tok) (ep : EntryPoint) (g : Grammar X Ty)
    (nts ts : AMap String Nat) (a : Automaton) (g' : Grammar Nat Ty) (T : LRTable Nat) (e b : Nat) :
    Prop where
  setup : Setup P g nts ts a g' T
  pub : g.isPublic e = true
  decl : ∃ nt, g.nonTerminals[e]? = some nt ∧ nt.isPublic = true ∧ nt.name = ep.name
  ini : StateAt g (generateFirstTable P.order g) a e [] ep.initState
  ext : (semanticActionVariants g)[e]? = some ep.extract
  sem : P.gen.IsSem g ep.actionIdx e 0
  prod : g.HasProd e 0 [.nonTerminal b]
  name : nts.get? ep.name = some b

/-- The same, when the computed FIRST sets are complete. -/
structure GSetup (P : Compiled X Ty V W Tok) (ep : EntryPoint) (g : Grammar X Ty)
    (nts ts : AMap String Nat) (a : Automaton) (g' : Grammar Nat Ty) (T : LRTable Nat) (e b : Nat) : Prop
    extends ESetup P ep g nts ts a g' T e b where
  first : FirstEnough g (generateFirstTable P.order g)

theorem Compiled.esetup (P : Compiled X Ty V W Tok) {ep : EntryPoint} (hep : ep ∈ P.gen.entries)
    (hnd : (P.defs.map (·.name)).Nodup) : ∃ g nts ts a g' T e b, ESetup P ep g nts ts a g' T e b := by
  obtain ⟨g, nts, ts, a, g', T, S⟩ := P.setup hep
  obtain ⟨e, nt, h1, h2, h3, h4, h5, h6, h7⟩ := S.run hep
  obtain ⟨b, hb1, hb2⟩ := S.lowered.entry_name hnd h1 h2
  exact ⟨g, nts, ts, a, g', T, e, b, S, h4, ⟨nt, h1, h2, h3⟩, h5, h6, h7, hb2, h3 ▸ hb1⟩

theorem Compiled.gsetup (P : Compiled X Ty V W Tok) {ep : EntryPoint} (hep : ep ∈ P.gen.entries)
    (hnd : (P.defs.map (·.name)).Nodup) (hh : UHarmless P.defs) :
    ∃ g nts ts a g' T e b, GSetup P ep g nts ts a g' T e b := by
  obtain ⟨g, nts, ts, a, g', T, e, b, E⟩ := P.esetup hep hnd
  exact ⟨g, nts, ts, a, g', T, e, b, E, generateFirstTable_enough E.setup.wf
    (E.setup.lowered.harmless E.setup.wf hh) P.order⟩

section run
variable {P : Compiled X Ty V W Tok} {ep : EntryPoint} {g : Grammar X Ty}
  {nts ts : AMap String Nat} {a : Automaton} {g' : Grammar Nat Ty} {T : LRTable Nat} {e b : Nat}

theorem ESetup.tables (G : ESetup P ep g nts ts a g' T e b) :
    Tables g (generateFirstTable P.order g) P.gen (StateAt g (generateFirstTable P.order g) a) :=
  G.setup.stages.tables G.setup.wf

/-- If a shift is wanted, it is in the table. -/
theorem GSetup.act_shift (G : GSetup P ep g nts ts a g' T e b) {γ : List Symbol} {q : Nat}
    (hat : StateAt g (generateFirstTable P.order g) a e γ q) {uγ : List USym}
    (hγ : List.Forall₂ (Names nts ts) uγ γ) {uc : Option String} {c : Option Nat}
    (hc : NamesLa ts uc c) (h : UWants P.defs ep.name uγ uc .shift) :
    ∃ r, P.gen.act q c = some (some (.shift r)) := by
  obtain ⟨γ1, c1, m, a1, a2, a3, a4⟩ := G.setup.lowered.user_wants G.pub G.prod G.name h
  cases names_func a1 hγ
  cases a2.func hc
  cases m with
  | reduce => exact absurd a3 (by simp [NamesMove])
  | accept => exact absurd a3 (by simp [NamesMove])
  | shift =>
    obtain ⟨nt, p, α, t, β, la, h1, h2, rfl⟩ := a4
    obtain ⟨r, h3, _⟩ := G.tables.shift_mk G.pub hat (h1.itemsAt G.first G.setup.wf G.pub) h2
    exact ⟨r, h3⟩

/-- A shift in the table is wanted. -/
theorem ESetup.wants_shift (G : ESetup P ep g nts ts a g' T e b) {γ : List Symbol} {q : Nat}
    (hat : StateAt g (generateFirstTable P.order g) a e γ q) {uγ : List USym}
    (hγ : List.Forall₂ (Names nts ts) uγ γ) {uc : Option String} {c : Option Nat}
    (hc : NamesLa ts uc c) (hlo : LaOk g.nTerminals c) {r : Nat}
    (h : P.gen.act q c = some (some (.shift r))) : UWants P.defs ep.name uγ uc .shift := by
  obtain ⟨t, nt, p, α, β, la, rfl, h1, h2, _⟩ := G.tables.shift_of G.pub hat hlo h
  have hv := h1.valid (generateFirstTable_sound P.order g) G.setup.wf G.pub
  obtain ⟨uγ', uc', um, a1, a2, a3, a4⟩ := G.setup.lowered.wants_user G.setup.wf G.pub G.prod G.name
    (m := .shift) (c := some t) ⟨nt, p, α, t, β, la, hv, h2, rfl⟩
  cases G.setup.lowered.names_inj_list a1 hγ
  cases G.setup.lowered.la_inj a2 hc
  cases um with
  | shift => exact a4
  | accept => exact absurd a3 (by simp [NamesMove])
  | reduce => exact absurd a3 (by simp [NamesMove])

/-- Having recognised the entry point's non-terminal, the parser accepts at the end of the input. -/
theorem ESetup.act_accept (G : ESetup P ep g nts ts a g' T e b) {γ : List Symbol} {q : Nat}
    (hat : StateAt g (generateFirstTable P.order g) a e γ q)
    (hγ : List.Forall₂ (Names nts ts) [.nt ep.name] γ) :
    P.gen.act q none = some (some .accept) := by
  have : γ = [.nonTerminal b] :=
    names_func hγ (.cons (show Names nts ts (.nt ep.name) (.nonTerminal b) from G.name) .nil)
  subst this
  exact G.tables.accept_mk G.pub hat
    (ItemsAt.advance (γ := []) (α := []) (β := []) .entry (by simpa using G.prod))

/-- It accepts only then. -/
theorem ESetup.accept_inv (G : ESetup P ep g nts ts a g' T e b) {γ : List Symbol} {q : Nat}
    (hat : StateAt g (generateFirstTable P.order g) a e γ q) {uγ : List USym}
    (hγ : List.Forall₂ (Names nts ts) uγ γ) {c : Option Nat} (hlo : LaOk g.nTerminals c)
    (h : P.gen.act q c = some (some .accept)) : c = none ∧ uγ = [.nt ep.name] := by
  obtain ⟨rfl, h1⟩ := G.tables.accept_of G.pub hat hlo h
  obtain ⟨γ', h2, h3⟩ := h1.split _ G.prod
  rcases h3.start_inv rfl with ⟨rfl, _⟩ | ⟨nt, p, α, β, la, _, h5, _⟩
  · refine ⟨rfl, ?_⟩
    rw [h2] at hγ
    exact G.setup.lowered.names_inj_list hγ
      (.cons (show Names nts ts (.nt ep.name) (.nonTerminal b) from G.name) .nil)
  · have := G.setup.wf.nt_priv h5 (b := e) (by simp)
    rw [G.pub] at this; cases this

end run

end Parsegen
