import Verif.Proofs.Rearrange
import Mathlib.Data.Fintype.Card
import Verif.Proofs.EmitTyping

/-! # Rearranging an LR(1) grammar does not change whether it is accepted -/

namespace Parsegen

variable {X Ty V W Tok E : Type}

/-! ## The number of states -/

section
variable {g g' : Grammar X Ty} {F F' : FirstTable} {a a' : Automaton} {h h' : HashOrder}

theorem ItemsAt.before {E : Nat} {γ : List Symbol} {s : Symbol} {x : Item}
    (hx : ItemsAt g F E (γ ++ [s]) x) : ∃ nt p α β la, ItemsAt g F E γ ⟨nt, p, α.length, la⟩ ∧
      g.HasProd nt p (α ++ s :: β) := by
  generalize hδ : γ ++ [s] = δ at hx
  induction hx with
  | entry => simp at hδ
  | @advance γ' nt p α s' β la hi hp ih =>
    obtain ⟨rfl, e⟩ := List.append_inj' hδ rfl
    cases e
    exact ⟨nt, p, α, β, la, hi, hp⟩
  | pred _ _ _ _ ih => exact ih hδ

/-- Every item set that is not empty has a state. -/
theorem AutoSpec.state_of (ha : AutoSpec h g F a) (hwf : g.WF) (hF : F.Ok g.nTerminals) {E : Nat}
    (hE : g.isPublic E = true) {γ : List Symbol} {x : Item} (hx : ItemsAt g F E γ x) :
    ∃ q, StateAt g F a E γ q := by
  induction γ using List.reverseRecOn generalizing x with
  | nil =>
    obtain ⟨q, hq⟩ := Option.isSome_iff_exists.1 ((ha.ent_dom E).2 hE)
    obtain ⟨s, h1, h2⟩ := ha.ent E q hq
    exact ⟨q, s, h1, h2⟩
  | append_singleton γ Y ih =>
    obtain ⟨nt, p, α, β, la, h1, h2⟩ := hx.before
    obtain ⟨q, s, h3, h4⟩ := ih h1
    obtain ⟨r, h5⟩ := goto_isSome hwf hF ha hE h3 h4 h1 h2
    obtain ⟨_, s', h6, h7⟩ := ha.edge q s Y r h3 h5
    refine ⟨r, s', h6, fun y => ?_⟩
    rw [h7]
    exact mem_goto_itemsAt hwf hF h hE h4 Y y

/-- Sorted lists with the same members are equal. -/
theorem StateAt.unique (ha : AutoSpec h g F a) {E E' : Nat} {γ γ' : List Symbol} {q q' : Nat}
    (h1 : StateAt g F a E γ q) (h2 : StateAt g F a E' γ' q')
    (hI : ∀ x, ItemsAt g F E γ x ↔ ItemsAt g F E' γ' x) : q = q' := by
  obtain ⟨s, e1, e2⟩ := h1
  obtain ⟨s', f1, f2⟩ := h2
  refine ha.distinct q q' s s' e1 f1 ?_
  exact (ha.sorted q s e1).ext (ha.sorted q' s' f1) fun x => by rw [e2, f2, hI]

/-- Productions with the same right-hand side have the same items. -/
theorem ItemsAt.duplicate (hwf : g.WF) {E : Nat} (hE : g.isPublic E = true) {γ : List Symbol}
    {x : Item} (hx : ItemsAt g F E γ x) {p' : Nat} {δ : List Symbol}
    (h1 : g.HasProd x.nt x.prod δ) (h2 : g.HasProd x.nt p' δ) :
    ItemsAt g F E γ ⟨x.nt, p', x.cursor, x.la⟩ := by
  induction hx generalizing δ with
  | entry =>
    have := (hwf.pub (nt := E) hE).1
    have h3 := h2.lt
    obtain rfl : p' = 0 := by simp only at h3; omega
    exact .entry
  | @advance γ' nt p α s' β la hi hp ih =>
    have e : δ = α ++ s' :: β := by
      simp only at h1; rw [← h1.rhs_eq, hp.rhs_eq]
    subst e
    exact .advance (ih h1 h2) h2
  | @pred γ nt p α b β la q δ' c hi hp hq hf ih => exact .pred hi hp h2 hf

variable {N T : Nat → Nat → Prop}

theorem GCorr.states_le (hc : GCorr g g' N T) (hwf : g.WF) (hwf' : g'.WF) (hF : F.Ok g.nTerminals)
    (hF1 : FCorr g g' F F' N T) (hF2 : FCorr g' g F' F (conv N) (conv T))
    (ha : AutoSpec h g F a) (ha' : AutoSpec h' g' F' a')
    (hN : ∀ E', g'.isPublic E' = true → ∃ E, N E E') : a'.states.length ≤ a.states.length := by
  classical
  -- a state for every state
  have key : ∀ q' : Fin a'.states.length, ∃ q : Fin a.states.length, ∃ E E' γ γ',
      g.isPublic E = true ∧ N E E' ∧ List.Forall₂ (SymCorr N T) γ γ' ∧
      StateAt g F a E γ q ∧ StateAt g' F' a' E' γ' q' := by
    intro q'
    have h1 : a'.states[q'.1]? = some a'.states[q'.1] := List.getElem?_eq_getElem q'.2
    obtain ⟨E', γ', hE', hI, hne⟩ := ha'.reach q'.1 _ h1
    obtain ⟨E, hE⟩ := hN E' hE'
    have hpub : g.isPublic E = true := by rw [hc.pub hE]; exact hE'
    obtain ⟨x, hx⟩ := List.exists_mem_of_ne_nil _ hne
    obtain ⟨γ, y, k1, _, k3⟩ := hc.symm.itemsAt_ex hF2 hwf' hwf (E := E') (E' := E) hE hE'
      ((hI x).1 hx)
    obtain ⟨q, hq⟩ := ha.state_of hwf hF hpub k3
    have hlt : q < a.states.length := by
      obtain ⟨s, e1, _⟩ := hq
      exact (List.getElem?_eq_some_iff.1 e1).1
    exact ⟨⟨q, hlt⟩, E, E', γ, γ', hpub, hE, symCorrs_conv k1, hq, _, h1, hI⟩
  choose f hf using key
  have hinj : Function.Injective f := by
    intro x y hxy
    obtain ⟨E1, E1', γ1, γ1', a1, a2, a3, a4, a5⟩ := hf x
    obtain ⟨E2, E2', γ2, γ2', b1, b2, b3, b4, b5⟩ := hf y
    rw [hxy] at a4
    have hsame : ∀ z, ItemsAt g F E1 γ1 z ↔ ItemsAt g F E2 γ2 z := by
      intro z
      obtain ⟨s, e1, e2⟩ := a4
      obtain ⟨s', f1, f2⟩ := b4
      rw [e1] at f1; cases f1
      rw [← e2, f2]
    have hdir : ∀ {E1 E1' E2 E2' γ1 γ1' γ2 γ2'} (_ : g.isPublic E1 = true) (_ : g.isPublic E2 = true)
        (_ : N E1 E1') (_ : N E2 E2')
        (_ : List.Forall₂ (SymCorr N T) γ1 γ1') (_ : List.Forall₂ (SymCorr N T) γ2 γ2')
        (_ : ∀ z, ItemsAt g F E1 γ1 z ↔ ItemsAt g F E2 γ2 z) z,
        ItemsAt g' F' E1' γ1' z → ItemsAt g' F' E2' γ2' z := by
      intro E1 E1' E2 E2' γ1 γ1' γ2 γ2' p1 p2 n1 n2 s1 s2 hs z hz
      have p1' : g'.isPublic E1' = true := by rw [← hc.pub n1]; exact p1
      obtain ⟨y, c1, c2⟩ := hc.symm.itemsAt hF2 hwf' hwf (E := E1') (E' := E1) n1 p1'
        (symCorrs_conv s1) hz
      obtain ⟨z', d1, d2⟩ := hc.itemsAt hF1 hwf hwf' n2 p2 s2 ((hs y).1 c2)
      have e1 : z'.nt = z.nt := hc.nt_fun d1.nt c1.nt
      have e2 : z'.cursor = z.cursor := d1.cursor.symm.trans c1.cursor.symm
      have e3 : z'.la = z.la := hc.la_fun d1.la (laCorr_conv c1.la)
      obtain ⟨pr, pr', m1, m2, m3⟩ := d1.prod
      obtain ⟨pr2', pr2, n1', n2', n3⟩ := c1.prod
      rw [m1] at n2'; cases n2'
      have e4 : pr'.syms = pr2'.syms := hc.syms_fun m3.syms (symCorrs_conv n3.syms)
      have k1 : g'.HasProd z'.nt z'.prod pr'.syms := hasProd_getProduction.2 ⟨pr', m2, rfl⟩
      have k2 : g'.HasProd z'.nt z.prod pr'.syms := by
        rw [e1, e4]; exact hasProd_getProduction.2 ⟨pr2', n1', rfl⟩
      have p2' : g'.isPublic E2' = true := by rw [← hc.pub n2]; exact p2
      have := d2.duplicate hwf' p2' k1 k2
      rw [e1, e2, e3] at this
      exact this
    exact Fin.ext (a5.unique ha' b5 fun z => ⟨hdir a1 b1 a2 b2 a3 b3 hsame z,
      hdir b1 a1 b2 a2 b3 a3 (fun z => (hsame z).symm) z⟩)
  simpa using Fintype.card_le_of_injective f hinj

end

/-- An accepted grammar has at most 2^32 states. -/
theorem GenStages.small [DecidableEq Ty] {h : HashOrder} {g : Grammar X Ty} {gen : Generated X}
    {a : Automaton} {g1 : Grammar Nat Ty} {T1 : LRTable Nat} (S : GenStages h g gen a g1 T1)
    (hwf : g.WF) : a.states.length ≤ 4294967296 := by
  have hF := generateFirstTable_ok hwf h
  obtain ⟨a', e, ha⟩ := generateAutomaton_spec hwf hF h
  rw [S.auto] at e; cases e
  have hT := S.tables hwf
  by_cases h0 : a.states.length = 0
  · omega
  have hq : a.states[a.states.length - 1]? = some a.states[a.states.length - 1] :=
    List.getElem?_eq_getElem (by omega)
  obtain ⟨E, γ, hE, hI, hne⟩ := ha.reach _ _ hq
  have hlast : StateAt g (generateFirstTable h g) a E γ (a.states.length - 1) := ⟨_, hq, hI⟩
  suffices a.states.length - 1 < 4294967296 by omega
  obtain ⟨x, hx⟩ := List.exists_mem_of_ne_nil _ hne
  replace hx := (hI x).1 hx
  induction γ using List.reverseRecOn with
  | nil =>
    obtain ⟨q, hent⟩ := Option.isSome_iff_exists.1 ((ha.ent_dom E).2 hE)
    obtain ⟨s, h1, h2⟩ := ha.ent E q hent
    have : a.states.length - 1 = q := hlast.unique ha ⟨s, h1, h2⟩ fun _ => Iff.rfl
    rw [this]
    have hm : (E, q) ∈ h.iter a.entries := (h.perm _).mem_iff.2 (AMap.mem_of_get? hent)
    obtain ⟨i, hi⟩ := List.mem_iff_getElem?.1 hm
    obtain ⟨ep, _, h4⟩ := forall₂_getElem? S.entries hi
    unfold entryPoint at h4
    obtain ⟨st, h5, _⟩ := Except.bind_eq_ok.1 h4
    exact (tryU32_ok.1 h5).2
  | append_singleton γ Y _ =>
    obtain ⟨nt, p, α, β, la, h1, h2⟩ := hx.before
    obtain ⟨q, hq0⟩ := ha.state_of hwf hF hE h1
    cases Y with
    | terminal t =>
      obtain ⟨r, h3, h4⟩ := hT.shift_mk hE hq0 h1 h2
      have : a.states.length - 1 = r := hlast.unique ha h4 fun _ => Iff.rfl
      rw [this]
      unfold Generated.act at h3
      obtain ⟨row, h5, h6⟩ := Option.bind_eq_some_iff.1 h3
      have hlt : q < T1.nStates := by
        rw [← S.action.len]; exact (List.getElem?_eq_some_iff.1 h5).1
      obtain ⟨row', h7, _, h8⟩ := S.action.row q hlt
      rw [h5] at h7; cases h7
      obtain ⟨o, h9, h10⟩ := h8 (some t) (by rintro _ ⟨⟩; exact hwf.term_lt h2 (by simp))
      rw [S.nT] at h6
      rw [h6] at h9; cases h9
      cases hc : T1.getAction q (some t) with
      | none => rw [hc] at h10; cases h10
      | some act =>
        rw [hc] at h10
        cases act with
        | accept => cases h10
        | reduce nt p k =>
          obtain ⟨_, _, e⟩ := encodeCell_reduce h10
          cases e
        | shift r' =>
          obtain ⟨x, k1, k2⟩ := Except.bind_eq_ok.1 h10
          obtain ⟨y, k3, k4⟩ := Except.bind_eq_ok.1 k1
          obtain ⟨rfl, k5⟩ := tryU32_ok.1 k3
          cases k4; cases k2; exact k5
    | nonTerminal b =>
      obtain ⟨r, h3, h4⟩ := hT.goto_mk hE hq0 h1 h2
      have : a.states.length - 1 = r := hlast.unique ha h4 fun _ => Iff.rfl
      rw [this]
      unfold Generated.go at h3
      obtain ⟨row, h5, h6⟩ := Option.bind_eq_some_iff.1 h3
      have hlt : q < T1.nStates := by
        rw [← S.goto.len]; exact (List.getElem?_eq_some_iff.1 h5).1
      obtain ⟨row', h7, _, h8⟩ := S.goto.row q hlt
      rw [h5] at h7; cases h7
      obtain ⟨h9, h10⟩ := h8 b (by
        rw [S.shape.nNonTerminals]; exact hwf.nt_lt h2 (by simp))
      rw [h6] at h9
      exact h10 r (Option.some.inj h9).symm

/-! ## The LR(1) property -/

theorem perm_index {α : Type} {l l' : List α} (h : l.Perm l') :
    ∃ σ : Nat → Nat, Function.Injective σ ∧ ∀ i, l'[i]? = l[σ i]? := by
  induction h with
  | nil => exact ⟨id, Function.injective_id, fun _ => rfl⟩
  | @cons x l l' _ ih =>
    obtain ⟨σ, h1, h2⟩ := ih
    refine ⟨fun i => match i with | 0 => 0 | i + 1 => σ i + 1, ?_, ?_⟩
    · intro i j hij
      cases i <;> cases j <;> simp at hij ⊢
      exact h1 hij
    · intro i
      cases i with
      | zero => rfl
      | succ i => simpa using h2 i
  | swap x y l =>
    refine ⟨fun i => match i with | 0 => 1 | 1 => 0 | i + 2 => i + 2, ?_, ?_⟩
    · intro i j hij
      match i, j with
      | 0, 0 => rfl
      | 0, 1 => simp at hij
      | 0, _ + 2 => simp at hij
      | 1, 0 => simp at hij
      | 1, 1 => rfl
      | 1, _ + 2 => simp at hij
      | _ + 2, 0 => simp at hij
      | _ + 2, 1 => simp at hij
      | i + 2, j + 2 => exact hij
    · intro i
      match i with
      | 0 => rfl
      | 1 => rfl
      | _ + 2 => rfl
  | trans _ _ ih1 ih2 =>
    obtain ⟨σ, h1, h2⟩ := ih1
    obtain ⟨τ, h3, h4⟩ := ih2
    exact ⟨σ ∘ τ, h1.comp h3, fun i => by rw [h4, h2]; rfl⟩

section
variable {defs defs' : List (AstNonTerminal X Ty)}

theorem Includes.userProds_perm (h : Includes defs defs') (hnd : (defs.map (·.name)).Nodup)
    (hnd' : (defs'.map (·.name)).Nodup) {d : AstNonTerminal X Ty} (hd : d ∈ defs) :
    (userProds defs d.name).Perm (userProds defs' d.name) := by
  obtain ⟨d', hd', hs⟩ := h d hd
  rw [userProds_of_mem hnd hd, ← hs.name, userProds_of_mem hnd' hd']
  exact hs.productions.symm

theorem Includes.follows (h : Includes defs defs') {z : List USym} {c : Option String}
    (hf : UFollows defs z c) : UFollows defs' z c := by
  cases c with
  | none => exact h.derives hf
  | some t =>
    obtain ⟨x, hx⟩ := hf
    exact ⟨x, h.derives hx⟩

theorem Includes.context (h : Includes defs defs') {S : String} {δ : List USym} {B : String}
    {z : List USym} (hc : UContext defs S δ B z) : UContext defs' S δ B z := by
  induction hc with
  | root => exact .root
  | child _ hz hp ih =>
    obtain ⟨c, hc⟩ := hz
    obtain ⟨i', hp'⟩ := h.hasProd hp
    exact .child ih ⟨c, h.follows hc⟩ hp'

/-- The LR(1) property does not depend on the order of definitions and productions. -/
theorem ULR1.rearranged (h : ULR1 defs) (hr : Rearranged defs defs')
    (hnd : (defs.map (·.name)).Nodup) (hnd' : (defs'.map (·.name)).Nodup) : ULR1 defs' := by
  have hi := hr.includes
  have hj := hr.symm.includes
  have hσ : ∀ B : String, ∃ σ : Nat → Nat, Function.Injective σ ∧
      ∀ i, (userProds defs' B)[i]? = (userProds defs B)[σ i]? := by
    intro B
    by_cases hB : ∃ d ∈ defs, d.name = B
    · obtain ⟨d, hd, rfl⟩ := hB
      exact perm_index (hi.userProds_perm hnd hnd' hd)
    · have h1 : ∀ {l : List (AstNonTerminal X Ty)}, (¬ ∃ d ∈ l, d.name = B) → userProds l B = [] := by
        intro l hl
        unfold userProds
        rw [List.filter_eq_nil_iff.2]
        · rfl
        · intro d hd
          simp only [beq_iff_eq]
          exact fun e => hl ⟨d, hd, e⟩
      refine ⟨id, Function.injective_id, fun i => ?_⟩
      rw [h1 hB, h1]
      · simp
      · rintro ⟨d', hd', rfl⟩
        obtain ⟨d, hd, hs⟩ := hj d' hd'
        exact hB ⟨d, hd, hs.name⟩
  choose σ hσ1 hσ2 using hσ
  let f : UMove → UMove := fun
    | .shift => .shift
    | .accept => .accept
    | .reduce B i => .reduce B (σ B i)
  have hf : ∀ m m', f m = f m' → m = m' := by
    intro m m' e
    cases m <;> cases m' <;> simp [f] at e ⊢
    obtain ⟨rfl, e⟩ := e
    exact ⟨rfl, hσ1 _ e⟩
  have hw : ∀ {S γ c m}, UWants defs' S γ c m → UWants defs S γ c (f m) := by
    intro S γ c m hm
    cases m with
    | shift =>
      obtain ⟨δ, B, z, i, α, t, β, h1, ⟨c', h2⟩, h3, h4, h5⟩ := hm
      obtain ⟨i', h3'⟩ := hj.hasProd h3
      exact ⟨δ, B, z, i', α, t, β, hj.context h1, ⟨c', hj.follows h2⟩, h3', h4, h5⟩
    | accept => exact hm
    | reduce B i =>
      obtain ⟨δ, z, α, h1, h2, ⟨q, h3, h4⟩, h5⟩ := hm
      exact ⟨δ, z, α, hj.context h1, hj.follows h2, ⟨q, by rw [← hσ2]; exact h3, h4⟩, h5⟩
  intro d' hd' hp γ c m m' h1 h2
  obtain ⟨d, hd, hs⟩ := hj d' hd'
  have h1 := hw h1
  have h2 := hw h2
  rw [← hs.name] at h1 h2
  exact hf _ _ (h d hd (by rw [hs.isPub, hp]) γ c _ _ h1 h2)

end

/-! ## Sizes -/

section
variable {mkPath : String → X} {asts : List (AstNonTerminal X Ty)} {convs : List (Conversion Ty)}
  {g : Grammar X Ty} {nts ts : AMap String Nat}

theorem Lowered.key_cases (hl : Lowered mkPath asts convs g nts ts)
    (hnd : (asts.map (·.name)).Nodup) {j p : Nat} {pr : Production X}
    (hp : g.getProduction? j p = some pr) :
    (∃ d ∈ asts, nts.get? d.name = some j ∧ ∃ q, d.productions[p]? = some q ∧
      q.symbols.length = pr.symbols.length) ∨
    (∃ d ∈ asts, d.isPub = true ∧ p = 0 ∧ pr.symbols.length = 1 ∧
      ∃ b, nts.get? d.name = some b ∧ j = b + 1) := by
  have hh : g.HasProd j p pr.syms := hasProd_getProduction.2 ⟨pr, hp, rfl⟩
  cases hpub : g.isPublic j with
  | false =>
    left
    obtain ⟨n, hn⟩ := hl.name_of_hasProd hh hpub
    obtain ⟨q, pr', h1, h2, h3, _⟩ := hl.hasProd_user hn hh
    rw [hp] at h3; cases h3
    obtain ⟨d, hd, rfl⟩ := (hl.idx n).1 ⟨j, hn⟩
    rw [userProds_of_mem hnd hd] at h1
    exact ⟨d, hd, hn, q, h1, h2.1.length_eq⟩
  | true =>
    right
    have hnt : ∃ nt, g.nonTerminals[j]? = some nt ∧ nt.isPublic = true := by
      unfold Grammar.isPublic at hpub
      cases e : g.nonTerminals[j]? with
      | none => rw [e] at hpub; cases hpub
      | some nt => rw [e] at hpub; exact ⟨nt, rfl, hpub⟩
    obtain ⟨nt, h1, h2⟩ := hnt
    obtain ⟨d, _, _, hd, hdp, hname, _⟩ := hl.pub h1 h2
    obtain ⟨b, hb1, hb2⟩ := hl.entry_name hnd h1 h2
    obtain ⟨k1, k2, _⟩ := hl.wrapped h1 h2
    unfold Grammar.getProduction? at hp
    rw [h1] at hp
    simp only [Option.bind_some, k2] at hp
    cases p with
    | succ p => simp at hp
    | zero =>
      simp only [List.getElem?_cons_zero, Option.some.injEq] at hp
      subst hp
      refine ⟨d, hd, hdp, rfl, rfl, b, by rw [← hname]; exact hb1, ?_⟩
      obtain ⟨n0, pr0, f1, f2, f3⟩ := hb2
      rw [h1] at f1; cases f1
      rw [k2] at f2; cases f2
      simp only [wrapperProd, List.map_cons, List.map_nil, List.cons.injEq, and_true,
        Symbol.nonTerminal.injEq] at f3
      omega

theorem Lowered.listing_le (hl : Lowered mkPath asts convs g nts ts)
    (hnd : (asts.map (·.name)).Nodup) : g.listing.length ≤
      (asts.map (·.productions.length)).sum + (asts.filter (·.isPub)).length := by
  let L : List (Nat × Nat) :=
    (asts.flatMap fun d => (List.range d.productions.length).map fun i =>
      ((nts.get? d.name).getD 0, i)) ++
    (asts.filter (·.isPub)).map fun d => ((nts.get? d.name).getD 0 + 1, 0)
  have hL : L.length = (asts.map (·.productions.length)).sum + (asts.filter (·.isPub)).length := by
    simp [L, List.length_flatMap]
  rw [← hL]
  have hsub : (g.listing.map fun e => (e.1, e.2.1)) ⊆ L := by
    intro k hk
    obtain ⟨⟨j, p, pr⟩, he, rfl⟩ := List.mem_map.1 hk
    have hp : g.getProduction? j p = some pr := mem_listing he
    rcases hl.key_cases hnd hp with ⟨d, hd, h1, q, h2, _⟩ | ⟨d, hd, hdp, rfl, _, b, h1, rfl⟩
    · refine List.mem_append_left _ (List.mem_flatMap.2 ⟨d, hd, List.mem_map.2 ⟨p, ?_, ?_⟩⟩)
      · exact List.mem_range.2 (List.getElem?_eq_some_iff.1 h2).1
      · simp [h1]
    · refine List.mem_append_right _ (List.mem_map.2 ⟨d, List.mem_filter.2 ⟨hd, hdp⟩, ?_⟩)
      simp [h1]
  have := (List.subperm_of_subset (listing_keys_nodup g) hsub).length_le
  simpa using this

end

theorem forall₂_map_eq {α β γ : Type} {R : α → β → Prop} {f : α → γ} {f' : β → γ}
    (hR : ∀ a b, R a b → f a = f' b) {l : List α} {l' : List β} (h : List.Forall₂ R l l') :
    l.map f = l'.map f' := by
  induction h with
  | nil => rfl
  | cons h _ ih => rw [List.map_cons, List.map_cons, hR _ _ h, ih]

theorem Rearranged.map_perm {γ : Type} {defs defs' : List (AstNonTerminal X Ty)}
    (h : Rearranged defs defs') (f : AstNonTerminal X Ty → γ)
    (hf : ∀ d d', d.SameAs d' → f d = f d') : (defs.map f).Perm (defs'.map f) := by
  obtain ⟨l, h1, h2⟩ := h
  rw [forall₂_map_eq hf h1]
  exact h2.map f

theorem Rearranged.pub_perm {defs defs' : List (AstNonTerminal X Ty)} (h : Rearranged defs defs') :
    ((defs.filter (·.isPub)).map (·.name)).Perm ((defs'.filter (·.isPub)).map (·.name)) := by
  have h1 := h.map_perm (fun d => (d.isPub, d.name)) fun d d' hs => by rw [hs.isPub, hs.name]
  have h2 := (h1.filter (fun e => e.1)).map (·.2)
  simpa [List.filter_map, Function.comp_def] using h2

theorem Rearranged.loweredCount_eq {defs defs' : List (AstNonTerminal X Ty)}
    (h : Rearranged defs defs') : loweredCount defs' = loweredCount defs := by
  unfold loweredCount
  have h1 := (h.map_perm (·.name) fun d d' hs => hs.name.symm).length_eq
  have h2 := h.pub_perm.length_eq
  simp only [List.length_map] at h1 h2
  omega

theorem SmallItems.rearranged {items items' : List (GrammarItem X Ty)} (h : SmallItems items)
    (hr : RearrangedItems items items') : SmallItems items' where
  nonTerminals := by rw [hr.defs.loweredCount_eq]; exact h.nonTerminals
  productions := by
    have h1 := List.Perm.sum_nat (hr.defs.map_perm (·.productions.length) fun d d' hs =>
      hs.productions.length_eq.symm)
    have h2 := hr.defs.pub_perm.length_eq
    simp only [List.length_map] at h2
    have := h.productions
    omega
  symbols := by
    intro d' hd' p hp
    obtain ⟨d, hd, hs⟩ := hr.defs.symm.includes d' hd'
    exact h.symbols d hd p (hs.productions.mem_iff.2 hp)
  terminals := by
    intro t' ht'
    obtain ⟨t, t1, h1, h2, h3⟩ := hr.tokens
    rw [h2] at ht'
    simp only [List.mem_singleton] at ht'
    subst ht'
    rw [h3.length_eq]
    exact h.terminals t (by rw [h1]; simp)


/-- Lowering does not depend on the order. -/
theorem lower_rearranged {mkPath : String → X} {defs defs' : List (AstNonTerminal X Ty)}
    {convs convs' : List (Conversion Ty)} (hr : Rearranged defs defs') (hc : convs'.Perm convs)
    (hsz : loweredCount defs ≤ 4294967296) (hszt : convs.length ≤ 4294967296)
    (h : ∃ g, lower mkPath defs convs = .ok g) : ∃ g, lower mkPath defs' convs' = .ok g := by
  have hsz' : loweredCount defs' ≤ 4294967296 := by rw [hr.loweredCount_eq]; exact hsz
  rw [Parsegen.loweredCount_eq] at hsz hsz'
  obtain ⟨h1, h2⟩ := (lower_ok_iff hsz hszt).1 h
  refine (lower_ok_iff hsz' (by rw [hc.length_eq]; exact hszt)).2 ⟨?_, ?_⟩
  · exact (hc.map _).nodup_iff.2 h1
  · intro d' hd' p hp
    obtain ⟨d, hd, hs⟩ := hr.symm.includes d' hd'
    obtain ⟨h3, h4⟩ := h2 d hd p (hs.productions.mem_iff.2 hp)
    refine ⟨h3, fun s hs => ?_⟩
    rcases h4 s hs with ⟨n, h5, b, hb, rfl⟩ | ⟨t, h5, c, hc', rfl⟩
    · obtain ⟨b', hb', hs'⟩ := hr.includes b hb
      exact .inl ⟨_, h5, b', hb', hs'.name⟩
    · exact .inr ⟨_, h5, c, hc.mem_iff.2 hc', rfl⟩

theorem generateParser_rearranged [DecidableEq Ty] {o o' : HashOrder} {mkPath : String → X}
    {defs defs' : List (AstNonTerminal X Ty)} {convs convs' : List (Conversion Ty)}
    {g g' : Grammar X Ty} {gen : Generated X} (hr : Rearranged defs defs')
    (hnd : (defs.map (·.name)).Nodup) (hnd' : (defs'.map (·.name)).Nodup)
    (hlr : ULR1 defs) (hh : UHarmless defs)
    (hn : loweredCount defs' ≤ 65536)
    (hp : (defs'.map (·.productions.length)).sum + (defs'.filter (·.isPub)).length ≤ 65536)
    (hs : ∀ d ∈ defs', ∀ p ∈ d.productions, p.symbols.length ≤ 65535)
    (hl : lower mkPath defs convs = .ok g) (hl' : lower mkPath defs' convs' = .ok g')
    (hg : generateParser o g = .ok gen) : ∃ gen', generateParser o' g' = .ok gen' := by
  have hsz : loweredCount defs ≤ 4294967296 := by rw [← hr.loweredCount_eq]; omega
  have hsz' : loweredCount defs' ≤ 4294967296 := by omega
  obtain ⟨nts, ts, L⟩ := lower_ok (by rw [← loweredCount_eq]; exact hsz) hl
  obtain ⟨nts', ts', L'⟩ := lower_ok (by rw [← loweredCount_eq]; exact hsz') hl'
  have hlr' := hlr.rearranged hr hnd hnd'
  obtain ⟨a, g1, T1, S⟩ := generateParser_ok hg
  have hcount : ∀ {j p pr}, g'.getProduction? j p = some pr → pr.symbols.length ≤ 65535 := by
    intro j p pr hpr
    rcases L'.key_cases hnd' hpr with ⟨d, hd, _, q, h1, h2⟩ | ⟨_, _, _, _, h1, _⟩
    · rw [← h2]; exact hs d hd q (List.mem_of_getElem? h1)
    · omega
  have hsmall : g'.nNonTerminals ≤ 65536 := by
    rw [L'.size, ← loweredCount_eq]; exact hn
  have hlist : prodBase g'.nonTerminals g'.nonTerminals.length ≤ 65536 := by
    rw [← (listing_aux g'.nonTerminals 0).1]
    exact Nat.le_trans (L'.listing_le hnd') hp
  have hstates : ∀ a', generateAutomaton o' g' (generateFirstTable o' g') = .ok a' →
      a'.states.length ≤ 4294967296 := by
    intro a' ha'
    have hF := generateFirstTable_ok L.wf o
    have hF' := generateFirstTable_ok L'.wf o'
    obtain ⟨b, e, hb⟩ := generateAutomaton_spec L.wf hF o
    rw [S.auto] at e; cases e
    obtain ⟨b', e', hb'⟩ := generateAutomaton_spec L'.wf hF' o'
    rw [ha'] at e'; cases e'
    have hc := L.gcorr L' hnd hnd' (hr.includes.sameDefinitions hnd hnd')
    have hh' := hr.symm.includes.harmless hnd hh
    refine Nat.le_trans (hc.states_le L.wf L'.wf hF ?_ ?_ hb hb' ?_) (S.small L.wf)
    · exact hc.fcorr (generateFirstTable_sound _ _) (generateFirstTable_sound _ _)
        (generateFirstTable_enough L'.wf (L'.harmless L'.wf hh') o')
    · exact hc.symm.fcorr (generateFirstTable_sound _ _) (generateFirstTable_sound _ _)
        (generateFirstTable_enough L.wf (L.harmless L.wf hh) o)
    · intro E' hE'
      have hnt : ∃ nt, g'.nonTerminals[E']? = some nt ∧ nt.isPublic = true := by
        unfold Grammar.isPublic at hE'
        cases e : g'.nonTerminals[E']? with
        | none => rw [e] at hE'; cases hE'
        | some nt => rw [e] at hE'; exact ⟨nt, rfl, hE'⟩
      obtain ⟨nt', h1', h2'⟩ := hnt
      obtain ⟨d', _, _, hd', hdp', hname', _⟩ := L'.pub h1' h2'
      obtain ⟨d, hd, hsame⟩ := hr.symm.includes d' hd'
      obtain ⟨l1, l2, rfl⟩ := List.append_of_mem hd
      obtain ⟨E, nt, _, _, h1, h2, h3, _⟩ := L.pub_mk rfl (by rw [hsame.isPub]; exact hdp')
      exact ⟨E, .inr ⟨nt, nt', h1, h1', h2, h2', by rw [h3, hsame.name, hname']⟩⟩
  rcases c23_lr1_accepted (h := o') L'.wf ((L'.lr1_iff L'.wf hnd').2 hlr') with h1 | h1 | h1
  · exact h1
  · exfalso
    obtain ⟨a', ha', hc | ⟨_, st, _, ⟨_, _, _, _, _, _, hc⟩, _⟩⟩ := generateParser_error L'.wf h1
    · rcases hc with ⟨_, hc | hc | ⟨nt, p, α, hc, hlt⟩⟩ | ⟨hc, _⟩
      · omega
      · omega
      · obtain ⟨pr, h2, rfl⟩ := hasProd_getProduction.1 hc
        have := hcount h2
        simp [Production.syms] at hlt
        omega
      · cases hc
    · rcases hc with ⟨_, hc, _⟩ | ⟨hc, _⟩ | ⟨hc, _⟩ <;> cases hc
  · exfalso
    obtain ⟨a', ha', hc | ⟨_, st, _, ⟨_, _, _, _, _, _, hc⟩, _⟩⟩ := generateParser_error L'.wf h1
    · rcases hc with ⟨hc, _⟩ | ⟨_, hc | hc⟩
      · cases hc
      · omega
      · have := hstates a' ha'
        omega
    · rcases hc with ⟨_, hc, _⟩ | ⟨hc, _⟩ | ⟨hc, _⟩ <;> cases hc

end Parsegen
