import Verif.Proofs.SLR
import Verif.Proofs.FollowSets
import Verif.Proofs.Abstract
import Verif.Spec.LR0
import Verif.Spec.Reject
import Verif.Props.FollowSets
import Verif.Props.LR0

/-! # The SLR(1) table in terms of items -/

namespace Parsegen

variable {A Ty : Type} {g : Grammar A Ty}

/-! ## FOLLOW sets -/

theorem followTable_ok (hwf : g.WF) {F : FirstTable} (hF : F.Ok g.nTerminals) (h : HashOrder)
    (h0 : 0 < g.nNonTerminals) : (generateFollowTable h g F).Ok g.nTerminals := by
  have hterm := followLoop_terminates hwf hF h
  unfold generateFollowTable
  unfold followLoop at hterm ⊢
  dsimp only at hterm ⊢
  have hn : ¬ g.nNonTerminals = 0 := by omega
  rw [if_neg hn] at hterm ⊢
  obtain ⟨tbl, ⟨h1, h2⟩, h3⟩ := whileUpdated_exit
    (P := fun tbl : FollowTable => tbl.Ok g.nTerminals ∧ tbl.length = g.nNonTerminals)
    (fun tbl ht => followPass_keeps (h := h) (followOk_prim hwf hF) ht) _ _
    (by
      refine ⟨FollowTable.Ok.add (c := none) (followNew_ok _ _) ?_ (by simp), ?_⟩
      · rw [followNew_length]; omega
      · exact (FollowTable.add_length _ _ none).trans (followNew_length _)) hterm
  obtain ⟨h4, _⟩ := followPass_false (h := h) (F := F) h2 (by rw [h3])
  rw [h3] at h4
  dsimp only at h4
  rw [h4]
  exact h1

/-- The FOLLOW table the table builder is given. -/
abbrev slrFollow (h : HashOrder) (g : Grammar A Ty) : FollowTable :=
  generateFollowTable h g (generateFirstTable h g)

theorem pub_lt (hwf : g.WF) (h0 : g.isPublic 0 = true) : 0 < g.nNonTerminals := by
  have := (hwf.pub h0).1
  exact Grammar.lt_of_nProductions (p := 0) (by omega)

theorem slrFollow_nodup (hwf : g.WF) (h0 : g.isPublic 0 = true) (h : HashOrder) (b : Nat) :
    ((slrFollow h g).get b).terminals.Nodup := by
  have := followTable_ok hwf (generateFirstTable_ok hwf h) h (pub_lt hwf h0) b
  rw [FollowTable.get_asFirst] at this
  exact this.1

/-- Nothing but the end of input follows the start symbol. -/
theorem slrFollow_start (hwf : g.WF) (h0 : g.isPublic 0 = true) (h : HashOrder) {c : Option Nat}
    (hc : (slrFollow h g).Has 0 c) : c = none := by
  refine (followTable_spec hwf (generateFirstTable_ok hwf h) h (pub_lt hwf h0)
    (fun a c => a = 0 → c = none) (fun _ => rfl) ?_).1 0 c hc rfl
  rintro tbl a c _ ⟨lhs, p, α, β, hp, _⟩ rfl
  have := hwf.nt_priv hp (b := 0) (by simp)
  rw [h0] at this; cases this

theorem slrFollow_mayFollow (hwf : g.WF) (h0 : g.isPublic 0 = true) (h : HashOrder) {b : Nat} {c : Option Nat}
    (hc : (slrFollow h g).Has b c) : g.MayFollow b c := by
  cases c with
  | some t =>
    obtain ⟨S, hS⟩ := (c69_sound hwf h h (pub_lt hwf h0) b).1 t hc
    exact ⟨S, by simp, hS⟩
  | none => exact ⟨0, fun _ => rfl, (c69_sound hwf h h (pub_lt hwf h0) b).2 hc⟩

/-! ## Rows -/

theorem slrTable_rows (hwf : g.WF) (h0 : g.isPublic 0 = true) (h : HashOrder) :
    ((∀ st ∈ lr0Automaton h g, OpsFine (stateOps h g (slrFollow h g) st)) →
      ∃ T, slrTable h g = .ok T) ∧
    ∀ T, slrTable h g = .ok T → ∀ (i : Nat) (st : LR1State), (lr0Automaton h g)[i]? = some st →
      SlrRow h g (slrFollow h g) i st T := by
  have hi := (lr0Run_spec hwf h0 h).2
  refine buildSlrTable_spec h fun i st hst => ⟨fun it hit => ?_, hi.nodup i st hst⟩
  obtain ⟨γ, hγ⟩ := hi.at_ i st hst
  exact (((hγ it).1 hit).itemOk hwf h0).1.1

theorem Grammar.Expects.not_start (hwf : g.WF) (h0 : g.isPublic 0 = true) {δ : List Symbol}
    (h : g.Expects δ 0) : δ = [] := by
  generalize hB : (0 : Nat) = B at h
  cases h with
  | root => rfl
  | child _ hp =>
    have := hwf.nt_priv hp (by simp : Symbol.nonTerminal B ∈ _)
    rw [← hB, h0] at this; cases this

/-- A complete item. -/
theorem At0.complete (hwf : g.WF) (h0 : g.isPublic 0 = true) {γ : List Symbol} {it : Item}
    (h : At0 g γ it) (hn : it.nextSymbol g = none) :
    ∃ δ α, γ = δ ++ α ∧ g.HasProd it.nt it.prod α ∧ g.Expects δ it.nt ∧ it.cursor = α.length := by
  have h1 := (hwf.pub h0).1
  obtain ⟨δ, α, β, e1, e2, e3, rfl⟩ := h.expects (by omega)
  cases β with
  | nil => exact ⟨δ, α, rfl, by simpa using e2, e1, e3⟩
  | cons X β =>
    rw [Item.nextSymbol_iff.2 ⟨α, β, e2, e3.symm⟩] at hn
    cases hn

/-- A complete item of the start symbol. -/
theorem At0.start_complete (hwf : g.WF) (h0 : g.isPublic 0 = true) {γ : List Symbol} {it : Item}
    (h : At0 g γ it) (hn : it.nextSymbol g = none) (hz : it.nt = 0) : it = ⟨0, 0, 1, none⟩ := by
  obtain ⟨δ, α, _, e2, _, e4⟩ := h.complete hwf h0 hn
  obtain ⟨h1, b, hb⟩ := hwf.pub h0
  obtain ⟨nt, p, c, la⟩ := it
  simp only at hz e2 e4
  subst hz
  have hp : p = 0 := by have := e2.lt; omega
  subst hp
  have := e2.rhs_eq.symm.trans hb.rhs_eq
  subst this
  obtain rfl : la = none := (h.itemOk hwf h0).2
  simpa using e4

theorem At0.start_shape (hwf : g.WF) (h0 : g.isPublic 0 = true) {γ : List Symbol} {la : Option Nat}
    (h : At0 g γ ⟨0, 0, 1, la⟩) : ∃ b, γ = [.nonTerminal b] ∧ g.HasProd 0 0 [.nonTerminal b] := by
  obtain ⟨h1, b, hb⟩ := hwf.pub h0
  obtain ⟨δ, α, β, e1, e2, e3, rfl⟩ := h.expects (by omega)
  obtain rfl := e1.not_start hwf h0
  have := e2.rhs_eq.symm.trans hb.rhs_eq
  simp only at e3
  match α, β with
  | [], β => simp at e3
  | [X], [] => simp at this; subst this; exact ⟨b, rfl, hb⟩
  | [X], _ :: _ => simp at this
  | _ :: _ :: _, _ => simp at e3

/-- The move an action stands for; reducing the start production is accepting. -/
def LRAction.move : LRAction A → Move
  | .shift _ => .shift
  | .reduce b p _ => if b = 0 then .accept else .reduce b p
  | .accept => .accept

theorem op_move (hwf : g.WF) (h0 : g.isPublic 0 = true) {h : HashOrder} {st : LR1State} {γ : List Symbol}
    {it : Item} (hit : At0 g γ it) {c : Option Nat} {act : LRAction A}
    (ho : (c, act) ∈ itemOps h g (slrFollow h g) st it) : g.SLRMove γ c act.move := by
  have h1 := (hwf.pub h0).1
  have hv : ∀ {it : Item}, At0 g γ it → g.Valid0 γ it.nt it.prod it.cursor :=
    fun h => h.expects (by omega)
  cases act with
  | shift n =>
    obtain ⟨t, rfl, hs, _⟩ := mem_itemOps_shift.1 ho
    obtain ⟨α, β, hp, hc⟩ := Item.nextSymbol_iff.1 hs
    refine ⟨it.nt, it.prod, α, t, β, ?_, hp, rfl⟩
    rw [hc]; exact hv hit
  | reduce b p a =>
    obtain ⟨hn, rfl, rfl, hf, _⟩ := mem_itemOps_reduce.1 ho
    by_cases hz : it.nt = 0
    · have := hit.start_complete hwf h0 hn hz
      subst this
      exact ⟨hv hit, slrFollow_start hwf h0 h hf⟩
    · obtain ⟨δ, α, _, e2, _, e4⟩ := hit.complete hwf h0 hn
      simp only [LRAction.move, if_neg hz]
      exact ⟨α, by rw [← e4]; exact hv hit, e2, hz, slrFollow_mayFollow hwf h0 h hf⟩
  | accept =>
    obtain ⟨rfl, e1, e2, e3⟩ := mem_itemOps_accept.1 ho
    refine ⟨?_, rfl⟩
    have := hv hit
    rwa [e1, e2, e3] at this

/-- In a state of an SLR(1) grammar no attempts collide. -/
theorem opsFine_of_slr1 (hwf : g.WF) (h0 : g.isPublic 0 = true) (hl : g.IsSLR1) {h : HashOrder}
    {st : LR1State} {γ : List Symbol} (hI : ∀ x, x ∈ st.items ↔ At0 g γ x) (hnd : st.items.Nodup) :
    OpsFine (stateOps h g (slrFollow h g) st) := by
  unfold OpsFine stateOps
  rw [List.pairwise_flatMap]
  constructor
  · intro it hit
    unfold itemOps
    rw [List.pairwise_append]
    refine ⟨?_, ?_, ?_⟩
    · rw [List.pairwise_append]
      refine ⟨?_, ?_, ?_⟩
      · unfold shiftOps
        split
        · exact .nil
        · split
          · exact .nil
          · exact List.pairwise_singleton _ _
      · unfold reduceOps
        split
        · exact .nil
        · split
          · exact .nil
          · rw [List.pairwise_append]
            refine ⟨?_, ?_, ?_⟩
            · rw [List.pairwise_map]
              have := ((h.perm _).nodup_iff).2 (slrFollow_nodup hwf h0 h it.nt)
              refine List.Pairwise.imp ?_ this
              intro x y hxy he
              exact absurd (Option.some.inj he) hxy
            · split
              · exact List.pairwise_singleton _ _
              · exact .nil
            · intro o ho o' ho' he
              obtain ⟨t, _, rfl⟩ := List.mem_map.1 ho
              split at ho'
              · obtain rfl := List.mem_singleton.1 ho'
                cases he
              · cases ho'
      · intro o ho o' ho' he
        exfalso
        unfold shiftOps at ho
        unfold reduceOps at ho'
        split at ho
        · cases ho
        · next t ht =>
          rw [Item.nextTerminal_iff.1 ht] at ho'
          simp at ho'
    · unfold acceptOps
      split
      · exact List.pairwise_singleton _ _
      · exact .nil
    · intro o _ o' ho' _
      unfold acceptOps at ho'
      split at ho'
      · obtain rfl := List.mem_singleton.1 ho'
        exact .inl rfl
      · cases ho'
  · refine List.Pairwise.imp_of_mem ?_ hnd
    intro it it' hit hit' hne o ho o' ho' he
    obtain ⟨c, act⟩ := o
    obtain ⟨c', act'⟩ := o'
    simp only at he ⊢
    subst he
    have a1 := (hI it).1 hit
    have a2 := (hI it').1 hit'
    have hm := hl γ c _ _ (op_move hwf h0 a1 ho) (op_move hwf h0 a2 ho')
    have hcomp : ∀ {it : Item} {act : LRAction A}, At0 g γ it →
        (c, act) ∈ itemOps h g (slrFollow h g) st it → act.move = .accept → it = ⟨0, 0, 1, none⟩ := by
      intro it act ha ho hmv
      cases act with
      | shift n => cases hmv
      | reduce b p a =>
        obtain ⟨hn, rfl, rfl, _⟩ := mem_itemOps_reduce.1 ho
        refine ha.start_complete hwf h0 hn ?_
        by_contra hz
        simp [LRAction.move, hz] at hmv
      | accept =>
        obtain ⟨_, e1, e2, e3⟩ := mem_itemOps_accept.1 ho
        obtain ⟨nt, p, cu, la⟩ := it
        simp only at e1 e2 e3
        subst e1 e2 e3
        have hla : la = none := (ha.itemOk hwf h0).2
        rw [hla]
    cases hmv : act.move with
    | accept => exact absurd ((hcomp a1 ho hmv).trans (hcomp a2 ho' (hm ▸ hmv)).symm) hne
    | shift =>
      have hmv' := hm ▸ hmv
      have sh : ∀ {act : LRAction A}, act.move = .shift → ∃ n, act = .shift n := by
        intro act hs
        cases act with
        | shift n => exact ⟨n, rfl⟩
        | reduce b p a => simp only [LRAction.move] at hs; split at hs <;> cases hs
        | accept => cases hs
      obtain ⟨n, rfl⟩ := sh hmv
      obtain ⟨n', rfl⟩ := sh hmv'
      obtain ⟨t, rfl, _, e1⟩ := mem_itemOps_shift.1 ho
      obtain ⟨t', e2, _, e3⟩ := mem_itemOps_shift.1 ho'
      obtain rfl : t = t' := Option.some.inj e2
      rw [e1] at e3
      cases e3
      exact .inr ⟨n, rfl, rfl⟩
    | reduce b p =>
      have hmv' := hm ▸ hmv
      have rd : ∀ {it : Item} {act : LRAction A}, At0 g γ it →
          (c, act) ∈ itemOps h g (slrFollow h g) st it → act.move = .reduce b p →
          it = ⟨b, p, (g.rhs b p).length, none⟩ := by
        intro it act ha ho hs
        cases act with
        | shift n => cases hs
        | accept => cases hs
        | reduce b' p' a =>
          obtain ⟨hn, e1, e2, _⟩ := mem_itemOps_reduce.1 ho
          simp only [LRAction.move] at hs
          split at hs
          · cases hs
          · cases hs
            obtain ⟨δ, α, _, e3, _, e4⟩ := ha.complete hwf h0 hn
            obtain ⟨nt, p, cu, la⟩ := it
            simp only at e1 e2 e3 e4
            subst e1 e2
            have hla : la = none := (ha.itemOk hwf h0).2
            rw [hla, e3.rhs_eq, e4]
      exact absurd ((rd a1 ho hmv).trans (rd a2 ho' hmv').symm) hne

/-! ## Cells -/

section
variable {h : HashOrder} {T : LRTable A} {γ : List Symbol} {q : Nat}

theorem slr_shift (hwf : g.WF) (h0 : g.isPublic 0 = true) (hT : slrTable h g = .ok T)
    (hq : Path0 (lr0Automaton h g) γ q) {c : Option Nat} {n : Nat}
    (ha : T.getAction q c = some (.shift n)) :
    ∃ t, c = some t ∧ ∃ st : LR1State, (lr0Automaton h g)[q]? = some st ∧
      st.goto.get? (.terminal t) = some n := by
  obtain ⟨st, hst, hI⟩ := hq.state hwf h0
  have hr := (slrTable_rows hwf h0 h).2 T hT q st hst
  obtain ⟨it, _, ho⟩ := mem_stateOps.1 (hr.row.of _ _ ha)
  obtain ⟨t, rfl, _, hg⟩ := mem_itemOps_shift.1 ho
  exact ⟨t, rfl, st, hst, hg⟩

theorem slr_reduce (hwf : g.WF) (h0 : g.isPublic 0 = true) (hT : slrTable h g = .ok T)
    (hq : Path0 (lr0Automaton h g) γ q) {c : Option Nat} {b p : Nat} {a : A}
    (ha : T.getAction q c = some (.reduce b p a)) :
    b ≠ 0 ∧ (slrFollow h g).Has b c ∧ (∃ δ α, γ = δ ++ α ∧ g.HasProd b p α ∧ g.Expects δ b) ∧
      ∃ pr, g.getProduction? b p = some pr ∧ pr.action = a := by
  obtain ⟨st, hst, hI⟩ := hq.state hwf h0
  have hr := (slrTable_rows hwf h0 h).2 T hT q st hst
  obtain ⟨it, hit, ho⟩ := mem_stateOps.1 (hr.row.of _ _ ha)
  obtain ⟨hn, rfl, rfl, hf, hpr⟩ := mem_itemOps_reduce.1 ho
  have hat := (hI it).1 hit
  refine ⟨?_, hf, ?_, hpr⟩
  · intro hz
    have := hat.start_complete hwf h0 hn hz
    subst this
    obtain rfl := slrFollow_start hwf h0 h hf
    have hacc : ((none, .accept) : Op A) ∈ stateOps h g (slrFollow h g) st :=
      mem_stateOps.2 ⟨_, hit, mem_itemOps_accept.2 ⟨rfl, rfl, rfl, rfl⟩⟩
    rw [hr.row.acc hacc] at ha
    cases ha
  · obtain ⟨δ, α, e1, e2, e3, _⟩ := hat.complete hwf h0 hn
    exact ⟨δ, α, e1, e2, e3⟩

theorem slr_accept (hwf : g.WF) (h0 : g.isPublic 0 = true) (hT : slrTable h g = .ok T)
    (hq : Path0 (lr0Automaton h g) γ q) {c : Option Nat} (ha : T.getAction q c = some .accept) :
    c = none ∧ ∃ b, γ = [.nonTerminal b] ∧ g.HasProd 0 0 [.nonTerminal b] := by
  obtain ⟨st, hst, hI⟩ := hq.state hwf h0
  have hr := (slrTable_rows hwf h0 h).2 T hT q st hst
  obtain ⟨it, hit, ho⟩ := mem_stateOps.1 (hr.row.of _ _ ha)
  obtain ⟨rfl, e1, e2, e3⟩ := mem_itemOps_accept.1 ho
  obtain ⟨nt, p, cu, la⟩ := it
  simp only at e1 e2 e3
  subst e1 e2 e3
  exact ⟨rfl, ((hI _).1 hit).start_shape hwf h0⟩

theorem slr_goto (hwf : g.WF) (h0 : g.isPublic 0 = true) (hT : slrTable h g = .ok T)
    (hq : Path0 (lr0Automaton h g) γ q) {b : Nat} (hb : b ≠ 0) (he : g.Expects γ b) :
    ∃ r, T.getGoto q b = some r ∧ ∃ st : LR1State, (lr0Automaton h g)[q]? = some st ∧
      st.goto.get? (.nonTerminal b) = some r := by
  have h1 := (hwf.pub h0).1
  have hi := (lr0Run_spec hwf h0 h).2
  obtain ⟨st, hst, hI⟩ := hq.state hwf h0
  have hr := (slrTable_rows hwf h0 h).2 T hT q st hst
  have : ∃ it ∈ st.items, it.nextSymbol g = some (.nonTerminal b) := by
    cases he with
    | root => exact absurd rfl hb
    | @child δ B p α _ β h2 hp =>
      exact ⟨⟨B, p, α.length, none⟩, (hI _).2 ((h2.at0 h1 p hp.lt).run α _ hp),
        Item.nextSymbol_iff.2 ⟨α, β, hp, rfl⟩⟩
  obtain ⟨it, hit, hn⟩ := this
  rcases hi.compl q st it _ hst hit hn with h3 | h3 | h3
  · obtain ⟨r, hr'⟩ := Option.isSome_iff_exists.1 h3
    exact ⟨r, by rw [hr.goto]; exact hr', st, hst, hr'⟩
  · simp at h3
  · simp at h3

/-- In an SLR(1) grammar every justified move is in the table. -/
theorem slr_full (hwf : g.WF) (h0 : g.isPublic 0 = true) (hl : g.IsSLR1) (hT : slrTable h g = .ok T)
    (hq : Path0 (lr0Automaton h g) γ q) {it : Item} (hat : At0 g γ it) :
    (∀ t, it.nextSymbol g = some (.terminal t) → ∃ n, T.getAction q (some t) = some (.shift n)) ∧
    (it.nextSymbol g = none → it.nt ≠ 0 → ∀ c, (slrFollow h g).Has it.nt c →
      ∃ a, T.getAction q c = some (.reduce it.nt it.prod a)) ∧
    (it = ⟨0, 0, 1, none⟩ → T.getAction q none = some .accept) := by
  have hi := (lr0Run_spec hwf h0 h).2
  obtain ⟨st, hst, hI⟩ := hq.state hwf h0
  have hr := (slrTable_rows hwf h0 h).2 T hT q st hst
  have hfine := opsFine_of_slr1 hwf h0 hl (h := h) hI (hi.sorted q st hst).nodup
  have hfull := hr.full hfine
  have hit := (hI it).2 hat
  have nacc : ∀ {c : Option Nat} {act : LRAction A}, (c, act) ∈ itemOps h g (slrFollow h g) st it →
      act.move ≠ .accept → T.getAction q c = some act := by
    intro c act ho hne
    rcases hfull c act (mem_stateOps.2 ⟨it, hit, ho⟩) with h1 | h1
    · exact h1
    · obtain ⟨it', hit', ho'⟩ := mem_stateOps.1 (hr.row.of _ _ h1)
      exact absurd (hl γ c _ _ (op_move hwf h0 hat ho) (op_move hwf h0 ((hI it').1 hit') ho')) hne
  refine ⟨fun t ht => ?_, fun hn hz c hc => ?_, fun he => ?_⟩
  · rcases hi.compl q st it _ hst hit ht with h3 | h3 | h3
    · obtain ⟨r, hr'⟩ := Option.isSome_iff_exists.1 h3
      exact ⟨r, nacc (mem_itemOps_shift.2 ⟨t, rfl, ht, hr'⟩) (by simp [LRAction.move])⟩
    · simp at h3
    · simp at h3
  · obtain ⟨pr, hpr⟩ := getProduction?_of_lt (hat.itemOk hwf h0).1.1
    exact ⟨pr.action, nacc (mem_itemOps_reduce.2 ⟨hn, rfl, rfl, hc, pr, hpr, rfl⟩)
      (by simp [LRAction.move, hz])⟩
  · subst he
    exact hr.row.acc (mem_stateOps.2 ⟨_, hit, mem_itemOps_accept.2 ⟨rfl, rfl, rfl, rfl⟩⟩)

end

/-! ## Errors -/

theorem Op.run_error {i : Nat} {T : LRTable A} {c : Option Nat} {act : LRAction A} {f : Fault}
    (hs : ∀ n n', act = .shift n → T.getAction i c = some (.shift n') → n' = n)
    (ha : ∀ n, act = .shift n → T.getAction i c ≠ some .accept)
    (h : Op.run i T (c, act) = .error f) : f.IsConflict := by
  unfold LRTable.getAction at hs ha
  cases act with
  | accept => cases c <;> cases h
  | shift n =>
    cases c with
    | none => cases h
    | some t =>
      simp only [Op.run, LRTable.addShift] at h
      split at h
      · cases h
      · next s he =>
        split at h
        · next hne => exact absurd (hs n s rfl he) hne
        · cases h
      · cases h
      · next he => exact absurd he (ha n rfl)
  | reduce b p a =>
    simp only [Op.run, LRTable.addReduce] at h
    split at h <;> cases h <;> trivial

theorem ops_run_error {i : Nat} {f : Fault} : ∀ (ops D : List (Op A)) (T : LRTable A), OpsOk (D ++ ops) →
    (∀ c n n', (c, .shift n) ∈ D ++ ops → (c, .shift n') ∈ D ++ ops → n = n') → RowInv i D T →
    ops.foldlM (Op.run i) T = .error f → f.IsConflict
  | [], D, T, _, _, _, h => by cases h
  | (c, act) :: ops, D, T, hok, hsh, hi, h => by
    rw [List.foldlM_cons] at h
    cases h1 : Op.run i T (c, act) with
    | error e =>
      rw [h1] at h
      cases h
      refine Op.run_error ?_ ?_ h1
      · rintro n n' rfl he
        exact hsh c n' n (by simp [hi.of _ _ he]) (by simp)
      · rintro n rfl he
        have := (hok c .accept (by simp [hi.of _ _ he])).2 rfl
        exact (hok c (.shift n) (by simp)).1 this n rfl
    | ok T1 =>
      rw [h1] at h
      have hk : OpsOk [(c, act)] := fun c a hm => hok c a (by
        rw [List.mem_singleton] at hm; simp [hm])
      have hi1 := ((ops_run [(c, act)] D T hk hi).1 T1 (by
        rw [List.foldlM_cons, h1]; rfl)).1
      exact ops_run_error ops (D ++ [(c, act)]) T1 (by simpa using hok) (by simpa using hsh) hi1 h

theorem slrTable_error (hwf : g.WF) (h0 : g.isPublic 0 = true) {h : HashOrder} {f : Fault}
    (he : slrTable h g = .error f) : f.IsConflict := by
  have hi := (lr0Run_spec hwf h0 h).2
  have hst : ∀ (i : Nat) (st : LR1State), (lr0Automaton h g)[i]? = some st →
      (∀ it ∈ st.items, it.prod < g.nProductions it.nt) ∧ (st.goto.map (·.1)).Nodup := by
    refine fun i st hst => ⟨fun it hit => ?_, hi.nodup i st hst⟩
    obtain ⟨γ, hγ⟩ := hi.at_ i st hst
    exact (((hγ it).1 hit).itemOk hwf h0).1.1
  unfold slrTable buildSlrTable at he
  have key : ∀ (l : List LR1State) (k : Nat) (T : LRTable A),
      (∀ (i : Nat) (st : LR1State), l[i]? = some st → (lr0Automaton h g)[k + i]? = some st) →
      (∀ i, k ≤ i → (∀ c, T.getAction i c = none) ∧ ∀ b, T.getGoto i b = none) →
      (l.zipIdx k).foldlM (slrState h g (slrFollow h g)) T = .error f → f.IsConflict := by
    intro l
    induction l with
    | nil => intro k T _ _ h; cases h
    | cons st l ih =>
      intro k T h1 h3 herr
      have hk : (lr0Automaton h g)[k]? = some st := by simpa using h1 0 st rfl
      obtain ⟨o1, o3⟩ := hst k st hk
      rw [List.zipIdx_cons, List.foldlM_cons] at herr
      cases hs : slrState h g (slrFollow h g) T (st, k) with
      | error e =>
        rw [hs] at herr
        cases herr
        rw [slrState_eq o1] at hs
        cases ho : (stateOps h g (slrFollow h g) st).foldlM (Op.run k) T with
        | ok T1 => rw [ho] at hs; cases hs
        | error e =>
          rw [ho] at hs
          cases hs
          refine ops_run_error _ [] T stateOps_ok ?_
            ⟨fun c act hc => absurd (((h3 k (Nat.le_refl _)).1 c).symm.trans hc) (by simp),
              fun hm => by simp at hm⟩ ho
          intro c n n' hn hn'
          obtain ⟨_, _, hn⟩ := mem_stateOps.1 hn
          obtain ⟨_, _, hn'⟩ := mem_stateOps.1 hn'
          obtain ⟨t, rfl, _, e1⟩ := mem_itemOps_shift.1 hn
          obtain ⟨t', e2, _, e3⟩ := mem_itemOps_shift.1 hn'
          cases e2
          exact Option.some.inj (e1.symm.trans e3)
      | ok T2 =>
        rw [hs] at herr
        obtain ⟨_, s2⟩ := slrState_step (h := h) (fol := slrFollow h g) o1 o3 (h3 k (Nat.le_refl _)).1
          (h3 k (Nat.le_refl _)).2
        obtain ⟨_, h6⟩ := s2 T2 hs
        refine ih (k + 1) T2 ?_ ?_ herr
        · intro i st' hi
          have := h1 (i + 1) st' (by simpa using hi)
          rw [← this]; congr 1; omega
        · intro i hi
          have hne : i ≠ k := by omega
          have := h3 i (by omega)
          exact ⟨fun c => by rw [h6.action i c hne]; exact this.1 c,
            fun b => by rw [h6.goto i b hne]; exact this.2 b⟩
  exact key _ 0 (LRTable.new _) (by simp) (fun i _ => ⟨fun c => rfl, fun b => rfl⟩) he

end Parsegen
