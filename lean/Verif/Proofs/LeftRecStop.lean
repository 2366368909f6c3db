import Mathlib.Data.Fintype.Card
import Mathlib.Order.WellFounded
import Mathlib.Data.Fintype.Order
import Verif.Proofs.LeftRecDerive

/-! # In LR(1) grammars all sequences of reductions end

Not only reductions the lookahead asks for: any reductions by items valid for what has been read. -/

namespace Parsegen

open Relation

variable {X Ty : Type} {g : Grammar X Ty} {e : Nat}

/-- A reduction of a right-hand side on top of the stack, where its non-terminal is expected. -/
def LRed0 (g : Grammar X Ty) (e : Nat) (γ' γ : List Symbol) : Prop :=
  ∃ γ0 b p α, γ = γ0 ++ α ∧ γ' = γ0 ++ [.nonTerminal b] ∧ g.HasProd b p α ∧ g.Spine e γ0 b

theorem mem_le_sum {n : Nat} : ∀ {l : List Nat}, n ∈ l → n ≤ l.sum
  | m :: l, h => by
    rcases List.mem_cons.1 h with rfl | h
    · simp
    · have := mem_le_sum h
      simp; omega

theorem Grammar.exists_prod_bound (g : Grammar X Ty) :
    ∃ K, ∀ {nt p α}, g.HasProd nt p α → α.length ≤ K := by
  refine ⟨(g.nonTerminals.map fun n => (n.productions.map fun p => p.symbols.length).sum).sum, ?_⟩
  rintro nt p α ⟨n, pr, h1, h2, rfl⟩
  have h3 := List.mem_of_getElem? h1
  have h4 := List.mem_of_getElem? h2
  have h5 : pr.symbols.length ≤ (n.productions.map fun p => p.symbols.length).sum :=
    mem_le_sum (List.mem_map_of_mem h4)
  have h6 : (n.productions.map fun p => p.symbols.length).sum ≤
      (g.nonTerminals.map fun n => (n.productions.map fun p => p.symbols.length).sum).sum :=
    mem_le_sum (List.mem_map_of_mem (f := fun n => (n.productions.map fun p => p.symbols.length).sum) h3)
  simpa using h5.trans h6

theorem Grammar.Spine.lt (hwf : g.WF) {x y : Nat} {μ : List Symbol} (hx : x < g.nNonTerminals)
    (h : g.Spine x μ y) : y < g.nNonTerminals := by
  cases h with
  | root => exact hx
  | child _ hp => exact hwf.nt_lt hp (by simp)

/-- The first step of a spine that reads something. -/
theorem Grammar.Spine.first {K : Nat} (hK : ∀ {nt p α}, g.HasProd nt p α → α.length ≤ K) {x y : Nat}
    {μ : List Symbol} (h : g.Spine x μ y) : μ = [] ∨ ∃ z ν rest, ν ≠ [] ∧ ν.length ≤ K ∧ g.Spine x ν z ∧
      g.Spine z rest y ∧ μ = ν ++ rest := by
  induction h with
  | root => exact .inl rfl
  | @child μ Y p ν Z β h hp ih =>
    rcases ih with rfl | ⟨z, ν', rest, h1, h2, h3, h4, rfl⟩
    · by_cases hν : ν = []
      · exact .inl (by simp [hν])
      · refine .inr ⟨Z, ν, [], hν, ?_, by simpa using h.child hp, .root, by simp⟩
        have := hK hp
        simp at this; omega
    · exact .inr ⟨z, ν', rest ++ ν, h1, h2, h3, h4.child hp, by simp⟩

/-- A spine, cut at a given place. -/
theorem Grammar.Spine.cut {K : Nat} (hK : ∀ {nt p α}, g.HasProd nt p α → α.length ≤ K) {x y : Nat}
    {μ : List Symbol} (h : g.Spine x μ y) : ∀ {Q ν' : List Symbol}, μ = Q ++ ν' →
      ∃ δ z rest, g.Spine x (Q ++ δ) z ∧ g.Spine z rest y ∧ ν' = δ ++ rest ∧ δ.length ≤ K := by
  induction h with
  | root =>
    intro Q ν' h
    obtain ⟨rfl, rfl⟩ := List.append_eq_nil_iff.1 h.symm
    exact ⟨[], x, [], .root, .root, rfl, by simp⟩
  | @child μ Y p ν Z β h hp ih =>
    intro Q ν' hm
    rcases List.append_eq_append_iff.1 hm with ⟨a, rfl, ha⟩ | ⟨a, rfl, rfl⟩
    · refine ⟨ν', Z, [], ?_, .root, by simp, ?_⟩
      · rw [← hm]; exact h.child hp
      · have := hK hp
        rw [ha] at this
        simp at this; omega
    · obtain ⟨δ, z, rest, h1, h2, rfl, h4⟩ := ih rfl
      exact ⟨δ, z, rest ++ ν, h1, h2.child hp, by simp, h4⟩

/-- The non-terminals that can be expected. -/
def Reached (g : Grammar X Ty) (e : Nat) : Type :=
  {x : Nat // x < g.nNonTerminals ∧ ∃ δ, g.Spine e δ x}

instance (g : Grammar X Ty) (e : Nat) : Finite (Reached g e) :=
  Finite.of_injective (fun x : Reached g e => (⟨x.1, x.2.1⟩ : Fin g.nNonTerminals))
    fun a b h => Subtype.ext (by simpa using h)

/-- How much can be read before a non-terminal that derives the empty string is bounded. -/
theorem LR1At.bound (hwf : g.WF) (hlr : LR1At g e) (he : g.isPublic e = true) (hP : g.AllProductive) :
    ∃ M, ∀ {x δ μ y}, x < g.nNonTerminals → g.Spine e δ x → g.Spine x μ y → g.Derives μ [] →
      μ.length ≤ M := by
  obtain ⟨K, hK⟩ := g.exists_prod_bound
  let r : Reached g e → Reached g e → Prop :=
    fun y x => ∃ μ, μ ≠ [] ∧ g.Spine x.1 μ y.1 ∧ g.Derives μ []
  have : IsTrans (Reached g e) r := ⟨by
    rintro z y x ⟨μ, h1, h2, h3⟩ ⟨ν, h4, h5, h6⟩
    exact ⟨ν ++ μ, by simp [h1], h5.trans h2, by simpa using h6.append h3⟩⟩
  have : Std.Irrefl r := ⟨by
    rintro ⟨x, hx, δ, hd⟩ ⟨μ, h1, h2, h3⟩
    exact h1 (hlr.no_hidden hwf he hP hd h2 h3)⟩
  have hW : WellFounded r := Finite.wellFounded_of_trans_of_irrefl r
  have key : ∀ x : Reached g e, ∃ B, ∀ {μ y}, g.Spine x.1 μ y → g.Derives μ [] → μ.length ≤ B := by
    intro x
    induction x using hW.induction with
    | _ x ih =>
      classical
      obtain ⟨M, hM⟩ := Finite.exists_le
        (fun y : Reached g e => if h : r y x then Classical.choose (ih y h) else 0)
      refine ⟨K + M, fun {μ y} hs hn => ?_⟩
      rcases hs.first hK with rfl | ⟨z, ν, rest, h1, h2, h3, h4, rfl⟩
      · simp
      · obtain ⟨h5, h6⟩ := derives_nil_append hn
        obtain ⟨δ, hd⟩ := x.2.2
        let z' : Reached g e := ⟨z, h3.lt hwf x.2.1, _, hd.trans h3⟩
        have hr : r z' x := ⟨ν, h1, h3, h5⟩
        have h7 := hM z'
        simp only [hr, dif_pos] at h7
        have h8 := Classical.choose_spec (ih z' hr) h4 h6
        simp only [List.length_append]
        omega
  choose B hB using key
  obtain ⟨M, hM⟩ := Finite.exists_le B
  exact ⟨M, fun {x δ μ y} hx hd hs hn => (hB ⟨x, hx, δ, hd⟩ hs hn).trans (hM _)⟩

/-- All sequences of reductions end. -/
theorem LR1At.acc0 (hwf : g.WF) (hlr : LR1At g e) (he : g.isPublic e = true) (hP : g.AllProductive)
    (γ : List Symbol) : Acc (LRed0 g e) γ := by
  by_contra hna
  obtain ⟨f, -, hf⟩ := not_acc_iff_exists_descending_chain.1 hna
  choose γ0 b p α h1 h2 h3 h4 using hf
  obtain ⟨K, hK⟩ := g.exists_prod_bound
  have he' : e < g.nNonTerminals := by
    obtain ⟨_, b, hb⟩ := hwf.pub he
    exact hb.nt_lt
  have hlt : ∀ n, b n < g.nNonTerminals := fun n => (h3 n).nt_lt
  -- what is above an untouched stack derives the empty string
  have above : ∀ T m, T ≤ m → (∀ n, T ≤ n → n < m → (f T).length ≤ (γ0 n).length) →
      ∃ ν, f m = f T ++ ν ∧ g.Derives ν [] := by
    intro T m hm
    induction m, hm using Nat.le_induction with
    | base => intro _; exact ⟨[], by simp, .refl _⟩
    | succ m hm ih =>
      intro hk
      obtain ⟨ν, h5, h6⟩ := ih fun n hn hn' => hk n hn (by omega)
      have h7 := hk m hm (by omega)
      rw [h1 m] at h5
      rcases List.append_eq_append_iff.1 h5 with ⟨a, h8, h9⟩ | ⟨a, h8, rfl⟩
      · rw [h8] at h7
        have : a = [] := by
          simp only [List.length_append] at h7
          exact List.length_eq_zero_iff.1 (by omega)
        subst this
        simp only [List.append_nil, List.nil_append] at h8 h9
        refine ⟨[.nonTerminal (b m)], by rw [h2, h8], ?_⟩
        exact (Grammar.Derives.of_hasProd (h3 m)).trans (h9 ▸ h6)
      · obtain ⟨h9, h10⟩ := derives_nil_append h6
        refine ⟨a ++ [.nonTerminal (b m)], by rw [h2, h8]; simp, ?_⟩
        simpa using h9.append ((Grammar.Derives.of_hasProd (h3 m)).trans h10)
  by_cases hB : ∀ L, ∃ N, ∀ n, N ≤ n → L ≤ (γ0 n).length
  · -- the stack grows forever
    obtain ⟨M, hM⟩ := hlr.bound hwf he hP
    obtain ⟨T, hT⟩ : ∃ T, ∀ n, T ≤ n → (f T).length ≤ (γ0 n).length := by
      classical
      have hex := hB (f 0).length
      refine ⟨Nat.find hex, fun n hn => ?_⟩
      have h5 := Nat.find_spec hex n hn
      cases hz : Nat.find hex with
      | zero => exact h5
      | succ t =>
        have h6 := Nat.find_min hex (m := t) (by omega)
        simp only [not_forall, not_le] at h6
        obtain ⟨m, hm, h7⟩ := h6
        have h8 : m = t := by
          by_contra hne
          have := Nat.find_spec hex m (by omega)
          omega
        subst h8
        rw [h2]
        simp only [List.length_append, List.length_cons, List.length_nil]
        omega
    obtain ⟨N, hN⟩ := hB ((f T).length + K + M + 1)
    let n := max N T
    have hn1 : N ≤ n := Nat.le_max_left ..
    have hn2 : T ≤ n := Nat.le_max_right ..
    obtain ⟨ν, h5, h6⟩ := above T n hn2 fun m hm _ => hT m hm
    have h7 := hN n hn1
    rw [h1 n] at h5
    rcases List.append_eq_append_iff.1 h5 with ⟨a, h8, h9⟩ | ⟨a, h8, rfl⟩
    · rw [h8] at h7
      simp only [List.length_append] at h7
      omega
    · obtain ⟨δ, z, rest, h10, h11, rfl, h12⟩ := (h4 n).cut hK h8
      have h13 := (derives_nil_append (derives_nil_append h6).1).2
      have h14 := hM (h10.lt hwf he') h10 h11 h13
      rw [h8] at h7
      simp only [List.length_append] at h7
      omega
  · -- it comes back to some height again and again
    classical
    simp only [not_forall, not_exists, not_le] at hB
    obtain ⟨L, N, hN, hL⟩ : ∃ L N, (∀ n, N ≤ n → L ≤ (γ0 n).length) ∧
        ∀ m, ∃ n, m ≤ n ∧ (γ0 n).length = L := by
      have hB' : ∃ L, ∀ N, ∃ n, N ≤ n ∧ (γ0 n).length < L := by
        obtain ⟨L, hL⟩ := hB
        exact ⟨L, fun N => by obtain ⟨n, hn, h⟩ := hL N; exact ⟨n, hn, h⟩⟩
      have hspec := Nat.find_spec hB'
      cases hz : Nat.find hB' with
      | zero =>
        obtain ⟨n, _, h⟩ := hspec 0
        rw [hz] at h; omega
      | succ L =>
        rw [hz] at hspec
        have hmin := Nat.find_min hB' (m := L) (by omega)
        simp only [not_forall, not_exists, not_and, not_lt] at hmin
        obtain ⟨N, hN⟩ := hmin
        refine ⟨L, N, hN, fun m => ?_⟩
        obtain ⟨n, hn, h⟩ := hspec (max m N)
        have := hN n ((Nat.le_max_right ..).trans hn)
        exact ⟨n, (Nat.le_max_left ..).trans hn, by omega⟩
    let r : Reached g e → Reached g e → Prop := fun y x => TransGen (Chain0 g) y.1 x.1
    have : IsTrans (Reached g e) r := ⟨fun z y x h h' => TransGen.trans h h'⟩
    have : Std.Irrefl r := ⟨by
      rintro ⟨x, hx, δ, hd⟩ h
      exact hlr.no_chain hwf he hP hd h⟩
    have hW : WellFounded r := Finite.wellFounded_of_trans_of_irrefl r
    have key : ∀ x : Reached g e, ∀ n, N ≤ n → (γ0 n).length = L → b n = x.1 → False := by
      intro x
      induction x using hW.induction with
      | _ x ih =>
        intro n hn hk hb
        have hex : ∃ n', n < n' ∧ (γ0 n').length = L := by
          obtain ⟨n', h5, h6⟩ := hL (n + 1)
          exact ⟨n', h5, h6⟩
        obtain ⟨h5, h6⟩ := Nat.find_spec hex
        generalize hn' : Nat.find hex = n' at h5 h6
        have h7 : ∀ m, n + 1 ≤ m → m < n' → (f (n + 1)).length ≤ (γ0 m).length := by
          intro m hm hm'
          have h8 := Nat.find_min hex (m := m) (by omega)
          have h9 := hN m (by omega)
          rw [h2]
          simp only [List.length_append, List.length_cons, List.length_nil]
          have : (γ0 m).length ≠ L := fun h => h8 ⟨by omega, h⟩
          omega
        obtain ⟨ν, h8, h9⟩ := above (n + 1) n' h5 h7
        rw [h1 n', h2, List.append_assoc] at h8
        obtain ⟨h10, h11⟩ := List.append_inj h8 (by omega)
        have hc : Chain0 g (b n') (b n) := ⟨p n', [], ν, by simpa [h11] using h3 n', .refl _, h9⟩
        exact ih ⟨b n', hlt n', _, h4 n'⟩ (by rw [hb] at hc; exact .single hc) n' (by omega) h6 rfl
    obtain ⟨n, hn, hk⟩ := hL N
    exact key ⟨b n, hlt n, _, h4 n⟩ n hn hk rfl

end Parsegen
