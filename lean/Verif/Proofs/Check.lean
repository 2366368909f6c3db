import Verif.Proofs.FirstComplete
import Verif.Proofs.Wants

/-! # Executable checks for the side conditions `FirstEnough` and `IsLR1`

Used to show that concrete programs meet the hypotheses of the completeness theorems. -/

namespace Parsegen

variable {A Ty : Type} {g : Grammar A Ty} {F : FirstTable}

/-- The FIRST equations for one production. -/
def closedProd (F : FirstTable) (nt : Nat) : List Symbol → Bool
  | [] => (F.get nt).empty
  | .terminal t :: _ => decide (t ∈ (F.get nt).terminals)
  | .nonTerminal b :: rest =>
    ((F.get b).terminals.all fun t => decide (t ∈ (F.get nt).terminals)) &&
      (!(F.get b).empty || closedProd F nt rest)

/-- The FIRST equations for all productions of non-entry non-terminals. -/
def closedCheck (g : Grammar A Ty) (F : FirstTable) : Bool :=
  g.prodList.all fun e => g.isPublic e.1 || closedProd F e.1 e.2

theorem closedProd_skip {nt : Nat} {α1 α2 : List Symbol} (h : closedProd F nt (α1 ++ α2) = true)
    (hf : AllFlagged F α1) : closedProd F nt α2 = true := by
  induction α1 with
  | nil => exact h
  | cons s α1 ih =>
    obtain ⟨b, rfl, hb⟩ := hf s (by simp)
    simp only [List.cons_append, closedProd, hb, Bool.not_true, Bool.false_or,
      Bool.and_eq_true] at h
    exact ih h.2 fun s hs => hf s (by simp [hs])

theorem closedCheck.prod (h : closedCheck g F = true) {nt p : Nat} {α : List Symbol}
    (hpub : g.isPublic nt = false) (hp : g.HasProd nt p α) : closedProd F nt α = true := by
  have := List.all_eq_true.1 h (nt, α) (mem_prodList.2 ⟨p, hp⟩)
  simpa [hpub] using this

theorem firstClosed_of_check (h : closedCheck g F = true) : FirstClosed g F where
  term := by
    intro nt p α1 t α2 hpub hp hf
    have := closedProd_skip (closedCheck.prod h hpub hp) hf
    simpa [closedProd] using this
  nonTerm := by
    intro nt p α1 b α2 t hpub hp hf ht
    have := closedProd_skip (closedCheck.prod h hpub hp) hf
    simp only [closedProd, Bool.and_eq_true, List.all_eq_true, decide_eq_true_eq] at this
    exact this.1 t ht
  empty := by
    intro nt p α hpub hp hf
    have := closedProd_skip (α2 := []) (by simpa using closedCheck.prod h hpub hp) hf
    simpa [closedProd] using this

/-- What an item wants to do, and on which lookahead. -/
def Item.moves (g : Grammar A Ty) (it : Item) : List (Option Nat × Move) :=
  (match it.nextSymbol g with
    | some (.terminal t) => [(some t, .shift)]
    | _ => []) ++
  (if it.cursor = (g.rhs it.nt it.prod).length ∧ g.isPublic it.nt = false then
    [(it.la, .reduce it.nt it.prod)] else []) ++
  (if g.isPublic it.nt = true ∧ it.cursor = 1 ∧ it.la = none then [(none, .accept)] else [])

/-- No two items of a state want different moves on the same lookahead. -/
def lrCheck (g : Grammar A Ty) (a : Automaton) : Bool :=
  a.states.all fun st =>
    let ms := st.items.flatMap fun it => it.moves g
    ms.all fun x => ms.all fun y => decide (x.1 = y.1 → x.2 = y.2)

theorem Item.mem_moves (hwf : g.WF) {it : Item} (hok : ItemOk g it) {c : Option Nat} {m : Move}
    (h : g.Wants (· = it) c m) : (c, m) ∈ it.moves g := by
  unfold Item.moves
  cases m with
  | shift =>
    obtain ⟨t, rfl, h1⟩ := wants_shift_iff.1 h
    simp [h1]
  | reduce nt p =>
    obtain ⟨rfl, rfl, h1, h2, h3⟩ := (wants_reduce_iff hok).1 h
    simp [h1, h2, h3]
  | accept =>
    obtain ⟨h1, h2, h3, rfl⟩ := (wants_accept_iff hwf hok).1 h
    simp [h1, h2, h3]

/-- Item sets without conflicts make the grammar LR(1), for any complete FIRST table. -/
theorem isLR1_of_check' (hwf : g.WF) (h : HashOrder) (hok : F.Ok g.nTerminals)
    (hF : FirstEnough g F) {a : Automaton} (ha : generateAutomaton h g F = .ok a)
    (hc : lrCheck g a = true) : g.IsLR1 := by
  obtain ⟨a', ha', has⟩ := generateAutomaton_spec hwf hok h
  rw [ha] at ha'; cases ha'
  intro E γ c m m' hE h1 h2
  have g1 := h1.mono fun _ hx => Grammar.Valid.itemsAt hF hwf hE hx
  have g2 := h2.mono fun _ hx => Grammar.Valid.itemsAt hF hwf hE hx
  obtain ⟨it, hit, hw⟩ := Grammar.wants_iff.1 g1
  obtain ⟨it', hit', hw'⟩ := Grammar.wants_iff.1 g2
  obtain ⟨q, st, hq, hst⟩ := has.stateAt hwf hok hE γ it hit
  have := List.all_eq_true.1 hc st (List.mem_of_getElem? hq)
  simp only [List.all_eq_true, decide_eq_true_eq] at this
  exact this (c, m) (List.mem_flatMap.2 ⟨it, (hst it).2 hit, Item.mem_moves hwf (hit.itemOk hwf hok hE) hw⟩)
    (c, m') (List.mem_flatMap.2 ⟨it', (hst it').2 hit', Item.mem_moves hwf (hit'.itemOk hwf hok hE) hw'⟩) rfl

/-- Item sets without conflicts make the grammar LR(1), provided the FIRST table is complete. -/
theorem isLR1_of_check (hwf : g.WF) (h : HashOrder)
    (hF : FirstEnough g (generateFirstTable h g)) {a : Automaton}
    (ha : generateAutomaton h g (generateFirstTable h g) = .ok a) (hc : lrCheck g a = true) :
    g.IsLR1 := isLR1_of_check' hwf h (generateFirstTable_ok hwf h) hF ha hc

/-- Both checks for the grammar lowered from a program. -/
def regularCheck (h : HashOrder) (r : Except Fault (Grammar A Ty)) : Bool :=
  match r with
  | .error _ => true
  | .ok g =>
    closedCheck g (generateFirstTable h g) &&
      match generateAutomaton h g (generateFirstTable h g) with
      | .ok a => lrCheck g a
      | .error _ => false

theorem regular_of_check (h : HashOrder) {r : Except Fault (Grammar A Ty)}
    (hc : regularCheck h r = true) {g : Grammar A Ty} (hr : r = .ok g) (hwf : g.WF) :
    FirstEnough g (generateFirstTable h g) ∧ g.IsLR1 := by
  subst hr
  simp only [regularCheck, Bool.and_eq_true] at hc
  have hF := (FirstClosed.complete hwf (firstClosed_of_check hc.1)).enough hwf
  refine ⟨hF, ?_⟩
  cases ha : generateAutomaton h g (generateFirstTable h g) with
  | error f => rw [ha] at hc; cases hc.2
  | ok a => rw [ha] at hc; exact isLR1_of_check hwf h hF ha hc.2

/-- The grammar lowered from a program is LR(1), checked with a FIRST table `F` given by hand. -/
def lr1Check (F : FirstTable) (r : Except Fault (Grammar A Ty)) : Bool :=
  match r with
  | .error _ => true
  | .ok g =>
    F.all (fun s => decide s.terminals.Nodup && s.terminals.all (· < g.nTerminals)) && closedCheck g F &&
      match generateAutomaton .insertion g F with
      | .ok a => lrCheck g a
      | .error _ => false

theorem lr1_of_check (F : FirstTable) {r : Except Fault (Grammar A Ty)}
    (hc : lr1Check F r = true) {g : Grammar A Ty} (hr : r = .ok g) (hwf : g.WF) : g.IsLR1 := by
  subst hr
  simp only [lr1Check, Bool.and_eq_true] at hc
  obtain ⟨⟨h1, h2⟩, h3⟩ := hc
  have hok : F.Ok g.nTerminals := by
    intro nt
    simp only [FirstTable.get, List.getD_eq_getElem?_getD]
    cases hg : F[nt]? with
    | none => simp
    | some s =>
      have := List.all_eq_true.1 h1 s (List.mem_of_getElem? hg)
      simpa using this
  have hF := (FirstClosed.complete hwf (firstClosed_of_check h2)).enough hwf
  cases ha : generateAutomaton .insertion g F with
  | error f => rw [ha] at h3; cases h3
  | ok a => rw [ha] at h3; exact isLR1_of_check' hwf .insertion hok hF ha h3

end Parsegen
