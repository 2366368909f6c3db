import Verif.Proofs.DisplayTotal
import Verif.Proofs.LowerSpec
import Verif.Proofs.Transfer
import Verif.Props.Examples

/-! # C78: the dumps of grammar, FIRST sets, automaton and table -/

namespace Parsegen

variable {A X Ty : Type} {dbg : String → Chars}

theorem SameShape.refl' (g : Grammar A Ty) : SameShape g g :=
  ⟨rfl, rfl, fun _ n h => ⟨n, h, rfl, rfl, rfl, rfl⟩⟩

/-- **C78.** Two grammars with the same dump have the same rules. -/
theorem c78_grammar (hd : IsDebugStr dbg) {g g' : Grammar A Ty} (hg : g.IdentNames)
    (hg' : g'.IdentNames) {t : Chars} (h : showGrammar dbg g = .ok t) (h' : showGrammar dbg g' = .ok t) :
    g.rules = g'.rules := showGrammar_inj hd hg hg' h h'

/-- A name with its number. -/
theorem getElem?_name_inj {α β : Type} {l : List α} {f : α → β} (hn : (l.map f).Nodup) {i j : Nat}
    (hi : i < l.length) (h : (l[i]?).map f = (l[j]?).map f) : i = j := by
  rw [← List.getElem?_map, ← List.getElem?_map] at h
  have hi' : i < (l.map f).length := by simpa using hi
  exact (List.getElem?_inj hi' hn).1 h

theorem terminal_inj {g : Grammar A Ty} (hn : g.terminals.Nodup) {i j : Nat} (hi : i < g.nTerminals)
    (h : g.terminals[i]? = g.terminals[j]?) : i = j := (List.getElem?_inj hi hn).1 h

/-- **C78.** Two FIRST tables of a grammar with the same dump, whatever the hash order of the two
dumps, have the same sets. -/
theorem c78_first (hd : IsDebugStr dbg) {h h' : HashOrder} {g : Grammar A Ty}
    (hg : g.IdentNames) (hn : g.terminals.Nodup) {F F' : FirstTable} (hF : F.Ok g.nTerminals)
    (hF' : F'.Ok g.nTerminals) {t : Chars}
    (h1 : showFirstTable dbg h g F = .ok t) (h2 : showFirstTable dbg h' g F' = .ok t) :
    F.length = F'.length ∧ ∀ nt, (F.get nt).empty = (F'.get nt).empty ∧
      ∀ c, c ∈ (F.get nt).terminals ↔ c ∈ (F'.get nt).terminals := by
  have e := showFirstTable_inj hd hg h1 h2
  have hl : F.length = F'.length := by simpa using congrArg List.length e
  refine ⟨hl, fun nt => ?_⟩
  by_cases hlt : nt < F.length
  · have e1 : (F.get nt).told h g = (F'.get nt).told h' g := by
      have := congrArg (·[nt]?) e
      simp only [List.getElem?_map] at this
      rw [List.getElem?_eq_getElem hlt, List.getElem?_eq_getElem (hl ▸ hlt)] at this
      unfold FirstTable.get
      rw [List.getD_eq_getElem?_getD, List.getD_eq_getElem?_getD, List.getElem?_eq_getElem hlt,
        List.getElem?_eq_getElem (hl ▸ hlt)]
      exact Option.some.inj this
    refine ⟨congrArg (·.1) e1, fun c => ⟨fun hc => ?_, fun hc => ?_⟩⟩
    · exact FirstSet.told_mem hn e1 ((hF nt).2 c hc) hc
    · exact FirstSet.told_mem hn e1.symm ((hF' nt).2 c hc) hc
  · unfold FirstTable.get
    rw [List.getD_eq_getElem?_getD, List.getD_eq_getElem?_getD, List.getElem?_eq_none (by omega),
      List.getElem?_eq_none (by omega)]
    exact ⟨rfl, fun _ => Iff.rfl⟩

private theorem action_le (hd : IsDebugStr dbg) {h h' : HashOrder} {g : Grammar A Ty}
    (hg : g.IdentNames) (hn : g.terminals.Nodup) {T T' : LRTable A} {t : Chars}
    (h1 : showTable dbg h g T = .ok t) (h2 : showTable dbg h' g T' = .ok t) {s : Nat}
    (hs : s < T.nStates) {la : Option Nat} {a : LRAction A} (ha : T.getAction s la = some a) :
    ∃ a', T'.getAction s la = some a' ∧ a'.plain = a.plain := by
  obtain ⟨_, e⟩ := showTable_inj hd hg h1 h2
  have hm := LRTable.mem_lines_inl (h := h).2 ha
  have := List.mem_map_of_mem (f := lineTold g) hm
  rw [e s hs] at this
  obtain ⟨x, hx, ex⟩ := List.mem_map.1 this
  cases x with
  | inr y => cases ex
  | inl y =>
    obtain ⟨la', a'⟩ := y
    simp only [lineTold, Sum.inl.injEq, Prod.mk.injEq] at ex
    obtain ⟨l, hl⟩ := showTable_line h1 hs hm
    obtain ⟨_, _, hla⟩ := showLine_inl hl
    have : la' = la := by
      cases la with
      | none =>
        cases la' with
        | none => rfl
        | some i => simp at ex
      | some i =>
        cases la' with
        | none => simp at ex
        | some j =>
          rcases hla with ⟨i', n, e1, e2, _⟩ | ⟨e1, _⟩
          · cases e1
            have := ex.1
            simp only [Option.map_some, Option.some.injEq] at this
            rw [terminal_inj hn (List.getElem?_eq_some_iff.1 e2).1 this.symm]
          · cases e1
    subst this
    exact ⟨a', LRTable.mem_lines_inl.1 hx, ex.2⟩

private theorem goto_le (hd : IsDebugStr dbg) {h h' : HashOrder} {g : Grammar A Ty}
    (hg : g.IdentNames) (hn : (g.nonTerminals.map (·.name)).Nodup) {T T' : LRTable A} {t : Chars}
    (h1 : showTable dbg h g T = .ok t) (h2 : showTable dbg h' g T' = .ok t) {s : Nat}
    (hs : s < T.nStates) {nt q : Nat} (ha : T.getGoto s nt = some q) : T'.getGoto s nt = some q := by
  obtain ⟨_, e⟩ := showTable_inj hd hg h1 h2
  have hm := LRTable.mem_lines_inr (h := h).2 ha
  have := List.mem_map_of_mem (f := lineTold g) hm
  rw [e s hs] at this
  obtain ⟨x, hx, ex⟩ := List.mem_map.1 this
  cases x with
  | inl y => cases ex
  | inr y =>
    obtain ⟨nt', q'⟩ := y
    simp only [lineTold, Sum.inr.injEq, Prod.mk.injEq] at ex
    obtain ⟨l, hl⟩ := showTable_line h1 hs hm
    obtain ⟨n, e1, _⟩ := showLine_inr hl
    have hnt : nt = nt' := getElem?_name_inj hn (List.getElem?_eq_some_iff.1 e1).1 ex.1.symm
    obtain ⟨-, rfl⟩ := ex
    rw [hnt]
    exact LRTable.mem_lines_inr.1 hx

/-- **C78.** Two tables of a grammar with the same dump, whatever the hash order of the two dumps, have
the same states, actions and gotos, if no two non-terminals of the grammar have the same name. -/
theorem c78_table (hd : IsDebugStr dbg) {h h' : HashOrder} {g : Grammar A Ty}
    (hg : g.IdentNames) (hn : g.terminals.Nodup) (hnn : (g.nonTerminals.map (·.name)).Nodup)
    {T T' : LRTable A} {t : Chars}
    (h1 : showTable dbg h g T = .ok t) (h2 : showTable dbg h' g T' = .ok t) :
    T.nStates = T'.nStates ∧ ∀ s < T.nStates,
      (∀ la, (T.getAction s la).map (·.plain) = (T'.getAction s la).map (·.plain)) ∧
      ∀ nt, T.getGoto s nt = T'.getGoto s nt := by
  have hs := (showTable_inj hd hg h1 h2).1
  refine ⟨hs, fun s hlt => ⟨fun la => ?_, fun nt => ?_⟩⟩
  · cases ha : T.getAction s la with
    | some a =>
      obtain ⟨a', e1, e2⟩ := action_le hd hg hn h1 h2 hlt ha
      simp [e1, e2]
    | none =>
      cases ha' : T'.getAction s la with
      | none => rfl
      | some a' =>
        obtain ⟨a, e1, _⟩ := action_le hd hg hn h2 h1 (hs ▸ hlt) ha'
        rw [ha] at e1; cases e1
  · cases ha : T.getGoto s nt with
    | some q => rw [goto_le hd hg hnn h1 h2 hlt ha]
    | none =>
      cases ha' : T'.getGoto s nt with
      | none => rfl
      | some q =>
        have := goto_le hd hg hnn h2 h1 (hs ▸ hlt) ha'
        rw [ha] at this; cases this

theorem items_lines {g : Grammar A Ty} (st : LR1State) (h : HashOrder) :
    ((st.lines h).map (autoLineTold g)).filterMap Sum.getLeft? = st.items.map (itemTold g) := by
  unfold LR1State.lines
  rw [List.map_append, List.filterMap_append, List.map_map, List.map_map, List.filterMap_map,
    List.filterMap_map]
  have h1 : ∀ l : List Item, l.filterMap (Sum.getLeft? ∘ autoLineTold g ∘ Sum.inl) =
      l.map (itemTold g) := by
    intro l
    induction l with
    | nil => rfl
    | cons a l ih => simp [autoLineTold, ih]
  have h2 : ∀ l : List (Symbol × Nat), l.filterMap (Sum.getLeft? ∘ autoLineTold g ∘ Sum.inr) = [] := by
    intro l
    induction l with
    | nil => rfl
    | cons a l ih => simp [autoLineTold]
  rw [h1, h2, List.append_nil]

theorem gotos_lines {g : Grammar A Ty} (st : LR1State) (h : HashOrder) :
    ((st.lines h).map (autoLineTold g)).filterMap Sum.getRight? =
      (st.goto.entries h).map fun e => (g.named e.1, e.2) := by
  unfold LR1State.lines
  rw [List.map_append, List.filterMap_append, List.map_map, List.map_map, List.filterMap_map,
    List.filterMap_map]
  have h1 : ∀ l : List Item, l.filterMap (Sum.getRight? ∘ autoLineTold g ∘ Sum.inl) = [] := by
    intro l
    induction l with
    | nil => rfl
    | cons a l ih => simp [autoLineTold]
  have h2 : ∀ l : List (Symbol × Nat), l.filterMap (Sum.getRight? ∘ autoLineTold g ∘ Sum.inr) =
      l.map fun e => (g.named e.1, e.2) := by
    intro l
    induction l with
    | nil => rfl
    | cons a l ih => simp [autoLineTold, ih]
  rw [h1, h2, List.nil_append]

theorem named_inj {g : Grammar A Ty} (hn : g.terminals.Nodup)
    (hnn : (g.nonTerminals.map (·.name)).Nodup) {s s' : Symbol} {u : USym} (h : g.named s = some u)
    (h' : g.named s' = some u) : s = s' := by
  cases s with
  | nonTerminal i =>
    obtain ⟨n, h1, rfl⟩ := Option.map_eq_some_iff.1 h
    cases s' with
    | nonTerminal j =>
      obtain ⟨n', h2, e⟩ := Option.map_eq_some_iff.1 h'
      rw [getElem?_name_inj hnn (List.getElem?_eq_some_iff.1 h1).1
        (show (g.nonTerminals[i]?).map (·.name) = (g.nonTerminals[j]?).map (·.name) by
          rw [h1, h2]; simpa using (USym.nt.inj e).symm)]
    | terminal j =>
      obtain ⟨n', h2, e⟩ := Option.map_eq_some_iff.1 h'
      cases e
  | terminal i =>
    obtain ⟨n, h1, rfl⟩ := Option.map_eq_some_iff.1 h
    cases s' with
    | nonTerminal j =>
      obtain ⟨n', h2, e⟩ := Option.map_eq_some_iff.1 h'
      cases e
    | terminal j =>
      obtain ⟨n', h2, e⟩ := Option.map_eq_some_iff.1 h'
      cases e
      rw [terminal_inj hn (List.getElem?_eq_some_iff.1 h1).1 (h1.trans h2.symm)]

theorem named_some {g : Grammar A Ty} (hwf : g.WF) {nt p : Nat} {α : List Symbol}
    (hp : g.HasProd nt p α) {s : Symbol} (hs : s ∈ α) : ∃ u, g.named s = some u := by
  cases s with
  | nonTerminal b => exact ⟨_, by rw [Grammar.named, List.getElem?_eq_getElem (hwf.nt_lt hp hs)]; rfl⟩
  | terminal t => exact ⟨_, by rw [Grammar.named, List.getElem?_eq_getElem (hwf.term_lt hp hs)]; rfl⟩

/-- **C78.** Two automata over the symbols of a grammar with the same dump, whatever the hash order of
the two dumps, have the same states, in the same order, with the same items (by name of the non-terminal
and by right-hand side) and, if no two non-terminals of the grammar have the same name, the same
transitions. -/
theorem c78_automaton (hd : IsDebugStr dbg) {h h' : HashOrder} {g : Grammar A Ty} (hwf : g.WF)
    (hg : g.IdentNames) (hn : g.terminals.Nodup) {a a' : Automaton} (ho : StatesOf g a.states)
    (ho' : StatesOf g a'.states) {t : Chars}
    (h1 : showAutomaton dbg h g a = .ok t) (h2 : showAutomaton dbg h' g a' = .ok t) :
    a.states.map (fun st => st.items.map g.namedItem) =
      a'.states.map (fun st => st.items.map g.namedItem) ∧
    ((g.nonTerminals.map (·.name)).Nodup → ∀ (q : Nat) (s : Symbol),
      (a.states[q]?).bind (fun st => st.goto.get? s) =
        (a'.states[q]?).bind (fun st => st.goto.get? s)) := by
  have e := showAutomaton_inj hd hg (fun st hst it hit => ((ho st hst).1 it hit).2.1)
    (fun st hst it hit => ((ho' st hst).1 it hit).2.1) h1 h2
  have hl : a.states.length = a'.states.length := by simpa using congrArg List.length e
  have hq : ∀ (q : Nat) (st st' : LR1State), a.states[q]? = some st → a'.states[q]? = some st' →
      (st.lines h).map (autoLineTold g) = (st'.lines h').map (autoLineTold g) := by
    intro q st st' hs hs'
    have := congrArg (·[q]?) e
    simp only [List.getElem?_map, hs, hs'] at this
    exact Option.some.inj this
  constructor
  · refine List.ext_getElem? fun q => ?_
    rw [List.getElem?_map, List.getElem?_map]
    by_cases hlt : q < a.states.length
    · have hs := List.getElem?_eq_getElem hlt
      have hs' := List.getElem?_eq_getElem (hl ▸ hlt : q < a'.states.length)
      rw [hs, hs']
      have := congrArg (List.filterMap Sum.getLeft?) (hq q _ _ hs hs')
      rw [items_lines, items_lines] at this
      simp only [Option.map_some, Option.some.injEq]
      have o := (ho _ (List.getElem_mem hlt)).1
      have o' := (ho' _ (List.getElem_mem (hl ▸ hlt : q < a'.states.length))).1
      revert this o o'
      generalize a.states[q].items = l
      generalize a'.states[q].items = l'
      intro this
      induction l generalizing l' with
      | nil => cases l' with
        | nil => intros; rfl
        | cons x l' => cases this
      | cons x l ih => cases l' with
        | nil => cases this
        | cons y l' =>
          intro o o'
          obtain ⟨e1, e2⟩ := List.cons.inj this
          rw [List.map_cons, List.map_cons, ih l' e2 (fun z hz => o z (by simp [hz]))
            (fun z hz => o' z (by simp [hz]))]
          congr 1
          simp only [itemTold, Prod.mk.injEq] at e1
          obtain ⟨n1, n2, n3, n4⟩ := e1
          simp only [Grammar.namedItem, Prod.mk.injEq]
          refine ⟨n1, n2, n3, ?_⟩
          cases hx : x.la with
          | none =>
            cases hy : y.la with
            | none => rfl
            | some j => simp [hx, hy] at n4
          | some i =>
            cases hy : y.la with
            | none => simp [hx, hy] at n4
            | some j =>
              simp only [hx, hy, Option.map_some, Option.some.injEq] at n4
              rw [terminal_inj hn ((o x (by simp)).2.2 i hx) n4]
    · rw [List.getElem?_eq_none (by omega), List.getElem?_eq_none (by omega)]
  · intro hnn q s
    by_cases hlt : q < a.states.length
    · have hs := List.getElem?_eq_getElem hlt
      have hs' := List.getElem?_eq_getElem (hl ▸ hlt : q < a'.states.length)
      have hk := congrArg (List.filterMap Sum.getRight?) (hq q _ _ hs hs')
      rw [gotos_lines, gotos_lines] at hk
      have o := (ho _ (List.getElem_mem hlt)).2
      have o' := (ho' _ (List.getElem_mem (hl ▸ hlt : q < a'.states.length))).2
      have key : ∀ {st st' : LR1State} {h h' : HashOrder},
          (∀ s r, st.goto.get? s = some r → ∃ nt p α, g.HasProd nt p α ∧ s ∈ α) →
          ((st.goto.entries h).map fun e => (g.named e.1, e.2)) =
            ((st'.goto.entries h').map fun e => (g.named e.1, e.2)) →
          ∀ r, st.goto.get? s = some r → st'.goto.get? s = some r := by
        intro st st' h h' o hk r hr
        obtain ⟨nt, p, α, hp, hm⟩ := o s r hr
        obtain ⟨u, hu⟩ := named_some hwf hp hm
        have := List.mem_map_of_mem (f := fun e : Symbol × Nat => (g.named e.1, e.2))
          (AMap.mem_entries (h := h).2 hr)
        rw [hk] at this
        obtain ⟨⟨s', r'⟩, hx, ex⟩ := List.mem_map.1 this
        simp only [Prod.mk.injEq] at ex
        obtain ⟨e1, rfl⟩ := ex
        rw [hu] at e1
        rw [named_inj hn hnn hu e1]
        exact AMap.mem_entries.1 hx
      rw [hs, hs']
      simp only [Option.bind_some]
      cases hr : a.states[q].goto.get? s with
      | some r => rw [key o hk r hr]
      | none =>
        cases hr' : a'.states[q].goto.get? s with
        | none => rfl
        | some r =>
          have := key o' hk.symm r hr'
          rw [hr] at this; cases this
    · rw [List.getElem?_eq_none (by omega), List.getElem?_eq_none (by omega)]

/-! ## The grammars of the macro -/

theorem identText_one {s : String} (h : IsIdentText s) : IsIdentText (s ++ "1") := by
  constructor
  · intro e
    have := congrArg String.length e
    simp [String.length_append] at this
  · intro c hc
    rw [String.toList_append, List.mem_append] at hc
    rcases hc with hc | hc
    · exact h.2 c hc
    · have : c = '1' := by simpa using hc
      subst this
      decide

/-- **C78.** In the grammar the macro makes of the user's definitions, names are identifiers, no two
terminals have the same name, and no two non-terminals do, if the names of the definitions, and those of
the `pub` ones with `1` appended, are all different. -/
theorem c78_lowered {mkPath : String → X} {asts : List (AstNonTerminal X Ty)}
    {convs : List (Conversion Ty)} (hsz : (asts.map (·.width)).sum ≤ 4294967296)
    (hid : ∀ a ∈ asts, IsIdentText a.name) {g : Grammar X Ty} (h : lower mkPath asts convs = .ok g) :
    g.WF ∧ g.IdentNames ∧ g.terminals.Nodup ∧
    ((asts.flatMap fun a => if a.isPub then [a.name ++ "1", a.name] else [a.name]).Nodup →
      (g.nonTerminals.map (·.name)).Nodup) := by
  obtain ⟨nts, ts, hl⟩ := lower_ok hsz h
  have hnames : g.nonTerminals.map (·.name) =
      asts.flatMap fun a => if a.isPub then [a.name ++ "1", a.name] else [a.name] := by
    have := congrArg (List.map (·.1)) hl.decls
    rw [List.map_map, List.map_flatMap] at this
    refine Eq.trans this ?_
    congr 1
    funext a
    split <;> rfl
  refine ⟨hl.wf, ?_, hl.terminals ▸ hl.tnodup, fun hn => hnames ▸ hn⟩
  intro n hm
  have := List.mem_map_of_mem (f := (·.name)) hm
  rw [hnames] at this
  obtain ⟨a, ha, hx⟩ := List.mem_flatMap.1 this
  split at hx
  · simp only [List.mem_cons, List.not_mem_nil, or_false] at hx
    rcases hx with hx | hx
    · rw [hx]; exact identText_one (hid a ha)
    · rw [hx]; exact hid a ha
  · simp only [List.mem_cons, List.not_mem_nil, or_false] at hx
    rw [hx]; exact hid a ha

/-- **C78.** None of the dumps panics at the places where the macro (in comments) and the tests make
them: the lowered grammar, its FIRST table, the automaton and the table, the latter two shown with the
grammar whose actions have been replaced by their numbers. -/
theorem c78_total [DecidableEq Ty] {mkPath : String → X} {asts : List (AstNonTerminal X Ty)}
    {convs : List (Conversion Ty)} (hsz : (asts.map (·.width)).sum ≤ 4294967296) {g : Grammar X Ty}
    (hg : lower mkPath asts convs = .ok g) (h h' : HashOrder) :
    (∃ t, showGrammar dbg g = .ok t) ∧
    (∃ t, showFirstTable dbg h' g (generateFirstTable h g) = .ok t) ∧
    ∃ a, generateAutomaton h g (generateFirstTable h g) = .ok a ∧
      (∃ t, showAutomaton dbg h' g a = .ok t) ∧
      ∀ fns g', generateSemanticActionTable g (semanticActionVariants g) = .ok (fns, g') →
        (∃ t, showAutomaton dbg h' g' a = .ok t) ∧
        ∀ T, buildTable h g' a.states = .ok T → ∃ t, showTable dbg h' g' T = .ok t := by
  obtain ⟨nts, ts, hl⟩ := lower_ok hsz hg
  have hwf := hl.wf
  have hF := generateFirstTable_ok hwf h
  obtain ⟨a, ha, has⟩ := generateAutomaton_spec hwf hF h
  refine ⟨showGrammar_total hwf, showFirstTable_total hF (generateFirstTable_length h g), a, ha,
    showAutomaton_total hwf (statesOf_automaton hwf (SameShape.refl' g) ha), ?_⟩
  intro fns g' hsem
  obtain ⟨hsh, _⟩ := generateSemanticActionTable_ok hsem
  have ho := statesOf_automaton hwf hsh ha
  refine ⟨showAutomaton_total (hsh.wf hwf) ho, fun T hT => ?_⟩
  refine showTable_total (hsh.wf hwf) ho ((buildTable_spec (hsh.wf hwf) h ?_).2 T hT).2
  intro i st hi
  exact ⟨(ho st (List.mem_of_getElem? hi)).1, has.sorted i st hi, has.nodup i st hi⟩

/-! ## Examples -/

/-- A concrete `Debug` for strings: quotes and backslashes are escaped. -/
def escaped : List Char → Chars
  | [] => []
  | c :: l => if c = '"' ∨ c = '\\' then '\\' :: c :: escaped l else c :: escaped l

/-- A concrete `Debug` for strings. -/
def quoted (s : String) : Chars := '"' :: (escaped s.toList ++ ['"'])

theorem escaped_inj : ∀ {l l' : List Char} {x y : Chars},
    escaped l ++ '"' :: x = escaped l' ++ '"' :: y → l = l' ∧ x = y
  | [], [], _, _, h => ⟨rfl, (List.cons.inj h).2⟩
  | [], c :: l', x, y, h => by
    unfold escaped at h
    split at h
    · next hc => simp at h
    · next hc =>
      simp only [List.nil_append, List.cons_append, List.cons.injEq] at h
      exact absurd (.inl h.1.symm) hc
  | c :: l, [], x, y, h => by
    unfold escaped at h
    split at h
    · next hc => simp at h
    · next hc =>
      simp only [List.nil_append, List.cons_append, List.cons.injEq] at h
      exact absurd (.inl h.1) hc
  | c :: l, d :: l', x, y, h => by
    unfold escaped at h
    split at h <;> split at h
    · simp only [List.cons_append, List.cons.injEq, true_and] at h
      obtain ⟨e1, e2⟩ := escaped_inj h.2
      exact ⟨by rw [h.1, e1], e2⟩
    · next hd =>
      simp only [List.cons_append, List.cons.injEq] at h
      exact absurd (.inr h.1.symm) hd
    · next hc _ =>
      simp only [List.cons_append, List.cons.injEq] at h
      exact absurd (.inr h.1) hc
    · simp only [List.cons_append, List.cons.injEq] at h
      obtain ⟨e1, e2⟩ := escaped_inj h.2
      exact ⟨by rw [h.1, e1], e2⟩

theorem quoted_isDebugStr : IsDebugStr quoted where
  quote s := ⟨_, rfl⟩
  delim {s t x y} h := by
    simp only [quoted, List.cons_append, List.append_assoc, List.cons.injEq, true_and,
      List.nil_append] at h
    obtain ⟨h1, h2⟩ := escaped_inj h
    exact ⟨String.toList_inj.1 h1, h2⟩

/-- ```
pub E = { E "+" T, T }
T = { "n", "(" E ")", }
``` -/
def sumDefs : List (AstNonTerminal Unit String) :=
  [ ⟨true, "E", "u64",
      [⟨[.nonTerminal "E", .terminal "+", .nonTerminal "T"], .infallible ()⟩,
        ⟨[.nonTerminal "T"], .infallible ()⟩]⟩,
    ⟨false, "T", "u64",
      [⟨[.terminal "n"], .infallible ()⟩,
        ⟨[.terminal "(", .nonTerminal "E", .terminal ")"], .infallible ()⟩, ⟨[], .infallible ()⟩]⟩ ]

/-- The lowered grammar. -/
def sumGrammar : Except Fault (Grammar Unit String) := lower (fun _ => ()) sumDefs Examples.tk.conversions

set_option maxRecDepth 10000 in
/-- The hypotheses of `c78_lowered` and `c78_total` hold. -/
theorem sumDefs_named : (sumDefs.map (·.width)).sum ≤ 4294967296 ∧
    (∀ a ∈ sumDefs, a.name ≠ "" ∧ ∀ c ∈ a.name.toList, identChar c = true) ∧
    (sumDefs.flatMap fun a => if a.isPub then [a.name ++ "1", a.name] else [a.name]).Nodup ∧
    sumGrammar.isOk = true := by decide +kernel

set_option maxRecDepth 10000 in
/-- The dump of the grammar. -/
theorem sumGrammar_shown : (sumGrammar.toOption.bind fun g => (showGrammar quoted g).toOption) =
    some (txt "0:  E1 = {\n  0: E1 \"+\" T\n  1: T\n}\n1: pub E = {\n  0: E1\n}\n2:  T = {\n  0: \"n\"\n  1: \"(\" E1 \")\"\n  2: \n}\n") := by
  decide +kernel

set_option maxRecDepth 10000 in
/-- The dump of the FIRST table; that of `E1` is too small, see C18. -/
theorem sumFirst_shown : (sumGrammar.toOption.bind fun g =>
      (showFirstTable quoted .insertion g (generateFirstTable .insertion g)).toOption) =
    some (txt "{\n    E1: {} (+ empty)\n    E: {} (+ empty)\n    T: {\"n\", \"(\"} (+ empty)\n}\n") := by
  decide +kernel

/-- ```
pub E = { E1 }
E1 = { "n" }
``` -/
def clashDefs : List (AstNonTerminal Unit String) :=
  [ ⟨true, "E", "u64", [⟨[.nonTerminal "E1"], .infallible ()⟩]⟩,
    ⟨false, "E1", "u64", [⟨[.terminal "n"], .infallible ()⟩]⟩ ]

/-- The lowered grammar, and its automaton. -/
def clashGrammar : Except Fault (Grammar Unit String) := lower (fun _ => ()) clashDefs Examples.tk.conversions

/-- The automaton of the clashing grammar and its table. -/
def clashTable : Option (Grammar Unit String × LRTable Unit) :=
  clashGrammar.toOption.bind fun g =>
    (generateAutomaton .insertion g (generateFirstTable .insertion g)).toOption.bind fun a =>
      (buildTable .insertion g a.states).toOption.map fun T => (g, T)

/-- The same table with the two gotos of state 0 swapped. -/
def LRTable.swapped (T : LRTable A) : LRTable A := { T with goto := [((0, 2), 1), ((0, 0), 2)] }

set_option maxRecDepth 10000 in
/-- **C78.** The condition on names in `c78_table` is needed: the macro accepts this grammar although `E`
gets a helper non-terminal with the name `E1` of the user's; in the dump of its table the two gotos of
state 0 (lr_common.rs:312-318) cannot be told apart, and a different table has the same dump. -/
theorem c78_clash :
    (clashGrammar.toOption.map fun g => g.nonTerminals.map (·.name)) = some ["E1", "E", "E1"] ∧
    (clashTable.bind fun x => (showTable quoted .insertion x.1 x.2).toOption) =
      some (txt "0: {\n  \"n\" -> Shift 3\n  E1 -> 1\n  E1 -> 2\n}\n1: {\n  EOF -> Accept\n}\n2: {\n  EOF -> Reduce (E1 -> E1) (nt_idx=0, p_idx=0)\n}\n3: {\n  EOF -> Reduce (E1 -> \"n\") (nt_idx=2, p_idx=0)\n}\n") ∧
    (clashTable.bind fun x => (showTable quoted .insertion x.1 x.2.swapped).toOption) =
      (clashTable.bind fun x => (showTable quoted .insertion x.1 x.2).toOption) ∧
    (clashTable.map fun x => (x.2.getGoto 0 0, x.2.swapped.getGoto 0 0)) =
      some (some 1, some 2) := by
  decide +kernel

end Parsegen
