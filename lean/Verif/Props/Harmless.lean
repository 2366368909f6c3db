import Verif.Props.UserLevel
import Verif.Props.UserGrammar

/-! # The condition on nullable non-terminals, checked by computation

`harmlessCheck` looks at the productions as written; the theorems below say that what it accepts is
`UHarmless`.  It is not part of the modelled code. -/

namespace Parsegen

variable {X Ty : Type} {defs : List (AstNonTerminal X Ty)}

/-- The non-terminals that can be reached through non-terminals in `nul`. -/
def leadNts (nul : List String) : List USym → List String
  | [] => []
  | .term _ :: _ => []
  | .nt b :: r => b :: if nul.contains b then leadNts nul r else []

/-- The non-terminals that come after a non-terminal, with nothing but non-terminals in `nul` in between. -/
def behindNts (nul : List String) : List USym → List String
  | [] => []
  | .term _ :: r => behindNts nul r
  | .nt _ :: r => leadNts nul r ++ behindNts nul r

/-- The right-hand side of a production. -/
def AstProduction.rhs (p : AstProduction X) : List USym := p.symbols.filterMap (·.plain)

/-- Whether the symbol is a non-terminal in `nul`. -/
def USym.isIn (nul : List String) : USym → Bool
  | .term _ => false
  | .nt b => nul.contains b

/-- `nul` contains the non-terminals that derive the empty string, `rel` those for which it matters what
they begin with, and the latter are harmless. -/
def harmlessCheck (defs : List (AstNonTerminal X Ty)) (nul rel : List String) : Bool :=
  defs.all fun d => d.productions.all fun p =>
    (!p.rhs.all (USym.isIn nul) || nul.contains d.name) &&
    (behindNts nul p.rhs).all rel.contains &&
    (!rel.contains d.name || (leadNts nul p.rhs).all fun b =>
      rel.contains b && (!nul.contains b ||
        (userProds defs b).any (fun q => q.symbols.isEmpty) &&
          (b == d.name || (userProds defs b).all (fun q => q.symbols.isEmpty))))

theorem AstProduction.rhs_eq {p : AstProduction X} {rhs : List USym}
    (h : p.symbols.map (·.plain) = rhs.map some) : p.rhs = rhs := by
  have : p.rhs = (p.symbols.map (·.plain)).filterMap id := by
    unfold AstProduction.rhs; rw [List.filterMap_map]; rfl
  rw [this, h, List.filterMap_map]
  simp

/-- What is checked about a production. -/
theorem harmlessCheck_prod {nul rel : List String} (h : harmlessCheck defs nul rel = true) {A : String}
    {p : AstProduction X} (hp : p ∈ userProds defs A) :
    (p.rhs.all (USym.isIn nul) = true → A ∈ nul) ∧ (∀ b ∈ behindNts nul p.rhs, b ∈ rel) ∧
    (A ∈ rel → ∀ b ∈ leadNts nul p.rhs, b ∈ rel ∧ (b ∈ nul →
      (∃ q ∈ userProds defs b, q.symbols = []) ∧
        (b = A ∨ ∀ q ∈ userProds defs b, q.symbols = []))) := by
  obtain ⟨d, hd, hpd⟩ := List.mem_flatMap.1 hp
  rw [List.mem_filter, beq_iff_eq] at hd
  obtain ⟨hd, rfl⟩ := hd
  unfold harmlessCheck at h
  have h := List.all_eq_true.1 (List.all_eq_true.1 h d hd) p hpd
  simp only [Bool.and_eq_true, Bool.or_eq_true, Bool.not_eq_true'] at h
  obtain ⟨⟨h1, h2⟩, h3⟩ := h
  refine ⟨?_, ?_, ?_⟩
  · intro hh
    rcases h1 with h1 | h1
    · rw [hh] at h1; cases h1
    · simpa using h1
  · intro b hb
    simpa using List.all_eq_true.1 h2 b hb
  · intro hA b hb
    rcases h3 with h3 | h3
    · rw [List.contains_iff_mem.2 hA] at h3; cases h3
    · have := List.all_eq_true.1 h3 b hb
      simp only [Bool.and_eq_true, Bool.or_eq_true, Bool.not_eq_true', List.contains_iff_mem,
        List.any_eq_true, List.all_eq_true, List.isEmpty_iff, beq_iff_eq] at this
      refine ⟨this.1, fun hn => ?_⟩
      rcases this.2 with h4 | h4
      · rw [List.contains_iff_mem.2 hn] at h4; cases h4
      · exact h4

/-- What derives the empty string consists of non-terminals in `nul`. -/
theorem UDerives.in_nul {nul rel : List String} (h : harmlessCheck defs nul rel = true) {u v : List USym}
    (hd : UDerives defs u v) : v.all (USym.isIn nul) = true → u.all (USym.isIn nul) = true := by
  induction hd with
  | refl => exact id
  | tail _ s ih =>
    intro hv
    apply ih
    cases s with
    | mk l r rhs name p hp hs =>
      simp only [List.all_append, Bool.and_eq_true] at hv
      have := (harmlessCheck_prod h hp).1 (by rw [AstProduction.rhs_eq hs]; exact hv.1.2)
      simp only [List.all_append, List.all_cons, Bool.and_eq_true]
      exact ⟨hv.1.1, by simpa [USym.isIn] using this, hv.2⟩

theorem mem_leadNts {nul : List String} {l r : List USym} {b : String}
    (hl : l.all (USym.isIn nul) = true) : b ∈ leadNts nul (l ++ .nt b :: r) := by
  induction l with
  | nil => simp [leadNts]
  | cons s l ih =>
    simp only [List.all_cons, Bool.and_eq_true] at hl
    cases s with
    | term t => exact absurd hl.1 (by simp [USym.isIn])
    | nt c =>
      have hc : nul.contains c = true := hl.1
      simp only [List.cons_append, leadNts, hc, if_true]
      exact List.mem_cons_of_mem _ (ih hl.2)

theorem mem_behindNts {nul : List String} {l r : List USym} {b c : String}
    (hl : l.all (USym.isIn nul) = true) : ∀ α : List USym,
    b ∈ behindNts nul (α ++ .nt c :: (l ++ .nt b :: r)) := by
  intro α
  induction α with
  | nil => exact List.mem_append_left _ (mem_leadNts hl)
  | cons s α ih =>
    cases s with
    | term t => exact ih
    | nt d => exact List.mem_append_right _ ih

theorem URelevant.in_rel {nul rel : List String} (h : harmlessCheck defs nul rel = true) {b : String}
    (hb : URelevant defs b) : b ∈ rel := by
  induction hb with
  | behind hp hl =>
    obtain ⟨p, hp, hs⟩ := hp
    refine (harmlessCheck_prod h (List.mem_of_getElem? hp)).2.1 _ ?_
    rw [AstProduction.rhs_eq hs]
    exact mem_behindNts (hl.in_nul h rfl) _
  | leading _ hp hl ih =>
    obtain ⟨p, hp, hs⟩ := hp
    refine ((harmlessCheck_prod h (List.mem_of_getElem? hp)).2.2 ih _ ?_).1
    rw [AstProduction.rhs_eq hs]
    exact mem_leadNts (hl.in_nul h rfl)

/-- What non-terminals with nothing but empty productions derive. -/
theorem UDerives.of_empty {b : String} {v : List USym} (hd : UDerives defs [.nt b] v)
    (hb : ∀ q ∈ userProds defs b, q.symbols = []) : v = [.nt b] ∨ v = [] := by
  induction hd with
  | refl => exact .inl rfl
  | tail _ s ih =>
    cases s with
    | mk l r rhs name p hp hs =>
      rcases ih with h | h
      · cases l with
        | nil =>
          simp only [List.nil_append, List.cons.injEq, USym.nt.injEq] at h
          obtain ⟨rfl, rfl⟩ := h
          rw [hb p hp] at hs
          obtain rfl : rhs = [] := by simpa using hs.symm
          exact .inr rfl
        | cons x l => simp at h
      · simp at h

/-- **C18.** What the check accepts is harmless. -/
theorem UHarmless.of_check (nul rel : List String) (h : harmlessCheck defs nul rel = true) :
    UHarmless defs := by
  intro A i l b r hA hp hl hb
  obtain ⟨p, hp, hs⟩ := hp
  have hbn : b ∈ nul := by
    have := hb.in_nul h rfl
    simpa [USym.isIn] using this
  obtain ⟨⟨q, hq1, hq2⟩, h2⟩ := ((harmlessCheck_prod h (List.mem_of_getElem? hp)).2.2 (hA.in_rel h) b (by
    rw [AstProduction.rhs_eq hs]; exact mem_leadNts (hl.in_nul h rfl))).2 hbn
  obtain ⟨j, hj⟩ := List.getElem?_of_mem hq1
  refine ⟨⟨j, q, hj, by simp [hq2]⟩, h2.imp id fun h3 t x hx => ?_⟩
  rcases hx.of_empty h3 with h | h <;> simp at h

/-! ## A list of items -/

namespace Examples

/-- ```
pub Program: u64 = { Items => 0 }   Items: u64 = { => 0, Items Item => 0 }
Item: u64 = { "(" Args ")" => 0 }   Args: u64 = { List OptPlus => 0 }
List: u64 = { => 0, List "n" => 0 }  OptPlus: u64 = { => 0, "+" => 0 }
``` -/
def listDefs : List (AstNonTerminal (Act Unit) String) :=
  [ ⟨true, "Program", "u64", [⟨[.nonTerminal "Items"], unitAct⟩]⟩,
    ⟨false, "Items", "u64", [⟨[], unitAct⟩, ⟨[.nonTerminal "Items", .nonTerminal "Item"], unitAct⟩]⟩,
    ⟨false, "Item", "u64", [⟨[.terminal "(", .nonTerminal "Args", .terminal ")"], unitAct⟩]⟩,
    ⟨false, "Args", "u64", [⟨[.nonTerminal "List", .nonTerminal "OptPlus"], unitAct⟩]⟩,
    ⟨false, "List", "u64", [⟨[], unitAct⟩, ⟨[.nonTerminal "List", .terminal "n"], unitAct⟩]⟩,
    ⟨false, "OptPlus", "u64", [⟨[], unitAct⟩, ⟨[.terminal "+"], unitAct⟩]⟩ ]

set_option maxRecDepth 10000 in
theorem list_ok : (parserMacro .insertion code.mkPath (itemsOf listDefs)).isOk = true := by
  decide +kernel

def list : Compiled (Act Unit) String Nat Unit Tk := program listDefs list_ok

theorem list_defs : list.defs = listDefs := defs_itemsOf _

/-- Five of its six non-terminals derive the empty string, and `Program` and `Args` begin with such ones. -/
theorem list_harmless : UHarmless list.defs := by
  rw [list_defs]
  exact .of_check ["Program", "Items", "Args", "List", "OptPlus"] ["Item", "OptPlus"] (by decide)

set_option maxRecDepth 10000 in
theorem list_ulr1 {ep : EntryPoint} (hep : ep ∈ list.gen.entries) : ULR1 list.defs := by
  obtain ⟨g, nts, ts, a, g', T, S⟩ := list.setup hep
  exact (S.lowered.lr1_iff S.wf (by rw [list_defs]; decide)).1
    (lr1_of_check [⟨true, [2]⟩, ⟨true, [2]⟩, ⟨true, [2]⟩, ⟨false, [2]⟩, ⟨true, [0,1]⟩, ⟨true, [1]⟩, ⟨true, [0]⟩]
      (by decide +kernel) S.lower S.wf)

set_option maxRecDepth 10000 in
example : list.gen.entries.map (·.name) = ["Program"] := by decide +kernel

/-- `c04_user` applies to `list`. -/
example (toks : List Tk) (ep : EntryPoint) (hep : ep ∈ list.gen.entries) :
    (∃ v w' n, list.Returns (E := String) ep (stream toks) () (.ok v) w' n) ↔
      list.IsSentence ep.name toks := by
  refine c04_user (by rw [list_defs]; decide) (list_ulr1 hep) list_harmless hep
    ⟨fun i t ht => by simp [stream, ht], by simp [stream]⟩ ?_
  rw [list_defs]
  intro d hd p hp e he env w
  have : p.action = unitAct := by
    simp only [listDefs, List.mem_cons, List.not_mem_nil, or_false] at hd
    rcases hd with rfl | rfl | rfl | rfl | rfl | rfl <;>
      simp only [List.mem_cons, List.not_mem_nil, or_false] at hp <;>
      first | (rw [hp]) | (rcases hp with rfl | rfl <;> rfl)
  rw [this] at he
  cases he
  exact fun h => nomatch h

end Examples

end Parsegen
