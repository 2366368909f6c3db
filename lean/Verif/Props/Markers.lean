import Verif.Props.UserLevel
import Verif.Props.UserGrammar

/-! # Non-terminals with nothing but empty productions -/

namespace Parsegen

namespace Examples

/-- ```
M: u64 = { => 0 }   pub S: u64 = { M "(" S ")" => 0, "n" => 0 }
```
`M` is a marker: its action runs before what follows is parsed. -/
def markerDefs : List (AstNonTerminal (Act Unit) String) :=
  [ ⟨false, "M", "u64", [⟨[], unitAct⟩]⟩,
    ⟨true, "S", "u64", [⟨[.nonTerminal "M", .terminal "(", .nonTerminal "S", .terminal ")"], unitAct⟩,
      ⟨[.terminal "n"], unitAct⟩]⟩ ]

set_option maxRecDepth 10000 in
theorem marker_ok : (parserMacro .insertion code.mkPath (itemsOf markerDefs)).isOk = true := by
  decide +kernel

def marker : Compiled (Act Unit) String Nat Unit Tk := program markerDefs marker_ok

theorem marker_defs : marker.defs = markerDefs := defs_itemsOf _

theorem marker_harmless : UHarmless marker.defs := by
  rw [marker_defs]
  refine .of_markers ["M"] ?_ ?_ <;> intro d hd hn p hp <;>
    simp only [markerDefs, List.mem_cons, List.not_mem_nil, or_false] at hd <;>
    rcases hd with rfl | rfl
  · simp only [List.mem_cons, List.not_mem_nil, or_false] at hp
    subst hp; rfl
  · simp at hn
  · simp at hn
  · simp only [List.mem_cons, List.not_mem_nil, or_false] at hp
    rcases hp with rfl | rfl
    · exact ⟨.terminal "(", by simp, by simp [AstSymbol.plain]⟩
    · exact ⟨.terminal "n", by simp, by simp [AstSymbol.plain]⟩

set_option maxRecDepth 10000 in
theorem marker_ulr1 {ep : EntryPoint} (hep : ep ∈ marker.gen.entries) : ULR1 marker.defs := by
  obtain ⟨g, nts, ts, a, g', T, S⟩ := marker.setup hep
  exact (S.lowered.lr1_iff S.wf (by rw [marker_defs]; decide)).1
    (lr1_of_check [⟨true, []⟩, ⟨false, [1, 2]⟩, ⟨false, [1, 2]⟩]
      (by decide +kernel) S.lower S.wf)

set_option maxRecDepth 10000 in
example : marker.gen.entries.map (·.name) = ["S"] := by decide +kernel

/-- `c04_user` applies to `marker`, although `S` begins with a symbol deriving the empty string. -/
example (toks : List Tk) (ep : EntryPoint) (hep : ep ∈ marker.gen.entries) :
    (∃ v w' n, marker.Returns (E := String) ep (stream toks) () (.ok v) w' n) ↔
      marker.IsSentence ep.name toks := by
  refine c04_user (by rw [marker_defs]; decide) (marker_ulr1 hep) marker_harmless hep
    ⟨fun i t ht => by simp [stream, ht], by simp [stream]⟩ ?_
  rw [marker_defs]
  intro d hd p hp e he env w
  have : p.action = unitAct := by
    simp only [markerDefs, List.mem_cons, List.not_mem_nil, or_false] at hd
    rcases hd with rfl | rfl <;> simp only [List.mem_cons, List.not_mem_nil, or_false] at hp
    · rw [hp]
    · rcases hp with rfl | rfl <;> rfl
  rw [this] at he
  cases he
  exact fun h => nomatch h

end Examples

end Parsegen
