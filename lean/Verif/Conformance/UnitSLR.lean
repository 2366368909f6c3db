import Verif.Conformance.Unit
import Verif.Model.LR0

/-! # The unit tests of `src/lr0.rs`, replayed

`lr0.rs` is switched off in `lib.rs`; the tests are read over today's `Grammar` type. -/

namespace Parsegen.Conformance

set_option maxRecDepth 100000

/-- lr0.rs:369-388 `closure_1` -/
theorem lr0_closure_1 : grammar6.toOption.map (fun g => lr0Closure .insertion g [lr0Item 0 0]) =
    some [⟨0, 0, 0, none⟩, ⟨1, 0, 0, none⟩, ⟨1, 1, 0, none⟩, ⟨2, 0, 0, none⟩, ⟨2, 1, 0, none⟩,
      ⟨3, 0, 0, none⟩, ⟨3, 1, 0, none⟩] := by decide +kernel

/-- lr0.rs:390-413 `goto_1`; `+` is terminal 0 -/
theorem lr0_goto_1 : grammar6.toOption.map
      (fun g => lr0Goto .insertion g [⟨0, 0, 1, none⟩, ⟨1, 0, 1, none⟩] (.terminal 0)) =
    some [⟨1, 0, 2, none⟩, ⟨2, 0, 0, none⟩, ⟨2, 1, 0, none⟩, ⟨3, 0, 0, none⟩, ⟨3, 1, 0, none⟩] := by
  decide +kernel

/-- Follow the edges from state 0 and return the items of the state. -/
def walkItems (a : List LR1State) (p : List Symbol) : Option (List Item) :=
  let r := p.foldl (fun q s => do ((← a[← q]?).goto.get? s)) (some 0)
  do (← a[← r]?).items

/-- lr0.rs:415-573 `automaton_1`: the states the test calls `i0` to `i11`, and their number. -/
theorem lr0_automaton_1 : grammar6.toOption.map (fun g =>
      let a := lr0Automaton .insertion g
      (a.length,
        [[], [n 1], [n 2], [n 3], [t 2], [t 4], [n 1, t 0], [n 2, t 1], [t 2, n 1], [n 1, t 0, n 2],
          [n 2, t 1, n 3], [t 2, n 1, t 3]].map (walkItems a))) =
    some (12,
      [ some [⟨0, 0, 0, none⟩, ⟨1, 0, 0, none⟩, ⟨1, 1, 0, none⟩, ⟨2, 0, 0, none⟩, ⟨2, 1, 0, none⟩,
          ⟨3, 0, 0, none⟩, ⟨3, 1, 0, none⟩],
        some [⟨0, 0, 1, none⟩, ⟨1, 0, 1, none⟩],
        some [⟨1, 1, 1, none⟩, ⟨2, 0, 1, none⟩],
        some [⟨2, 1, 1, none⟩],
        some [⟨1, 0, 0, none⟩, ⟨1, 1, 0, none⟩, ⟨2, 0, 0, none⟩, ⟨2, 1, 0, none⟩, ⟨3, 0, 0, none⟩,
          ⟨3, 0, 1, none⟩, ⟨3, 1, 0, none⟩],
        some [⟨3, 1, 1, none⟩],
        some [⟨1, 0, 2, none⟩, ⟨2, 0, 0, none⟩, ⟨2, 1, 0, none⟩, ⟨3, 0, 0, none⟩, ⟨3, 1, 0, none⟩],
        some [⟨2, 0, 2, none⟩, ⟨3, 0, 0, none⟩, ⟨3, 1, 0, none⟩],
        some [⟨1, 0, 1, none⟩, ⟨3, 0, 2, none⟩],
        some [⟨1, 0, 3, none⟩, ⟨2, 0, 1, none⟩],
        some [⟨2, 0, 3, none⟩],
        some [⟨3, 0, 3, none⟩] ]) := by decide +kernel

/-- lr0.rs:575-603 `simulate1` -/
theorem lr0_simulate1 : (match grammar6 with
    | .error _ => none
    | .ok g =>
      match slrTable .insertion g with
      | .error _ => none
      | .ok T => (simulate T g (fun i => [4, 0, 4][i]?) 1000).map (·.1)) = some .done := by
  decide +kernel

end Parsegen.Conformance
