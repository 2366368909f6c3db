import Verif.Model.LR1

/-! # Specification: executions of the generator's loops, without fuel -/

namespace Parsegen

variable {A Ty σ : Type}

/-- `let mut updated = true; while updated { .. }` with the given body, started in `s`, runs its body
`n` times and ends in `s'`. -/
inductive LoopEnds (body : σ → σ × Bool) : Nat → σ → σ → Prop
  | stop {s s'} (h : body s = (s', false)) : LoopEnds body 1 s s'
  | again {s s1 s' n} (h : body s = (s1, true)) (t : LoopEnds body n s1 s') :
      LoopEnds body (n + 1) s s'

/-- `while let Some(it) = work_list.pop() { process it }`, started with the given closure and work
list, pops `n` items and ends with closure `cl'`. -/
inductive WorkEnds (process : Item → List Item × List Item → List Item × List Item) :
    Nat → List Item × List Item → List Item → Prop
  | stop (cl) : WorkEnds process 0 (cl, []) cl
  | pop {cl it wl cl' n} (t : WorkEnds process n (process it (cl, wl)) cl') :
      WorkEnds process (n + 1) (cl, it :: wl) cl'

/-- A loop that ends, ends in one way. -/
theorem LoopEnds.unique {body : σ → σ × Bool} {n m : Nat} {s r r' : σ} (h : LoopEnds body n s r)
    (h' : LoopEnds body m s r') : n = m ∧ r = r' := by
  induction h generalizing m with
  | stop h =>
    cases h' with
    | stop h' => rw [h] at h'; cases h'; exact ⟨rfl, rfl⟩
    | again h' _ => rw [h] at h'; cases h'
  | again h _ ih =>
    cases h' with
    | stop h' => rw [h] at h'; cases h'
    | again h' t =>
      rw [h] at h'; cases h'
      obtain ⟨rfl, rfl⟩ := ih t
      exact ⟨rfl, rfl⟩

end Parsegen
