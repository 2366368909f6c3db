import Verif.Spec.First
import Verif.Model.LR1

/-! # Specification: LR(1) closure and transitions as sets of items -/

namespace Parsegen

variable {A Ty : Type}

/-- `InFirst F la β c`: lookahead `c` can follow, according to table `F`, when the symbols `β` and
then the lookahead `la` are still to come (`none` is end of input). -/
inductive InFirst (F : FirstTable) (la : Option Nat) : List Symbol → Option Nat → Prop
  | nil : InFirst F la [] la
  | term (t ss) : InFirst F la (.terminal t :: ss) (some t)
  | nt {b t ss} (h : t ∈ (F.get b).terminals) : InFirst F la (.nonTerminal b :: ss) (some t)
  | skip {b ss c} (he : (F.get b).empty = true) (h : InFirst F la ss c) :
      InFirst F la (.nonTerminal b :: ss) c

/-- The least set of items containing `K` and closed under prediction: if `[A → α . b β, la]` is in
the set then so is `[b → . γ, c]` for every production `b → γ` and every `c` that can follow. -/
inductive Clo (g : Grammar A Ty) (F : FirstTable) (K : Item → Prop) : Item → Prop
  | base {it} (h : K it) : Clo g F K it
  | pred {nt p α b β la q γ c} (h : Clo g F K ⟨nt, p, α.length, la⟩)
      (hp : g.HasProd nt p (α ++ .nonTerminal b :: β)) (hq : g.HasProd b q γ)
      (hf : InFirst F la β c) : Clo g F K ⟨b, q, 0, c⟩

/-- The items of `I` that expect `s`, moved over it. -/
inductive Advance (g : Grammar A Ty) (I : Item → Prop) (s : Symbol) : Item → Prop
  | mk {nt p α β la} (h : I ⟨nt, p, α.length, la⟩) (hp : g.HasProd nt p (α ++ s :: β)) :
      Advance g I s ⟨nt, p, α.length + 1, la⟩

/-- `ItemsAt g F E γ it`: item `it` is an LR(1) item for the symbol string `γ` read from entry point
`E` (with lookaheads according to `F`). -/
inductive ItemsAt (g : Grammar A Ty) (F : FirstTable) (E : Nat) : List Symbol → Item → Prop
  | entry : ItemsAt g F E [] ⟨E, 0, 0, none⟩
  | advance {γ nt p α s β la} (h : ItemsAt g F E γ ⟨nt, p, α.length, la⟩)
      (hp : g.HasProd nt p (α ++ s :: β)) : ItemsAt g F E (γ ++ [s]) ⟨nt, p, α.length + 1, la⟩
  | pred {γ nt p α b β la q δ c} (h : ItemsAt g F E γ ⟨nt, p, α.length, la⟩)
      (hp : g.HasProd nt p (α ++ .nonTerminal b :: β)) (hq : g.HasProd b q δ)
      (hf : InFirst F la β c) : ItemsAt g F E γ ⟨b, q, 0, c⟩

end Parsegen
