import Verif.Proofs.FreeActions

/-! # C54: actions that `return` or touch the value stack

The theorems of the other files are about actions that end with a value or panic.  Nothing stops an
action from `return;`-ing out of the emitted function, or from touching its variable `value_stack`. -/

namespace Parsegen

variable {X Ty V W Tok E : Type} [DecidableEq Ty] {P : Compiled X Ty V W Tok} {u : FreeCode X V W}
  {ep : EntryPoint} {input : Nat → Option (Except E Tok)} {w w' : W} {n : Nat}

/-- **C54.** Actions that neither return nor touch the value stack behave as in the other theorems. -/
theorem c54_conservative {o : Outcome V E} :
    P.FreeReturns (.ofUser P.code) ep input w o w' n ↔ P.Returns ep input w o w' n := by
  unfold Compiled.FreeReturns Compiled.Returns freeParse parse
  have h : (fun f : SemFn X => f.runFree (.ofUser P.code)) = fun f => f.run P.code := by
    funext f st w
    exact runFree_ofUser _ _ _ _
  simp only [h, parseLoopWith_run]

theorem psim_init {Q : List (SAR V) → W → List (SAR Unit) → Unit → Prop} (h : ∀ w, Q [] w [] ()) :
    PSim Q (parseInit input ep w : PState Tok V W E) (parseInit input ep ()) :=
  ⟨rfl, rfl, rfl, h w⟩

/-- **C54.** Whatever the actions do, unless there is a panic the call ends as it does with actions that
do nothing: `Ok`, the same lexer error or a syntax error with the same contents, after as many calls of
`next()`.  So what the other theorems say on acceptance and on errors holds for such actions, too. -/
theorem c54_control (hep : ep ∈ P.gen.entries) {o : Outcome V E}
    (h : P.FreeReturns u ep input w o w' n) (ho : ∀ f, o ≠ .fault f) :
    P.trivial.Returns ep input () o.kind () n := by
  obtain ⟨fuel, s', h, rfl, rfl⟩ := h
  have hs := (sim_control (P := P) u).loop (input := input) (ep := ep) fuel
    (psim_init (ep := ep) (input := input) (w := w) fun _ => True.intro)
  unfold freeParse at h
  rw [h] at hs
  generalize h2 : parseLoopWith P.gen (fun f => f.run (trivialCode P.code.mkPath)) P.trivial.tf input ep
    fuel (parseInit input ep ()) = l2 at hs
  cases hs with
  | bad => exact absurd rfl (ho _)
  | fault => exact absurd rfl ((trivialOk_init hep input _ _ _ h2).1 _)
  | @done _ o2 _ t' hk hc _ =>
    rw [parseLoopWith_run] at h2
    refine ⟨fuel, t', ?_, rfl, hc⟩
    rw [hk]
    have : o2.kind = o2 := by cases o2 <;> rfl
    rw [this]
    exact h2

/-- **C54.** Whatever the actions do, the only panics are their own, `unwrap` on an empty value stack and
`unreachable!()` on a value of the wrong kind. -/
theorem c54_panics (hep : ep ∈ P.gen.entries) {f : Fault}
    (h : P.FreeReturns u ep input w (.fault f) w' n) :
    f = .userPanic ∨ f = .unwrapNone ∨ f = .unreachable := by
  obtain ⟨fuel, s', h, rfl, rfl⟩ := h
  have hs := (sim_control (P := P) u).loop (input := input) (ep := ep) fuel
    (psim_init (ep := ep) (input := input) (w := w) fun _ => True.intro)
  unfold freeParse at h
  rw [h] at hs
  generalize h2 : parseLoopWith P.gen (fun f => f.run (trivialCode P.code.mkPath)) P.trivial.tf input ep
    fuel (parseInit input ep ()) = l2 at hs
  cases hs with
  | bad hb => exact hb
  | fault => exact absurd rfl ((trivialOk_init hep input _ _ _ h2).1 _)
  | @done _ o2 _ t' hk hc _ =>
    cases o2 with
    | fault f => exact absurd rfl ((trivialOk_init hep input _ _ _ h2).1 _)
    | _ => cases hk

/-- **C54.** Conversely, where the call returns with actions that do nothing, it returns with any other
actions likewise, or there is a panic, at the latest after as many calls of `next()`. -/
theorem c54_returns (hep : ep ∈ P.gen.entries) {o : Outcome Unit E}
    (h : P.trivial.Returns ep input () o () n) (u : FreeCode X V W) (w : W) :
    (∃ (o' : Outcome V E) (w' : W), P.FreeReturns u ep input w o' w' n ∧ o'.kind = o) ∨
    ∃ (f : Fault) (w' : W) (m : Nat), m ≤ n ∧ P.FreeReturns u ep input w (.fault f : Outcome V E) w' m := by
  obtain ⟨fuel, t', h, -, rfl⟩ := h
  have hs := (sim_control (P := P) u).loop (input := input) (ep := ep) fuel
    (psim_init (ep := ep) (input := input) (w := w) fun _ => True.intro)
  have h2 : parseLoopWith P.gen (fun f => f.run (trivialCode P.code.mkPath)) P.trivial.tf input ep
    fuel (parseInit input ep ()) = some (o, t') := by rw [parseLoopWith_run]; exact h
  rw [h2] at hs
  generalize h1 : parseLoopWith P.gen (fun f => f.runFree u) P.tf input ep fuel (parseInit input ep w) = l1
    at hs
  cases hs with
  | @bad e s' _ hb hc => exact .inr ⟨e, _, _, hc _ _ _ h2, fuel, s', h1, rfl, rfl⟩
  | fault => exact absurd rfl ((trivialOk_init hep input _ _ _ h2).1 _)
  | @done o1 _ s' _ hk hc _ =>
    refine .inl ⟨o1, _, ⟨fuel, s', h1, rfl, hc.symm⟩, ?_⟩
    rw [hk]
    cases o <;> rfl

/-- **C54.** If no action of the user returns -- they may look at the value stack -- the only panics are
those of the actions. -/
theorem c54_no_return (hep : ep ∈ P.gen.entries) (hmk : u.mkPath = P.code.mkPath)
    (hr : ∀ d ∈ P.defs, ∀ p ∈ d.productions, ∀ e, p.action = .infallible e →
      ∀ env st w st' w', u.run e env st w ≠ some (.ret st', w')) {f : Fault}
    (h : P.FreeReturns u ep input w (.fault f) w' n) : f = .userPanic := by
  have hr' : ∀ f ∈ P.gen.semActions, ∀ env st w st' w',
      u.run f.action env st w ≠ some (.ret st', w') := by
    intro f hf
    rcases P.sem_origin hep hf with ⟨⟨m, hm⟩, _⟩ | ⟨d, hd, p, hp, he, _⟩
    · rw [hm, ← hmk]; exact u.path_ends m
    · exact hr d hd p hp _ he
  obtain ⟨fuel, s', h, rfl, rfl⟩ := h
  have hs := (sim_noReturn (P := P) hr').loop (input := input) (ep := ep) fuel
    (psim_init (ep := ep) (input := input) (w := w) fun _ => rfl)
  unfold freeParse at h
  rw [h] at hs
  generalize h2 : parseLoopWith P.gen (fun f => f.run (trivialCode P.code.mkPath)) P.trivial.tf input ep
    fuel (parseInit input ep ()) = l2 at hs
  cases hs with
  | bad hb => exact hb
  | fault => exact absurd rfl ((trivialOk_init hep input _ _ _ h2).1 _)
  | @done _ o2 _ t' hk hc _ =>
    cases o2 with
    | fault f => exact absurd rfl ((trivialOk_init hep input _ _ _ h2).1 _)
    | _ => cases hk

/-- **C54.** If every symbol of every production has a name, a `return` in an action never leads to a
wrong value: whenever the call returns `Ok`, it would have done so, with the same value and effects, if
each `return` were a panic; that is, no action has returned. -/
theorem c54_all_named {r : ReturningCode X V W} (hep : ep ∈ P.gen.entries) (hc : P.code = r.strict)
    (hn : AllNamed P.defs) {v : V} (h : P.FreeReturns r.free ep input w (.ok v) w' n) :
    P.Returns ep input w (.ok v) w' n := by
  have hd : ∀ f ∈ P.gen.semActions, ∀ s ∈ f.pops, s ≠ .drop := by
    intro f hf
    rcases P.sem_origin hep hf with ⟨_, h⟩ | ⟨d, hd, p, hp, _, h⟩
    · exact h
    · refine h fun s hs => ?_
      obtain ⟨m, s', rfl⟩ := hn d hd p hp s hs
      simp [AstSymbol.boundVar]
  obtain ⟨fuel, s', h, rfl, rfl⟩ := h
  have := ok_strict hd (trivialOk_init hep input) (psim_init fun _ => rfl) h
  rw [← hc, parseLoopWith_run] at this
  exact ⟨fuel, s', this, rfl, rfl⟩

/-! ## Examples -/

namespace Examples

/-- Actions that may return. -/
abbrev RAct := Env Nat → Nat → Option (Option Nat × Nat)

def rcode : ReturningCode RAct Nat Nat where
  run := fun x env w => x env w
  mkPath := fun n env w => match env n with
    | some (.nt v) => some (some v, w)
    | _ => none
  run_mkPath := by intro n env w v h; simp [h]
  path_ends := by
    intro n env w w' h
    dsimp only at h
    split at h <;> cases h

def rvalue (f : Env Nat → Nat) : AstAction RAct := .infallible fun e w => some (some (f e), w)

/-- `{ return; }` -/
def rreturn : AstAction RAct := .infallible fun _ w => some (none, w)

/-- ```
pub S: u64 = { N <x:N> <y:N> M => 10 * x + y, "(" <x:N> M ")" => x }
N: u64 = <n:"n"> => n
M: u64 = "+" => { return; }
``` -/
def retDefs : List (AstNonTerminal RAct String) :=
  [ ⟨true, "S", "u64",
      [⟨[.nonTerminal "N", nm "x" (.nonTerminal "N"), nm "y" (.nonTerminal "N"), .nonTerminal "M"],
          rvalue fun e => 10 * num e "x" + num e "y"⟩,
        ⟨[.terminal "(", nm "x" (.nonTerminal "N"), .nonTerminal "M", .terminal ")"],
          rvalue fun e => num e "x"⟩]⟩,
    ⟨false, "N", "u64", [⟨[nm "n" (.terminal "n")], rvalue fun e => num e "n"⟩]⟩,
    ⟨false, "M", "u64", [⟨[.terminal "+"], rreturn⟩]⟩ ]

/-- The same with all symbols named, and a `return` for odd numbers. -/
def namedDefs : List (AstNonTerminal RAct String) :=
  [ ⟨true, "S", "u64",
      [⟨[nm "x" (.nonTerminal "N"), nm "y" (.nonTerminal "N")],
          rvalue fun e => 10 * num e "x" + num e "y"⟩]⟩,
    ⟨false, "N", "u64", [⟨[nm "n" (.terminal "n")],
      .infallible fun e w => if num e "n" % 2 = 1 then some (none, w) else some (some (num e "n"), w)⟩]⟩ ]

def rItems (defs : List (AstNonTerminal RAct String)) : List (GrammarItem RAct String) :=
  .tokenEnum tk :: defs.map .nonTerminal

abbrev rprogram (defs : List (AstNonTerminal RAct String))
    (hok : (parserMacro .insertion rcode.strict.mkPath (rItems defs)).isOk = true) :
    Compiled RAct String Nat Nat Tk :=
  .ofItems .insertion rcode.strict (rItems defs) tk Tk.toR inj hok
    (by simp [rItems, itemTokenEnums, List.filterMap_map]) tk_simple tk_total

set_option maxRecDepth 10000 in
theorem ret_ok : (parserMacro .insertion rcode.strict.mkPath (rItems retDefs)).isOk = true := by
  decide +kernel

set_option maxRecDepth 10000 in
theorem named_ok : (parserMacro .insertion rcode.strict.mkPath (rItems namedDefs)).isOk = true := by
  decide +kernel

def ret : Compiled RAct String Nat Nat Tk := rprogram retDefs ret_ok

def named : Compiled RAct String Nat Nat Tk := rprogram namedDefs named_ok

def rrun (P : Compiled RAct String Nat Nat Tk) (input : Nat → Option (Except String Tk)) (fuel : Nat) :
    Option (Outcome Nat String × Nat × Nat) :=
  match P.gen.entries[0]? with
  | none => none
  | some ep => (freeParse P.gen rcode.free P.tf input ep 0 fuel).map fun r =>
      (r.1, r.2.world, r.2.calls)

theorem rrun_returns {P : Compiled RAct String Nat Nat Tk}
    {input : Nat → Option (Except String Tk)} {fuel : Nat} {o : Outcome Nat String}
    {w : Nat} {n : Nat} (h : rrun P input fuel = some (o, w, n)) :
    ∃ ep ∈ P.gen.entries, P.FreeReturns rcode.free ep input 0 o w n := by
  unfold rrun at h
  split at h
  · cases h
  · next ep hep =>
    obtain ⟨⟨o', s'⟩, h1, h2⟩ := Option.map_eq_some_iff.1 h
    cases h2
    exact ⟨ep, List.mem_of_getElem? hep, fuel, s', h1, rfl, rfl⟩

set_option maxRecDepth 10000 in
theorem ret_run : rrun ret (stream [.num 1, .num 2, .num 3, .plus]) 100 = some (.ok 12, 0, 5) ∧
    rrun ret (stream [.lp, .num 1, .plus, .rp]) 100 = some (.fault .unreachable, 0, 5) ∧
    rrun ret (stream [.num 1, .num 2, .plus]) 100 = some (.parserError "+" "n", 0, 3) := by
  decide +kernel

/-- **C54**, counterexample: an action that returns makes `parse` return a wrong value.  The production
`S = N <x:N> <y:N> M` computes `10 * x + y`; on the numbers 1, 2, 3 it should yield 23, but yields 12,
as the value missing for `M` is made up for by that of `y`, and so on. -/
theorem c54_wrong_value : ∃ ep ∈ ret.gen.entries,
    ret.FreeReturns rcode.free ep (stream [.num 1, .num 2, .num 3, .plus]) 0 (.ok 12) 0 5 :=
  rrun_returns ret_run.1

/-- **C54**, counterexample: or it makes `parse` reach `unreachable!()`. -/
theorem c54_unreachable : ∃ ep ∈ ret.gen.entries,
    ret.FreeReturns rcode.free ep (stream [.lp, .num 1, .plus, .rp]) 0 (.fault .unreachable) 0 5 :=
  rrun_returns ret_run.2.1

/-- The hypotheses of `c54_control`: a syntax error of `ret` is one of the program without actions. -/
example : ∃ ep ∈ ret.gen.entries, ret.trivial.Returns ep (stream [.num 1, .num 2, .plus]) ()
    (.parserError "+" "n") () 3 := by
  obtain ⟨ep, hep, h⟩ := rrun_returns ret_run.2.2
  exact ⟨ep, hep, c54_control hep h (by simp)⟩

set_option maxRecDepth 10000 in
theorem named_run : rrun named (stream [.num 2, .num 4]) 100 = some (.ok 24, 0, 3) ∧
    rrun named (stream [.num 2, .num 3]) 100 = some (.fault .unwrapNone, 0, 3) := by
  decide +kernel

/-- The hypotheses of `c54_all_named`. -/
example : ∃ ep ∈ named.gen.entries, named.Returns ep (stream [.num 2, .num 4]) 0 (.ok 24) 0 3 := by
  obtain ⟨ep, hep, h⟩ := rrun_returns named_run.1
  refine ⟨ep, hep, c54_all_named hep rfl ?_ h⟩
  have : named.defs = namedDefs := by
    simp [named, rprogram, Compiled.defs, Compiled.ofItems, itemNonTerminals, rItems, List.filterMap_map]
  rw [this]
  intro d hd p hp s hs
  simp only [namedDefs, List.mem_cons, List.not_mem_nil, or_false] at hd
  rcases hd with rfl | rfl
  · simp only [List.mem_cons, List.not_mem_nil, or_false] at hp
    subst hp
    simp only [List.mem_cons, List.not_mem_nil, or_false] at hs
    rcases hs with rfl | rfl <;> exact ⟨_, _, rfl⟩
  · simp only [List.mem_cons, List.not_mem_nil, or_false] at hp
    subst hp
    simp only [List.mem_cons, List.not_mem_nil, or_false] at hs
    subst hs
    exact ⟨_, _, rfl⟩

end Examples

end Parsegen
