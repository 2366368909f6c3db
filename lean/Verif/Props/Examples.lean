import Verif.Proofs.Compiled

/-! # Concrete programs used to show that the hypotheses of the property theorems are met -/

namespace Parsegen.Examples

/-- Actions: Lean functions of the bound names and a world. -/
abbrev Act (W : Type) := Env Nat → W → Option (Nat × W)

/-- The expression consisting of one identifier. -/
def pathAct {W : Type} (n : String) : Act W := fun env w =>
  match env n with
  | some (.nt v) => some (v, w)
  | _ => none

/-- The user's code. -/
def code {W : Type} : UserCode (Act W) Nat W :=
  ⟨fun x env w => x env w, pathAct, by intro n env w v h; simp [pathAct, h]⟩

/-- The number bound to a name. -/
def num (env : Env Nat) (n : String) : Nat :=
  match env n with
  | some (.nt v) => v
  | some (.tok [v]) => v
  | _ => 0

/-- Tokens `+`, a number, `(`, `)`. -/
inductive Tk where
  | plus
  | num (n : Nat)
  | lp
  | rp
deriving DecidableEq, Repr

/-- Their Rust values. -/
def Tk.toR : Tk → RVal
  | .plus => .ctor "Tok::Plus" []
  | .num n => .ctor "Tok::Num" [.tuple (List.replicate n (.lit "1"))]
  | .lp => .ctor "Tok::LP" []
  | .rp => .ctor "Tok::RP" []

/-- Numbers in unary. -/
def inj : RVal → Nat
  | .tuple l => l.length
  | _ => 0

def tk : TokenEnum String :=
  { typeName := "Tok"
    conversions :=
      [⟨"+", .path "Tok::Plus"⟩, ⟨"n", .enum "Tok::Num" [.choose "u64"]⟩, ⟨"(", .path "Tok::LP"⟩,
        ⟨")", .path "Tok::RP"⟩] }

theorem tk_simple : ∀ c ∈ tk.conversions, NoOneTuple c.to := by
  intro c hc
  simp only [tk, List.mem_cons, List.not_mem_nil, or_false] at hc
  rcases hc with rfl | rfl | rfl | rfl <;> simp [NoOneTuple, NoOneTupleList]

theorem tk_total (t : Tk) : (classify tk.conversions t.toR).isSome = true := by
  cases t <;> simp [tk, Tk.toR, classify, capture, captureList]

/-- `<x:sym>` -/
def nm (x : String) (s : AstSymbol) : AstSymbol := .named ⟨false, x⟩ s

/-- The items of a macro call with token enum `tk`. -/
def itemsOf {W : Type} (defs : List (AstNonTerminal (Act W) String)) :
    List (GrammarItem (Act W) String) :=
  .tokenEnum tk :: defs.map .nonTerminal

/-- The compiled program, given that the macro accepts. -/
abbrev program {W : Type} (defs : List (AstNonTerminal (Act W) String))
    (hok : (parserMacro .insertion code.mkPath (itemsOf defs)).isOk = true) :
    Compiled (Act W) String Nat W Tk :=
  .ofItems .insertion code (itemsOf defs) tk Tk.toR inj hok
    (by simp [itemsOf, itemTokenEnums, List.filterMap_map]) tk_simple tk_total

theorem defs_itemsOf {W : Type} (defs : List (AstNonTerminal (Act W) String)) :
    itemNonTerminals (itemsOf defs) = defs := by
  simp [itemNonTerminals, itemsOf, List.filterMap_map]

/-- A finite stream without errors. -/
def stream (l : List Tk) : Nat → Option (Except String Tk) := fun i => (l[i]?).map Except.ok

/-- A stream that ends with a lexer error. -/
def streamErr (l : List Tk) (e : String) : Nat → Option (Except String Tk) := fun i =>
  if i < l.length then (l[i]?).map Except.ok else some (.error e)

/-- Run an entry point. -/
def run {W : Type} (P : Compiled (Act W) String Nat W Tk) (i : Nat)
    (input : Nat → Option (Except String Tk)) (w : W) (fuel : Nat) :
    Option (Outcome Nat String × W × Nat) :=
  match P.gen.entries[i]? with
  | none => none
  | some ep => (parse P.gen P.code P.tf input ep w fuel).map fun r => (r.1, r.2.world, r.2.calls)

theorem run_returns {W : Type} {P : Compiled (Act W) String Nat W Tk} {i : Nat}
    {input : Nat → Option (Except String Tk)} {w0 : W} {fuel : Nat} {o : Outcome Nat String}
    {w : W} {n : Nat} (h : run P i input w0 fuel = some (o, w, n)) :
    ∃ ep ∈ P.gen.entries, P.gen.entries[i]? = some ep ∧ P.Returns ep input w0 o w n := by
  unfold run at h
  split at h
  · cases h
  · next ep hep =>
    obtain ⟨⟨o', s'⟩, h1, h2⟩ := Option.map_eq_some_iff.1 h
    cases h2
    exact ⟨ep, List.mem_of_getElem? hep, hep, fuel, s', h1, rfl, rfl⟩

/-! ## Sums -/

/-- The log records which production ran. -/
abbrev Log := List (String × Nat)

/-- An action that computes `f` and appends an entry to the log. -/
def logged (f : Env Nat → Nat) (name : String) (i : Nat) : AstAction (Act Log) :=
  .infallible fun e w => some (f e, w ++ [(name, i)])

/-- Left-recursive sums with two entry points:
```
pub Expr: u64 = { <a:Expr> "+" <b:Term> => a + b, <a:Term> => a }
pub Term: u64 = { <a:"n"> => a, "(" <a:Expr> ")" => a }
``` -/
def arithDefs : List (AstNonTerminal (Act Log) String) :=
  [ ⟨true, "Expr", "u64",
      [⟨[nm "a" (.nonTerminal "Expr"), .terminal "+", nm "b" (.nonTerminal "Term")],
          logged (fun e => num e "a" + num e "b") "Expr" 0⟩,
        ⟨[nm "a" (.nonTerminal "Term")], logged (fun e => num e "a") "Expr" 1⟩]⟩,
    ⟨true, "Term", "u64",
      [⟨[nm "a" (.terminal "n")], logged (fun e => num e "a") "Term" 0⟩,
        ⟨[.terminal "(", nm "a" (.nonTerminal "Expr"), .terminal ")"],
          logged (fun e => num e "a") "Term" 1⟩]⟩ ]

set_option maxRecDepth 10000 in
theorem arith_ok : (parserMacro .insertion code.mkPath (itemsOf arithDefs)).isOk = true := by
  decide +kernel

/-- The compiled program. -/
def arith : Compiled (Act Log) String Nat Log Tk := program arithDefs arith_ok

set_option maxRecDepth 10000 in
/-- `1 + (2 + 3)` -/
theorem arith_run :
    run arith 0 (stream [.num 1, .plus, .lp, .num 2, .plus, .num 3, .rp]) [] 100 =
      some (.ok 6, [("Term", 0), ("Expr", 1), ("Term", 0), ("Expr", 1), ("Term", 0), ("Expr", 0),
        ("Term", 1), ("Expr", 0)], 8) := by decide +kernel

set_option maxRecDepth 10000 in
/-- `1 + )` -/
theorem arith_syntax : run arith 0 (stream [.num 1, .plus, .rp, .num 2]) [] 100 =
    some (.parserError ")" "n, (", [("Term", 0), ("Expr", 1)], 3) := by decide +kernel

set_option maxRecDepth 10000 in
/-- `1 +` and then a lexer error -/
theorem arith_lexer : run arith 0 (streamErr [.num 1, .plus] "bad") [] 100 =
    some (.lexerError "bad", [("Term", 0), ("Expr", 1)], 3) := by decide +kernel

set_option maxRecDepth 10000 in
/-- the second entry point accepts `(1 + 2)` ... -/
theorem arith_term : run arith 1 (stream [.lp, .num 1, .plus, .num 2, .rp]) [] 100 =
    some (.ok 3, [("Term", 0), ("Expr", 1), ("Term", 0), ("Expr", 0), ("Term", 1)], 6) := by
  decide +kernel

set_option maxRecDepth 10000 in
/-- ... but not `1 + 2` -/
theorem arith_term_err : run arith 1 (stream [.num 1, .plus, .num 2]) [] 100 =
    some (.parserError "+" "", [], 2) := by decide +kernel

/-- As `arith`, but the action of `Term = "n"` panics on 0. -/
def panickyDefs : List (AstNonTerminal (Act Log) String) :=
  [ ⟨true, "Expr", "u64",
      [⟨[nm "a" (.nonTerminal "Expr"), .terminal "+", nm "b" (.nonTerminal "Term")],
          logged (fun e => num e "a" + num e "b") "Expr" 0⟩,
        ⟨[nm "a" (.nonTerminal "Term")], logged (fun e => num e "a") "Expr" 1⟩]⟩,
    ⟨false, "Term", "u64",
      [⟨[nm "a" (.terminal "n")], .infallible fun e w =>
          if num e "a" = 0 then none else some (num e "a", w ++ [("Term", 0)])⟩]⟩ ]

set_option maxRecDepth 10000 in
theorem panicky_ok : (parserMacro .insertion code.mkPath (itemsOf panickyDefs)).isOk = true := by
  decide +kernel

def panicky : Compiled (Act Log) String Nat Log Tk := program panickyDefs panicky_ok

set_option maxRecDepth 10000 in
theorem panicky_run : run panicky 0 (stream [.num 1, .plus, .num 0]) [] 100 =
    some (.fault .userPanic, [("Term", 0), ("Expr", 1)], 4) := by decide +kernel

/-- Every action of `arith` logs its own production. -/
theorem arith_logs : ∀ name (i : Nat) p e env (w : Log) v w',
    (userProds arith.defs name)[i]? = some p → p.action = .infallible e →
      arith.code.run e env w = some (v, w') → w' = w ++ [(name, i)] := by
  intro name i p e env w v w' hp he hr
  have hd : arith.defs = arithDefs := defs_itemsOf _
  rw [hd] at hp
  have key : ∀ (f : Env Nat → Nat) (nm' : String) (j : Nat), p.action = logged f nm' j →
      w' = w ++ [(nm', j)] := by
    intro f nm' j h
    rw [he] at h
    simp only [logged, AstAction.infallible.injEq] at h
    subst h
    have hr' : some (f env, w ++ [(nm', j)]) = some (v, w') := hr
    cases hr'; rfl
  by_cases h1 : "Expr" = name
  · subst h1
    have : userProds arithDefs "Expr" = arithDefs[0].productions := by
      simp [userProds, arithDefs]
    rw [this] at hp
    match i, hp with
    | 0, hp => cases hp; exact key _ _ _ rfl
    | 1, hp => cases hp; exact key _ _ _ rfl
    | k + 2, hp => simp [arithDefs] at hp
  · by_cases h2 : "Term" = name
    · subst h2
      have : userProds arithDefs "Term" = arithDefs[1].productions := by
        simp [userProds, arithDefs]
      rw [this] at hp
      match i, hp with
      | 0, hp => cases hp; exact key _ _ _ rfl
      | 1, hp => cases hp; exact key _ _ _ rfl
      | k + 2, hp => simp [arithDefs] at hp
    · have : userProds arithDefs name = [] := by
        simp [userProds, arithDefs, h1, h2]
      rw [this] at hp; simp at hp

/-- No action of `arith` panics. -/
theorem arith_no_panic : ∀ d ∈ arith.defs, ∀ p ∈ d.productions, ∀ e, p.action = .infallible e →
    ∀ env w, arith.code.run e env w ≠ none := by
  intro d hd p hp e he env w hr
  have hd' : arith.defs = arithDefs := defs_itemsOf _
  rw [hd'] at hd
  have key : ∀ (f : Env Nat → Nat) (nm' : String) (j : Nat), p.action = logged f nm' j → False := by
    intro f nm' j h
    rw [he] at h
    simp only [logged, AstAction.infallible.injEq] at h
    subst h
    have hr' : some (f env, w ++ [(nm', j)]) = none := hr
    cases hr'
  simp only [arithDefs, List.mem_cons, List.not_mem_nil, or_false] at hd
  rcases hd with rfl | rfl <;> simp only [List.mem_cons, List.not_mem_nil, or_false] at hp <;>
    rcases hp with rfl | rfl <;> exact key _ _ _ rfl

end Parsegen.Examples
