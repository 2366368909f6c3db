import Verif.Model.Syntax
import Verif.Model.Rust
import Verif.Spec.Text

/-! # Running macro calls from their source text

This file is for *validation* of the model, not part of it: it lets the project's own tests
(`tests/tests.rs`, the unit tests of `src/ast.rs` and `src/lr1.rs`) be replayed in the kernel, from the
text of the `parser!` call to the value returned by the emitted text.  It supplies what the model
leaves open: a lexer for the fragment of Rust used there, readers for types, expressions and paths
(instances of the parameters of `Syn`), and values for tokens. -/

namespace Parsegen.Conformance

/-! ## A lexer -/

def isIdentStart (c : Char) : Bool := c.isAlpha || c == '_'

def isIdentCont (c : Char) : Bool := c.isAlphanum || c == '_'

def isPunct (c : Char) : Bool :=
  ['<', '>', '=', ':', ';', ',', '.', '+', '*', '?', '&', '!', '-', '|'].contains c

/-- `chars! "abc"` is `['a', 'b', 'c']`: decoding a long string literal in the kernel is slow. -/
macro "chars!" s:str : term => do
  let cs := s.getString.toList.map fun c => Lean.Syntax.mkCharLit c
  `([$(cs.toArray),*])

/-- Line comments, blanks, identifiers, lifetimes, characters, strings without escapes, numbers,
punctuation, groups.  `stack`: the groups that are open, `acc`: the tokens of the innermost one,
backwards. -/
def lex : Nat → List Char → List (Delim × List TokTree) → List TokTree → Option (List TokTree)
  | 0, _, _, _ => none
  | _ + 1, [], [], acc => some acc.reverse
  | _ + 1, [], _ :: _, _ => none
  | f + 1, c :: cs, stack, acc =>
    let close (d : Delim) : Option (List TokTree) :=
      match stack with
      | (d', outer) :: stack' => if d' = d then lex f cs stack' (.group d acc.reverse :: outer) else none
      | [] => none
    if c == ' ' || c == '\n' then lex f cs stack acc
    else if c == '/' && cs.head? == some '/' then
      lex f (cs.dropWhile (· != '\n')) stack acc
    else if isIdentStart c then
      lex f (cs.dropWhile isIdentCont) stack
        (.ident (String.ofList (c :: cs.takeWhile isIdentCont)) :: acc)
    else if c.isDigit then
      lex f (cs.dropWhile Char.isDigit) stack
        (.lit (String.ofList (c :: cs.takeWhile Char.isDigit)) .num :: acc)
    else if c == '"' then
      let s := cs.takeWhile (· != '"')
      lex f (cs.dropWhile (· != '"')).tail stack
        (.lit (String.ofList ('"' :: s ++ ['"'])) (.str (String.ofList s)) :: acc)
    else if c == '\'' then
      match cs with
      | x :: '\'' :: cs' => lex f cs' stack (.lit (String.ofList ['\'', x, '\'']) .other :: acc)
      | _ => lex f (cs.dropWhile isIdentCont) stack
          (.lifetime (String.ofList (cs.takeWhile isIdentCont)) :: acc)
    else if c == '(' then lex f cs ((.paren, acc) :: stack) []
    else if c == '{' then lex f cs ((.brace, acc) :: stack) []
    else if c == '[' then lex f cs ((.bracket, acc) :: stack) []
    else if c == ')' then close .paren
    else if c == '}' then close .brace
    else if c == ']' then close .bracket
    else if isPunct c then
      lex f cs stack (.punct c ((cs.head?.map isPunct).getD false) :: acc)
    else none

def tokens (s : List Char) : Option (List TokTree) := lex (s.length + 1) s [] []

/-! ## Types, expressions, paths -/

def Delim.opening : Delim → String
  | .paren => "("
  | .brace => "{"
  | .bracket => "["

def Delim.closing : Delim → String
  | .paren => ")"
  | .brace => "}"
  | .bracket => "]"

mutual
/-- The text of a token; tokens are separated by blanks. -/
def show1 : TokTree → String
  | .ident s => s
  | .punct c _ => String.ofList [c]
  | .lit s _ => s
  | .lifetime s => "'" ++ s
  | .group d ts => Delim.opening d ++ showAll ts ++ " " ++ Delim.closing d
def showAll : List TokTree → String
  | [] => ""
  | t :: ts => " " ++ show1 t ++ showAll ts
end

/-- The text of some tokens. -/
def text (ts : List TokTree) : String :=
  match ts with
  | [] => ""
  | t :: ts => show1 t ++ showAll ts

/-- How many tokens the type at the beginning has; `depth`: open angle brackets. -/
def typeLen : Nat → List TokTree → Nat
  | _, [] => 0
  | depth, .punct c _ :: ts =>
    if c == '<' then typeLen (depth + 1) ts + 1
    else if c == '>' then (match depth with | 0 => 0 | d + 1 => typeLen d ts + 1)
    else if depth == 0 && (c == '=' || c == ',' || c == ';') then 0
    else typeLen depth ts + 1
  | depth, _ :: ts => typeLen depth ts + 1

/-- How many tokens the expression at the beginning has: up to a comma. -/
def exprLen : List TokTree → Nat
  | [] => 0
  | .punct c _ :: ts => if c == ',' then 0 else exprLen ts + 1
  | _ :: ts => exprLen ts + 1

/-- How many tokens the path at the beginning has. -/
def pathLen : List TokTree → Nat
  | .ident _ :: .punct ':' true :: .punct ':' _ :: ts =>
    match pathLen ts with
    | 0 => 1
    | n + 1 => n + 1 + 3
  | .ident _ :: _ => 1
  | _ => 0

/-- Take the given number of tokens, at least one. -/
def take (n : Nat) (ts : List TokTree) : Option (String × List TokTree) :=
  if n = 0 ∨ ts.length < n then none else some (text (ts.take n), ts.drop n)

theorem take_consumes {n : Nat} {ts : List TokTree} {a : String} {rest : List TokTree}
    (h : take n ts = some (a, rest)) : ∃ pre, pre ≠ [] ∧ ts = pre ++ rest := by
  unfold take at h
  split at h
  · cases h
  · next hn =>
    cases h
    refine ⟨ts.take n, ?_, (List.take_append_drop n ts).symm⟩
    intro h0
    have := congrArg List.length h0
    rw [List.length_take, List.length_nil] at this
    omega

def keyword (s : String) : Bool :=
  ["enum", "type", "pub", "mut", "_", "true", "false", "fn", "let", "match", "if", "struct"].contains s

/-- Paths without `::` inside a path as text: `Token::Id`. -/
def path (ts : List TokTree) : Option (String × List TokTree) :=
  match ts with
  | .ident s :: _ =>
    if keyword s then none
    else (take (pathLen ts) ts).map fun r => (String.ofList (r.1.toList.filter (· != ' ')), r.2)
  | _ => none

def expr (ts : List TokTree) : Option (String × List TokTree) :=
  match ts with
  | .punct '?' _ :: _ => none
  | ts => take (exprLen ts) ts

/-- The parameters of the model of `ast.rs`: types and expressions are their text. -/
def syn : Syn String String where
  type ts := take (typeLen 0 ts) ts
  expr := expr
  path := path
  keyword := keyword
  type_consumes _ _ _ h := take_consumes h
  expr_consumes ts a rest h := by
    unfold expr at h
    split at h
    · cases h
    · exact take_consumes h
  path_consumes ts a rest h := by
    unfold path at h
    split at h
    · split at h
      · cases h
      · obtain ⟨r, h1, h2⟩ := Option.map_eq_some_iff.1 h
        cases h2
        exact take_consumes h1
    · cases h
  expr_question _ _ := rfl
  state := by decide
  keywords := by decide

/-! ## Values and actions -/

/-- Values of all types that occur: numbers, strings, and trees. -/
inductive U where
  | num (n : Nat)
  | str (s : String)
  | con (name : String)
  | app (f a : U)
deriving DecidableEq, Repr

/-- What an action expression computes from the variables. -/
abbrev Meaning := (String → U) → U

/-- The variable of that name. -/
def var (env : Env U) (x : String) : U :=
  match env x with
  | some (.nt v) => v
  | some (.tok [v]) => v
  | _ => .con "unbound"

/-- The meaning of the action expressions, by their text.  An expression that is not in the table and
not a variable panics. -/
def code (table : List (String × Meaning)) : UserCode String U Unit where
  run x env w :=
    match env x with
    | some (.nt v) => some (v, w)
    | some (.tok [v]) => some (v, w)
    | _ => (table.lookup x).map fun f => (f (var env), w)
  mkPath x := x
  run_mkPath := by intro n env w v h; simp [h]

/-- A token holds numbers and strings. -/
def inj : RVal → U
  | .lit s =>
    if s.toList.all Char.isDigit then .num (s.toList.foldl (fun n c => 10 * n + (c.toNat - 48)) 0)
    else .str s
  | .ctor p _ => .con p
  | _ => .con "?"

/-- The emitted module for the text of a macro call. -/
def compile (h : HashOrder) (src : List Char) : Option (EModule String String) :=
  match tokens src with
  | none => none
  | some ts =>
    match readItems syn ts with
    | .error _ => none
    | .ok items =>
      match emitMacro h (fun s => String.ofList (s.toList.map Char.toLower)) (fun x => x) items with
      | .error _ => none
      | .ok m => some m

/-- `Name::parse(input)` for each input: what the emitted text returns. -/
def runs (src : List Char) (table : List (String × Meaning)) (calls : List (String × List RVal)) :
    Option (List (Option (Outcome U String))) :=
  (compile .insertion src).map fun m => calls.map fun c =>
    ((m.runText ⟨code table, id, inj, fun i => (c.2[i]?).map Except.ok⟩ c.1 () 1000).observed).map (·.1)

end Parsegen.Conformance
