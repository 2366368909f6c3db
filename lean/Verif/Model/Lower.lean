import Verif.Model.Ast

/-! # Model of `src/lower.rs`

`mkPath n` stands for the expression `syn::Expr::Path` consisting of the single identifier `n`
(lower.rs:58-68). -/

namespace Parsegen

variable {X Ty : Type}

/-- lower.rs:17-27: declare the terminals. -/
def lowerTerminals : List (Conversion Ty) → Grammar X Ty × AMap String Nat →
    Except Fault (Grammar X Ty × AMap String Nat)
  | [], s => .ok s
  | c :: cs, (g, ts) => do
    let (g', idx) ← g.newTerminal c.from_
    if (ts.get? c.from_).isSome then .error (.duplicateTerminal c.from_)
    else lowerTerminals cs (g', ts.insert c.from_ idx)

/-- lower.rs:29-75, one iteration: declare a non-terminal and, if it is `pub`, its entry wrapper
`Name -> <x:Name1> => x`. -/
def lowerDeclare (mkPath : String → X) (nt : AstNonTerminal X Ty)
    (s : Grammar X Ty × AMap String Nat) : Except Fault (Grammar X Ty × AMap String Nat) :=
  if nt.isPub then do
    let (g1, nt1) := s.1.addNonTerminal (nt.name ++ "1") nt.typeDecl false
    let nts := s.2.insert nt.name nt1
    let (g2, ntIdx) := g1.addNonTerminal nt.name nt.typeDecl true
    let g3 ← g2.addProduction ntIdx [⟨some ⟨false, "x"⟩, .nonTerminal nt1⟩] (mkPath "x")
    .ok (g3, nts)
  else
    let (g1, idx) := s.1.addNonTerminal nt.name nt.typeDecl false
    .ok (g1, s.2.insert nt.name idx)

/-- lower.rs:29-75: all non-terminals. -/
def lowerDeclareAll (mkPath : String → X) : List (AstNonTerminal X Ty) →
    Grammar X Ty × AMap String Nat → Except Fault (Grammar X Ty × AMap String Nat)
  | [], s => .ok s
  | nt :: rest, s => do
    let s' ← lowerDeclare mkPath nt s
    lowerDeclareAll mkPath rest s'

/-- lower.rs:100-136 `add_symbol`: the symbol it pushes. -/
def addSymbol (nts ts : AMap String Nat) (binder : Option Name) :
    AstSymbol → Except Fault BoundSymbol
  | .nonTerminal n =>
    match nts.get? n with
    | none => .error (.undefinedNonTerminal n)
    | some i => .ok ⟨binder, .nonTerminal i⟩
  | .terminal s =>
    match ts.get? s with
    | none => .error (.unknownTerminal s)
    | some i => .ok ⟨binder, .terminal i⟩
  | .repeat_ _ _ => .error .repeatUnsupported
  | .named b s => addSymbol nts ts (some b) s

/-- lower.rs:82-85: all symbols of a production. -/
def lowerSymbols (nts ts : AMap String Nat) : List AstSymbol → Except Fault (List BoundSymbol)
  | [] => .ok []
  | s :: rest => do
    let b ← addSymbol nts ts none s
    let bs ← lowerSymbols nts ts rest
    .ok (b :: bs)

/-- lower.rs:81-94: one production of the non-terminal called `name`. -/
def lowerProduction (nts ts : AMap String Nat) (name : String) (g : Grammar X Ty)
    (p : AstProduction X) : Except Fault (Grammar X Ty) := do
  let symbols ← lowerSymbols nts ts p.symbols
  match nts.get? name with
  | none => .error .unwrapNone
  | some idx =>
    match p.action with
    | .fallible _ => .error .fallibleUnsupported
    | .infallible e => g.addProduction idx symbols e

/-- lower.rs:77-95: all productions of all non-terminals. -/
def lowerProductions (nts ts : AMap String Nat) (asts : List (AstNonTerminal X Ty))
    (g : Grammar X Ty) : Except Fault (Grammar X Ty) :=
  asts.foldlM (fun g nt => nt.productions.foldlM (lowerProduction nts ts nt.name) g) g

/-- lower.rs:9-98 `lower`. -/
def lower (mkPath : String → X) (asts : List (AstNonTerminal X Ty))
    (convs : List (Conversion Ty)) : Except Fault (Grammar X Ty) := do
  let (g0, ts) ← lowerTerminals convs (Grammar.new, [])
  let (g1, nts) ← lowerDeclareAll mkPath asts (g0, [])
  lowerProductions nts ts asts g1

end Parsegen
