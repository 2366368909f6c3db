import Verif.Spec.EmitNames

/-! # Specification: Rust's typing rules, for the emitted module

rustc's judgements about the user's own code are parameters:
* `HasTy Γ e ty`: the expression `e` has type `ty` where the variables have the types `Γ`;
* `Sig`: the fields of the user's types, for checking patterns. -/

namespace Parsegen

variable {X Ty : Type}

/-- What rustc knows about the types that token patterns look into. -/
structure Sig (Ty : Type) where
  /-- the fields of the tuple-like variant or struct `path`, as a value of type `ty` (`none`: it is not
  one); no fields: a unit variant or constant -/
  ctor : String → Ty → Option (List Ty)
  /-- the same, with named fields -/
  record : String → Ty → Option (List (String × Ty))
  /-- the components of a tuple type -/
  tuple : Ty → Option (List Ty)
  /-- does the literal have that type? -/
  lit : String → Ty → Bool

/-- Is it `..`? -/
def RPat.isRest : RPat → Bool
  | .rest => true
  | _ => false

mutual

/-- Rust's typing of a pattern against a value of type `ty`: the variables it binds, with their types;
`none`: a type error. -/
def RPat.vars (S : Sig Ty) : RPat → Ty → Option (List (String × Ty))
  | .wild, _ => some []
  | .rest, _ => none
  | .lit s, ty => if S.lit s ty then some [] else none
  | .path p, ty => match S.ctor p ty with
    | some [] => some []
    | _ => none
  | .tupleStruct p ps, ty => (S.ctor p ty).bind fun tys => RPat.varsList S ps tys
  | .struct p fs dots, ty => (S.record p ty).bind fun tys =>
    if dots = true ∨ ∀ x ∈ tys, x.1 ∈ fs.map (·.1) then RPat.varsFields S fs tys else none
  | .tuple ps, ty => (S.tuple ty).bind fun tys => RPat.varsList S ps tys
  | .paren p, ty => p.vars S ty
  | .ident n, ty => some [(n, ty)]

/-- Components; `..` may occur once and stands for any number of them. -/
def RPat.varsList (S : Sig Ty) : List RPat → List Ty → Option (List (String × Ty))
  | [], tys => match tys with
    | [] => some []
    | _ :: _ => none
  | .rest :: ps, tys =>
    if ps.any RPat.isRest = false ∧ ps.length ≤ tys.length then
      RPat.varsList S ps (tys.drop (tys.length - ps.length))
    else none
  | p :: ps, tys => match tys with
    | [] => none
    | ty :: tys =>
      match p.vars S ty, RPat.varsList S ps tys with
      | some b, some b' => some (b ++ b')
      | _, _ => none

/-- Named fields. -/
def RPat.varsFields (S : Sig Ty) : List (String × RPat) → List (String × Ty) →
    Option (List (String × Ty))
  | [], _ => some []
  | (f, p) :: fs, tys =>
    match tys.lookup f with
    | none => none
    | some ty =>
      match p.vars S ty, RPat.varsFields S fs tys with
      | some b, some b' => some (b ++ b')
      | _, _ => none

end

mutual

/-- `FitsTy S p ty`: the pattern the user declared fits values of type `ty`; every `<T>` in it stands
where a value of type `T` is. -/
inductive FitsTy (S : Sig Ty) : Pattern Ty → Ty → Prop
  | choose (T) : FitsTy S (.choose T) T
  | underscore (ty) : FitsTy S .underscore ty
  | lit {s ty} (h : S.lit s ty = true) : FitsTy S (.lit s) ty
  | path {p ty} (h : S.ctor p ty = some []) : FitsTy S (.path p) ty
  | enum {p ps ty tys} (h : S.ctor p ty = some tys) (hs : FitsTyList S ps tys) :
      FitsTy S (.enum p ps) ty
  | struct {p fs dots ty tys} (h : S.record p ty = some tys)
      (hd : dots = true ∨ ∀ x ∈ tys, x.1 ∈ fs.map (·.1)) (hs : FitsTyFields S fs tys) :
      FitsTy S (.struct p fs dots) ty
  | tuple {ps ty tys} (h : S.tuple ty = some tys) (hs : FitsTyList S ps tys) :
      FitsTy S (.tuple ps) ty

/-- Components; at most one `..` skips some of them. -/
inductive FitsTyList (S : Sig Ty) : List (Pattern Ty) → List Ty → Prop
  | nil : FitsTyList S [] []
  | dots (skipped : List Ty) {ps tys} (hd : Pattern.dotDot ∉ ps) (hl : tys.length = ps.length)
      (h : FitsTyList S ps tys) : FitsTyList S (.dotDot :: ps) (skipped ++ tys)
  | cons {p ty ps tys} (h : FitsTy S p ty) (h' : FitsTyList S ps tys) :
      FitsTyList S (p :: ps) (ty :: tys)

/-- Named fields. -/
inductive FitsTyFields (S : Sig Ty) : List (String × Pattern Ty) → List (String × Ty) → Prop
  | nil (tys) : FitsTyFields S [] tys
  | cons {f p ty fs tys} (hv : tys.lookup f = some ty) (h : FitsTy S p ty)
      (h' : FitsTyFields S fs tys) : FitsTyFields S ((f, p) :: fs) tys

end

/-- A type in the emitted code: one the user wrote, or a tuple of such. -/
inductive STy (Ty : Type) where
  | one (ty : Ty)
  | tuple (tys : List Ty)
deriving DecidableEq, Repr

/-- The type (or the type of the expression) written `(T, ..)`: Rust reads `(T)` as `T`. -/
def STy.ofList : List Ty → STy Ty
  | [t] => .one t
  | ts => .tuple ts

/-- The declared result type of a method. -/
def ERet.ty : ERet Ty → STy Ty
  | .parens ts => .ofList ts
  | .single t => .one t

/-- Local variables: whether they are `mut`, and their type. -/
abbrev Scope (Ty : Type) := String → Option (Bool × STy Ty)

/-- `let [mut] n: t = ..;` -/
def Scope.bind (Γ : Scope Ty) (n : String) (isMut : Bool) (t : STy Ty) : Scope Ty :=
  fun x => if x = n then some (isMut, t) else Γ x

/-- The type of the result expression of a method, when the identifiers `ids` have types `tys`. -/
def EBody.ty (b : EBody) (ids : List String) (tys : List Ty) : Option (STy Ty) :=
  match b with
  | .parens xs => (xs.mapM fun x => (ids.zip tys).lookup x).map STy.ofList
  | .single x => ((ids.zip tys).lookup x).map .one

/-- The field types of a variant. -/
def EModule.variantTys (m : EModule X Ty) (name : String) : Option (List Ty) :=
  (m.variants.find? (·.name = name)).map (·.fields)

/-- The result type of a method. -/
def EModule.methodTy (m : EModule X Ty) (name : String) : Option (STy Ty) :=
  (m.methods.find? (·.name = name)).map (·.ret.ty)

/-- The variables after the statements of an action function; `none` if a method does not exist or
`value_stack` is no longer the parameter. -/
def EModule.scope (m : EModule X Ty) : List EStmt → Scope Ty → Option (Scope Ty)
  | [], Γ => some Γ
  | .pop :: ss, Γ => if (Γ "value_stack").isNone then m.scope ss Γ else none
  | .letPop mu n meth :: ss, Γ =>
    if (Γ "value_stack").isNone then
      match m.methodTy meth with
      | none => none
      | some t => m.scope ss (Γ.bind n mu t)
    else none

/-- `fn name(self) -> ret { match self { Self::variant(ids) => body, .. } }` -/
def EModule.MethodTyped (m : EModule X Ty) (f : EMethod Ty) : Prop :=
  ∃ tys, m.variantTys f.variant = some tys ∧ f.ids.length = tys.length ∧
    f.body.ty f.ids tys = some f.ret.ty

/-- The statements are typed and `value_stack.push(SemanticActionResult::variant(action))` is. -/
def EModule.ActionTyped (HasTy : Scope Ty → X → Ty → Prop) (m : EModule X Ty) (f : EActionFn X) :
    Prop :=
  ∃ Γ ty, m.scope f.stmts (fun _ => none) = some Γ ∧ Γ "value_stack" = none ∧
    m.variantTys f.variant = some [ty] ∧ HasTy Γ f.action ty

/-- The emitted module is well typed; `tokTy` is the type of tokens. -/
structure EModule.WellTyped (HasTy : Scope Ty → X → Ty → Prop) (S : Sig Ty) (tokTy : Ty)
    (m : EModule X Ty) : Prop where
  methods : ∀ f ∈ m.methods, m.MethodTyped f
  actions : ∀ f ∈ m.actionFns, m.ActionTyped HasTy f
  /-- `parse_generic(input, SemanticActionResult::extract, ..)` returns what `parse` declares -/
  structs : ∀ s ∈ m.structs, m.methodTy s.extract = some (.one s.ret)
  /-- `pat => SemanticActionResult::variant(args)` -/
  arms : ∀ a ∈ m.valueArms, ∃ tys vars, m.variantTys a.variant = some tys ∧
    a.pat.vars S tokTy = some vars ∧ (vars.map (·.1)).Nodup ∧
    a.args.mapM (fun x => vars.lookup x) = some tys
  /-- `pat => idx` (there the token is a reference, which changes the types of variables only) -/
  idxArms : ∀ a ∈ m.idxArms, ∃ vars, a.1.vars S tokTy = some vars ∧ (vars.map (·.1)).Nodup
  /-- the arrays have their declared lengths -/
  action : m.action.length = m.actionRows ∧ ∀ row ∈ m.action, row.length = m.actionCols
  goto : m.goto.length = m.gotoRows ∧ ∀ row ∈ m.goto, row.length = m.gotoCols
  semantic : m.semantic.length = m.semanticLen
  /-- the elements of `SEMANTIC_ACTIONS` are action functions -/
  semanticFns : ∀ n ∈ m.semantic, n ∈ m.actionFns.map (·.name)
  expected : m.expected.length = m.expectedLen
  terminalStrs : m.terminalStrs.length = m.terminalStrsLen

/-- The type of a symbol the user wrote: a non-terminal has its declared type, a terminal the types
captured by its pattern. -/
def symbolTy (defs : List (AstNonTerminal X Ty)) (convs : List (Conversion Ty)) (s : AstSymbol) :
    Option (STy Ty) :=
  match s.plain with
  | some (.nt n) => (defs.find? (·.name = n)).map fun d => .one d.typeDecl
  | some (.term t) => (convs.find? (·.from_ = t)).map fun c => .ofList c.to.types
  | none => none

/-- The variables an action sees: each bound name with the type of the leftmost symbol bound to it. -/
def userScope (defs : List (AstNonTerminal X Ty)) (convs : List (Conversion Ty))
    (ss : List AstSymbol) : Scope Ty := fun n =>
  (ss.find? fun s => s.boundName = some n).bind fun s => s.boundVar.bind fun b =>
    (symbolTy defs convs s).map fun t => (b.isMut, t)

/-- The user's code is well typed. -/
structure UserTyped (HasTy : Scope Ty → X → Ty → Prop) (S : Sig Ty) (tokTy : Ty)
    (defs : List (AstNonTerminal X Ty)) (tokens : TokenEnum Ty) : Prop where
  /-- every action has the type declared for its non-terminal -/
  actions : ∀ d ∈ defs, ∀ p ∈ d.productions, ∀ e, p.action = .infallible e →
    HasTy (userScope defs tokens.conversions p.symbols) e d.typeDecl
  /-- the token patterns fit the token type; every `<T>` stands where a value of type `T` is -/
  patterns : ∀ c ∈ tokens.conversions, FitsTy S c.to tokTy
  noStack : ¬ IsBinder defs "value_stack"

end Parsegen
