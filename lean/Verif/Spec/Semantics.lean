import Verif.Spec.Derivation
import Verif.Model.Runtime

/-! # Specification: the value of a derivation

The meaning of a derivation of a lowered grammar: a token is worth the tuple of its captured fields,
a use of a production is worth what its action expression evaluates to when every named symbol is
bound to the value of the corresponding child.  No stacks, no variants, no tables. -/

namespace Parsegen

variable {X Ty V W Tok : Type}

/-- The variables of an action: name `n` is the value of the *leftmost* symbol bound to `n`. -/
def bindEnv : List BoundSymbol → List (BVal V) → Env V
  | s :: ss, v :: vs => fun n =>
    if s.binder.map (·.name) = some n then some v else bindEnv ss vs n
  | _, _ => fun _ => none

/-- The value of a use of production `p` of `nt` with children values `vs` in world `w`. -/
def Grammar.nodeValue (g : Grammar X Ty) (u : UserCode X V W) (nt p : Nat) (vs : List (BVal V))
    (w : W) : Option (BVal V × W) :=
  match g.getProduction? nt p with
  | none => none
  | some pr => (u.run pr.action (bindEnv pr.symbols vs) w).map fun r => (.nt r.1, r.2)

/-- The algebra of values of a grammar; `fields t` are the captured fields of token `t`. -/
def Grammar.alg (g : Grammar X Ty) (u : UserCode X V W) (fields : Tok → List V) :
    Alg Tok (BVal V) W where
  leaf t := .tok (fields t)
  node := g.nodeValue u

/-- The captured fields of a token as recorded by the emitted `token_value` function. -/
def TokenFns.fields (tf : TokenFns Tok V) (t : Tok) : List V :=
  match tf.value t with
  | .token _ fs => fs
  | .nonTerminal _ _ => []

/-- The two emitted token functions agree, and terminal numbers are in range.  Established from the
declared token patterns in `Props/Tokens.lean`. -/
structure TokenFns.Consistent (tf : TokenFns Tok V) (nT : Nat) : Prop where
  lt : ∀ t, tf.terminalIdx t < nT
  value : ∀ t, tf.value t = .token (tf.terminalIdx t) (tf.fields t)

/-- The tokens `toks` are the first items of the input. -/
def Reads {E : Type} (input : Nat → Option (Except E Tok)) (toks : List Tok) : Prop :=
  ∀ (i : Nat) t, toks[i]? = some t → input i = some (.ok t)

end Parsegen
