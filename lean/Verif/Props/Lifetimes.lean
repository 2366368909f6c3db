import Verif.Spec.EmitLifetimes
import Verif.Props.Emit

/-! # Lifetimes and `Debug` in the emitted module: C53 -/

namespace Parsegen

variable {X Ty V W Tok E : Type} [DecidableEq Ty]

omit [DecidableEq Ty] in
/-- The actions in the lowered grammar are the user's, and those of the entry points. -/
theorem Lowered.mem_actions {mkPath : String → X} {asts : List (AstNonTerminal X Ty)}
    {convs : List (Conversion Ty)} {g : Grammar X Ty} {nts ts : AMap String Nat}
    (hl : Lowered mkPath asts convs g nts ts) {e : Nat × Nat × Production X} (he : e ∈ g.listing) :
    e.2.2.action = mkPath "x" ∨ ∃ d ∈ asts, ∃ p ∈ d.productions, p.action = .infallible e.2.2.action := by
  have hpr := mem_listing he
  unfold Grammar.getProduction? at hpr
  obtain ⟨nt, h1, h2⟩ := Option.bind_eq_some_iff.1 hpr
  cases hp : nt.isPublic with
  | true =>
    obtain ⟨a, b, n', _, _, _, h6, h3, h4, _, h5, _⟩ := hl.pub h1 hp
    rw [h3] at h2
    have hw : e.2.2 = wrapperProd mkPath b := by
      have := List.mem_of_getElem? h2
      simpa using this
    rw [hw]
    exact .inl rfl
  | false =>
    by_cases hn : ∃ n, nts.get? n = some e.1
    · obtain ⟨n, hn⟩ := hn
      obtain ⟨nt', a, h3, h4, h5, _, _, h6⟩ := hl.prods hn
      rw [h1] at h3; cases h3
      obtain ⟨p, hp', h7⟩ := forall₂_getElem?' h6 h2
      obtain ⟨d, hd, hp2⟩ := List.mem_flatMap.1 (List.mem_of_getElem? hp')
      exact .inr ⟨d, (List.mem_filter.1 hd).1, p, hp2, h7.2⟩
    · rw [hl.priv h1 hp (fun n h => hn ⟨n, h⟩)] at h2
      simp at h2

omit [DecidableEq Ty] in
theorem Lowered.actions_mem {mkPath : String → X} {asts : List (AstNonTerminal X Ty)}
    {convs : List (Conversion Ty)} {g : Grammar X Ty} {nts ts : AMap String Nat}
    (hl : Lowered mkPath asts convs g nts ts) {d : AstNonTerminal X Ty} (hd : d ∈ asts)
    {p : AstProduction X} (hp : p ∈ d.productions) {x : X} (hx : p.action = .infallible x) :
    ∃ e ∈ g.listing, e.2.2.action = x := by
  obtain ⟨j, hj⟩ := (hl.idx d.name).2 ⟨d, hd, rfl⟩
  obtain ⟨nt, a, h1, _, _, _, _, h2⟩ := hl.prods hj
  have hmem : p ∈ userProds asts d.name :=
    List.mem_flatMap.2 ⟨d, List.mem_filter.2 ⟨hd, by simp⟩, hp⟩
  obtain ⟨k, hk⟩ := List.getElem?_of_mem hmem
  obtain ⟨pr, hpr, h3⟩ := forall₂_getElem? h2 hk
  refine ⟨(j, k, pr), mem_listing_of_getElem? h1 hpr, ?_⟩
  have := h3.2
  rw [hx] at this
  cases this
  rfl

/-- **C53.** Whatever rustc's judgements about the user's types and expressions are (a variable
mentions no lifetimes), the lifetimes in the emitted module, and its uses of `Debug`, are accepted if
and only if the lifetimes of the token type are declared once each, are the ones of that type, occur
each in some type the user wrote (of a captured field or of a non-terminal), all types and actions
mention only these lifetimes, and all types implement `Debug`. -/
theorem c53_lifetimes_iff (P : Compiled X Ty V W Tok) {lc : String → String} {m : EModule X Ty}
    (hsz : loweredCount P.defs ≤ 4294967296) (hm : P.Emits lc m) (J : LtJudge X Ty)
    (hpath : ∀ as n, J.ExprIn as (P.code.mkPath n)) :
    m.LifetimesOk J ↔ UserLifetimesOk J P.defs P.tokens := by
  obtain ⟨g, h1, h2, _, hr⟩ := P.emits_rel hm
  obtain ⟨nts, ts, hl⟩ := lower_ok (by rw [← loweredCount_eq]; exact hsz) h1
  have hty : ∀ ty, ty ∈ mentionedTypes g P.tokens ↔ ty ∈ writtenTypes P.defs P.tokens := by
    intro ty
    unfold mentionedTypes writtenTypes
    rw [List.mem_append, List.mem_append, mem_types_lowered hl]
  have hf : ∀ ty, (∃ v ∈ m.variants, ty ∈ v.fields) ↔ ty ∈ writtenTypes P.defs P.tokens := by
    intro ty
    rw [← hty, ← mem_variantFields h2, List.mem_flatMap]
  obtain ⟨us, hu⟩ := ntTypes g P.tokens.conversions
  have hmeth : ∀ f ∈ m.methods, ∀ ty ∈ f.ret.written, ∃ v ∈ m.variants, ty ∈ v.fields := by
    intro f hf ty hty
    rw [hr.methods] at hf
    rw [hr.variants]
    obtain ⟨e, he, rfl⟩ := List.mem_map.1 hf
    refine ⟨e.1, List.mem_map_of_mem he, ?_⟩
    rcases List.mem_append.1 he with he | he
    · obtain ⟨c, _, rfl⟩ := List.mem_map.1 he
      exact hty
    · have key : ∀ (l : List Ty) (seen : AMap Ty Nat) (i : Nat), ∀ e ∈ (emitNts l seen i).1,
          e.2.ret.written = e.1.fields := by
        intro l
        induction l with
        | nil => intro seen i e he; simp [emitNts] at he
        | cons t l ih =>
          intro seen i e he
          unfold emitNts at he
          split at he
          · exact ih _ _ _ he
          · rcases List.mem_cons.1 he with rfl | he
            · rfl
            · exact ih _ _ _ he
      rw [← key _ _ _ _ he]
      exact hty
  have hact : ∀ x : X, (∃ f ∈ m.actionFns, f.action = x) ↔ ∃ e ∈ g.listing, e.2.2.action = x := by
    intro x
    obtain ⟨a, g', T, hst⟩ := emitParser_stages h2
    constructor
    · rintro ⟨f, hf, rfl⟩
      obtain ⟨i, hi⟩ := List.getElem?_of_mem hf
      obtain ⟨e, he, h3⟩ := forall₂_getElem?' hst.fns hi
      exact ⟨e, List.mem_of_getElem? he, h3.action.symm⟩
    · rintro ⟨e, he, rfl⟩
      obtain ⟨i, hi⟩ := List.getElem?_of_mem he
      obtain ⟨f, hf, h3⟩ := forall₂_getElem? hst.fns hi
      exact ⟨f, List.mem_of_getElem? hf, h3.action⟩
  have hstr : ∀ s ∈ m.structs, s.ret ∈ writtenTypes P.defs P.tokens := by
    intro s hs
    rw [← hty, ← mem_userTypes hl.wf h2]
    exact List.mem_append.2 (.inr (List.mem_map_of_mem hs))
  constructor
  · intro H
    have h3 := H.enumParams
    have h4 := H.tokenArgs.1
    have h5 := H.fields
    have h6 := H.used
    have h7 := H.actions
    have h8 := H.derive (by rw [hr.resultDerives]; simp)
    rw [hr.lifetimes] at h3 h4 h5 h6 h7
    refine ⟨h3, h4, ?_, ?_, ?_, ?_⟩
    · intro ty ht
      obtain ⟨v, hv, ht⟩ := (hf ty).2 ht
      exact h5 v hv ty ht
    · intro ty ht
      obtain ⟨v, hv, ht⟩ := (hf ty).2 ht
      exact h8 v hv ty ht
    · intro a ha
      obtain ⟨v, hv, ty, ht, hu⟩ := h6 a ha
      exact ⟨ty, (hf ty).1 ⟨v, hv, ht⟩, hu⟩
    · intro d hd p hp x hx
      obtain ⟨f, hf, rfl⟩ := (hact x).2 (hl.actions_mem hd hp hx)
      exact h7 f hf
  · intro H
    have hd := hr.resultDerives
    constructor <;> try rw [hr.lifetimes]
    · exact H.declared
    · simp [ELifetimes.params, emitLifetimes]
    · simp [ELifetimes.args, emitLifetimes]
    · rfl
    · exact ⟨H.token, H.token, H.token, H.token⟩
    · exact fun v hv ty ht => H.types ty ((hf ty).1 ⟨v, hv, ht⟩)
    · intro a ha
      obtain ⟨ty, ht, hu⟩ := H.used a ha
      obtain ⟨v, hv, ht⟩ := (hf ty).2 ht
      exact ⟨v, hv, ty, ht, hu⟩
    · exact fun _ v hv ty ht => H.debug ty ((hf ty).1 ⟨v, hv, ht⟩)
    · intro _ _ _
      rw [hd]; simp
    · exact fun f hf' ty ht => H.types ty ((hf ty).1 (hmeth f hf' ty ht))
    · intro f hf'
      obtain ⟨e, he, h3⟩ := (hact f.action).1 ⟨f, hf', rfl⟩
      rw [← h3]
      rcases hl.mem_actions he with h4 | ⟨d, hd, p, hp, h4⟩
      · rw [h4]; exact hpath _ _
      · exact H.actions d hd p hp _ h4
    · exact fun s hs => H.types _ (hstr s hs)

/-- **C53.** The lifetimes have no influence on the parser: writing other ones changes neither whether
the macro accepts, nor the error, nor the emitted tables, actions and entry points. -/
theorem c53_no_influence (o : HashOrder) (mkPath : String → X) (items : List (GrammarItem X Ty))
    (as : List String) : parserMacro o mkPath (items.map (.setLifetimes as)) =
      (parserMacro o mkPath items).map fun r => (r.1, { r.2 with typeLifetimes := as }) := by
  have h1 : ∀ (items : List (GrammarItem X Ty)) (s : MacroState X Ty),
      (items.map (.setLifetimes as)).foldlM macroItem
        { s with tokenEnum := s.tokenEnum.map fun t => { t with typeLifetimes := as } } =
      (items.foldlM macroItem s).map fun s =>
        { s with tokenEnum := s.tokenEnum.map fun t => { t with typeLifetimes := as } } := by
    intro items
    induction items with
    | nil => intro s; rfl
    | cons i items ih =>
      intro s
      rw [List.map_cons, List.foldlM_cons, List.foldlM_cons]
      cases i with
      | typeDef ty =>
        simp only [GrammarItem.setLifetimes, macroItem]
        split
        · rfl
        · exact ih { s with stateType := some ty }
      | tokenEnum t =>
        simp only [GrammarItem.setLifetimes, macroItem, Option.isSome_map]
        split
        · rfl
        · exact ih { s with tokenEnum := some t }
      | nonTerminal n => exact ih { s with nonTerminals := s.nonTerminals ++ [n] }
  have h2 : macroItems (items.map (.setLifetimes as)) =
      (macroItems items).map fun r => (r.1, { r.2 with typeLifetimes := as }) := by
    unfold macroItems
    have := h1 items {}
    simp only [Option.map_none] at this
    rw [this]
    cases items.foldlM macroItem ({} : MacroState X Ty) with
    | error e => rfl
    | ok s =>
      cases hs : s.tokenEnum with
      | none => simp only [Except.map, bind, Except.bind, hs, Option.map_none]
      | some t => simp only [Except.map, bind, Except.bind, hs, Option.map_some]
  unfold parserMacro
  rw [h2]
  cases macroItems items with
  | error e => rfl
  | ok r =>
    obtain ⟨nts, t⟩ := r
    show (do
      let g ← lower mkPath nts t.conversions
      let gen ← generateParser o g
      .ok (gen, { t with typeLifetimes := as })) = Except.map _ (do
      let g ← lower mkPath nts t.conversions
      let gen ← generateParser o g
      .ok (gen, t))
    cases lower mkPath nts t.conversions with
    | error e => rfl
    | ok g =>
      show (do
        let gen ← generateParser o g
        .ok (gen, { t with typeLifetimes := as })) = Except.map _ (do
        let gen ← generateParser o g
        .ok (gen, t))
      cases generateParser o g with
      | error e => rfl
      | ok gen => rfl

/-! ## Instances: `enum Tok<'a> { "s" => Tok::Str(<ty>) }  pub S: u64 = <x:"s"> => 0,` -/

namespace Examples

/-- Types with the lifetimes in them. -/
abbrev LTy := String × List String

/-- What rustc thinks of them: all but `NoDebug` implement `Debug`. -/
def ltJudge : LtJudge (Act Unit) LTy where
  NameOk a := a ≠ "static"
  TyIn as ty := ∀ a ∈ ty.2, a ∈ as
  ExprIn _ _ := True
  Uses ty a := a ∈ ty.2
  IsDebug ty := ty.1 ≠ "NoDebug"
  TokenArgs n := n = 1 ∨ n = 0

/-- The token enum. -/
def ltTokens (ty : LTy) : TokenEnum LTy := ⟨"Tok", ["a"], [⟨"s", .enum "Tok::Str" [.choose ty]⟩]⟩

/-- The definitions. -/
def ltDefs : List (AstNonTerminal (Act Unit) LTy) :=
  [⟨true, "S", ("u64", []), [⟨[nm "x" (.terminal "s")], .infallible fun _ w => some (0, w)⟩]⟩]

/-- The macro input. -/
def ltItems (ty : LTy) : List (GrammarItem (Act Unit) LTy) :=
  .tokenEnum (ltTokens ty) :: ltDefs.map .nonTerminal

/-- `parser!` accepts. -/
def LtOk (ty : LTy) : Prop := (parserMacro .insertion code.mkPath (ltItems ty)).isOk = true

set_option maxRecDepth 10000 in
theorem lt_ok : LtOk ("str", ["a"]) ∧ LtOk ("u64", []) ∧ LtOk ("NoDebug", ["a"]) := by
  refine ⟨?_, ?_, ?_⟩ <;> (unfold LtOk; decide +kernel)

/-- The program. -/
def ltP (ty : LTy) (h : LtOk ty) : Compiled (Act Unit) LTy Nat Unit Unit :=
  .ofItems .insertion code (ltItems ty) (ltTokens ty) (fun _ => .ctor "Tok::Str" [.lit "s"])
    (fun _ => 0) h rfl
    (by intro c hc; simp [ltTokens] at hc; subst hc; simp [NoOneTuple, NoOneTupleList])
    (by intro t; simp [ltTokens, classify, capture, captureList])

theorem lt_iff {ty : LTy} {h : LtOk ty} {m} (hm : (ltP ty h).Emits id m) :
    m.LifetimesOk ltJudge ↔ (∀ a ∈ ty.2, a = "a") ∧ ty.1 ≠ "NoDebug" ∧ "a" ∈ ty.2 := by
  have hd : (ltP ty h).defs = ltDefs := rfl
  have ht : (ltP ty h).tokens = ltTokens ty := rfl
  have hw : writtenTypes ltDefs (ltTokens ty) = [ty, ("u64", [])] := rfl
  rw [c53_lifetimes_iff (ltP ty h) (by rw [hd]; decide) hm ltJudge (fun _ _ => trivial), hd, ht]
  constructor
  · intro H
    have h1 := H.types ty (by rw [hw]; simp)
    have h2 := H.debug ty (by rw [hw]; simp)
    obtain ⟨ty', h3, h4⟩ := H.used "a" (by simp [ltTokens])
    rw [hw] at h3
    simp only [List.mem_cons, List.not_mem_nil, or_false] at h3
    refine ⟨by simpa [ltTokens, ltJudge] using h1, h2, ?_⟩
    rcases h3 with rfl | rfl
    · exact h4
    · simp [ltJudge] at h4
  · rintro ⟨h1, h2, h3⟩
    refine ⟨by simp [ltTokens, ltJudge], by simp [ltTokens, ltJudge], ?_, ?_, ?_, fun _ _ _ _ _ _ => trivial⟩
    · rw [hw]; simpa [ltTokens, ltJudge] using h1
    · rw [hw]; simpa [ltTokens, ltJudge] using h2
    · rw [hw]; simpa [ltTokens, ltJudge] using h3

/-- `Tok::Str(<&'a str>)`: accepted. -/
example : ∃ m, (ltP ("str", ["a"]) lt_ok.1).Emits id m ∧ m.LifetimesOk ltJudge := by
  obtain ⟨m, hm⟩ := (ltP ("str", ["a"]) lt_ok.1).emits id
  exact ⟨m, hm, (lt_iff hm).2 (by decide)⟩

/-- **C53, counterexample** `parser!` accepts a token type whose lifetime is not in a captured type
(`enum Tok<'a> { "s" => Tok::Str(<u64>) }`), and a captured type without `Debug`; rustc rejects what
it emits. -/
theorem c53_unused_lifetime {m} (hm : (ltP ("u64", []) lt_ok.2.1).Emits id m) : ¬ m.LifetimesOk ltJudge :=
  fun h => by simpa using (lt_iff hm).1 h

theorem c53_no_debug {m} (hm : (ltP ("NoDebug", ["a"]) lt_ok.2.2).Emits id m) : ¬ m.LifetimesOk ltJudge :=
  fun h => by simpa using (lt_iff hm).1 h

end Examples

end Parsegen
