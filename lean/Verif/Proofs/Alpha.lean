import Verif.Proofs.Strip
import Verif.Proofs.Reject
import Verif.Spec.Alpha

/-! # The generator on programs that differ in types, binders and actions -/

namespace Parsegen

variable {X X' Ty Ty' V W Tok E : Type}

/-- Two computations that fail alike or succeed alike. -/
def AlikeRes {α β : Type} (R : α → β → Prop) (x : Except Fault α) (x' : Except Fault β) : Prop :=
  (∃ f, x = .error f ∧ x' = .error f) ∨ ∃ a a', x = .ok a ∧ x' = .ok a' ∧ R a a'

theorem AlikeRes.bind {α β α' β' : Type} {R : α → α' → Prop} {S : β → β' → Prop} {x : Except Fault α}
    {x' : Except Fault α'} {k : α → Except Fault β} {k' : α' → Except Fault β'} (h : AlikeRes R x x')
    (hk : ∀ a a', R a a' → AlikeRes S (k a) (k' a')) : AlikeRes S (x >>= k) (x' >>= k') := by
  rcases h with ⟨f, rfl, rfl⟩ | ⟨a, a', rfl, rfl, hR⟩
  · exact .inl ⟨f, rfl, rfl⟩
  · exact hk a a' hR

theorem AlikeRes.ofEq {α : Type} {x x' : Except Fault α} (h : x = x') : AlikeRes Eq x x' := by
  subst h
  cases x with
  | error f => exact .inl ⟨f, rfl, rfl⟩
  | ok a => exact .inr ⟨a, a, rfl, rfl, rfl⟩

theorem AlikeRes.foldlM {α α' τ τ' : Type} {Q : α → α' → Prop} {R : τ → τ' → Prop}
    {step : τ → α → Except Fault τ} {step' : τ' → α' → Except Fault τ'}
    (h : ∀ s s' a a', R s s' → Q a a' → AlikeRes R (step s a) (step' s' a')) {l : List α} {l' : List α'}
    (hl : List.Forall₂ Q l l') : ∀ (s : τ) (s' : τ'), R s s' →
      AlikeRes R (l.foldlM step s) (l'.foldlM step' s') := by
  induction hl with
  | nil => intro s s' hs; exact .inr ⟨s, s', rfl, rfl, hs⟩
  | cons ha _ ih =>
    intro s s' hs
    simp only [List.foldlM_cons]
    exact (h s s' _ _ hs ha).bind fun t t' ht => ih t t' ht

theorem AlikeRes.mapM {α β β' : Type} {R : β → β' → Prop} {f : α → Except Fault β}
    {f' : α → Except Fault β'} : ∀ (l : List α), (∀ x ∈ l, AlikeRes R (f x) (f' x)) →
      AlikeRes (List.Forall₂ R) (l.mapM f) (l.mapM f')
  | [], _ => .inr ⟨[], [], rfl, rfl, .nil⟩
  | x :: l, h => by
    simp only [List.mapM_cons]
    refine (h x List.mem_cons_self).bind fun y y' hy => ?_
    refine (AlikeRes.mapM l fun x hx => h x (List.mem_cons_of_mem _ hx)).bind fun ys ys' hys => ?_
    exact .inr ⟨_, _, rfl, rfl, .cons hy hys⟩

/-! ## Related grammars -/

/-- Kinds of values at the level of the lowered grammar. -/
def SymKind : Symbol → BVal V → Prop
  | .terminal _, .tok _ => True
  | .nonTerminal _, .nt _ => True
  | _, _ => False

structure AlphaProd (u : UserCode X V W) (u' : UserCode X' V W) (pr : Production X)
    (pr' : Production X') : Prop where
  syms : pr.syms = pr'.syms
  run : ∀ vals w, List.Forall₂ SymKind pr.syms vals →
    u.run pr.action (bindEnv pr.symbols vals) w = u'.run pr'.action (bindEnv pr'.symbols vals) w

structure AlphaNT (u : UserCode X V W) (u' : UserCode X' V W) (n : NonTerminal X Ty)
    (n' : NonTerminal X' Ty') : Prop where
  name : n.name = n'.name
  isPublic : n.isPublic = n'.isPublic
  productions : List.Forall₂ (AlphaProd u u') n.productions n'.productions

structure AlphaGrammar (u : UserCode X V W) (u' : UserCode X' V W) (g : Grammar X Ty)
    (g' : Grammar X' Ty') : Prop where
  nts : List.Forall₂ (AlphaNT u u') g.nonTerminals g'.nonTerminals
  terms : g.terminals = g'.terminals

variable {u : UserCode X V W} {u' : UserCode X' V W}

theorem forall₂_map_eq' {α β γ : Type} {R : α → β → Prop} {f : α → γ} {f' : β → γ}
    (hR : ∀ a b, R a b → f a = f' b) {l : List α} {l' : List β} (h : List.Forall₂ R l l') :
    l.map f = l'.map f' := by
  induction h with
  | nil => rfl
  | cons h _ ih => simp [hR _ _ h, ih]

/-- Related grammars are equal when types, binders and actions are removed. -/
theorem AlphaGrammar.strip {g : Grammar X Ty} {g' : Grammar X' Ty'} (h : AlphaGrammar u u' g g') :
    (g.mapA fun _ => ()).strip = (g'.mapA fun _ => ()).strip := by
  simp only [Grammar.mapA, Grammar.strip, h.terms, List.map_map]
  congr 1
  refine forall₂_map_eq' ?_ h.nts
  intro n n' hn
  simp only [Function.comp, NonTerminal.mapA, NonTerminal.strip, hn.name, hn.isPublic, List.map_map]
  congr 1
  refine forall₂_map_eq' ?_ hn.productions
  intro p p' hp
  have := hp.syms
  simp only [Production.syms] at this
  simp only [Function.comp, Production.mapA, Production.strip]
  congr 1
  have h2 := congrArg (List.map fun s => (⟨none, s⟩ : BoundSymbol)) this
  simpa [Function.comp_def] using h2

theorem AlphaGrammar.first {g : Grammar X Ty} {g' : Grammar X' Ty'} (h : AlphaGrammar u u' g g')
    (o : HashOrder) : generateFirstTable o g = generateFirstTable o g' := by
  rw [← generateFirstTable_mapA (fun _ : X => ()) g o, ← generateFirstTable_strip, h.strip,
    generateFirstTable_strip, generateFirstTable_mapA]

theorem AlphaGrammar.automaton {g : Grammar X Ty} {g' : Grammar X' Ty'}
    (h : AlphaGrammar u u' g g') (o : HashOrder) (tbl : FirstTable) :
    generateAutomaton o g tbl = generateAutomaton o g' tbl := by
  rw [← generateAutomaton_mapA (fun _ : X => ()) g o, ← generateAutomaton_strip, h.strip,
    generateAutomaton_strip, generateAutomaton_mapA]

theorem AlphaGrammar.length {g : Grammar X Ty} {g' : Grammar X' Ty'} (h : AlphaGrammar u u' g g') :
    g.nonTerminals.length = g'.nonTerminals.length := h.nts.length_eq

theorem AlphaGrammar.get {g : Grammar X Ty} {g' : Grammar X' Ty'} (h : AlphaGrammar u u' g g')
    (i : Nat) :
    (g.nonTerminals[i]? = none ∧ g'.nonTerminals[i]? = none) ∨
    ∃ n n', g.nonTerminals[i]? = some n ∧ g'.nonTerminals[i]? = some n' ∧ AlphaNT u u' n n' := by
  have : ∀ {l : List (NonTerminal X Ty)} {l' : List (NonTerminal X' Ty')},
      List.Forall₂ (AlphaNT u u') l l' → ∀ i : Nat,
      (l[i]? = none ∧ l'[i]? = none) ∨ ∃ n n', l[i]? = some n ∧ l'[i]? = some n' ∧
        AlphaNT u u' n n' := by
    intro l l' hl
    induction hl with
    | nil => intro i; exact .inl ⟨rfl, rfl⟩
    | cons hn _ ih =>
      intro i
      cases i with
      | zero => exact .inr ⟨_, _, rfl, rfl, hn⟩
      | succ i => simpa using ih i
  exact this h.nts i

/-! ## Lowering -/

theorem AlphaGrammar.addNonTerminal {g : Grammar X Ty} {g' : Grammar X' Ty'}
    (h : AlphaGrammar u u' g g') (name : String) (ty : Ty) (ty' : Ty') (b : Bool) :
    AlphaGrammar u u' (g.addNonTerminal name ty b).1 (g'.addNonTerminal name ty' b).1 ∧
      (g.addNonTerminal name ty b).2 = (g'.addNonTerminal name ty' b).2 := by
  refine ⟨⟨?_, h.terms⟩, ?_⟩
  · simp only [Grammar.addNonTerminal]
    exact List.rel_append h.nts (.cons ⟨rfl, rfl, .nil⟩ .nil)
  · simp only [Grammar.addNonTerminal, h.length]

theorem AlphaGrammar.addProduction {g : Grammar X Ty} {g' : Grammar X' Ty'}
    (h : AlphaGrammar u u' g g') (nt : Nat) {syms syms' : List BoundSymbol} {a : X} {a' : X'}
    (hp : AlphaProd u u' ⟨syms, a⟩ ⟨syms', a'⟩) :
    AlikeRes (AlphaGrammar u u') (g.addProduction nt syms a) (g'.addProduction nt syms' a') := by
  simp only [Grammar.addProduction]
  rcases h.get nt with ⟨e1, e2⟩ | ⟨n, n', e1, e2, hn⟩
  · rw [e1, e2]; exact .inl ⟨_, rfl, rfl⟩
  · rw [e1, e2]
    refine .inr ⟨_, _, rfl, rfl, ?_, h.terms⟩
    have : ∀ {l : List (NonTerminal X Ty)} {l' : List (NonTerminal X' Ty')},
        List.Forall₂ (AlphaNT u u') l l' →
        ∀ (i : Nat) {m m'}, AlphaNT u u' m m' →
          List.Forall₂ (AlphaNT u u') (l.set i m) (l'.set i m') := by
      intro l l' hl
      induction hl with
      | nil => intro i m m' _; exact .nil
      | cons hx hl ih =>
        intro i m m' hm
        cases i with
        | zero => exact .cons hm hl
        | succ i => exact .cons hx (ih i hm)
    exact this h.nts nt ⟨hn.name, hn.isPublic, List.rel_append hn.productions (.cons hp .nil)⟩

/-- Related states of the lowering: grammar and map. -/
def AlphaState (u : UserCode X V W) (u' : UserCode X' V W) (s : Grammar X Ty × AMap String Nat)
    (s' : Grammar X' Ty' × AMap String Nat) : Prop :=
  AlphaGrammar u u' s.1 s'.1 ∧ s.2 = s'.2

theorem lowerTerminals_alpha {cs : List (Conversion Ty)} {cs' : List (Conversion Ty')}
    (hc : List.Forall₂ (fun c c' => c.from_ = c'.from_) cs cs') :
    ∀ (s : Grammar X Ty × AMap String Nat) (s' : Grammar X' Ty' × AMap String Nat),
      AlphaState u u' s s' → AlikeRes (AlphaState u u') (lowerTerminals cs s) (lowerTerminals cs' s') := by
  induction hc with
  | nil => intro s s' hs; exact .inr ⟨_, _, rfl, rfl, hs⟩
  | @cons c c' cs cs' h _ ih =>
    rintro ⟨g, ts⟩ ⟨g', ts'⟩ ⟨hg, hts⟩
    dsimp only at hg hts
    subst hts
    simp only [lowerTerminals, ← h]
    refine AlikeRes.bind (R := fun r r' => AlphaGrammar u u' r.1 r'.1 ∧ r.2 = r'.2) ?_ ?_
    · simp only [Grammar.newTerminal, hg.terms]
      refine (AlikeRes.ofEq rfl).bind ?_
      rintro i _ rfl
      exact .inr ⟨_, _, rfl, rfl, ⟨hg.nts, by simp⟩, rfl⟩
    · rintro ⟨g1, i⟩ ⟨g1', i'⟩ ⟨h1, h2⟩
      dsimp only at h1 h2 ⊢
      subst h2
      split
      · exact .inl ⟨_, rfl, rfl⟩
      · exact ih _ _ ⟨h1, rfl⟩

theorem lowerDeclare_alpha {d : AstNonTerminal X Ty} {d' : AstNonTerminal X' Ty'}
    (hd : AlphaDefinition u u' d d') (s : Grammar X Ty × AMap String Nat)
    (s' : Grammar X' Ty' × AMap String Nat) (hs : AlphaState u u' s s') :
    AlikeRes (AlphaState u u') (lowerDeclare u.mkPath d s) (lowerDeclare u'.mkPath d' s') := by
  obtain ⟨g, nts⟩ := s
  obtain ⟨g', nts'⟩ := s'
  obtain ⟨hg, hn⟩ := hs
  dsimp only at hg hn
  subst hn
  simp only [lowerDeclare, ← hd.isPub, ← hd.name]
  by_cases hp : d.isPub = true
  · simp only [hp, if_true]
    obtain ⟨h1, h2⟩ := hg.addNonTerminal (d.name ++ "1") d.typeDecl d'.typeDecl false
    obtain ⟨h3, h4⟩ := h1.addNonTerminal d.name d.typeDecl d'.typeDecl true
    simp only [← h2, ← h4]
    refine (h3.addProduction _ ?_).bind fun a a' ha => ?_
    · refine ⟨rfl, ?_⟩
      intro vals w hk
      simp only [Production.syms, List.map_cons, List.map_nil] at hk
      match vals, hk with
      | [.nt v], .cons _ .nil =>
        rw [u.run_mkPath "x" _ w v (by simp [bindEnv]), u'.run_mkPath "x" _ w v (by simp [bindEnv])]
      | [.tok v], .cons h .nil => exact h.elim
    · exact .inr ⟨_, _, rfl, rfl, ha, rfl⟩
  · simp only [hp]
    obtain ⟨h1, h2⟩ := hg.addNonTerminal d.name d.typeDecl d'.typeDecl false
    simp only [← h2]
    exact .inr ⟨_, _, rfl, rfl, h1, rfl⟩

theorem lowerDeclareAll_alpha {l : List (AstNonTerminal X Ty)} {l' : List (AstNonTerminal X' Ty')}
    (hl : List.Forall₂ (AlphaDefinition u u') l l') :
    ∀ (s : Grammar X Ty × AMap String Nat) (s' : Grammar X' Ty' × AMap String Nat),
      AlphaState u u' s s' →
      AlikeRes (AlphaState u u') (lowerDeclareAll u.mkPath l s) (lowerDeclareAll u'.mkPath l' s') := by
  induction hl with
  | nil => intro s s' hs; exact .inr ⟨_, _, rfl, rfl, hs⟩
  | cons hd _ ih =>
    intro s s' hs
    simp only [lowerDeclareAll]
    exact (lowerDeclare_alpha hd s s' hs).bind fun a a' ha => ih a a' ha

theorem addSymbol_plain (nts ts : AMap String Nat) : ∀ (s : AstSymbol) (b : Option Name),
    (addSymbol nts ts b s).map (·.symbol) = match s.plain with
      | none => .error .repeatUnsupported
      | some (.nt n) => match nts.get? n with
        | none => .error (.undefinedNonTerminal n)
        | some i => .ok (.nonTerminal i)
      | some (.term t) => match ts.get? t with
        | none => .error (.unknownTerminal t)
        | some i => .ok (.terminal i)
  | .terminal t, b => by
    simp only [addSymbol, AstSymbol.plain]
    cases ts.get? t <;> rfl
  | .nonTerminal n, b => by
    simp only [addSymbol, AstSymbol.plain]
    cases nts.get? n <;> rfl
  | .repeat_ _ _, b => rfl
  | .named m s, b => by
    simp only [addSymbol, AstSymbol.plain]
    exact addSymbol_plain nts ts s _

theorem addSymbol_alpha (nts ts : AMap String Nat) {s s' : AstSymbol} (h : s.plain = s'.plain) :
    AlikeRes (fun b b' => b.symbol = b'.symbol) (addSymbol nts ts none s) (addSymbol nts ts none s') := by
  have h1 := addSymbol_plain nts ts s none
  have h2 := addSymbol_plain nts ts s' none
  rw [h, ← h2] at h1
  cases h3 : addSymbol nts ts none s with
  | error f =>
    cases h4 : addSymbol nts ts none s' with
    | error f' => rw [h3, h4] at h1; cases h1; exact .inl ⟨f, rfl, rfl⟩
    | ok b' => rw [h3, h4] at h1; cases h1
  | ok b =>
    cases h4 : addSymbol nts ts none s' with
    | error f' => rw [h3, h4] at h1; cases h1
    | ok b' => rw [h3, h4] at h1; exact .inr ⟨b, b', rfl, rfl, Except.ok.inj h1⟩

theorem lowerSymbols_alpha (nts ts : AMap String Nat) : ∀ {l l' : List AstSymbol},
    l.map (·.plain) = l'.map (·.plain) →
    AlikeRes (fun bs bs' => bs.map (·.symbol) = bs'.map (·.symbol) ∧
      List.Forall₂ (LowersSym nts ts) l bs ∧ List.Forall₂ (LowersSym nts ts) l' bs')
      (lowerSymbols nts ts l) (lowerSymbols nts ts l')
  | [], [], _ => .inr ⟨_, _, rfl, rfl, rfl, .nil, .nil⟩
  | s :: l, s' :: l', h => by
    simp only [List.map_cons, List.cons.injEq] at h
    simp only [lowerSymbols]
    have h1 := addSymbol_alpha nts ts h.1
    have h1' : AlikeRes (fun b b' => b.symbol = b'.symbol ∧ LowersSym nts ts s b ∧ LowersSym nts ts s' b')
        (addSymbol nts ts none s) (addSymbol nts ts none s') := by
      rcases h1 with h1 | ⟨b, b', e1, e2, h2⟩
      · exact .inl h1
      · exact .inr ⟨b, b', e1, e2, h2, addSymbol_lowers e1, addSymbol_lowers e2⟩
    refine h1'.bind ?_
    rintro b b' ⟨k1, k2, k3⟩
    refine (lowerSymbols_alpha nts ts h.2).bind ?_
    rintro bs bs' ⟨k4, k5, k6⟩
    exact .inr ⟨_, _, rfl, rfl, by simp [k1, k4], .cons k2 k5, .cons k3 k6⟩

theorem bindEnv_user {nts ts : AMap String Nat} {ss : List AstSymbol} {bs : List BoundSymbol}
    (h : List.Forall₂ (LowersSym nts ts) ss bs) (vs : List (BVal V)) :
    bindEnv bs vs = userEnv ss vs := by
  induction h generalizing vs with
  | nil => cases vs <;> rfl
  | cons h1 _ ih =>
    cases vs with
    | nil => rfl
    | cons v vs =>
      funext n
      simp only [bindEnv, userEnv, h1.boundName, ih]

theorem kinds_user {nts ts : AMap String Nat} {ss : List AstSymbol} {bs : List BoundSymbol}
    (h : List.Forall₂ (LowersSym nts ts) ss bs) : ∀ {vs : List (BVal V)},
    List.Forall₂ SymKind (bs.map (·.symbol)) vs →
    List.Forall₂ (fun s v => HasKind s.plain v) ss vs := by
  induction h with
  | nil => intro vs hv; cases hv; exact .nil
  | cons h1 _ ih =>
    intro vs hv
    cases hv with
    | @cons _ v _ vs h2 h3 =>
      refine .cons ?_ (ih h3)
      obtain ⟨_, h1 | h1⟩ := h1
      · obtain ⟨n, i, e1, _, e2⟩ := h1
        dsimp only at h2
        rw [e2] at h2
        rw [e1]
        cases v with
        | tok _ => exact h2.elim
        | nt _ => trivial
      · obtain ⟨n, i, e1, _, e2⟩ := h1
        dsimp only at h2
        rw [e2] at h2
        rw [e1]
        cases v with
        | tok _ => trivial
        | nt _ => exact h2.elim

theorem lowerProduction_alpha (nts ts : AMap String Nat) (name : String) {g : Grammar X Ty}
    {g' : Grammar X' Ty'} (hg : AlphaGrammar u u' g g') {p : AstProduction X} {p' : AstProduction X'}
    (hp : AlphaProduction u u' p p') :
    AlikeRes (AlphaGrammar u u') (lowerProduction nts ts name g p) (lowerProduction nts ts name g' p') := by
  simp only [lowerProduction]
  refine (lowerSymbols_alpha nts ts hp.symbols).bind ?_
  rintro bs bs' ⟨h1, h2, h3⟩
  cases nts.get? name with
  | none => exact .inl ⟨_, rfl, rfl⟩
  | some idx =>
    dsimp only
    have ha := hp.action
    unfold SameAction at ha
    cases e : p.action with
    | fallible x =>
      cases e' : p'.action with
      | fallible x' => exact .inl ⟨_, rfl, rfl⟩
      | infallible x' => rw [e, e'] at ha; exact ha.elim
    | infallible x =>
      cases e' : p'.action with
      | fallible x' => rw [e, e'] at ha; exact ha.elim
      | infallible x' =>
        rw [e, e'] at ha
        refine hg.addProduction idx ⟨h1, ?_⟩
        intro vals w hk
        dsimp only
        rw [bindEnv_user h2, bindEnv_user h3]
        exact ha vals w (kinds_user h2 hk)

theorem lowerProductions_alpha (nts ts : AMap String Nat) {l : List (AstNonTerminal X Ty)}
    {l' : List (AstNonTerminal X' Ty')} (hl : List.Forall₂ (AlphaDefinition u u') l l')
    {g : Grammar X Ty} {g' : Grammar X' Ty'} (hg : AlphaGrammar u u' g g') :
    AlikeRes (AlphaGrammar u u') (lowerProductions nts ts l g) (lowerProductions nts ts l' g') := by
  unfold lowerProductions
  refine AlikeRes.foldlM ?_ hl g g' hg
  intro s s' d d' hs hd
  refine AlikeRes.foldlM ?_ hd.productions s s' hs
  intro s s' p p' hs hp
  rw [← hd.name]
  exact lowerProduction_alpha nts ts d.name hs hp

theorem lower_alpha {l : List (AstNonTerminal X Ty)} {l' : List (AstNonTerminal X' Ty')}
    (hl : List.Forall₂ (AlphaDefinition u u') l l') {cs : List (Conversion Ty)}
    {cs' : List (Conversion Ty')} (hc : List.Forall₂ (fun c c' => c.from_ = c'.from_) cs cs') :
    AlikeRes (AlphaGrammar u u') (lower u.mkPath l cs) (lower u'.mkPath l' cs') := by
  unfold lower
  refine (lowerTerminals_alpha (u := u) (u' := u') hc _ _ ⟨⟨.nil, rfl⟩, rfl⟩).bind ?_
  rintro ⟨g0, ts⟩ ⟨g0', ts'⟩ ⟨h1, h2⟩
  dsimp only at h1 h2 ⊢
  subst h2
  refine (lowerDeclareAll_alpha hl _ _ ⟨h1, rfl⟩).bind ?_
  rintro ⟨g1, nts⟩ ⟨g1', nts'⟩ ⟨h3, h4⟩
  dsimp only at h3 h4 ⊢
  subst h4
  exact lowerProductions_alpha nts ts hl h3

end Parsegen
