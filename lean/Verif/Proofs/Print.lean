import Verif.Spec.Print
import Verif.Proofs.SyntaxPanics

/-! # Reading what was written -/

namespace Parsegen

variable {X Ty : Type} {S : Syn X Ty}

/-! ## The documented syntax is part of the actual one -/

theorem Documented.actual {skip : List TokTree} (h : Documented skip) : Actual skip := .inl h

section mono
variable {A B : List TokTree → Prop} (hAB : ∀ l, A l → B l)
include hAB

theorem SymbolAt.mono {ts : List TokTree} {s : AstSymbol} {rest : List TokTree}
    (h : SymbolAt S A ts s rest) : SymbolAt S B ts s rest := by
  induction h with
  | terminal => exact .terminal
  | nonTerminal hs hn => exact .nonTerminal (hAB _ hs) hn
  | named hs hx _ ih => exact .named (hAB _ hs) hx ih
  | namedMut hs hx _ ih => exact .namedMut (hAB _ hs) hx ih
  | repeated _ ih => exact .repeated ih

theorem SymbolsAt.mono {ts : List TokTree} {ss : List AstSymbol} {rest : List TokTree}
    (h : SymbolsAt S A ts ss rest) : SymbolsAt S B ts ss rest := by
  induction h with
  | nil => exact .nil
  | cons h _ ih => exact .cons (h.mono hAB) ih

theorem ProductionAt.mono {ts : List TokTree} {p : AstProduction X} {rest : List TokTree}
    (h : ProductionAt S A ts p rest) : ProductionAt S B ts p rest := by
  cases h with
  | infallible hs he => exact .infallible (hs.mono hAB) he
  | fallible hs he => exact .fallible (hs.mono hAB) he

theorem ProductionsIn.mono {ts : List TokTree} {ps : List (AstProduction X)}
    (h : ProductionsIn S A ts ps) : ProductionsIn S B ts ps := by
  induction h with
  | nil => exact .nil
  | cons h _ ih => exact .cons (h.mono hAB) ih
  | comma h _ ih => exact .comma (h.mono hAB) ih

theorem BodyAt.mono {ts : List TokTree} {ps : List (AstProduction X)} {rest : List TokTree}
    (h : BodyAt S A ts ps rest) : BodyAt S B ts ps rest := by
  cases h with
  | braces h => exact .braces (h.mono hAB)
  | single h => exact .single (h.mono hAB)

theorem ItemAt.mono {ts : List TokTree} {i : GrammarItem X Ty} {rest : List TokTree}
    (h : ItemAt S A ts i rest) : ItemAt S B ts i rest := by
  cases h with
  | typeDef h => exact .typeDef h
  | tokenEnum hn hp hc => exact .tokenEnum hn hp hc
  | privateDef hn ht hb => exact .privateDef hn ht (hb.mono hAB)
  | pubDef hn ht hb => exact .pubDef hn ht (hb.mono hAB)

theorem ItemsIn.mono {ts : List TokTree} {is : List (GrammarItem X Ty)}
    (h : ItemsIn S A ts is) : ItemsIn S B ts is := by
  induction h with
  | nil => exact .nil
  | cons h _ ih => exact .cons (h.mono hAB) ih

end mono

/-! ## Printing -/

section print
variable (P : Printer X Ty)

theorem PatternAt.path_of {pre rest : List TokTree} {p : String}
    (hi : ∃ x ts, pre = .ident x :: ts ∧ S.keyword x = false)
    (h : S.path (pre ++ rest) = some (p, rest)) : PatternAt S (pre ++ rest) (.path p) rest := by
  obtain ⟨x, ts, rfl, hx⟩ := hi
  exact .path hx h

variable {P}

mutual
theorem printPattern_at : ∀ (p : Pattern Ty), (∀ x ∈ patternAtoms p, P.Writes S x) →
    ∀ j rest, PatternAt S (printPattern P p ++ .punct ',' j :: rest) p (.punct ',' j :: rest)
  | .enum p ps, hn, j, rest => by
    rw [patternAtoms] at hn
    obtain ⟨⟨x, ts, e, hx⟩, h⟩ := hn (.path p) (by simp)
    replace h := h (.group .paren (printPatterns P ps) :: .punct ',' j :: rest) .paren
    rw [printPattern, List.append_assoc]
    rw [e] at h ⊢
    exact .enum hx h (printPatterns_in ps fun x h => hn x (List.mem_cons_of_mem _ h))
  | .struct p fs dots, hn, j, rest => by
    rw [patternAtoms] at hn
    obtain ⟨⟨x, ts, e, hx⟩, h⟩ := hn (.path p) (by simp)
    replace h := h (.group .brace (printFields P fs dots) :: .punct ',' j :: rest) .brace
    rw [printPattern, List.append_assoc]
    rw [e] at h ⊢
    exact .struct hx h (printFields_in fs dots fun x h => hn x (List.mem_cons_of_mem _ h))
  | .tuple ps, hn, j, rest => .tuple (printPatterns_in ps hn)
  | .path p, hn, j, rest => by
    obtain ⟨hi, h⟩ := hn (.path p) (by simp [patternAtoms])
    exact .path_of hi (h _ .comma)
  | .underscore, _, j, rest => .underscore
  | .dotDot, _, j, rest => .dotDot
  | .lit text, hn, j, rest => .lit (hn (.lit text) (by simp [patternAtoms]))
  | .choose ty, hn, j, rest => by
    have h := hn (.type ty) (by simp [patternAtoms]) (chr '>' :: .punct ',' j :: rest) .gt
    rw [printPattern, List.cons_append, List.append_assoc]
    exact .choose h
theorem printPatterns_in : ∀ (ps : List (Pattern Ty)), (∀ x ∈ patternsAtoms ps, P.Writes S x) →
    PatternsIn S (printPatterns P ps) ps
  | [], _ => .nil
  | p :: ps, hn => by
    rw [patternsAtoms] at hn
    exact .cons (printPattern_at p (fun x h => hn x (List.mem_append_left _ h)) _ _)
      (printPatterns_in ps (fun x h => hn x (List.mem_append_right _ h)))
theorem printFields_in : ∀ (fs : List (String × Pattern Ty)) (dots : Bool),
    (∀ x ∈ fieldsAtoms fs, P.Writes S x) → FieldsIn S (printFields P fs dots) fs dots
  | [], false, _ => .nil
  | [], true, _ => .dots
  | (x, p) :: fs, dots, hn => by
    rw [fieldsAtoms] at hn
    rw [printFields]
    exact .cons (hn (.name x) (by simp))
      (printPattern_at p (fun x h => hn x (List.mem_cons_of_mem _ (List.mem_append_left _ h))) _ _)
      (printFields_in fs dots (fun x h => hn x (List.mem_cons_of_mem _ (List.mem_append_right _ h))))
end

theorem printSymbol_at : ∀ (s : AstSymbol), (∀ x ∈ symbolAtoms s, P.Writes S x) → ∀ rest,
    SymbolAt S Documented (printSymbol s ++ rest) s rest := by
  intro s
  induction s with
  | terminal v => intro _ rest; exact .terminal
  | nonTerminal n =>
    intro hn rest; exact .nonTerminal (skip := []) rfl (hn (.name n) (by simp [symbolAtoms]))
  | repeat_ op s ih =>
    intro hn rest
    rw [printSymbol, List.append_assoc]
    exact .repeated (ih hn _)
  | named x s ih =>
    intro hn rest
    obtain ⟨m, x⟩ := x
    have hx : S.keyword x = false := hn (.name x) (by simp [symbolAtoms])
    have h := ih (fun y hy => hn y (List.mem_cons_of_mem _ hy)) (chr '>' :: rest)
    cases m with
    | true =>
      have := SymbolAt.namedMut (Skip := Documented) (skip := []) (j := false) (j' := false) rfl hx h
      simpa [printSymbol, chr] using this
    | false =>
      have := SymbolAt.named (Skip := Documented) (skip := []) (j := false) (j' := false) rfl hx h
      simpa [printSymbol, chr] using this

theorem printSymbols_at : ∀ (ss : List AstSymbol),
    (∀ x ∈ ss.flatMap symbolAtoms, P.Writes S x) → ∀ rest,
    SymbolsAt S Documented (ss.flatMap printSymbol ++ rest) ss rest := by
  intro ss
  induction ss with
  | nil => intro _ rest; exact .nil
  | cons s ss ih =>
    intro hn rest
    rw [List.flatMap_cons] at hn
    rw [List.flatMap_cons, List.append_assoc]
    exact .cons (printSymbol_at (P := P) s (fun x h => hn x (List.mem_append_left _ h)) _)
      (ih (fun x h => hn x (List.mem_append_right _ h)) rest)

theorem printProduction_at (p : AstProduction X)
    (hn : ∀ x ∈ productionAtoms p, P.Writes S x) (rest : List TokTree) :
    ProductionAt S Documented (printProduction P p ++ rest) p (chr ',' :: rest) := by
  obtain ⟨ss, a⟩ := p
  have hs := printSymbols_at (S := S) (P := P) ss (fun x h => hn x (List.mem_append_left _ h))
  have ha : ∀ x ∈ actionAtoms a, P.Writes S x := fun x h => hn x (List.mem_append_right _ h)
  cases a with
  | infallible e =>
    have := ProductionAt.infallible (S := S) (hs _) (j := false)
      (ha (.expr e) (by simp [actionAtoms]) false rest)
    simpa [printProduction, printAction, arrow, chr] using this
  | fallible e =>
    have := ProductionAt.fallible (S := S) (hs _) (j := false) (j' := false)
      (ha (.expr e) (by simp [actionAtoms]) false rest)
    simpa [printProduction, printAction, arrow, chr] using this

theorem printProductions_in : ∀ (ps : List (AstProduction X)),
    (∀ x ∈ ps.flatMap productionAtoms, P.Writes S x) →
    ProductionsIn S Documented (ps.flatMap (printProduction P)) ps := by
  intro ps
  induction ps with
  | nil => intro _; exact .nil
  | cons p ps ih =>
    intro hn
    rw [List.flatMap_cons] at hn
    rw [List.flatMap_cons]
    exact .comma (printProduction_at p (fun x h => hn x (List.mem_append_left _ h)) _)
      (ih (fun x h => hn x (List.mem_append_right _ h)))

theorem printConversions_in : ∀ (cs : List (Conversion Ty)),
    (∀ x ∈ cs.flatMap fun c => patternAtoms c.to, P.Writes S x) →
    ConversionsIn S (cs.flatMap fun c => strTok c.from_ :: (arrow ++ printPattern P c.to ++ [chr ',']))
      cs := by
  intro cs
  induction cs with
  | nil => intro _; exact .nil
  | cons c cs ih =>
    intro hn
    rw [List.flatMap_cons] at hn
    rw [List.flatMap_cons]
    have h := ConversionAt.mk (text := "\"" ++ c.from_ ++ "\"") (v := c.from_) (j := false)
      (printPattern_at (P := P) c.to (fun x h => hn x (List.mem_append_left _ h)) false
        (cs.flatMap fun c => strTok c.from_ :: (arrow ++ printPattern P c.to ++ [chr ','])))
    refine .cons (c := c) (j := false) ?_ (ih (fun x h => hn x (List.mem_append_right _ h)))
    simpa [strTok, arrow, chr] using h

theorem printParams_at (as : List String) (rest : List TokTree) :
    ParamsAt (printParams as ++ rest) as rest := by
  have key : ∀ (as : List String) (r : List TokTree),
      LifetimesAt ((as.flatMap fun a => [TokTree.lifetime a, chr ',']) ++ r) as r := by
    intro as r
    induction as with
    | nil => exact .nil
    | cons a as ih => exact .comma (j := false) ih
  cases as with
  | nil => exact .none
  | cons a as =>
    rw [printParams, List.append_assoc]
    · exact .some (j := false) (j' := false) (key (a :: as) (chr '>' :: rest))
    · simp

theorem printItem_at (i : GrammarItem X Ty) (hn : ∀ x ∈ itemAtoms i, P.Writes S x)
    (rest : List TokTree) : ItemAt S Documented (printItem P i ++ rest) i rest := by
  cases i with
  | typeDef ty =>
    have := ItemAt.typeDef (S := S) (Skip := Documented) (j := false)
      (hn (.type ty) (by simp [itemAtoms]) (chr ';' :: rest) .semi)
    simpa [printItem, chr] using this
  | tokenEnum t =>
    obtain ⟨name, as, cs⟩ := t
    simp only [itemAtoms] at hn
    rw [printItem, List.cons_append, List.cons_append, List.append_assoc]
    exact .tokenEnum (hn (.name name) (by simp)) (printParams_at as _)
      (printConversions_in cs (fun x h => hn x (List.mem_cons_of_mem _ h)))
  | nonTerminal d =>
    obtain ⟨pub, name, ty, ps⟩ := d
    simp only [itemAtoms] at hn
    have hb := BodyAt.braces (rest := rest) (j := false)
      (printProductions_in (P := P) ps
        (fun x h => hn x (List.mem_cons_of_mem _ (List.mem_cons_of_mem _ h))))
    have ht := hn (.type ty) (by simp) (chr '=' :: .group .brace (ps.flatMap (printProduction P)) ::
      chr ';' :: rest) .eq
    have hx : S.keyword name = false := hn (.name name) (by simp)
    cases pub with
    | true =>
      have := ItemAt.pubDef (j := false) hx ht hb
      simpa [printItem, chr] using this
    | false =>
      have := ItemAt.privateDef (j := false) hx ht hb
      simpa [printItem, chr] using this

theorem printItems_in (is : List (GrammarItem X Ty))
    (hn : ∀ i ∈ is, ∀ x ∈ itemAtoms i, P.Writes S x) :
    ItemsIn S Documented (printItems P is) is := by
  induction is with
  | nil => exact .nil
  | cons i is ih =>
    rw [printItems, List.flatMap_cons]
    exact .cons (printItem_at i (hn i (by simp)) _) (ih fun i hi => hn i (List.mem_cons_of_mem _ hi))

end print

end Parsegen
