import Verif.Proofs.Idents
import Verif.Props.Entries

/-! # C65: raw identifiers -/

namespace Parsegen

variable {X Ty : Type} [DecidableEq Ty]

/-- The strings `Ident::new` can panic with: the name of a `pub` definition, and the name of the first
token function. -/
def BadIdent (U : IdentChars) (lc : String → String) (items : List (GrammarItem X Ty)) (s : String) :
    Prop :=
  U.isIdent s = false ∧ ((∃ d ∈ itemNonTerminals items, d.isPub = true ∧ d.name = s) ∨
    ∃ t ∈ itemTokenEnums items, s = lc t.typeName ++ "_terminal_idx")

theorem emitMacroI_checks (U : IdentChars) (h : HashOrder) (lc : String → String)
    (mkPath : String → X) (items : List (GrammarItem X Ty))
    (hsz : loweredCount (itemNonTerminals items) ≤ 4294967296) :
    Checks (BadIdent U lc items) (emitMacroI U h lc mkPath items) (emitMacro h lc mkPath items) := by
  unfold emitMacroI emitMacro
  refine (Checks.plainly _).bind fun r hr => ?_
  obtain ⟨nts, t⟩ := r
  obtain ⟨rfl, e2, _⟩ := (macroItems_iff items nts t).1 hr
  refine Checks.fixed ?_ ?_
  · intro s hs
    obtain ⟨_, _, rfl⟩ := List.mem_map.1 hs
    exact IdentChars.isIdent_ascii (by decide)
  refine (Checks.plainly _).bind fun g hg => ?_
  refine emitParserI_checks U h lc g t fun s hs hB => ⟨hs, ?_⟩
  rcases hB with rfl | ⟨a, ha, e, he, n, hn, rfl⟩
  · exact .inr ⟨t, by rw [e2]; simp, rfl⟩
  · left
    obtain ⟨nts, ts, hl⟩ := lower_ok (by rw [← loweredCount_eq]; exact hsz) hg
    obtain ⟨a', ha', has⟩ := generateAutomaton_spec hl.wf (generateFirstTable_ok hl.wf h) h
    rw [ha] at ha'; cases ha'
    have hp : g.isPublic e.1 := by
      rw [← has.ent_dom, AMap.get?_isSome_iff]
      exact List.mem_map_of_mem he
    have h1 : (n.name, n.isPublic, n.returnTy) ∈
        g.nonTerminals.map (fun n => (n.name, n.isPublic, n.returnTy)) :=
      List.mem_map_of_mem (List.mem_of_getElem? hn)
    rw [(c24_productions hsz hg).2.1, List.mem_flatMap] at h1
    obtain ⟨d, hd, h2⟩ := h1
    have hpn : n.isPublic = true := by
      unfold Grammar.isPublic at hp
      simpa [hn] using hp
    cases hdp : d.isPub with
    | true =>
      simp only [hdp, if_true, List.mem_cons, List.not_mem_nil, or_false, Prod.mk.injEq, hpn] at h2
      rcases h2 with ⟨_, h2, _⟩ | ⟨h2, _⟩
      · cases h2
      · exact ⟨d, hd, hdp, h2.symm⟩
    | false =>
      simp [hdp, hpn] at h2

/-- **C65.** Where every name is an identifier or a raw identifier, the macro accepts its input exactly
if it would do so without looking at the form of the names, no `pub` definition has a raw name and
neither has the token type.  The emitted module is then the same.  All other names - of definitions
that are not `pub`, of binders, in patterns - may be raw. -/
theorem c65_accepts {U : IdentChars} {lc : String → String} (hlc : Lowercase U lc) (h : HashOrder)
    (mkPath : String → X) {items : List (GrammarItem X Ty)}
    (hsz : loweredCount (itemNonTerminals items) ≤ 4294967296)
    (hd : ∀ d ∈ itemNonTerminals items, IsName U d.name)
    (ht : ∀ t ∈ itemTokenEnums items, IsName U t.typeName) (m : EModule X Ty) :
    emitMacroI U h lc mkPath items = .ok m ↔
      emitMacro h lc mkPath items = .ok m ∧
      (∀ d ∈ itemNonTerminals items, d.isPub = true → ¬ IsRaw U d.name) ∧
      ∀ t ∈ itemTokenEnums items, ¬ IsRaw U t.typeName := by
  have hc := emitMacroI_checks U h lc mkPath items hsz
  constructor
  · intro he
    rw [he] at hc
    have hm : emitMacro h lc mkPath items = .ok m := by
      generalize emitMacro h lc mkPath items = d at hc
      cases hc; rfl
    refine ⟨hm, ?_⟩
    unfold emitMacroI at he
    obtain ⟨⟨nts, t⟩, h1, he⟩ := bind_ok he
    obtain ⟨_, _, he⟩ := bind_ok he
    obtain ⟨g, hg, hp⟩ := bind_ok he
    have h1 : macroItems items = .ok (nts, t) := by
      cases hx : macroItems items with
      | ok r => rw [hx] at h1; cases h1; rfl
      | error => rw [hx] at h1; cases h1
    have hg : lower mkPath nts t.conversions = .ok g := by
      cases hx : lower mkPath nts t.conversions with
      | ok r => rw [hx] at hg; cases hg; rfl
      | error => rw [hx] at hg; cases hg
    obtain ⟨rfl, e2, _⟩ := (macroItems_iff items nts t).1 h1
    obtain ⟨h2, h3⟩ := emitParserI_ok hp
    constructor
    · intro d hd1 hp hr
      obtain ⟨r, _, g', k1, k2, k3, k4⟩ := (emitMacro_rel h lc mkPath items).left hm
      have hn := (entries_names hsz k1 k3).symm.subset
        (List.mem_map_of_mem (f := (·.name)) (List.mem_filter.2 ⟨hd1, by simpa using hp⟩))
      obtain ⟨ep, hep, hn⟩ := List.mem_map.1 hn
      obtain ⟨i, hi⟩ := List.getElem?_of_mem hep
      obtain ⟨s, hs, hrel⟩ := forall₂_getElem?' k4.structs hi
      have := h3 s (List.mem_of_getElem? hs)
      rw [hrel.name, hn, IdentChars.not_hash hr.hash] at this
      cases this
    · intro t' ht1 hr
      rw [e2, List.mem_singleton] at ht1
      subst ht1
      have h4 : '#' ∈ (lc t'.typeName ++ "_terminal_idx").toList := by
        rw [String.toList_append]
        exact List.mem_append_left _ (hlc.hash _ hr.hash)
      rw [IdentChars.not_hash h4] at h2
      cases h2
  · rintro ⟨hm, h1, h2⟩
    rw [hm] at hc
    generalize emitMacroI U h lc mkPath items = c at hc
    cases hc with
    | ok => rfl
    | ident s d hB =>
      exfalso
      obtain ⟨hs, ⟨d, hd1, hp, rfl⟩ | ⟨t, ht1, rfl⟩⟩ := hB
      · rcases hd d hd1 with h3 | h3
        · rw [hs] at h3; cases h3
        · exact h1 d hd1 hp h3
      · rcases ht t ht1 with h3 | h3
        · rw [isIdent_suffix (hlc.ident _ h3)] at hs; cases hs
        · exact h2 t ht1 h3

/-- **C65**, panics: if `Ident::new` panics then with the raw name of a `pub` definition, or with a name
made from the raw name of the token type.  All other panics are those of the macro described
elsewhere, and if there is one of those the macro does not accept the input. -/
theorem c65_panics {U : IdentChars} {lc : String → String} (hlc : Lowercase U lc) (h : HashOrder)
    (mkPath : String → X) {items : List (GrammarItem X Ty)}
    (hsz : loweredCount (itemNonTerminals items) ≤ 4294967296)
    (hd : ∀ d ∈ itemNonTerminals items, IsName U d.name)
    (ht : ∀ t ∈ itemTokenEnums items, IsName U t.typeName) :
    (∀ s, emitMacroI U h lc mkPath items = .error (.ident s) →
      (∃ d ∈ itemNonTerminals items, d.isPub = true ∧ IsRaw U d.name ∧ s = d.name) ∨
      ∃ t ∈ itemTokenEnums items, IsRaw U t.typeName ∧ s = lc t.typeName ++ "_terminal_idx") ∧
    (∀ f, emitMacroI U h lc mkPath items = .error (.gen f) → emitMacro h lc mkPath items = .error f) ∧
    (∀ f, emitMacro h lc mkPath items = .error f →
      emitMacroI U h lc mkPath items = .error (.gen f) ∨
      ∃ s, emitMacroI U h lc mkPath items = .error (.ident s)) := by
  have hc := emitMacroI_checks U h lc mkPath items hsz
  generalize emitMacroI U h lc mkPath items = c at hc
  generalize emitMacro h lc mkPath items = d at hc
  cases hc with
  | ok => simp
  | gen => simp
  | ident s d hB =>
    refine ⟨?_, by simp, by simp⟩
    intro s' e
    cases e
    obtain ⟨hs, ⟨d, hd1, hp, rfl⟩ | ⟨t, ht1, rfl⟩⟩ := hB
    · rcases hd d hd1 with h3 | h3
      · rw [hs] at h3; cases h3
      · exact .inl ⟨d, hd1, hp, h3, rfl⟩
    · rcases ht t ht1 with h3 | h3
      · rw [isIdent_suffix (hlc.ident _ h3)] at hs; cases hs
      · exact .inr ⟨t, ht1, h3, rfl⟩

namespace Examples

/-- `to_lowercase` on ASCII characters. -/
def asciiLower (s : String) : String := String.ofList (s.toList.map Char.toLower)

theorem toLower_class (c : Char) :
    (c.isAlpha = true → c.toLower.isAlpha = true) ∧ (c.isAlpha = false → c.toLower = c) := by
  by_cases h : c.val ≥ 'A'.val ∧ c.val ≤ 'Z'.val
  · have h1 : c.val.toNat ≥ 65 := UInt32.le_iff_toNat_le.1 h.1
    have h2 : c.val.toNat ≤ 90 := UInt32.le_iff_toNat_le.1 h.2
    have h3 : c.isUpper = true := by simp only [Char.isUpper, h.1, h.2, and_self, decide_true]
    refine ⟨fun _ => ?_, fun h4 => by simp [Char.isAlpha, h3] at h4⟩
    have h4 : c.toLower.val.toNat = c.val.toNat + 32 := by
      unfold Char.toLower
      rw [dif_pos h]
      show (c.val + 32).toNat = _
      rw [UInt32.toNat_add]
      have : (32 : UInt32).toNat = 32 := rfl
      omega
    have h5 : c.toLower.isLower = true := by
      simp only [Char.isLower, UInt32.le_iff_toNat_le, ge_iff_le, Bool.and_eq_true, decide_eq_true_eq]
      rw [h4]
      have e1 : 'a'.val.toNat = 97 := rfl
      have e2 : 'z'.val.toNat = 122 := rfl
      constructor <;> omega
    simp [Char.isAlpha, h5]
  · have : c.toLower = c := by
      unfold Char.toLower
      rw [dif_neg h]
    rw [this]
    exact ⟨id, fun _ => rfl⟩

theorem asciiLower_ok : Lowercase asciiIdent asciiLower where
  ident s h := by
    unfold IdentChars.isIdent asciiLower at *
    rw [String.toList_ofList]
    cases hl : s.toList with
    | nil => rw [hl] at h; cases h
    | cons c cs =>
      rw [hl] at h
      simp only [asciiIdent, Bool.and_eq_true, Bool.or_eq_true, beq_iff_eq, List.all_eq_true,
        List.map_cons, List.mem_map, forall_exists_index, and_imp, forall_apply_eq_imp_iff₂,
        Char.isAlphanum] at h ⊢
      refine ⟨?_, fun x hx => ?_⟩
      · rcases h.1 with h1 | rfl
        · exact .inl ((toLower_class _).1 h1)
        · exact .inr (by decide)
      · rcases h.2 x hx with (h1 | h1) | rfl
        · exact .inl (.inl ((toLower_class _).1 h1))
        · cases ha : x.isAlpha with
          | true => exact .inl (.inl ((toLower_class _).1 ha))
          | false => rw [(toLower_class _).2 ha]; exact .inl (.inr h1)
        · exact .inr (by decide)
  hash s h := by
    unfold asciiLower
    rw [String.toList_ofList]
    exact List.mem_map.2 ⟨'#', h, by decide⟩

/-- A grammar where a definition, a binder and the token type have names given by the caller:
```
enum #tok { "n" => Tok::Num(<u64>) }
pub #pub: u64 = { <#x:#priv> => x }
#priv: u64 = { <n:"n"> => n }
``` -/
def rawItems (tok pub priv x : String) : List (GrammarItem Unit String) :=
  [ .tokenEnum { typeName := tok, conversions := [⟨"n", .enum "Tok::Num" [.choose "u64"]⟩] },
    .nonTerminal ⟨true, pub, "u64", [⟨[.named ⟨false, x⟩ (.nonTerminal priv)], .infallible ()⟩]⟩,
    .nonTerminal ⟨false, priv, "u64", [⟨[.named ⟨false, "n"⟩ (.terminal "n")], .infallible ()⟩]⟩ ]

set_option maxRecDepth 10000 in
/-- A binder and a definition that is not `pub` may be raw. -/
example : (emitMacroI asciiIdent .insertion asciiLower (fun _ => ())
    (rawItems "Tok" "Expr" "r#type" "r#fn")).isOk = true := by decide +kernel

set_option maxRecDepth 10000 in
theorem raw_plain (tok pub : String) (h : tok ∈ ["Tok", "r#Tok"] ∧ pub ∈ ["Expr", "r#Expr"]) :
    (emitMacro .insertion asciiLower (fun _ => ()) (rawItems tok pub "Num" "x")).isOk = true := by
  obtain ⟨h1, h2⟩ := h
  simp only [List.mem_cons, List.not_mem_nil, or_false] at h1 h2
  rcases h1 with rfl | rfl <;> rcases h2 with rfl | rfl <;> decide +kernel

theorem raw_names {tok pub : String} (h : tok ∈ ["Tok", "r#Tok"] ∧ pub ∈ ["Expr", "r#Expr"]) :
    (∀ d ∈ itemNonTerminals (rawItems tok pub "Num" "x"), IsName asciiIdent d.name) ∧
    ∀ t ∈ itemTokenEnums (rawItems tok pub "Num" "x"), IsName asciiIdent t.typeName := by
  obtain ⟨h1, h2⟩ := h
  simp only [List.mem_cons, List.not_mem_nil, or_false] at h1 h2
  constructor
  · intro d hd
    simp only [rawItems, itemNonTerminals, List.filterMap_cons, List.filterMap_nil, List.mem_cons,
      List.not_mem_nil, or_false] at hd
    rcases hd with rfl | rfl
    · rcases h2 with rfl | rfl
      · exact .inl (by decide)
      · exact .inr ⟨"Expr", by decide, by decide⟩
    · exact .inl (by decide)
  · intro t ht
    simp only [rawItems, itemTokenEnums, List.filterMap_cons, List.filterMap_nil, List.mem_cons,
      List.not_mem_nil, or_false] at ht
    subst ht
    rcases h1 with rfl | rfl
    · exact .inl (by decide)
    · exact .inr ⟨"Tok", by decide, by decide⟩

/-- The hypotheses of `c65_accepts`: with a raw name of the token type, or of the `pub` definition, the
macro does not accept, although nothing else is wrong. -/
theorem c65_raw : ∀ m,
    emitMacroI asciiIdent .insertion asciiLower (fun _ => ()) (rawItems "r#Tok" "Expr" "Num" "x") ≠ .ok m ∧
    emitMacroI asciiIdent .insertion asciiLower (fun _ => ()) (rawItems "Tok" "r#Expr" "Num" "x") ≠ .ok m := by
  intro m
  constructor
  · intro h
    have hn := raw_names (tok := "r#Tok") (pub := "Expr") (by simp)
    exact ((c65_accepts asciiLower_ok _ _ (by decide) hn.1 hn.2 m).1 h).2.2
      { typeName := "r#Tok", conversions := [⟨"n", .enum "Tok::Num" [.choose "u64"]⟩] }
      (by simp [rawItems, itemTokenEnums]) ⟨"Tok", by decide, by decide⟩
  · intro h
    have hn := raw_names (tok := "Tok") (pub := "r#Expr") (by simp)
    exact ((c65_accepts asciiLower_ok _ _ (by decide) hn.1 hn.2 m).1 h).2.1
      ⟨true, "r#Expr", "u64", [⟨[.named ⟨false, "x"⟩ (.nonTerminal "Num")], .infallible ()⟩]⟩
      (by simp [rawItems, itemNonTerminals]) rfl ⟨"Expr", by decide, by decide⟩

end Examples

end Parsegen
