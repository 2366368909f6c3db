import Verif.Props.Lower
import Verif.Props.Run
import Verif.Proofs.Order

/-! # C15: the emitted entry points -/

namespace Parsegen

variable {X Ty V W Tok E : Type} [DecidableEq Ty] {P : Compiled X Ty V W Tok}

theorem filter_range_map {α β : Type} (p : α → Bool) (f : α → β) (l : List α) :
    ((List.range l.length).filter fun i => (l[i]?).any p).map (fun i => (l[i]?).map f) =
      (l.filter p).map (fun a => some (f a)) := by
  induction l using List.reverseRecOn with
  | nil => rfl
  | append_singleton l a ih =>
    rw [List.length_append, List.length_singleton, List.range_succ, List.filter_append,
      List.map_append, List.filter_append, List.map_append, ← ih]
    congr 1
    · have : (List.range l.length).filter (fun i => ((l ++ [a])[i]?).any p) =
          (List.range l.length).filter (fun i => (l[i]?).any p) := by
        refine List.filter_congr fun i hi => ?_
        rw [List.getElem?_append_left (by simpa using hi)]
      rw [this]
      refine List.map_congr_left fun i hi => ?_
      rw [List.getElem?_append_left (by simpa using (List.mem_filter.1 hi).1)]
    · simp only [List.filter_cons, List.filter_nil, List.getElem?_concat_length, Option.any_some]
      cases p a <;> simp

/-- The names of the emitted parsers. -/
theorem entries_names {order : HashOrder} {mkPath : String → X} {defs : List (AstNonTerminal X Ty)}
    {convs : List (Conversion Ty)} {g : Grammar X Ty} {gen : Generated X}
    (hsz : loweredCount defs ≤ 4294967296) (hlow : lower mkPath defs convs = .ok g)
    (hgen : generateParser order g = .ok gen) :
    (gen.entries.map (·.name)).Perm ((defs.filter (·.isPub)).map (·.name)) := by
  obtain ⟨nts, ts, hl⟩ := lower_ok (by rw [← loweredCount_eq]; exact hsz) hlow
  obtain ⟨a, g', T, hst⟩ := generateParser_ok hgen
  obtain ⟨a', ha', has⟩ := generateAutomaton_spec hl.wf (generateFirstTable_ok hl.wf order) order
  rw [hst.auto] at ha'; cases ha'
  have hs := (generateSemanticActionTable_ok hst.sem).1
  -- the names of the entries
  have h1 : gen.entries.map (fun ep => some ep.name) =
      (order.iter a.entries).map (fun e => (g.nonTerminals[e.1]?).map (·.name)) := by
    have key : ∀ {l : List (Nat × Nat)} {es : List EntryPoint},
        List.Forall₂ (fun e ep => entryPoint g' (semanticActionVariants g) e = .ok ep) l es →
        es.map (fun ep => some ep.name) = l.map (fun e => (g.nonTerminals[e.1]?).map (·.name)) := by
      intro l es h
      induction h with
      | nil => rfl
      | @cons e ep _ _ he _ ih =>
        rw [List.map_cons, List.map_cons, ih]
        congr 1
        unfold entryPoint at he
        obtain ⟨st, _, he⟩ := Except.bind_eq_ok.1 he
        split at he
        · next n p k hn _ _ =>
          cases he
          obtain ⟨n0, e1, e2, _⟩ := hs.nt' hn
          rw [e1]; simp [e2]
        · cases he
    exact key hst.entries
  have h2 : (a.entries.map (·.1)).Perm
      ((List.range g.nonTerminals.length).filter fun i => (g.nonTerminals[i]?).any (·.isPublic)) := by
    refine (List.perm_ext_iff_of_nodup has.ent_nodup (List.nodup_range.filter _)).2 fun E => ?_
    rw [← AMap.get?_isSome_iff, has.ent_dom, List.mem_filter, List.mem_range]
    unfold Grammar.isPublic
    cases hE : g.nonTerminals[E]? with
    | none => simp
    | some n => simp [(List.getElem?_eq_some_iff.1 hE).1]
  have h3 : (gen.entries.map (fun ep => some ep.name)).Perm
      ((g.nonTerminals.filter (·.isPublic)).map (fun n => some n.name)) := by
    rw [h1, ← filter_range_map]
    have := ((order.perm a.entries).map (·.1)).trans h2
    have := this.map (fun i => (g.nonTerminals[i]?).map (·.name))
    rwa [List.map_map] at this
  have h4 : (g.nonTerminals.filter (·.isPublic)).map (fun n => some n.name) =
      (defs.filter (·.isPub)).map (fun d => some d.name) := by
    have h5 := (c24_productions hsz hlow).2.1
    have h6 := congrArg (fun l => (l.filter (fun x => x.2.1)).map (fun x => some x.1)) h5
    simp only [List.filter_map, List.map_map, Function.comp_def] at h6
    rw [h6]
    clear * -
    induction defs with
    | nil => rfl
    | cons d ds ih =>
      rw [List.flatMap_cons, List.filter_append, List.map_append, ih]
      cases hd : d.isPub <;> simp [hd]
  rw [h4] at h3
  have := h3.map (fun o => o.getD "")
  simpa [List.map_map, Function.comp_def] using this

/-- **C15.** The macro emits exactly one parser for every `pub` definition, with the name of that
definition, and no others. -/
theorem c15_entries (P : Compiled X Ty V W Tok) (hsz : loweredCount P.defs ≤ 4294967296) :
    (P.gen.entries.map (·.name)).Perm ((P.defs.filter (·.isPub)).map (·.name)) := by
  obtain ⟨g, hlow, hgen, _⟩ := P.stages_ok
  exact entries_names hsz hlow hgen

set_option maxRecDepth 10000 in
/-- The program of sums has two `pub` definitions and two entry points. -/
example : (Examples.arith.gen.entries.map (·.name)).Perm ["Expr", "Term"] := by
  have h := c15_entries Examples.arith (by decide +kernel)
  have e : (Examples.arith.defs.filter (·.isPub)).map (·.name) = ["Expr", "Term"] := by
    decide +kernel
  rwa [e] at h

end Parsegen
