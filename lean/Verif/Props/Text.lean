import Verif.Props.Gen
/-!
# C60: the generated text is a TypeScript module
-/

namespace Packetc.Props
open Ast Check Gen WellFormed Js Module

/-- C60 as described: whatever the compiler writes is a TypeScript module with the types of the schema. -/
def C60_claim : Prop := ∀ (ast : AST) (e : Artifact), Compiled ast e → ∃ m, load e.code = some m ∧ Describes ast m

/-- If TypeScript accepts the text, it declares what the schema says. -/
theorem C60_describes {ast : AST} {e : Artifact} (hc : Compiled ast e) {m : TsModule} (hm : load e.code = some m) :
    Describes ast m ∧ m.className = e.name := by
  obtain ⟨ds, tds, fs, fs', R, -, rfl, -, -⟩ := compiled_load hc hm
  have hmem : ∀ td ∈ tds.map Prod.fst, ∃ n, td.name = n ∧ ((∃ vs, .decl n (.enum vs) ∈ ast ∧ td = .enum n vs.zipIdx) ∨
      ∃ gs gs' : List (Str × Unresolved), .decl n (.struct gs) ∈ ast ∧ gs'.Perm gs ∧ td = .interface n (gs'.map memberOf)) := by
    intro td htd
    obtain ⟨x, hx1, rfl⟩ := List.mem_map.1 htd
    obtain ⟨d, -, h1, -, -, h2⟩ := forall2_right R.entries x hx1
    refine ⟨d.1, h1, ?_⟩
    rcases h2 with h | ⟨gs, gs', h3, h4, h5, -⟩
    · exact Or.inl h
    · exact Or.inr ⟨gs, gs', h3, h4, h5⟩
  refine ⟨⟨⟨rfl, rfl⟩, ⟨R.exp, rfl⟩, ?_, fun n => ?_, fun n vs h => ?_, fun n ms h => ?_, ⟨fs, R.decl, R.perm.map _⟩, ⟨_, _, rfl⟩⟩, rfl⟩
  · show ((tds.map Prod.fst).map TsDecl.name).Nodup
    rw [R.declNames]
    exact R.complete.once
  · show n ∈ (tds.map Prod.fst).map TsDecl.name ↔ _
    rw [R.declNames]
    exact R.complete.exact n
  · obtain ⟨k, h1, ⟨us, h2, h3⟩ | ⟨gs, gs', -, -, h3⟩⟩ := hmem _ h
    · injection h3 with h4 h5
      exact ⟨us, h4 ▸ h2, h5⟩
    · cases h3
  · obtain ⟨k, h1, ⟨us, -, h3⟩ | ⟨gs, gs', h2, h4, h3⟩⟩ := hmem _ h
    · cases h3
    · injection h3 with h5 h6
      refine ⟨gs, h5 ▸ h2, ?_⟩
      rw [h6]
      exact h4.map _

/-- C60, what holds: for every schema with unproblematic names, the text written by the compiler is a TypeScript module with
the types of the schema. What is missing from the full statement (`C60_claim`): schemas with other names, for which it is false. -/
theorem C60_text_partial {ast : AST} {e : Artifact} (hc : Compiled ast e) (hp : PlainSchema ast) :
    ∃ m, load e.code = some m ∧ Describes ast m := by
  obtain ⟨m, hm⟩ := Option.ne_none_iff_exists'.1 (plain_usable hc hp).loads
  exact ⟨m, hm, (C60_describes hc hm).1⟩

example : ∃ e, Compiled exampleAst e ∧ PlainSchema exampleAst := by
  obtain ⟨e, h1, -⟩ := example_compiled
  exact ⟨e, h1, example_plain⟩

/-- C60, which names make the text invalid: if TypeScript accepts it, then no used type is called like a keyword or
predefined type, used structs have no repeated fields, and the export is not called like an import, has no field `write`,
and no field called like a keyword. -/
theorem C60_needs {ast : AST} {e : Artifact} (hc : Compiled ast e) (h : load e.code ≠ none) :
    Loadable ast ∧ e.name ≠ "Reader".toList ∧ e.name ≠ "Writer".toList ∧
      ∀ fs, .decl e.name (.struct fs) ∈ ast → ∀ f ∈ fs, f.1 ∉ reservedWords := by
  obtain ⟨m, hm⟩ := Option.ne_none_iff_exists'.1 h
  obtain ⟨ds, tds, fs, fs', R, hb, rfl, hl, hok⟩ := compiled_load hc hm
  unfold moduleOk at hok
  simp only [Bool.and_eq_true, Bool.not_eq_true', decide_eq_true_eq, decide_eq_false_iff_not, List.contains_eq_mem,
    List.all_eq_true] at hok
  obtain ⟨⟨⟨⟨⟨⟨⟨⟨⟨⟨⟨m1, m2⟩, m3⟩, m4⟩, m5⟩, m6⟩, m7⟩, m8⟩, m9⟩, m10⟩, m11⟩, m12⟩ := hok
  have huniq : ∀ gs, .decl e.name (.struct gs) ∈ ast → gs = fs := by
    intro gs hgs
    have := List.inj_on_of_nodup_map R.wf.unique (mem_decls.2 hgs) (mem_decls.2 R.decl) rfl
    have := (Prod.mk.inj this).2
    injection this
  unfold TsModule.loads at hl
  simp only [Bool.and_eq_true, decide_eq_true_eq, Bool.not_eq_true', List.all_eq_true, List.contains_eq_mem,
    decide_eq_false_iff_not] at hl
  obtain ⟨⟨⟨⟨⟨-, h6⟩, -⟩, -⟩, -⟩, h10⟩ := hl
  have hdecl : ∀ n t, Used ast n → .decl n t ∈ ast → n ≠ e.name → ∃ td ∈ tds.map Prod.fst, td.name = n := by
    intro n t hu hd hn
    have h1 := (R.complete.exact n).2 ⟨hu, R.noBuiltin n ⟨t, mem_decls.2 hd⟩, hn⟩
    rw [← R.declNames] at h1
    exact List.mem_map.1 h1
  refine ⟨⟨fun n gs hu hd => ?_, fun n t hu hd => ⟨?_, ?_⟩, fun n gs hx hd => ?_⟩, m4, m5, fun gs hd f hf => ?_⟩
  · by_cases hn : n = e.name
    · subst hn
      rw [huniq gs hd]
      refine (R.perm.map Prod.fst).nodup_iff.1 ?_
      rw [R.names]
      exact m6
    · obtain ⟨td, h1, h2⟩ := hdecl n _ hu hd hn
      obtain ⟨x, hx1, rfl⟩ := List.mem_map.1 h1
      obtain ⟨d, -, h3, -, -, h4⟩ := forall2_right R.entries x hx1
      have hdn : d.1 = n := by rw [← h3]; exact h2
      rw [hdn] at h4
      rcases h4 with ⟨vs, h5, -⟩ | ⟨ks, ks', h5, h7, h8, -⟩
      · have := List.inj_on_of_nodup_map R.wf.unique (mem_decls.2 hd) (mem_decls.2 h5) rfl
        cases (Prod.mk.inj this).2
      · have := List.inj_on_of_nodup_map R.wf.unique (mem_decls.2 hd) (mem_decls.2 h5) rfl
        obtain rfl : gs = ks := by
          have := (Prod.mk.inj this).2
          injection this
        have h9 := h6 _ h1
        rw [h8] at h9
        simp only [TsModule.declOk, Bool.and_eq_true, decide_eq_true_eq, List.map_map] at h9
        exact (h7.map Prod.fst).nodup_iff.1 h9.1.2
  · have := hb n t hu hd
    unfold bindable at this
    simp only [Bool.and_eq_true, Bool.not_eq_true', List.contains_eq_mem, decide_eq_false_iff_not] at this
    exact this.1
  · by_cases hn : n = e.name
    · subst hn
      exact m3
    · obtain ⟨td, h1, h2⟩ := hdecl n _ hu hd hn
      have h9 := h6 _ h1
      cases td with
      | interface k ms =>
        simp only [TsModule.declOk, Bool.and_eq_true, Bool.not_eq_true', List.contains_eq_mem, decide_eq_false_iff_not] at h9
        exact h2 ▸ h9.1.1
      | enum k vs =>
        simp only [TsModule.declOk, Bool.and_eq_true, Bool.not_eq_true', List.contains_eq_mem, decide_eq_false_iff_not] at h9
        exact h2 ▸ h9.1
  · have hn : n = e.name := by
      have : n ∈ exports ast := List.mem_filterMap.2 ⟨_, hx, rfl⟩
      rw [R.exp] at this
      exact List.mem_singleton.1 this
    subst hn
    rw [huniq gs hd]
    have := h10 (writeMethod (writeBody e.toExport)) (List.mem_cons_of_mem _ List.mem_cons_self)
    unfold TsModule.methodOk at this
    have := (Bool.and_eq_true_iff.1 this).2
    change (false || !(((fs'.map (paramOf e.name)).map TsMember.name).contains "write".toList)) = true at this
    rw [R.paramNames, ← R.names] at this
    simp only [Bool.false_or, List.contains_eq_mem, Bool.not_eq_true', decide_eq_false_iff_not] at this
    exact fun h => this ((R.perm.map Prod.fst).mem_iff.2 h)
  · rw [huniq gs hd] at hf
    refine m8 _ ?_
    show f.1 ∈ e.fields.map FieldOf.name
    rw [← R.names]
    exact List.mem_map_of_mem (R.perm.mem_iff.2 hf)

def writeFieldText : Str := "A: struct { write: uint8 }\nexport A".toList
def writeFieldAst : AST := [.decl "A".toList (.struct [("write".toList, ⟨"uint8".toList, false, false⟩)]), .export "A".toList]
def writeFieldExport : Artifact :=
  ⟨⟨"A".toList, [⟨"write".toList, "uint8".toList, .builtin .uint8, false, false⟩]⟩, exampleCode id writeFieldText⟩

theorem writeField_compiled : Compiled writeFieldAst writeFieldExport :=
  compiled_of (ord := id) (by decide +kernel) (fun _ => .refl _) rfl rfl

/-- A field called `write` gives a class in which a property and a method have the same name. -/
theorem C60_false : ¬ C60_claim := by
  intro h
  obtain ⟨m, hm, -⟩ := h _ _ writeField_compiled
  have := (C60_needs writeField_compiled (by rw [hm]; simp)).1.noWrite "A".toList [("write".toList, ⟨"uint8".toList, false, false⟩)]
    (by simp [writeFieldAst]) (by simp [writeFieldAst])
  exact this (by decide)

end Packetc.Props
