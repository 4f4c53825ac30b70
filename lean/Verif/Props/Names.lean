import Verif.Proof.JsVars
import Verif.Props.Text
import Verif.Props.Wire
/-!
# C80, C60, C44, C38: exactly which names give a usable class
-/

namespace Packetc.Props
open Ast Check Gen WellFormed Js Module

section
variable {ast : AST} {e : Artifact}

theorem export_name (hc : Compiled ast e) : .export e.name ∈ ast ∧ (∀ n, .export n ∈ ast → n = e.name) ∧ Used ast e.name ∧
    ∃ fs, .decl e.name (.struct fs) ∈ ast := by
  obtain ⟨ds, tds, fs, fs', R⟩ := compiled_run hc
  refine ⟨R.exported, fun n hn => ?_, R.used, fs, R.decl⟩
  have : n ∈ exports ast := List.mem_filterMap.2 ⟨_, hn, rfl⟩
  rw [R.exp] at this
  exact List.mem_singleton.1 this

theorem compiled_vars (hc : Compiled ast e) (hn : ∀ n fs, Used ast n → .decl n (.struct fs) ∈ ast → (fs.map Prod.fst).Nodup) :
    blockOk (readBody e.toExport) = true ∧ blockOk (writeBody e.toExport) = true ↔ VarsApart ast := by
  obtain ⟨env, text, r, hf, -, hp, -, ht, he⟩ := hc
  obtain ⟨h1, h2⟩ := vars_iff hf.1 (parsed_noBuiltinDecl hp) ht hn
  rw [← he, h1, h2]
  exact ⟨fun h => ⟨h.1, h.2⟩, fun h => ⟨h.1, h.2⟩⟩

/-- C60, exactly: TypeScript accepts the text if and only if the names in the schema are in order. -/
theorem C60_exact (hc : Compiled ast e) : load e.code ≠ none ↔ NamesOk ast := by
  obtain ⟨hx, hxu, hu, fs0, hd0⟩ := export_name hc
  constructor
  · intro h
    obtain ⟨hl, hR, hW, hres⟩ := C60_needs hc h
    have hok := (compiled_text hc h).1
    unfold moduleOk at hok
    simp only [Bool.and_eq_true] at hok
    refine ⟨hl, fun n hn => by rw [hxu n hn]; exact ⟨hR, hW⟩, fun n fs hn hd f hf => ?_, ?_⟩
    · rw [hxu n hn] at hd
      exact hres fs hd f hf
    · exact (compiled_vars hc hl.members).1 ⟨hok.1.1.1.2, hok.1.2⟩
  · rintro ⟨hl, hi, hpar, hv⟩
    refine compiled_loads hc ?_ hl
    obtain ⟨ds, tds, fs, fs', R⟩ := compiled_run hc
    obtain ⟨hb1, hb2⟩ := (compiled_vars hc hl.members).2 hv
    have hnames : ∀ n ∈ e.fields.map FieldOf.name, ∃ f ∈ fs, f.1 = n := by
      intro n hn
      rw [← R.names] at hn
      obtain ⟨f, hf, rfl⟩ := List.mem_map.1 hn
      exact ⟨f, R.perm.mem_iff.1 hf, rfl⟩
    unfold moduleOk
    simp only [Bool.and_eq_true, Bool.not_eq_true', decide_eq_true_eq, decide_eq_false_iff_not,
      List.contains_eq_mem, List.all_eq_true]
    refine ⟨⟨⟨⟨⟨⟨⟨⟨⟨⟨⟨R.ident.1, (hl.typeNames _ _ hu R.decl).1⟩, (hl.typeNames _ _ hu R.decl).2⟩, (hi _ hx).1⟩, (hi _ hx).2⟩, ?_⟩,
      R.ident.2⟩, fun n hn => ?_⟩, hb1⟩, data_free _⟩, hb2⟩, buffer_free _⟩
    · rw [← R.names]
      exact (R.perm.map Prod.fst).nodup_iff.2 (hl.members _ _ hu R.decl)
    · obtain ⟨f, hf, rfl⟩ := hnames n hn
      exact hpar _ _ hx R.decl f hf

/-- C60, all together: the text is a module with the types of the schema if and only if the names are in order. -/
theorem C60_describes_iff (hc : Compiled ast e) : (∃ m, load e.code = some m ∧ Describes ast m) ↔ NamesOk ast := by
  rw [← C60_exact hc]
  constructor
  · rintro ⟨m, h, -⟩
    rw [h]
    simp
  · intro h
    obtain ⟨m, hm⟩ := Option.ne_none_iff_exists'.1 h
    exact ⟨m, hm, (C60_describes hc hm).1⟩

/-- C60: it does not depend on the run. -/
theorem C60_every_run {e' : Artifact} (hc : Compiled ast e) (hc' : Compiled ast e') : load e.code = none ↔ load e'.code = none := by
  rw [← not_iff_not]
  exact (C60_exact hc).trans (C60_exact hc').symm

/-- C38, exactly: if the text is readable and fields of used structs differ, then no block declares a variable twice if and
only if different fields have different variables. -/
theorem C38_exact (hc : Compiled ast e) {m : TsModule} (hm : parseText e.code = some m)
    (hn : ∀ n fs, Used ast n → .decl n (.struct fs) ∈ ast → (fs.map Prod.fst).Nodup) :
    (∀ f ∈ m.methods, blockOk f.body = true ∧ f.param.name ∉ letNames f.body) ↔ VarsApart ast := by
  obtain ⟨ds, tds, fs, fs', R⟩ := compiled_run hc
  have h3 := R.parses (R.bindableTypes hm)
  rw [hm] at h3
  injection h3 with h3
  subst h3
  rw [← compiled_vars hc hn]
  constructor
  · intro h
    exact ⟨(h _ List.mem_cons_self).1, (h _ (List.mem_cons_of_mem _ List.mem_cons_self)).1⟩
  · rintro ⟨h1, h2⟩ f hf
    rcases List.mem_cons.1 hf with rfl | hf
    · exact ⟨h1, data_free _⟩
    · rcases List.mem_singleton.1 hf with rfl
      exact ⟨h2, buffer_free _⟩

/-- C44, exactly. -/
theorem C44_exact (hc : Compiled ast e) : load e.code ≠ none ∧ ClassNameOk e.name ↔
    NamesOk ast ∧ ∀ n, .export n ∈ ast → ClassNameOk n := by
  obtain ⟨hx, hxu, -⟩ := export_name hc
  rw [C60_exact hc]
  exact and_congr_right fun _ => ⟨fun h n hn => by rw [hxu n hn]; exact h, fun h => h _ hx⟩

end

/-! ## C80 -/

abbrev QO (fs : List (FieldOf RType)) : Prop := (fs.map FieldOf.name).Nodup ∧ "__proto__".toList ∉ fs.map FieldOf.name

mutual
theorem ordinaryT_iff : (t : RType) → (OrdinaryT t ↔ AllT QO t)
  | .builtin _ => Iff.rfl
  | .enum _ => Iff.rfl
  | .struct fs => by
    show (fs.map FieldOf.name).Nodup ∧ OrdinaryFs fs ↔ QO fs ∧ AllFs QO fs
    rw [ordinaryFs_iff fs, and_assoc]
theorem ordinaryFs_iff : (fs : List (FieldOf RType)) → (OrdinaryFs fs ↔ "__proto__".toList ∉ fs.map FieldOf.name ∧ AllFs QO fs)
  | [] => by simp [OrdinaryFs, AllFs]
  | f :: fs => by
    show OrdinaryF f ∧ OrdinaryFs fs ↔ _ ∧ AllF QO f ∧ AllFs QO fs
    rw [ordinaryF_iff f, ordinaryFs_iff fs, List.map_cons, List.mem_cons, not_or]
    constructor
    · rintro ⟨⟨h1, h2⟩, h3, h4⟩
      exact ⟨⟨fun h => h1 h.symm, h3⟩, h2, h4⟩
    · rintro ⟨⟨h1, h3⟩, h2, h4⟩
      exact ⟨⟨fun h => h1 h.symm, h2⟩, h3, h4⟩
theorem ordinaryF_iff : (f : FieldOf RType) → (OrdinaryF f ↔ f.name ≠ "__proto__".toList ∧ AllF QO f)
  | ⟨n, _, t, _, _⟩ => by
    show n ≠ _ ∧ OrdinaryT t ↔ n ≠ _ ∧ AllT QO t
    rw [ordinaryT_iff t]
end

/-- A property of the field names of all structs, however they are ordered. -/
theorem compiled_all {ast : AST} {e : Artifact} (hc : Compiled ast e) {Q : List Str → Prop} (hperm : ∀ l m, l.Perm m → Q l → Q m) :
    AllT (fun fs => Q (fs.map FieldOf.name)) (.struct e.fields) ↔ ∀ n fs, Used ast n → .decl n (.struct fs) ∈ ast → Q (fs.map Prod.fst) := by
  obtain ⟨env, text, r, hfair, -, hp, -, ht, he⟩ := hc
  have hnb := parsed_noBuiltinDecl hp
  obtain ⟨c, hf, hex, hg, -, -, -⟩ := typeCheck_final hfair.1 hnb ht
  rw [he] at hg hex
  have h1 := final_all hf hnb (fun fs => Q (fs.map FieldOf.name)) _ _ _ _ (Nat.le_refl _) hg
  refine h1.trans ?_
  constructor
  · rintro h n fs ⟨x, hx, hr⟩ hd
    rw [hex] at hx
    cases hx
    obtain ⟨_, rfs, p, h2, -⟩ := hf.struct n fs (mem_decls.2 hd)
    obtain ⟨fs', rfs', h3, h4, h5⟩ := final_struct hf hnb h2 hd
    cases h4
    have := h n rfs n hr h2
    rw [forall2_names h5] at this
    exact hperm _ _ (h3.map _) this
  · intro h n rfs i hr hj
    rcases final_entry hf hj with ⟨-, b, h2, -⟩ | ⟨vs, e, -, h2⟩ | ⟨fs, fs', rfs', hd, h3, h2, h4⟩
    · cases h2
    · cases h2
    · cases h2
      rw [forall2_names h4]
      exact hperm _ _ (h3.map _).symm (h n fs ⟨_, hex, hr⟩ hd)

/-- C80: the class can be used if and only if the names in the schema are in order. -/
theorem C80_usable_iff {ast : AST} {e : Artifact} (hc : Compiled ast e) : Usable e ↔ UsableSchema ast := by
  obtain ⟨hx, hxu, hu, -⟩ := export_name hc
  have hord := compiled_all hc (Q := fun l => l.Nodup ∧ "__proto__".toList ∉ l)
    (fun l m h hl => ⟨h.nodup_iff.1 hl.1, fun hm => hl.2 (h.mem_iff.2 hm)⟩)
  obtain ⟨ds, tds, fs, fs', R⟩ := compiled_run hc
  have hmem : ∀ n, n ∈ e.fields.map FieldOf.name ↔ n ∈ fs.map Prod.fst := by
    intro n
    rw [← R.names]
    exact (R.perm.map Prod.fst).mem_iff
  have huniq : ∀ gs, .decl e.name (.struct gs) ∈ ast → gs = fs := by
    intro gs hgs
    have := List.inj_on_of_nodup_map R.wf.unique (mem_decls.2 hgs) (mem_decls.2 R.decl) rfl
    have := (Prod.mk.inj this).2
    injection this
  have htop : TopNamesOk e.fields ↔ ∀ n gs, .export n ∈ ast → .decl n (.struct gs) ∈ ast → ∀ f ∈ gs,
      f.1 ∉ readOnlyNames ∧ f.1 ∉ poisonedNames := by
    constructor
    · intro h n gs hn hd f hf
      rw [hxu n hn] at hd
      rw [huniq gs hd] at hf
      obtain ⟨g, hg, h1⟩ := List.mem_map.1 ((hmem f.1).2 (List.mem_map_of_mem hf))
      rw [← h1]
      exact h g hg
    · intro h g hg
      obtain ⟨f, hf, h1⟩ := List.mem_map.1 ((hmem g.name).1 (List.mem_map_of_mem hg))
      rw [← h1]
      exact h _ fs hx R.decl f hf
  constructor
  · rintro ⟨h1, h2, h3, h4⟩
    have hn := (C60_exact hc).1 h1
    have h5 := (ordinaryFs_iff _).1 h3
    refine ⟨hn, fun n h => by rw [hxu n h]; exact h2, fun n gs hun hd => ?_, htop.1 h4⟩
    refine (hord.1 ⟨⟨?_, h5.1⟩, h5.2⟩ n gs hun hd).2
    rw [← R.names]
    exact (R.perm.map Prod.fst).nodup_iff.2 (hn.loadable.members _ _ hu R.decl)
  · rintro ⟨hn, h2, h3, h4⟩
    have h5 := hord.2 fun n gs hun hd => ⟨hn.loadable.members n gs hun hd, h3 n gs hun hd⟩
    exact ⟨(C60_exact hc).2 hn, h2 _ hx, (ordinaryFs_iff _).2 ⟨h5.1.2, h5.2⟩, htop.2 h4⟩

/-- C80: all runs of the compiler agree on it. -/
theorem C80_every_run {ast : AST} {e e' : Artifact} (hc : Compiled ast e) (hc' : Compiled ast e') : Usable e ↔ Usable e' :=
  (C80_usable_iff hc).trans (C80_usable_iff hc').symm

theorem plain_usableSchema {ast : AST} {e : Artifact} (hc : Compiled ast e) (hp : PlainSchema ast) : UsableSchema ast :=
  (C80_usable_iff hc).1 (plain_usable hc hp)

/-- One field name is another one continued with an underscore, which is no problem here. -/
def underText : Str := "P: struct { a: string, a_b: string }\nexport P".toList
def underAst : AST :=
  [.decl "P".toList (.struct [("a".toList, ⟨"string".toList, false, false⟩), ("a_b".toList, ⟨"string".toList, false, false⟩)]),
   .export "P".toList]
def underArtifact : Artifact :=
  ⟨⟨"P".toList, [⟨"a".toList, "string".toList, .builtin .string, false, false⟩,
    ⟨"a_b".toList, "string".toList, .builtin .string, false, false⟩]⟩, exampleCode id underText⟩

theorem under_compiled : Compiled underAst underArtifact :=
  compiled_of (ord := id) (by decide +kernel) (fun _ => .refl _) rfl rfl

theorem under_usable : Usable underArtifact := by
  refine ⟨compiled_loads under_compiled (by decide) ⟨fun n fs _ hd => ?_, fun n t _ hd => ?_, fun n fs _ hd => ?_⟩, ⟨by decide, by decide⟩, ?_, ?_⟩
  · unfold underAst at hd
    simp only [List.mem_cons, Node.decl.injEq, Ty.struct.injEq, reduceCtorEq, List.not_mem_nil, or_false] at hd
    obtain ⟨rfl, rfl⟩ := hd
    decide
  · unfold underAst at hd
    simp only [List.mem_cons, Node.decl.injEq, reduceCtorEq, List.not_mem_nil, or_false] at hd
    obtain ⟨rfl, rfl⟩ := hd
    exact ⟨by decide, by decide⟩
  · unfold underAst at hd
    simp only [List.mem_cons, Node.decl.injEq, Ty.struct.injEq, reduceCtorEq, List.not_mem_nil, or_false] at hd
    obtain ⟨rfl, rfl⟩ := hd
    decide
  · exact ⟨⟨by decide, trivial⟩, ⟨by decide, trivial⟩, trivial⟩
  · intro f hf
    simp only [underArtifact, List.mem_cons, List.not_mem_nil, or_false] at hf
    rcases hf with rfl | rfl <;> exact ⟨by decide, by decide⟩

/-- A schema that is usable although it is not plain, and one that is not usable. -/
example : Compiled underAst underArtifact ∧ UsableSchema underAst ∧ ¬ PlainSchema underAst ∧
    Compiled clashAst clashExport ∧ ¬ UsableSchema clashAst := by
  refine ⟨under_compiled, (C80_usable_iff under_compiled).1 under_usable, fun h => ?_, clash_compiled, fun h => ?_⟩
  · exact (h.fields "P".toList _ (by unfold underAst; exact List.mem_cons_self)).apart "a".toList (by simp) "a_b".toList (by simp) (by decide)
  · have hS : Node.decl "S".toList (.struct [("b".toList, ⟨"uint8".toList, false, true⟩)]) ∈ clashAst := by simp [clashAst]
    have hP : Node.decl "P".toList (.struct [("a".toList, ⟨"S".toList, false, false⟩), ("a_b".toList, ⟨"uint8".toList, false, true⟩)]) ∈ clashAst := by
      simp [clashAst]
    have h1 : WriteVar clashAst "P".toList ["a".toList, "b".toList] "a_b".toList :=
      ⟨⟨"uint8".toList, false, true⟩, .inside hP List.mem_cons_self rfl rfl (.field hS List.mem_cons_self), rfl, by decide⟩
    have h2 : WriteVar clashAst "P".toList ["a_b".toList] "a_b".toList :=
      ⟨⟨"uint8".toList, false, true⟩, .field hP (by simp), rfl, by decide⟩
    have := h.names.vars.write _ _ _ _ (export_name clash_compiled).2.2.1 h1 h2
    revert this
    decide

end Packetc.Props
