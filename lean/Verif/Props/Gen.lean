import Verif.Proof.Balanced
import Verif.Props.Wire
import Verif.Props.Parser
/-!
# Properties of the generator and of `compile`: C25-C29, C45, C46
-/

namespace Packetc.Props
open Ast Check Gen WellFormed Js Module

/-- The example schema compiles. -/
theorem example_compiles : ∃ code, compile ⟨"0.1".toList, "now".toList, id, id⟩ exampleText = .ok code := by
  obtain ⟨r, hr⟩ := example_accepted
  exact ⟨_, compile_of (fair_id _ _) example_parses hr⟩

/-! ## C25 -/

/-- The code of the class, as `gen_impl` writes it. -/
def classCode (r : Resolved) : Str := (genImplCtx r.export (GenCtx.new [])).out

/-- C25, full statement: whatever the hash orders of the two runs, the reader/writer code is the same. -/
def C25_claim : Prop := ∀ (text : Str) (ast : AST) ord₁ ord₂ r₁ r₂, Parser.schema text = .ok ast →
  FairOrd ord₁ → FairOrd ord₂ → typeCheck ord₁ ast = .ok r₁ → typeCheck ord₂ ast = .ok r₂ →
  classCode r₁ = classCode r₂

/-- The constructor of the class lists the fields in resolved order. -/
theorem classCode_prefix {ord} (hord : FairOrd ord) {ast : AST} (hnb : NoBuiltinDecl ast) {r}
    (h : typeCheck ord ast = .ok r) :
    "export class ".toList ++ r.export.name ++ " {\n".toList ++ "    constructor(\n".toList ++
      printCtorFields "        ".toList r.export.name r.export.fields <+: classCode r := by
  unfold classCode
  rw [genImpl_eq _ (sound_boundsFs _ (accepted_sound hord hnb h).1)]
  show _ <+: [] ++ printClass r.export
  rw [List.nil_append]
  obtain ⟨_, fs, _, _, h3, h4⟩ := class_eq hord hnb h
  rw [h4, params_eq hord hnb h r.export.name h3]
  unfold classText classHead
  simp only [List.append_assoc]
  refine List.prefix_append_right_inj _ |>.2 (List.prefix_append_right_inj _ |>.2 (List.prefix_append_right_inj _ |>.2
    (List.prefix_append_right_inj _ |>.2 (List.prefix_append _ _))))

/-- C25 is false: two runs on the schema `reorderText` give incompatible packets (`a` and `n` swapped). -/
theorem C25_false : ¬ C25_claim := by
  intro h
  have hnb := parsed_noBuiltinDecl reorder_parses
  have h1 : ∃ r, typeCheck id reorderAst = .ok r ∧ r.export.name = "S".toList ∧
      "        public n".toList <+: printCtorFields "        ".toList "S".toList r.export.fields := ⟨_, rfl, rfl, by decide⟩
  have h2 : ∃ r, typeCheck List.reverse reorderAst = .ok r ∧ r.export.name = "S".toList ∧
      "        public a".toList <+: printCtorFields "        ".toList "S".toList r.export.fields := ⟨_, rfl, rfl, by decide⟩
  obtain ⟨r₁, t₁, n₁, x₁, e₁⟩ := h1
  obtain ⟨r₂, t₂, n₂, x₂, e₂⟩ := h2
  have hr : FairOrd List.reverse := fun l => List.reverse_perm l
  have hi : FairOrd id := fun l => .refl l
  have he := h reorderText reorderAst id List.reverse r₁ r₂ reorder_parses hi hr t₁ t₂
  have p₁ := classCode_prefix hi hnb t₁
  have p₂ := classCode_prefix hr hnb t₂
  rw [he, n₁, ← e₁, ← List.append_assoc] at p₁
  rw [n₂, ← e₂, ← List.append_assoc] at p₂
  have q₁ := (List.prefix_append _ _).trans p₁
  have q₂ := (List.prefix_append _ _).trans p₂
  have := List.prefix_of_prefix_length_le q₁ q₂ (by decide)
  revert this
  decide

theorem perm_types {ord₁ ord₂} (h₁ : FairOrd ord₁) (h₂ : FairOrd ord₂) {ast : AST} (hnb : NoBuiltinDecl ast)
    {r₁ r₂} (g₁ : typeCheck ord₁ ast = .ok r₁) (g₂ : typeCheck ord₂ ast = .ok r₂)
    (h : ∀ n, r₁.types.get n = r₂.types.get n) : r₁.types.Perm r₂.types := by
  obtain ⟨_, k₁, _⟩ := C22_types_are_used h₁ hnb g₁
  obtain ⟨_, k₂, _⟩ := C22_types_are_used h₂ hnb g₂
  rw [List.perm_ext_iff_of_nodup k₁.of_map k₂.of_map]
  rintro ⟨n, x⟩
  constructor
  · intro hm
    exact Map.get_mem (by rw [← h, Map.mem_get k₁ hm])
  · intro hm
    exact Map.get_mem (by rw [h, Map.mem_get k₂ hm])

/-- C25, what holds: if no field can be overtaken by a later one, the class is the same in every run, and the declarations
only change places. What is missing from the full statement: schemas in which a field can be overtaken, for which the resolved
types do differ between runs (`C61_runs_agree_iff`); the order of the declarations. -/
theorem C25_deterministic_partial {env₁ env₂ : Env} (h₁ : env₁.Fair) (h₂ : env₂.Fair) {text c₁ c₂ : Str} {ast : AST}
    (hp : Parser.schema text = .ok ast) (hs : AllInOrder ast)
    (g₁ : compile env₁ text = .ok c₁) (g₂ : compile env₂ text = .ok c₂) :
    ∃ exp ds₁ ds₂ cls, ds₁.Perm ds₂ ∧
      c₁ = header env₁.version env₁.now ++ importLine ++ namespaceText exp ds₁ ++ cls ∧
      c₂ = header env₂.version env₂.now ++ importLine ++ namespaceText exp ds₂ ++ cls := by
  obtain ⟨a₁, r₁, p₁, t₁, rfl⟩ := compile_ok h₁ g₁
  obtain ⟨a₂, r₂, p₂, t₂, rfl⟩ := compile_ok h₂ g₂
  rw [hp] at p₁ p₂
  cases p₁
  cases p₂
  have hnb := parsed_noBuiltinDecl hp
  obtain ⟨e1, e2⟩ := export_eq_of_inOrder h₁.1 h₂.1 hnb hs t₁ t₂
  refine ⟨r₁.export.name, _, (env₂.ordDecls r₂.types).filterMap (entry r₁.export.name), printClass r₁.export, ?_, rfl, ?_⟩
  · refine List.Perm.filterMap _ ?_
    exact (h₁.2 _).trans ((perm_types h₁.1 h₂.1 hnb t₁ t₂ e2).trans (h₂.2 _).symm)
  · rw [e1]

/-- A schema of nested structs. -/
example : ∃ r, Parser.schema orderedText = .ok orderedAst ∧ typeCheck id orderedAst = .ok r ∧ AllInOrder orderedAst ∧
    r.export.fields.length = 4 := ⟨_, ordered_parses, rfl, ordered_inOrder, rfl⟩

/-! ## C26 -/

/-- C26: the reading and writing parts of the generator print the structured programs at the current indentation
and restore indentation and name stack, whatever they were; the whole class is printed likewise. -/
theorem C26_prints_program {ast : AST} {e : Artifact} (h : Compiled ast e) :
    (∀ c : GenCtx, genWriteStruct e.fields c =
      { c with out := c.out ++ printStmts c.indentation (writeStruct c.stack e.fields) }) ∧
    (∀ c : GenCtx, genReadStruct false e.fields c =
      { c with out := c.out ++ printStmts c.indentation (readFields c.stack e.fields) }) ∧
    (∀ out, genImplCtx e.toExport (GenCtx.new out) = { GenCtx.new out with out := out ++ printClass e.toExport }) := by
  have hb := sound_boundsFs _ (compiled_sound h)
  exact ⟨emits_writeStruct e.fields, emits_readFields e.fields hb, genImpl_eq e.toExport hb⟩

/-- C26: after the header, brackets match in the generated text, for every schema. -/
theorem C26_balanced {env : Env} (hf : env.Fair) {text code : Str} (h : compile env text = .ok code) :
    ∃ rest, code = header env.version env.now ++ rest ∧ Balanced rest := by
  obtain ⟨ast, r, hp, ht, rfl⟩ := compile_ok hf h
  refine ⟨_, ?_, module_balanced hp hf.1 ht (hf.2 _) []⟩
  simp only [List.append_assoc]

/-- The hypotheses are met by the example schema. -/
example : (∃ e, Compiled exampleAst e) ∧ ∃ env code, Env.Fair env ∧ compile env exampleText = .ok code :=
  ⟨⟨_, example_compiled.choose_spec.1⟩, _, _, fair_id _ _, example_compiles.choose_spec⟩

/-! ## C27 -/

/-- C27: the generator does not panic on a checked schema. -/
theorem C27_generator_total {ord} (hord : FairOrd ord) {ast : AST} (hnb : NoBuiltinDecl ast) {r}
    (h : typeCheck ord ast = .ok r) (version now : Str) (ordD : TypeMap → TypeMap) :
    ∃ code, generate version now ordD r = some code :=
  ⟨_, generate_eq hord hnb h version now ordD⟩

/-- C27 for texts: `compile` never panics and always terminates. -/
theorem C27_compile_total {env : Env} (hf : env.Fair) (text : Str) :
    compile env text ≠ .panic ∧ compile env text ≠ .diverge := by
  rcases C06_parser_total text with ⟨ast, hp⟩ | ⟨off, hp⟩
  · unfold compile
    rw [hp]
    simp only
    rcases C11_no_panic hf.1 ast with ⟨r, hr⟩ | ⟨e, he⟩
    · rw [hr]
      simp only [generate_eq hf.1 (parsed_noBuiltinDecl hp) hr]
      exact ⟨fun h => (by cases h), fun h => (by cases h)⟩
    · rw [he]
      exact ⟨fun h => (by cases h), fun h => (by cases h)⟩
  · obtain ⟨_, _, _, _, _, hc⟩ := C07_error_position hp
    obtain ⟨m, hm⟩ := hc env
    rw [hm]
    exact ⟨fun h => (by cases h), fun h => (by cases h)⟩

/-- The model does have a panic: an enum without variants. -/
example : generate [] [] id ⟨⟨"A".toList, [⟨"x".toList, "E".toList, .enum ⟨.u8, []⟩, false, false⟩]⟩, []⟩ = none := by rfl

/-! ## C28, C29 -/

/-- C28, C29: the code consists of the header, the import, a namespace with exactly the declarations needed, each
describing the schema type faithfully, and the class whose constructor lists the exported fields. -/
theorem C28_namespace {env : Env} (hf : env.Fair) {text code : Str} (h : compile env text = .ok code) :
    ∃ ast exp ds cls, Parser.schema text = .ok ast ∧ exports ast = [exp] ∧ Complete ast exp ds ∧
      code = header env.version env.now ++ importLine ++ namespaceText exp ds ++ cls ∧
      ("export class ".toList ++ exp ++ " {\n".toList) <+: cls := by
  obtain ⟨ast, r, hp, ht, rfl⟩ := compile_ok hf h
  have hnb := parsed_noBuiltinDecl hp
  obtain ⟨hx, _⟩ := C21_export_is_struct hf.1 ht
  obtain ⟨fs, fs', _, _, _, hc⟩ := class_eq hf.1 hnb ht
  refine ⟨ast, r.export.name, _, printClass r.export, hp, hx, entries_complete hf.1 hnb ht (hf.2 _), rfl, ?_⟩
  rw [hc]
  unfold classText classHead
  simp only [List.append_assoc]
  exact List.prefix_append_right_inj _ |>.2 (List.prefix_append_right_inj _ |>.2 (List.prefix_append _ _))

/-- C28: the iteration order used by the generator only permutes the declarations. -/
theorem C28_order {v n v' n' : Str} {ordT ordD ordD'} (hf : Env.Fair ⟨v, n, ordT, ordD⟩)
    (hf' : Env.Fair ⟨v', n', ordT, ordD'⟩) {text code code' : Str}
    (h : compile ⟨v, n, ordT, ordD⟩ text = .ok code) (h' : compile ⟨v', n', ordT, ordD'⟩ text = .ok code') :
    ∃ exp ds ds' cls, ds.Perm ds' ∧ code = header v n ++ importLine ++ namespaceText exp ds ++ cls ∧
      code' = header v' n' ++ importLine ++ namespaceText exp ds' ++ cls := by
  obtain ⟨a, r, p, t, rfl⟩ := compile_ok hf h
  obtain ⟨a', r', p', t', rfl⟩ := compile_ok hf' h'
  rw [p] at p'
  cases p'
  rw [t] at t'
  cases t'
  exact ⟨_, _, _, _, List.Perm.filterMap _ ((hf.2 _).trans (hf'.2 _).symm), rfl, rfl⟩

/-- C29: the interface of a struct and the class list the fields in the same order as `read` and `write` process them,
with the right types; an enum lists its variants with their bits. (`DeclText`, `classText` say what the text is.) -/
theorem C29_declarations {env : Env} (hf : env.Fair) {text code : Str} (h : compile env text = .ok code) :
    ∃ ast r ds fs fs' rb wb, Parser.schema text = .ok ast ∧ typeCheck env.ordTypes ast = .ok r ∧
      code = header env.version env.now ++ importLine ++ namespaceText r.export.name ds ++ classText r.export.name fs' rb wb ∧
      .decl r.export.name (.struct fs) ∈ ast ∧ fs'.Perm fs ∧ fs'.map Prod.fst = r.export.fields.map FieldOf.name ∧
      (∀ n t, (n, t) ∈ ds → DeclText ast n t) ∧
      (∀ n m rfs, r.types.get n = some (m, .struct rfs) → n ≠ r.export.name →
        ∃ gs, gs.map Prod.fst = rfs.map FieldOf.name ∧ (n, interfaceText n gs) ∈ ds) := by
  obtain ⟨ast, r, hp, ht, rfl⟩ := compile_ok hf h
  have hnb := parsed_noBuiltinDecl hp
  obtain ⟨fs, fs', h1, h2, h3, hc⟩ := class_eq hf.1 hnb ht
  have names : ∀ {l : List (Str × Unresolved)} {m : List RField}, List.Forall₂ (FieldResolved r.types) l m →
      l.map Prod.fst = m.map FieldOf.name := by
    intro l m hlm
    induction hlm with
    | nil => rfl
    | cons hR _ ih => rw [List.map_cons, List.map_cons, ih, hR.name]
  refine ⟨ast, r, (env.ordDecls r.types).filterMap (entry r.export.name), fs, fs',
    printStmts "        ".toList (readBody r.export), printStmts "        ".toList (writeBody r.export),
    hp, ht, ?_, h1, h2, ?_, ?_, ?_⟩
  · rw [hc]
  · exact names h3
  · intro n t hm
    exact (entries_complete hf.1 hnb ht (hf.2 _)).right _ hm
  · intro n m rfs hg hn
    have hk := (C22_types_are_used hf.1 hnb ht).2.2
    obtain ⟨_, hm⟩ := meaning hf.1 hnb ht hg
    cases hm with
    | struct gs gs' _ q1 q2 q3 q4 =>
      refine ⟨gs', names q4, List.mem_filterMap.2 ⟨(n, m, .struct rfs), (hf.2 _).mem_iff.2 (Map.get_mem hg), ?_⟩⟩
      rw [← interface_eq hf.1 hnb ht n q4]
      simp [entry, hn]

/-- The declarations of the example schema, spelled out. -/
example : DeclText exampleAst "B".toList
      "    export interface B {\n        e: E,\n        n: number,\n    }\n".toList ∧
    DeclText exampleAst "E".toList
      "    export const enum E {\n        X = 1 << 0,\n        Y = 1 << 1,\n    }\n".toList ∧
    classHead "A".toList [("b".toList, ⟨"B".toList, true, false⟩), ("o".toList, ⟨"string".toList, false, true⟩)] =
      "export class A {\n    constructor(\n        public b: A.B[],\n        public o: string | undefined,\n    ) {}\n".toList := by
  refine ⟨Or.inr ⟨_, _, List.mem_cons_of_mem _ List.mem_cons_self, List.Perm.refl _, by decide⟩,
    Or.inl ⟨_, List.mem_cons_self, by decide⟩, by decide⟩

/-! ## C45 -/

/-- C45: the outcome of `compile` is decided by the grammar and by well-formedness. -/
theorem C45_outcome {env : Env} (hf : env.Fair) (text : Str) :
    ((∃ m, compile env text = .parseError m) ↔ ¬ ∃ ast, Grammar.Schema ast text) ∧
    ((∃ m, compile env text = .checkError m) ↔ ∃ ast, Grammar.Schema ast text ∧ ¬ WF ast) ∧
    ((∃ code, compile env text = .ok code) ↔ ∃ ast, Grammar.Schema ast text ∧ WF ast) := by
  rcases C06_parser_total text with ⟨ast, hp⟩ | ⟨off, hp⟩
  · have hg := (C01_accepts_iff_grammar text ast).1 hp
    have hu : ∀ a, Grammar.Schema a text → a = ast := fun a ha => C01_grammar_unambiguous ha hg
    have hw := C12_text hf.1 hp
    have e1 : (∃ ast, Grammar.Schema ast text ∧ ¬ WF ast) ↔ ¬ WF ast :=
      ⟨fun ⟨a, h1, h2⟩ => hu a h1 ▸ h2, fun h => ⟨ast, hg, h⟩⟩
    have e2 : (∃ ast, Grammar.Schema ast text ∧ WF ast) ↔ WF ast :=
      ⟨fun ⟨a, h1, h2⟩ => hu a h1 ▸ h2, fun h => ⟨ast, hg, h⟩⟩
    rw [e1, e2, ← hw]
    have hno : ¬ ¬ ∃ ast, Grammar.Schema ast text := fun h => h ⟨ast, hg⟩
    unfold compile
    rw [hp]
    simp only
    rcases C11_no_panic hf.1 ast with ⟨r, hr⟩ | ⟨e, he⟩
    · rw [hr]
      simp only [generate_eq hf.1 (parsed_noBuiltinDecl hp) hr]
      refine ⟨⟨fun ⟨m, h⟩ => (by cases h), fun h => absurd h hno⟩, ⟨fun ⟨m, h⟩ => (by cases h), fun h => absurd ⟨r, rfl⟩ h⟩,
        ⟨fun _ => ⟨r, rfl⟩, fun _ => ⟨_, rfl⟩⟩⟩
    · rw [he]
      refine ⟨⟨fun ⟨m, h⟩ => (by cases h), fun h => absurd h hno⟩, ⟨fun _ ⟨r, h⟩ => (by cases h), fun _ => ⟨_, rfl⟩⟩,
        ⟨fun ⟨m, h⟩ => (by cases h), fun ⟨r, h⟩ => (by cases h)⟩⟩
  · have hn := (C01_rejects_iff text).1 ⟨off, hp⟩
    obtain ⟨_, _, _, _, _, hc⟩ := C07_error_position hp
    obtain ⟨m, hm⟩ := hc env
    rw [hm]
    refine ⟨⟨fun _ => hn, fun _ => ⟨m, rfl⟩⟩, ⟨fun ⟨m, h⟩ => (by cases h), fun ⟨a, h, _⟩ => absurd ⟨a, h⟩ hn⟩,
      ⟨fun ⟨m, h⟩ => (by cases h), fun ⟨a, h, _⟩ => absurd ⟨a, h⟩ hn⟩⟩

/-- C45: the four parts of the code (see C28, C29 for what is in them). -/
theorem C45_parts {env : Env} (hf : env.Fair) {text code : Str} (h : compile env text = .ok code) :
    ∃ exp ds fs rb wb, code = header env.version env.now ++ importLine ++ namespaceText exp ds ++ classText exp fs rb wb := by
  obtain ⟨_, r, ds, _, fs, rb, wb, _, _, hc, _⟩ := C29_declarations hf h
  exact ⟨_, ds, fs, rb, wb, hc⟩

/-- Each outcome occurs. -/
example : (∃ m, compile ⟨[], [], id, id⟩ "A".toList = .parseError m) ∧
    (∃ m, compile ⟨[], [], id, id⟩ "export A".toList = .checkError m) ∧
    (∃ c, compile ⟨"0.1".toList, "now".toList, id, id⟩ exampleText = .ok c) := by
  have hp : Parser.schema "export A".toList = .ok [.export "A".toList] := by decide +kernel
  refine ⟨?_, ?_, example_compiles⟩
  · rw [(C45_outcome (fair_id _ _) _).1, ← C01_rejects_iff]
    exact ⟨1, by decide +kernel⟩
  · unfold compile
    rw [hp]
    exact ⟨_, rfl⟩

/-! ## C46 -/

/-- C46: version and time of compilation appear in the header line and nowhere else. -/
theorem C46_only_header {ordT ordD} (text : Str) (hf : ∀ l, (ordT l).Perm l) :
    (∃ out, (∀ code, out ≠ .ok code) ∧ ∀ v n, compile ⟨v, n, ordT, ordD⟩ text = out) ∨
    (∃ rest, ∀ v n, compile ⟨v, n, ordT, ordD⟩ text =
      .ok ("// Generated by packetc v".toList ++ v ++ " at ".toList ++ n ++ "\n".toList ++ rest)) := by
  rcases C06_parser_total text with ⟨ast, hp⟩ | ⟨off, hp⟩
  · rcases C11_no_panic hf ast with ⟨r, hr⟩ | ⟨e, he⟩
    · refine Or.inr ⟨importLine ++ namespaceText r.export.name ((ordD r.types).filterMap (entry r.export.name)) ++
        printClass r.export, fun v n => ?_⟩
      unfold compile
      rw [hp]
      simp only
      rw [hr]
      simp only [generate_eq hf (parsed_noBuiltinDecl hp) hr]
      unfold header
      simp only [List.append_assoc]
    · refine Or.inl ⟨.checkError e.render, fun _ h => (by cases h), fun v n => ?_⟩
      unfold compile
      rw [hp]
      simp only
      rw [he]
  · obtain ⟨_, _, _, _, _, hc⟩ := C07_error_position hp
    obtain ⟨m, hm⟩ := hc ⟨[], [], ordT, ordD⟩
    refine Or.inl ⟨.parseError m, fun _ h => (by cases h), fun v n => ?_⟩
    rw [← hm]
    unfold compile
    rw [hp]

example : ∃ code, compile ⟨"0.1".toList, "now".toList, id, id⟩ exampleText = .ok code := example_compiles

end Packetc.Props
