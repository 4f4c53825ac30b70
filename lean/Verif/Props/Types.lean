import Verif.Proof.TypesModule
/-!
# C67: the generated text passes the type checker
-/

namespace Packetc.Props
open Ast Check Gen WellFormed Js Module

/-! Samples: what the type checker accepts and rejects. -/

/-- A generated text, with one part replaced by another. -/
def typeSample (old new : String) : Option Bool :=
  let text := String.ofList (exampleCode id
    "E: enum { V, W }\nP: struct { x: float, e: E }\nA: struct { n: uint8, s: string, o?: P, l: P[], e: E }\nexport A".toList)
  (load (text.replace old new).toList).map TsModule.typeChecks

#guard typeSample "" "" = some true
#guard typeSample "let output_l_item: any = {}" "let output_l_item = {}" = some false
#guard typeSample "let output_o: any = {}" "let output_o = {}" = some false
#guard typeSample "public s: string" "public s: number" = some false
#guard typeSample "public o: A.P | undefined" "public o: A.P" = some true
#guard typeSample "public n: number" "public n: number | undefined" = some false
#guard typeSample "write_string(this.s)" "write_uint8(this.s)" = some false
#guard typeSample "this.s.length" "this.n.length" = some false
#guard typeSample "this.e as number" "this.s as number" = some false
#guard typeSample "this_o.x" "this.o.x" = some false
#guard typeSample "reader.read_string(output_s_len)" "reader.read_uint8(output_s_len)" = some false
#guard typeSample "let output_s_len = reader.read_uint32();\n        output.s" "output.s" = some false
#guard typeSample "writer.finish()" "writer.write_uint8(0)" = some false
#guard typeSample "A | null" "A" = some false
#guard typeSample "        x: number,\n        e: E," "        x: string,\n        e: E," = some false
#guard typeSample "buffer ? new Writer(buffer)" "buffer ? new Writer(this)" = some false

/-- The generated text for a schema. -/
def schemaSample (schema : String) : Option Bool := (load (exampleCode id schema.toList)).map TsModule.typeChecks

#guard schemaSample "Array: struct { x: uint8, s: string }\nexport Array" = some true
#guard schemaSample "Array: struct { x: uint8[] }\nexport Array" = some false
#guard schemaSample "P: struct { l: uint8[] }\nArray: struct { x: uint8, o?: P }\nexport Array" = some false
#guard schemaSample "output_s_len: struct { s: string }\nexport output_s_len" = some false
#guard schemaSample "output_s_len: struct { s?: string }\nexport output_s_len" = some true
#guard schemaSample "output_s: struct { s: string }\nexport output_s" = some true
#guard schemaSample "reader: struct { s: string }\nexport reader" = some true
#guard schemaSample "data: struct { s: string }\nexport data" = some true

/-- C67 as described: if TypeScript can read the text, its type checker finds nothing wrong with it. -/
def C67_claim : Prop := ∀ (ast : AST) (e : Artifact) (m : TsModule), Compiled ast e → load e.code = some m → m.typeChecks = true

/-- C67, what holds: no type errors if the export is not called `Object`, `Array`, `ArrayBuffer` or `output...`. What is
missing from the full statement (`C67_claim`): exports with these names, for which it is false. -/
theorem C67_typechecks_partial {ast : AST} {e : Artifact} (hc : Compiled ast e) {m : TsModule} (hm : load e.code = some m)
    (hn : TypeNameOk e.name) : m.typeChecks = true := by
  have hne : ∀ x, x ∈ ["Object".toList, "Array".toList, "ArrayBuffer".toList] → e.name ≠ x := fun x hx h => hn.1 (h ▸ hx)
  refine compiled_typeChecks hc hm ⟨hne _ (by decide), hne _ (by decide), fun h => absurd h (hne _ (by decide)), ?_, ?_⟩
  · intro h
    exact hn.2 (h ▸ List.prefix_refl _)
  · intro p x _ h
    exact hn.2 (h ▸ ((List.prefix_append "output".toList ("_".toList ++ x))))

/-- For schemas with unproblematic names the text is a TypeScript module without type errors. -/
theorem C67_plain {ast : AST} {e : Artifact} (hc : Compiled ast e) (hp : PlainSchema ast) (hb : e.name ≠ "ArrayBuffer".toList) :
    ∃ m, load e.code = some m ∧ m.typeChecks = true := by
  have hu := plain_usable hc hp
  obtain ⟨m, hm⟩ := Option.ne_none_iff_exists'.1 hu.loads
  refine ⟨m, hm, C67_typechecks_partial hc hm ⟨?_, hu.className.2⟩⟩
  have := hu.className.1
  simp only [List.mem_cons, List.not_mem_nil, or_false, not_or] at this ⊢
  exact ⟨this.2.2.1, this.2.2.2.1, hb⟩

example : ∃ e m, Compiled exampleAst e ∧ load e.code = some m ∧ TypeNameOk e.name := by
  obtain ⟨e, h1, h2, -⟩ := example_compiled
  obtain ⟨m, hm⟩ := Option.ne_none_iff_exists'.1 (plain_usable h1 example_plain).loads
  exact ⟨e, m, h1, hm, by rw [h2]; exact ⟨by decide, by decide⟩⟩

/-- Names that cause type errors. -/
theorem C67_needs {ast : AST} {e : Artifact} (hc : Compiled ast e) {m : TsModule} (hm : load e.code = some m)
    (ht : m.typeChecks = true) : ExportNameOk ast e.name := by
  have hvar := fun {x} => mem_readBody hc (x := x)
  have hna := noArrays_iff hc
  obtain ⟨ds, tds, fs, fs', R, hb, rfl, -, -⟩ := compiled_load hc hm
  set M := moduleOf e.toExport (tds.map Prod.fst) fs' with hM
  unfold TsModule.typeChecks at ht
  simp only [Bool.and_eq_true, List.all_eq_true] at ht
  have hr := ht.2 (readMethod e.name (readBody e.toExport)) List.mem_cons_self
  unfold TsModule.methodTypes readMethod at hr
  dsimp only at hr
  have hcn : M.className = e.name := rfl
  have hsplit : ∀ Γ ret, M.checkStmts ret Γ (readBody e.toExport) =
      (M.checkStmt ret Γ (.letS "reader".toList false (.new1 "Reader".toList (.var "data".toList)))).bind fun Γ =>
      (M.checkStmt ret Γ (.letS "output".toList false (.call1 (.var "Object".toList) "create".toList (.var e.name)))).bind fun Γ =>
      M.checkStmts ret Γ (readFields ["output".toList] e.fields ++
        [.ifRet (.prop reader "failed".toList) .null, .ret (.var "output".toList)]) := fun _ _ => rfl
  split at hr
  case h_2 => cases hr
  case h_1 p ret hp hret =>
    simp only [Bool.and_eq_true] at hr
    obtain ⟨-, hr⟩ := hr
    rw [hsplit] at hr
    obtain ⟨Γ', hr⟩ := Option.isSome_iff_exists.1 hr
    obtain ⟨Γ1, g1, hr⟩ := Option.bind_eq_some_iff.1 hr
    obtain ⟨Γ2, g2, hr⟩ := Option.bind_eq_some_iff.1 hr
    obtain ⟨t1, g3, g4⟩ := Option.bind_eq_some_iff.1 g1
    obtain ⟨u1, -, g5⟩ := Option.map_eq_some_iff.1 g4
    obtain ⟨t2, g6, g15⟩ := Option.bind_eq_some_iff.1 g2
    obtain ⟨u2, -, g16⟩ := Option.map_eq_some_iff.1 g15
    have hnames := letNames_readBody e.toExport
    have hfind : ∀ x, x ≠ "reader".toList → ¬ ("output".toList ++ "_".toList) <+: x → Γ1.find x =
        if x = "output".toList then some none else if "data".toList = x then some (some p) else none := by
      intro x hx1 hx2
      rw [← g5, find_cons_ne (Ne.symm hx1), find_enter]
      by_cases hx : x = "output".toList
      · rw [if_pos hx, if_pos]
        rw [hnames, hx]
        simp
      · rw [if_neg hx, if_neg]
        · rfl
        · rw [hnames, List.mem_cons, List.mem_cons]
          rintro (h | h | h)
          · exact hx1 h
          · exact hx h
          · exact hx2 (nread_fields e.fields _ x h)
    obtain ⟨t3, g7, g8⟩ := Option.bind_eq_some_iff.1 g6
    obtain ⟨t4, g9, g10⟩ := Option.bind_eq_some_iff.1 g8
    refine ⟨fun hn => ?_, fun hn => ?_, fun hn => ?_, fun hn => ?_, fun q x hx hn => ?_⟩
    · have h1 : M.varType Γ1 "Object".toList = some .cls := by
        have : Γ1.find "Object".toList = none := hfind _ (by decide) (by decide)
        rw [varType_none this]
        unfold TsModule.valueType
        rw [if_pos (hcn.trans hn).symm]
      have g7 : M.varType Γ1 "Object".toList = some t3 := g7
      rw [h1] at g7
      cases g7
      cases g10
    · have h1 : M.memberType false ⟨"data".toList, false, arrayBuffer⟩ = some .inst := by
        show ((M.pathType false ["ArrayBuffer".toList]).map _).map _ = _
        have : M.pathType false ["ArrayBuffer".toList] = some .inst := by
          unfold TsModule.pathType
          dsimp only
          rw [if_neg (by decide), if_neg (by decide), if_neg (by decide), if_neg (by decide), if_neg (by simp),
            if_pos (hcn.trans hn).symm]
        rw [this]
        rfl
      rw [h1] at hp
      cases hp
      obtain ⟨t5, g11, g12⟩ := Option.bind_eq_some_iff.1 g3
      obtain ⟨t6, g13, g14⟩ := Option.bind_eq_some_iff.1 g12
      have g13 : M.varType (TEnv.enter [("data".toList, some .inst)] (readBody e.toExport)) "data".toList = some t6 := g13
      have h2 : (TEnv.enter [("data".toList, some .inst)] (readBody e.toExport)).find "data".toList = some (some .inst) := by
        rw [find_enter, if_neg]
        · rfl
        · rw [hnames, List.mem_cons, List.mem_cons]
          rintro (h | h | h)
          · revert h; decide
          · revert h; decide
          · exact absurd (nread_fields e.fields _ _ h) (by decide)
      rw [varType_of h2] at g13
      cases g13
      have h3 : M.varType (TEnv.enter [("data".toList, some .inst)] (readBody e.toExport)) "Reader".toList = some .readerFn := by
        have : (TEnv.enter [("data".toList, some .inst)] (readBody e.toExport)).find "Reader".toList = none := by
          rw [find_enter, if_neg]
          · rfl
          · rw [hnames, List.mem_cons, List.mem_cons]
            rintro (h | h | h)
            · revert h; decide
            · revert h; decide
            · exact absurd (nread_fields e.fields _ _ h) (by decide)
        rw [varType_none this]
        unfold TsModule.valueType
        rw [if_neg (by rw [hcn, hn]; decide)]
        rfl
      have g11 : M.varType (TEnv.enter [("data".toList, some .inst)] (readBody e.toExport)) "Reader".toList = some t5 := g11
      rw [h3] at g11
      cases g11
      cases g14
    · have hA : M.valueType "Array".toList = some .cls := by
        unfold TsModule.valueType
        rw [if_pos (hcn.trans hn).symm]
      have hΓ : Γ2.find "Array".toList = none := by
        rw [← g16, find_cons_ne (by decide)]
        exact hfind _ (by decide) (by decide)
      obtain ⟨Γ3, g17, -, -⟩ := checkStmts_split hr
      exact hna.1 (noArray_fields hA e.fields Γ2 Γ3 _ (List.prefix_refl _) hΓ g17)
    · have h1 : M.varType Γ1 e.name = none := varType_of (by
        rw [hfind _ (by rw [hn]; decide) (by rw [hn]; decide), if_pos hn])
      have g9 : M.varType Γ1 e.name = some t4 := g9
      rw [h1] at g9
      cases g9
    · have h1 : M.varType Γ1 e.name = none := varType_of (by
        rw [← g5, find_cons_ne, find_enter, if_pos (hvar.2 (.inr (.inr ⟨q, x, hx, hn⟩)))]
        rw [hn]
        intro h
        cases h)
      have g9 : M.varType Γ1 e.name = some t4 := g9
      rw [h1] at g9
      cases g9

/-- C67, exactly: there are no type errors if and only if the name of the export neither hides nor is hidden by anything
that matters. What is missing from the full statement (`C67_claim`): the other names, for which it is false. -/
theorem C67_exact_partial {ast : AST} {e : Artifact} (hc : Compiled ast e) {m : TsModule} (hm : load e.code = some m) :
    m.typeChecks = true ↔ ExportNameOk ast e.name := ⟨C67_needs hc hm, compiled_typeChecks hc hm⟩

def objectText : Str := "Object: struct { x: uint8 }\nexport Object".toList
def objectAst : AST := [.decl "Object".toList (.struct [("x".toList, ⟨"uint8".toList, false, false⟩)]), .export "Object".toList]
def objectArtifact : Artifact :=
  ⟨⟨"Object".toList, [⟨"x".toList, "uint8".toList, .builtin .uint8, false, false⟩]⟩, exampleCode id objectText⟩

theorem object_compiled : Compiled objectAst objectArtifact :=
  compiled_of (ord := id) (by decide +kernel) (fun _ => .refl _) rfl rfl

theorem object_loads : load objectArtifact.code ≠ none := by
  refine compiled_loads object_compiled (by decide) ⟨fun n fs _ hd => ?_, fun n t _ hd => ?_, fun n fs _ hd => ?_⟩ <;>
    (unfold objectAst at hd
     simp only [List.mem_cons, Node.decl.injEq, Ty.struct.injEq, reduceCtorEq, List.not_mem_nil, or_false] at hd
     obtain ⟨rfl, rfl⟩ := hd)
  · decide
  · exact ⟨by decide, by decide⟩
  · decide

/-- The export can be called `Array` if there are no arrays. -/
def arrayText : Str := "Array: struct { x: uint8 }\nexport Array".toList
def arrayAst : AST := [.decl "Array".toList (.struct [("x".toList, ⟨"uint8".toList, false, false⟩)]), .export "Array".toList]
def arrayArtifact : Artifact :=
  ⟨⟨"Array".toList, [⟨"x".toList, "uint8".toList, .builtin .uint8, false, false⟩]⟩, exampleCode id arrayText⟩

theorem array_compiled : Compiled arrayAst arrayArtifact :=
  compiled_of (ord := id) (by decide +kernel) (fun _ => .refl _) rfl rfl

example : ExportNameOk arrayAst arrayArtifact.name where
  object := by decide
  buffer := by decide
  result := by decide
  array _ n fs _ hd := by
    unfold arrayAst at hd
    simp only [List.mem_cons, Node.decl.injEq, Ty.struct.injEq, reduceCtorEq, List.not_mem_nil, or_false] at hd
    obtain ⟨rfl, rfl⟩ := hd
    decide
  vars p x _ h := by
    have : 'A' :: "rray".toList = 'o' :: ("utput_".toList ++ x) := h
    simp at this

/-- An export called `Object` gives a function that calls `create` of its own class. -/
theorem C67_false : ¬ C67_claim := by
  intro h
  obtain ⟨m, hm⟩ := Option.ne_none_iff_exists'.1 object_loads
  exact (C67_needs object_compiled hm (h _ _ m object_compiled hm)).object rfl

end Packetc.Props
