import Verif.Spec.Module
import Verif.Proof.JsPlain
/-!
# The text of generated modules
-/

namespace Packetc.Module
open Ast Check Gen WellFormed Js

/-! ### declarations -/

/-- The line of a resolved field. -/
def rMember (f : RField) : Str :=
  "        ".toList ++ (f.name ++ (if f.optional then "?".toList else []) ++ ": ".toList ++
    declTypeName f.tyName f.ty ++ (if f.array then "[]".toList else []) ++ ",\n".toList)

def rInterface (n : Str) (fs : List RField) : Str :=
  "    ".toList ++ ("export interface ".toList ++ n ++ " {\n".toList) ++ fs.flatMap rMember ++
    ("    ".toList ++ "}\n".toList)

def rVariant (v : EnumVariant) : Str :=
  "        ".toList ++ (v.name ++ " = 1 << ".toList ++ (toString v.value).toList ++ ",\n".toList)

def rEnum (n : Str) (e : REnum) : Str :=
  "    ".toList ++ ("export const enum ".toList ++ n ++ " {\n".toList) ++ e.variants.flatMap rVariant ++
    ("    ".toList ++ "}\n".toList)

/-- The declaration emitted for an entry of the type map. -/
def entry (exp : Str) (d : Str × (Str × RType)) : Option (Str × Str) :=
  if d.1 = exp then none
  else
    match d.2.2 with
    | .builtin _ => none
    | .enum e => some (d.1, rEnum d.1 e)
    | .struct fs => some (d.1, rInterface d.1 fs)

theorem structDeclFields_eq (fs : List RField) (c : GenCtx) (h : c.indentation = "        ".toList) :
    genStructDeclFields fs c = emit c (fs.flatMap rMember) := by
  induction fs generalizing c with
  | nil => simp [genStructDeclFields, emit]
  | cons f fs ih =>
    show genStructDeclFields fs (c.cat _) = _
    rw [cat_eq, ih _ (by rw [emit_ind, h]), emit_emit, List.flatMap_cons, h]
    rfl

theorem enumDeclVariants_eq (vs : List EnumVariant) (c : GenCtx) (h : c.indentation = "        ".toList) :
    genEnumDeclVariants vs c = emit c (vs.flatMap rVariant) := by
  induction vs generalizing c with
  | nil => simp [genEnumDeclVariants, emit]
  | cons f fs ih =>
    show genEnumDeclVariants fs (c.cat _) = _
    rw [cat_eq, ih _ (by rw [emit_ind, h]), emit_emit, List.flatMap_cons, h]
    rfl

theorem pushed (c : GenCtx) (h : c.indentation = "    ".toList) : c.pushIndent.indentation = "        ".toList := by
  unfold GenCtx.pushIndent; simp only [h]; decide

theorem structDecl_eq (fs : List RField) (n : Str) (c : GenCtx) (h : c.indentation = "    ".toList) :
    genStructDecl fs n c = emit c (rInterface n fs) := by
  unfold genStructDecl
  simp only [cat_eq, pushIndent_emit]
  rw [structDeclFields_eq _ _ (by rw [emit_ind]; exact pushed c h)]
  simp only [popIndent_emit, emit_ind, popIndent_pushIndent, emit_emit, h]
  rfl

theorem enumDecl_eq (e : REnum) (n : Str) (c : GenCtx) (h : c.indentation = "    ".toList) :
    genEnumDecl e n c = emit c (rEnum n e) := by
  unfold genEnumDecl
  simp only [cat_eq, pushIndent_emit]
  rw [enumDeclVariants_eq _ _ (by rw [emit_ind]; exact pushed c h)]
  simp only [popIndent_emit, emit_ind, popIndent_pushIndent, emit_emit, h]
  rfl

theorem declsLoop_eq (exp : Str) (types : List (Str × (Str × RType))) (c : GenCtx) (h : c.indentation = "    ".toList) :
    genDeclsLoop exp types c = emit c ((types.filterMap (entry exp)).flatMap Prod.snd) := by
  induction types generalizing c with
  | nil => simp [genDeclsLoop, emit]
  | cons d types ih =>
    obtain ⟨n, m, t⟩ := d
    unfold genDeclsLoop
    by_cases hn : n = exp
    · rw [if_pos hn, ih c h, List.filterMap_cons_none]
      simp [entry, hn]
    · rw [if_neg hn]
      cases t with
      | builtin b =>
        show genDeclsLoop exp types c = _
        rw [ih c h, List.filterMap_cons_none]
        simp [entry, hn]
      | enum e =>
        show genDeclsLoop exp types (genEnumDecl e n c) = _
        rw [enumDecl_eq e n c h, ih _ (by rw [emit_ind, h]), emit_emit, List.filterMap_cons_some (b := (n, rEnum n e))]
        · rfl
        · simp [entry, hn]
      | struct fs =>
        show genDeclsLoop exp types (genStructDecl fs n c) = _
        rw [structDecl_eq fs n c h, ih _ (by rw [emit_ind, h]), emit_emit, List.filterMap_cons_some (b := (n, rInterface n fs))]
        · rfl
        · simp [entry, hn]

theorem genDecls_eq (types : List (Str × (Str × RType))) (exp out : Str) :
    genDeclsCtx types exp (GenCtx.new out) =
      emit (GenCtx.new out) (namespaceText exp (types.filterMap (entry exp))) := by
  have h0 : (GenCtx.new out).indentation = [] := rfl
  have h1 : (GenCtx.new out).pushIndent.indentation = "    ".toList := rfl
  unfold genDeclsCtx
  simp only [cat_eq, pushIndent_emit]
  rw [declsLoop_eq _ _ _ (by rw [emit_ind, h1])]
  simp only [popIndent_emit, emit_ind, popIndent_pushIndent, emit_emit, h0]
  apply emit_congr
  unfold namespaceText
  simp only [List.nil_append, List.append_assoc]

/-! ### resolved types and declarations -/

/-- What a name of the type map means. -/
inductive Meaning (ast : AST) (types : TypeMap) (n : Str) : RType → Prop
  | builtin (b) : (n, b) ∈ builtinTable → Meaning ast types n (.builtin b)
  | enum (vs e) : n ∉ builtinNames → .decl n (.enum vs) ∈ ast → EnumResolved vs e → Meaning ast types n (.enum e)
  | struct (fs fs' rfs) : n ∉ builtinNames → .decl n (.struct fs) ∈ ast → fs'.Perm fs →
      List.Forall₂ (FieldResolved types) fs' rfs → Meaning ast types n (.struct rfs)

theorem table_of_name {n : Str} (h : n ∈ builtinNames) : ∃ b, (n, b) ∈ builtinTable := by
  unfold builtinNames at h
  simp only [List.mem_cons, List.not_mem_nil, or_false] at h
  rcases h with rfl | rfl | rfl | rfl | rfl | rfl | rfl | rfl
  · exact ⟨.uint8, by decide⟩
  · exact ⟨.uint16, by decide⟩
  · exact ⟨.uint32, by decide⟩
  · exact ⟨.int8, by decide⟩
  · exact ⟨.int16, by decide⟩
  · exact ⟨.int32, by decide⟩
  · exact ⟨.float, by decide⟩
  · exact ⟨.string, by decide⟩

theorem meaning {ord} (hord : FairOrd ord) {ast : AST} (hnb : NoBuiltinDecl ast) {r}
    (h : typeCheck ord ast = .ok r) {n m : Str} {t : RType} (hg : r.types.get n = some (m, t)) :
    Used ast n ∧ Meaning ast r.types n t := by
  have hu : Used ast n := by
    refine ((Props.C22_types_are_used hord hnb h).1 n).1 ⟨_, Map.get_mem hg⟩
  refine ⟨hu, ?_⟩
  obtain ⟨f1, f2, f3, f4⟩ := Props.C23_faithful hord hnb h
  by_cases hb : n ∈ builtinNames
  · obtain ⟨b, hb⟩ := table_of_name hb
    rw [f2 n b hu hb] at hg
    cases hg
    exact .builtin b hb
  · have hd : Declared ast n := by
      by_contra hd
      obtain ⟨c, hf, he, hgx, hk, h1, h2⟩ := Props.typeCheck_final hord hnb h
      rw [h1 n hu, hf.other n hb hd] at hg
      cases hg
    obtain ⟨ty, hty⟩ := hd
    cases ty with
    | enum vs =>
      obtain ⟨_, _, _, he⟩ := Props.C19_enum_bits hord hnb h (mem_decls.1 hty)
      obtain ⟨e, h1, h2⟩ := he hu
      rw [h1] at hg
      cases hg
      exact .enum vs e hb (mem_decls.1 hty) h2
    | struct fs =>
      obtain ⟨rfs, fs', h1, h2, h3⟩ := f4 n fs hu hty
      rw [h1] at hg
      cases hg
      exact .struct fs fs' rfs hb (mem_decls.1 hty) h2 h3

theorem declTypeName_builtin {n : Str} {b : Builtin} (h : (n, b) ∈ builtinTable) :
    declTypeName n (.builtin b) = tsType n := by
  unfold builtinTable at h
  simp only [List.mem_cons, Prod.mk.injEq, List.not_mem_nil, or_false] at h
  rcases h with ⟨rfl, rfl⟩ | ⟨rfl, rfl⟩ | ⟨rfl, rfl⟩ | ⟨rfl, rfl⟩ | ⟨rfl, rfl⟩ | ⟨rfl, rfl⟩ | ⟨rfl, rfl⟩ | ⟨rfl, rfl⟩ <;>
    decide

theorem tsType_declared {n : Str} (h : n ∉ builtinNames) : tsType n = n := by
  unfold tsType
  rw [if_neg (fun e => h (by rw [e]; decide)), if_neg h]

theorem declTypeName_eq {ast : AST} {types : TypeMap} {n : Str} {t : RType} (h : Meaning ast types n t) :
    declTypeName n t = tsType n := by
  cases h with
  | builtin b hb => exact declTypeName_builtin hb
  | enum vs e hn => rw [tsType_declared hn]; rfl
  | struct fs fs' rfs hn => rw [tsType_declared hn]; rfl

theorem ctorType_builtin {n exp : Str} {b : Builtin} (h : (n, b) ∈ builtinTable) (a o : Bool) :
    fieldCtorType n (.builtin b) exp a o = qualified exp n ++ (if a then "[]".toList else []) ++
      (if o then " | undefined".toList else []) := by
  have h1 := declTypeName_builtin h
  have h2 := (Props.builtin_table_get h).1
  unfold qualified
  rw [if_pos h2, ← h1]
  cases b <;> rfl

theorem ctorType_eq {ast : AST} {types : TypeMap} {n : Str} {t : RType} (h : Meaning ast types n t) (exp : Str)
    (a o : Bool) : fieldCtorType n t exp a o = qualified exp n ++ (if a then "[]".toList else []) ++
      (if o then " | undefined".toList else []) := by
  cases h with
  | builtin b hb => exact ctorType_builtin hb a o
  | enum vs e hn => unfold qualified; rw [if_neg hn]; rfl
  | struct fs fs' rfs hn => unfold qualified; rw [if_neg hn]; rfl

section
variable {ord : List (Str × Ty) → List (Str × Ty)} (hord : FairOrd ord) {ast : AST} (hnb : NoBuiltinDecl ast)
  {r : Resolved} (h : typeCheck ord ast = .ok r)
include hord hnb h

theorem members_eq {fs : List (Str × Unresolved)} {rfs : List RField} (hf : List.Forall₂ (FieldResolved r.types) fs rfs) :
    rfs.flatMap rMember = fs.flatMap memberLine := by
  induction hf with
  | nil => rfl
  | @cons f rf fs rfs hR _ ih =>
    rw [List.flatMap_cons, List.flatMap_cons, ih]
    congr 1
    have := declTypeName_eq (meaning hord hnb h hR.ty).2
    unfold rMember memberLine
    rw [hR.name, hR.tyName, hR.array, hR.optional, this]
    simp only [List.append_assoc]

theorem params_eq (exp : Str) {fs : List (Str × Unresolved)} {rfs : List RField}
    (hf : List.Forall₂ (FieldResolved r.types) fs rfs) :
    printCtorFields "        ".toList exp rfs = fs.flatMap (paramLine exp) := by
  induction hf with
  | nil => rfl
  | @cons f rf fs rfs hR _ ih =>
    rw [List.flatMap_cons]
    unfold printCtorFields
    rw [ih]
    congr 1
    unfold paramLine
    rw [hR.name, hR.tyName, hR.array, hR.optional, ctorType_eq (meaning hord hnb h hR.ty).2]
    rw [show "        public ".toList = "        ".toList ++ "public ".toList by decide]
    simp only [List.append_assoc]

theorem interface_eq (n : Str) {fs : List (Str × Unresolved)} {rfs : List RField}
    (hf : List.Forall₂ (FieldResolved r.types) fs rfs) : rInterface n rfs = interfaceText n fs := by
  unfold rInterface interfaceText
  rw [members_eq hord hnb h hf, show "    export interface ".toList = "    ".toList ++ "export interface ".toList by decide,
    show "    }\n".toList = "    ".toList ++ "}\n".toList by decide]
  simp only [List.append_assoc]

omit hord hnb h in
theorem variants_zip {vs : List Str} {e : REnum} (he : EnumResolved vs e) :
    e.variants = vs.zipIdx.map fun p => ⟨p.1, p.2⟩ := by
  have h1 := he.names
  have h2 := he.values
  have key : ∀ (k : Nat) (l : List EnumVariant) (vs : List Str), l.map EnumVariant.name = vs →
      l.map EnumVariant.value = List.range' k vs.length → l = (vs.zipIdx k).map fun p => ⟨p.1, p.2⟩ := by
    intro k l
    induction l generalizing k with
    | nil => intro vs h1 _; subst h1; rfl
    | cons a l ih =>
      intro vs h1 h2
      subst h1
      simp only [List.map_cons, List.length_cons, List.range'_succ, List.cons.injEq] at h2
      obtain ⟨h3, h4⟩ := h2
      rw [List.map_cons, List.zipIdx_cons, List.map_cons, ← ih (k + 1) _ rfl h4]
      cases a
      simp only at h3
      subst h3
      rfl
  exact key 0 _ _ h1 (by rw [h2, List.range_eq_range'])

omit hord hnb h in
theorem enum_eq (n : Str) {vs : List Str} {e : REnum} (he : EnumResolved vs e) : rEnum n e = enumText n vs := by
  unfold rEnum enumText
  rw [variants_zip he, List.flatMap_map, show "    export const enum ".toList = "    ".toList ++ "export const enum ".toList by decide,
    show "    }\n".toList = "    ".toList ++ "}\n".toList by decide]
  have : (fun a : Str × Nat => rVariant ⟨a.1, a.2⟩) = variantLine := by
    funext a
    unfold rVariant variantLine
    simp only [List.append_assoc]
  rw [this]
  simp only [List.append_assoc]

/-- The declarations emitted for any enumeration of the type map. -/
theorem entries_complete {types : TypeMap} (hp : types.Perm r.types) :
    Complete ast r.export.name (types.filterMap (entry r.export.name)) := by
  obtain ⟨u1, u2, u3⟩ := Props.C22_types_are_used hord hnb h
  have hmem : ∀ n x, (n, x) ∈ types ↔ r.types.get n = some x := fun n x => by
    rw [hp.mem_iff]
    exact ⟨fun hm => Map.mem_get u2 hm, fun hg => Map.get_mem hg⟩
  have hname : ∀ d y, entry r.export.name d = some y → y.1 = d.1 := by
    rintro ⟨n, m, t⟩ y he
    unfold entry at he
    split at he
    · cases he
    · cases t <;> simp only [Option.some.injEq, reduceCtorEq] at he <;> subst he <;> rfl
  refine ⟨?_, ?_, ?_⟩
  · have hsub : ((types.filterMap (entry r.export.name)).map Prod.fst).Sublist (types.map Prod.fst) := by
      clear hp hmem
      induction types with
      | nil => exact List.Sublist.refl _
      | cons d l ih =>
        cases he : entry r.export.name d with
        | none => rw [List.filterMap_cons_none he, List.map_cons]; exact ih.cons _
        | some y =>
          rw [List.filterMap_cons_some he, List.map_cons, List.map_cons, hname d y he]
          exact ih.cons_cons _
    exact hsub.nodup ((hp.map Prod.fst).nodup_iff.2 u2)
  · intro n
    simp only [List.mem_map, List.mem_filterMap]
    constructor
    · rintro ⟨y, ⟨d, hd, he⟩, rfl⟩
      have hn := hname d y he
      obtain ⟨n, m, t⟩ := d
      simp only at hn
      obtain ⟨h1, h2⟩ := meaning hord hnb h ((hmem _ _).1 hd)
      unfold entry at he
      split at he
      · cases he
      · rename_i hne
        rw [hn]
        refine ⟨h1, ?_, hne⟩
        cases h2 with
        | builtin b hb => cases he
        | enum vs e h => exact h
        | struct fs fs' rfs h => exact h
    · rintro ⟨h1, h2, h3⟩
      obtain ⟨x, hx⟩ := (u1 n).2 h1
      have hx : (n, x) ∈ types := hp.mem_iff.2 hx
      obtain ⟨m, t⟩ := x
      obtain ⟨_, hm⟩ := meaning hord hnb h ((hmem _ _).1 hx)
      cases hm with
      | builtin b hb => exact absurd (Props.builtin_table_get hb).1 h2
      | enum vs e h => exact ⟨(n, rEnum n e), ⟨_, hx, by simp [entry, h3]⟩, rfl⟩
      | struct fs fs' rfs h => exact ⟨(n, rInterface n rfs), ⟨_, hx, by simp [entry, h3]⟩, rfl⟩
  · intro y hy
    obtain ⟨⟨n, m, t⟩, hd, he⟩ := List.mem_filterMap.1 hy
    obtain ⟨_, h2⟩ := meaning hord hnb h ((hmem _ _).1 hd)
    unfold entry at he
    split at he
    · cases he
    · cases h2 with
      | builtin b hb => cases he
      | enum vs e h h' h'' =>
        cases he
        exact Or.inl ⟨vs, h', enum_eq n h''⟩
      | struct fs fs' rfs hn hd' hp' hf =>
        cases he
        exact Or.inr ⟨fs, fs', hd', hp', interface_eq hord hnb h n hf⟩

/-- The class, with the bodies of its methods. -/
theorem class_eq : ∃ fs fs', .decl r.export.name (.struct fs) ∈ ast ∧ fs'.Perm fs ∧
    List.Forall₂ (FieldResolved r.types) fs' r.export.fields ∧
    printClass r.export = classText r.export.name fs' (printStmts "        ".toList (readBody r.export))
      (printStmts "        ".toList (writeBody r.export)) := by
  obtain ⟨f1, f2, f3, f4⟩ := Props.C23_faithful hord hnb h
  obtain ⟨h1, fs, hd⟩ := Props.C21_export_is_struct hord h
  obtain ⟨rfs, fs', h2, h3, h4⟩ := f4 r.export.name fs ⟨_, h1, .refl⟩ (mem_decls.2 hd)
  rw [f1] at h2
  cases h2
  refine ⟨fs, fs', hd, h3, h4, ?_⟩
  unfold classText classHead
  rw [← params_eq hord hnb h r.export.name h4]
  delta printClass
  show _ ++ _ ++ _ ++ (deeper [] ++ _) ++ printCtorFields "        ".toList _ _ ++ _ ++ _ ++ printStmts "        ".toList _ ++
    _ ++ _ ++ printStmts "        ".toList _ ++ _ ++ _ = _
  rw [show deeper [] = "    ".toList by decide,
    show "    constructor(\n".toList = "    ".toList ++ "constructor(\n".toList by decide,
    show "    ) {}\n".toList = "    ".toList ++ ") {}\n".toList by decide,
    show "    static read(data: ArrayBuffer): ".toList = "    ".toList ++ "static read(data: ArrayBuffer): ".toList by decide,
    show "    write(buffer?: ArrayBuffer): ArrayBuffer {\n".toList =
      "    ".toList ++ "write(buffer?: ArrayBuffer): ArrayBuffer {\n".toList by decide,
    show "    }\n".toList = "    ".toList ++ "}\n".toList by decide]
  simp only [List.append_assoc]

/-- The generator does not panic, and produces header, import, namespace and class. -/
theorem generate_eq (version now : Str) (ordD : TypeMap → TypeMap) :
    generate version now ordD r = some (header version now ++ importLine ++
      namespaceText r.export.name ((ordD r.types).filterMap (entry r.export.name)) ++ printClass r.export) := by
  unfold generate
  have hb := sound_boundsFs _ (accepted_sound hord hnb h).1
  simp only [genDecls_eq, genImpl_eq _ hb, emit_panicked, emit_out]
  rfl

end

end Packetc.Module
