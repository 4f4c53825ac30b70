import Verif.Props.Inverse
import Verif.Props.RustCheck
/-!
# C122: what the emitted Rust file tells about the schema
-/

namespace Packetc.Rs

/-- The same functions, and the same definitions in any order. -/
structure SameProgram (s t : Source) : Prop where
  items : s.items.Perm t.items
  write : s.write = t.write
  read : s.read = t.read

end Packetc.Rs

namespace Packetc.Props
open Ast Check Gen WellFormed Rs RustGen

/-- The name in the schema of a type of Rust. -/
def schemaName (m : Str) : Str := ((rustTable.map Prod.swap).lookup m).getD m

theorem schemaName_rust {n : Str} (h : n ∉ primNames) : schemaName (rustTypeName n) = n := by
  by_cases hb : n ∈ rustTable.map Prod.fst
  · have key : ∀ n ∈ rustTable.map Prod.fst, schemaName (rustTypeName n) = n := by decide
    exact key n hb
  · have h1 : rustTable.lookup n = none := by
      rw [List.lookup_eq_none_iff]
      intro p hp
      exact bne_iff_ne.2 fun he => hb (List.mem_map.2 ⟨p, hp, he.symm⟩)
    have h2 : (rustTable.map Prod.swap).lookup n = none := by
      rw [List.lookup_eq_none_iff]
      intro p hp
      refine bne_iff_ne.2 fun he => h ?_
      have key : ∀ p ∈ rustTable.map Prod.swap, p.1 ∈ primNames := by decide
      rw [he]
      exact key p hp
    unfold rustTypeName
    rw [h1, Option.getD_none]
    unfold schemaName
    rw [h2, Option.getD_none]

/-- A field of a struct in Rust. -/
abbrev rustField (g : Str × Unresolved) : Str × FieldTy := (g.1, ⟨rustTypeName g.2.name, g.2.array, g.2.optional⟩)
/-- The field of the schema. -/
def schemaField (f : Str × FieldTy) : Str × Unresolved := (f.1, ⟨schemaName f.2.base, f.2.vec, f.2.opt⟩)

theorem schemaField_rust {gs : List (Str × Unresolved)} (h : ∀ g ∈ gs, g.2.name ∉ primNames) :
    (gs.map rustField).map schemaField = gs := by
  rw [List.map_map]
  conv_rhs => rw [← List.map_id gs]
  refine List.map_congr_left fun g hg => ?_
  show (g.1, (⟨schemaName (rustTypeName g.2.name), g.2.array, g.2.optional⟩ : Unresolved)) = g
  rw [schemaName_rust (h g hg)]

theorem definedAs_name {n : Str} {t : Ast.Ty} {i : Item} (h : DefinedAs n t i) : i.name = n := by cases h <;> rfl

/-- Types with the same definition in Rust. -/
theorem definedAs_like {n m : Str} {t u : Ast.Ty} {i : Item} (ht : DefinedAs n t i) (hu : DefinedAs m u i)
    (h1 : ∀ gs, t = .struct gs → ∀ g ∈ gs, g.2.name ∉ primNames) (h2 : ∀ gs, u = .struct gs → ∀ g ∈ gs, g.2.name ∉ primNames) :
    LikeTy t u := by
  cases ht with
  | struct gs fs hp =>
    cases hu with
    | struct gs' _ hp' =>
      have := (hp.symm.trans hp').map schemaField
      have e1 := schemaField_rust (h1 gs rfl)
      have e2 := schemaField_rust (h2 gs' rfl)
      unfold rustField at e1 e2
      rw [e1, e2] at this
      exact .struct this
  | enum v vs repr bits _ _ _ =>
    generalize hz : (v :: vs).zipIdx = z at hu
    generalize (z.map fun w => ((if w.2 = 31 then -2 ^ 31 else 2 ^ w.2 : Int), w.1)) = arms at hu
    generalize ht' : Ast.Ty.enum (v :: vs) = t
    cases hu with
    | enum v' vs' =>
      have := congrArg (List.map Prod.fst) hz
      rw [List.zipIdx_map_fst, List.zipIdx_map_fst] at this
      rw [← ht', this]
      exact .enum

variable {a b : AST} {r r' : Resolved} {s s' : Source}

theorem checked_export (hc : Checked a r) : exports a = [r.export.name] := by
  obtain ⟨ord, text, hord, hp, ht⟩ := hc
  obtain ⟨c, -, he, -⟩ := typeCheck_final hord (parsed_noBuiltinDecl hp) ht
  exact he

theorem emitted_names (hc : Checked a r) (hE : Emitted r s) : s.read.1 = r.export.name := by
  rw [(emitted_iff hc).1 hE]

theorem checked_wf (hc : Checked a r) : WF a := by
  obtain ⟨ord, text, hord, hp, ht⟩ := hc
  exact (C12_accepts_iff_wellformed hord a (parsed_noBuiltinDecl hp)).1 ⟨r, ht⟩

/-- None of the types that are used is named like one of Rust's own. -/
abbrev NoPrim (a : AST) : Prop := ∀ n ∈ primNames, ¬ Used a n

theorem field_noPrim (hn : NoPrim a) {n : Str} (hu : Used a n) {t : Ast.Ty} (hd : .decl n t ∈ a) :
    ∀ gs, t = .struct gs → ∀ g ∈ gs, g.2.name ∉ primNames := by
  rintro gs rfl g hg hp
  exact hn _ hp (used_ref hu ⟨gs, Js.mem_decls.2 hd, g, hg, rfl⟩)

/-- A type that is used and named like one of Rust's own is declared. -/
theorem prim_declared (hc : Checked a r) {n : Str} (hn : n ∈ primNames) (hu : Used a n) : ∃ t, .decl n t ∈ a := by
  have hwf := checked_wf hc
  obtain ⟨e, he, hr⟩ := hu
  cases hr with
  | refl =>
    obtain ⟨e', fs, he', hfs⟩ := hwf.exported
    rw [he] at he'
    cases he'
    exact ⟨_, Js.mem_decls.1 hfs⟩
  | tail _ hr =>
    rcases hwf.closed _ _ hr with h | ⟨t, h⟩
    · have key : ∀ n ∈ primNames, n ∉ builtinNames := by decide
      exact absurd h (key n hn)
    · exact ⟨t, Js.mem_decls.1 h⟩

theorem noPrim_same (ha : Checked a r) (hb : Checked b r') (hE : Emitted r s) (hE' : Emitted r' s') (hp : s.items.Perm s'.items)
    (hn : NoPrim a) : NoPrim b := by
  rintro n hn' hu
  obtain ⟨t, hd⟩ := prim_declared hb hn' hu
  obtain ⟨i, hi, h1⟩ := (C91_definitions hb hE').2.1 n t hu hd
  obtain ⟨m, u, h2, -, h3⟩ := (C91_definitions ha hE).2.2 i (hp.mem_iff.2 hi)
  have : m = n := (definedAs_name h3).symm.trans (definedAs_name h1)
  exact hn n hn' (this ▸ h2)

theorem declared_like (ha : Checked a r) (hb : Checked b r') (hE : Emitted r s) (hE' : Emitted r' s') (hp : s.items.Perm s'.items)
    (hn : NoPrim a) {n : Str} (hu : Used a n) {t : Ast.Ty} (hd : .decl n t ∈ a) : Used b n ∧ ∃ u, .decl n u ∈ b ∧ LikeTy t u := by
  obtain ⟨i, hi, h1⟩ := (C91_definitions ha hE).2.1 n t hu hd
  obtain ⟨m, u, h2, h3, h4⟩ := (C91_definitions hb hE').2.2 i (hp.mem_iff.1 hi)
  obtain rfl : m = n := (definedAs_name h4).symm.trans (definedAs_name h1)
  exact ⟨h2, u, h3, definedAs_like h1 h4 (field_noPrim hn hu hd)
    (field_noPrim (noPrim_same ha hb hE hE' hp hn) h2 h3)⟩

theorem used_same (ha : Checked a r) (hb : Checked b r') (hE : Emitted r s) (hE' : Emitted r' s') (hs : SameProgram s s')
    (hn : NoPrim a) {n : Str} (hu : Used a n) : Used b n := by
  have he : exports b = exports a := by
    rw [checked_export ha, checked_export hb, ← emitted_names ha hE, ← emitted_names hb hE', hs.read]
  obtain ⟨e, hx, hr⟩ := hu
  induction hr with
  | refl => exact ⟨e, he.trans hx, .refl⟩
  | @tail m k hr hk ih =>
    obtain ⟨fs, hd, f, hf, rfl⟩ := hk
    obtain ⟨-, u, h1, h2⟩ := declared_like ha hb hE hE' hs.items hn ⟨e, hx, hr⟩ (Js.mem_decls.1 hd)
    cases h2 with
    | struct h2 => exact used_ref ih ⟨_, Js.mem_decls.2 h1, f, h2.mem_iff.1 hf, rfl⟩

theorem _root_.Packetc.Rs.SameProgram.symm (h : SameProgram s s') : SameProgram s' s := ⟨h.items.symm, h.write.symm, h.read.symm⟩

/-- C122: if the files emitted for two schemas are the same program, then the schemas export the same type, use the same types, and
declare these alike, up to the order of the fields. (In one of them no type is named like one of Rust's own.) -/
theorem C122_program (ha : Checked a r) (hb : Checked b r') (hn : NoPrim a) (hE : Emitted r s) (hE' : Emitted r' s')
    (hs : SameProgram s s') : LikeUsed a b := by
  have hn' := noPrim_same ha hb hE hE' hs.items hn
  refine ⟨?_, fun n => ⟨used_same ha hb hE hE' hs hn, used_same hb ha hE' hE hs.symm hn'⟩, fun n hu t hd => ?_, fun n hu t hd => ?_⟩
  · rw [checked_export ha, checked_export hb, ← emitted_names ha hE, ← emitted_names hb hE', hs.read]
  · exact (declared_like ha hb hE hE' hs.items hn hu hd).2
  · obtain ⟨-, u, h1, h2⟩ := declared_like hb ha hE' hE hs.items.symm hn' hu hd
    refine ⟨u, h1, ?_⟩
    cases h2 with
    | enum => exact .enum
    | struct h => exact .struct h.symm

/-- C122: a file that the Rust compiler accepts determines everything in the schema that is used, up to the order of the fields. -/
theorem C122_file (ha : Checked a r) (hb : Checked b r') {text : Str} (hr : rustFile r = some text) (hr' : rustFile r' = some text)
    (hok : Compiles text) : LikeUsed a b := by
  obtain ⟨hnames, -⟩ := (C97_exact_partial ha hr).1 hok
  obtain ⟨s, hp, -⟩ := hok
  refine C122_program ha hb ?_ ⟨text, hr, hp⟩ ⟨text, hr', hp⟩ ⟨.refl _, rfl, rfl⟩
  rintro n hn hu
  obtain ⟨t, hd⟩ := prim_declared ha hn hu
  refine (hnames.types n t hu hd).2 ?_
  have key : ∀ n ∈ primNames, n ∈ taken := by decide
  exact key n hn

/-- The fields of a struct are emitted as declared, if none can be overtaken. -/
theorem emitted_inOrder (ha : Checked a r) (hE : Emitted r s) {n : Str} {fs} (hu : Used a n) (hd : .decl n (.struct fs) ∈ a)
    (ho : InOrder a fs) : .struct n (fs.map rustField) ∈ s.items := by
  obtain rfl := (emitted_iff ha).1 hE
  obtain ⟨ord, text, hord, hp, ht⟩ := id ha
  obtain ⟨c, hf, -, -, -, h1, -⟩ := typeCheck_final hord (parsed_noBuiltinDecl hp) ht
  obtain ⟨rfs, h2, h3⟩ := hf.inOrder (Js.mem_decls.2 hd) ho
  rw [← h1 n hu] at h2
  refine List.mem_filterMap.2 ⟨_, Map.get_mem h2, ?_⟩
  show some (structItem n rfs) = _
  have h4 : List.Forall₂ (FieldResolved r.types) fs rfs := by
    have key : ∀ {gs rgs}, List.Forall₂ (FieldOk c) gs rgs → (∀ g ∈ gs, g ∈ fs) → List.Forall₂ (FieldResolved r.types) gs rgs := by
      intro gs rgs h
      induction h with
      | nil => exact fun _ => .nil
      | cons h _ ih =>
        intro hsub
        refine .cons ⟨h.name, h.tyName, h.array, h.optional, ?_⟩ (ih fun g hg => hsub g (List.mem_cons_of_mem _ hg))
        rw [h1 _ (used_ref hu ⟨fs, Js.mem_decls.2 hd, _, hsub _ List.mem_cons_self, rfl⟩), h.ty]
    exact key h3 fun _ h => h
  unfold structItem
  rw [field_def ha h4]

/-- C122: if no field can be overtaken, the order of the fields is the same, too. -/
theorem C122_ordered (ha : Checked a r) (hb : Checked b r') (hoa : AllInOrder a) (hob : AllInOrder b) (hn : NoPrim a)
    (hE : Emitted r s) (hE' : Emitted r' s') (hs : SameProgram s s') : SameUsed a b := by
  have hl := C122_program ha hb hn hE hE' hs
  have hn' := noPrim_same ha hb hE hE' hs.items hn
  have key : ∀ n, Used a n → ∀ t u, .decl n t ∈ a → .decl n u ∈ b → LikeTy t u → t = u := by
    intro n hu t u ht hu' h
    cases h with
    | enum => rfl
    | struct h =>
      have h1 := emitted_inOrder ha hE hu ht (hoa n _ hu (Js.mem_decls.2 ht))
      have h2 := emitted_inOrder hb hE' ((hl.used n).1 hu) hu' (hob n _ ((hl.used n).1 hu) (Js.mem_decls.2 hu'))
      have h3 := List.inj_on_of_nodup_map (C91_definitions ha hE).1 h1 (hs.items.mem_iff.2 h2) rfl
      injection h3 with _ h3
      have := congrArg (List.map schemaField) h3
      rw [schemaField_rust (field_noPrim hn hu ht _ rfl), schemaField_rust (field_noPrim hn' ((hl.used n).1 hu) hu' _ rfl)] at this
      rw [this]
  refine ⟨hl.exported, fun n hu t => ⟨fun h => ?_, fun h => ?_⟩⟩
  · obtain ⟨u, h1, h2⟩ := hl.decl n hu t h
    rwa [key n hu t u h h1 h2]
  · obtain ⟨u, h1, h2⟩ := hl.back n ((hl.used n).1 hu) t h
    rwa [← key n hu u t h1 h h2]

/-- C122, exactly: if no field can be overtaken, the program emitted for one schema can be emitted for another one if and only if they
agree in everything that is used. -/
theorem C122_exact (ha : Checked a r) (hoa : AllInOrder a) (hob : AllInOrder b) (hn : NoPrim a) (hE : Emitted r s)
    (hb : ∃ r', Checked b r') : (∃ r' s', Checked b r' ∧ Emitted r' s' ∧ SameProgram s s') ↔ SameUsed a b := by
  constructor
  · rintro ⟨r', s', h1, h2, h3⟩
    exact C122_ordered ha h1 hoa hob hn hE h2 h3
  · intro hs
    obtain ⟨r₀, hb⟩ := hb
    have hwb := checked_wf hb
    obtain ⟨-, t, -, hpb, -⟩ := hb
    obtain ⟨ord, text, hord, hp, ht⟩ := id ha
    obtain ⟨ord', r', h1, h2, h3, h4⟩ := C74_resolved (parsed_noBuiltinDecl hp) (parsed_noBuiltinDecl hpb) hs hwb hord ht
    have hb' : Checked b r' := ⟨ord', t, h1, hpb, h2⟩
    refine ⟨r', _, hb', (emitted_iff hb').2 rfl, ?_⟩
    rw [(emitted_iff ha).1 hE, h3]
    exact ⟨(h4.symm.filterMap _), rfl, rfl⟩

theorem reorder_checked : Checked reorderAst (resultFor reorderAst) := checked_of reorder_parses (by rfl)
theorem sorted_checked : Checked sortedAst (resultFor sortedAst) := checked_of sorted_parses (by rfl)
theorem ordered_checked : Checked orderedAst (resultFor orderedAst) := checked_of ordered_parses (by rfl)

theorem reorder_same : resultFor reorderAst = resultFor sortedAst := by rfl

theorem reorder_accepted : Compiles (textFor reorderAst) := by
  refine (C97_exact_partial reorder_checked (textFor_eq reorder_checked)).2 ⟨rustNames_of (by decide), ?_⟩
  refine ⟨fun n vs _ h => ?_, fun n fs _ h f hf ha => ?_, fun n fs _ h f hf ho => ?_⟩
  · simp [reorderAst] at h
  all_goals
    simp only [reorderAst, List.mem_cons, Node.decl.injEq, Ast.Ty.struct.injEq, reduceCtorEq, or_false, List.not_mem_nil] at h
    rcases h with ⟨-, rfl⟩ | ⟨-, rfl⟩ | ⟨-, rfl⟩ <;> simp only [List.mem_cons, List.not_mem_nil, or_false] at hf
  · subst hf; cases ha
  · subst hf; cases ha
  · rcases hf with rfl | rfl <;> cases ha
  · subst hf; cases ho
  · subst hf; cases ho
  · rcases hf with rfl | rfl <;> cases ho

/-- Two schemas with the same file, which is accepted; they differ in the order of fields. And an ordered schema. -/
example : LikeUsed reorderAst sortedAst ∧ ¬ SameUsed reorderAst sortedAst ∧
    ∃ r s, Checked orderedAst r ∧ AllInOrder orderedAst ∧ NoPrim orderedAst ∧ Emitted r s ∧ s.items.length = 4 := by
  refine ⟨C122_file reorder_checked sorted_checked (textFor_eq reorder_checked) ?_ reorder_accepted, reorder_differs,
    _, sourceFor orderedAst, ordered_checked, ordered_inOrder, (namesFit_of (by decide)).types, (emitted_iff ordered_checked).2 rfl, rfl⟩
  rw [← reorder_same]
  exact textFor_eq reorder_checked

end Packetc.Props
