import Verif.Proof.Evolution
import Verif.Props.Interop
/-!
# C63-C66: programs compiled from different versions of a schema
-/

namespace Packetc.Props
open Ast Check WellFormed Js Gen Evolution

variable (rt : Runtime)

/-! ## C63 -/

/-- C63 as described: a program compiled from the old version reads the packets of the new one, ignoring the added fields. -/
def C63_claim : Prop := ∀ (rt : Runtime) (old new : AST) (added : List (Str × Unresolved)) (e₁ e₂ : Artifact), Appends old new added →
  Compiled old e₁ → Compiled new e₂ → PlainSchema old → PlainSchema new → SmallEnums old → SmallEnums new →
  ∀ ps, TypedFs (FaithfulStr rt) IsVariant e₂.fields ps →
    ∃ bytes qs, Writes rt e₂ ps bytes ∧ Shaped e₁.fields qs ∧ Reads rt e₁ bytes qs ∧ ∀ q ∈ qs, q ∈ ps

theorem enumRel_eq {e e' : REnum} (h : EnumRel Eq e e') : e.repr = e'.repr ∧ (∀ n, IsVariant e n ↔ IsVariant e' n) := by
  obtain ⟨vs, us, rfl, o1, -, h1, h2⟩ := h
  exact ⟨repr_eq h1 h2 (Nat.le_refl _) (by omega) (by omega) (enumOk_length o1), fun n =>
    ⟨variant_of_values h1 h2 (Nat.le_refl _), variant_of_values h2 h1 (Nat.le_refl _)⟩⟩

/-- C63, what holds: if no field can be overtaken by a later one, then the old program reads the old fields. What is missing:
schemas in which a field can be overtaken, for which it is false. -/
theorem C63_old_reads_new_partial {old new : AST} {added} (ha : Appends old new added) (ho : AllInOrder old) (ho' : AllInOrder new)
    {e₁ e₂ : Artifact} (h₁ : Compiled old e₁) (h₂ : Compiled new e₂) (u₁ : Usable e₁) (u₂ : Usable e₂) (hs : SmallEnums old)
    {ps : List (PropOf JVal)} (hty : TypedFs (FaithfulStr rt) IsVariant e₂.fields ps) :
    ∃ bytes qs more, ps = qs ++ more ∧ Writes rt e₂ ps bytes ∧ Shaped e₁.fields qs ∧ Reads rt e₁ bytes qs := by
  obtain ⟨gs, more, c, h1, h2, -, -⟩ := append_sim ha ho ho' h₁ h₂
  have hw := C30_write_format rt h₂ u₂.loads (faithful_hasFields rt (trueEnums h₂) hty)
  rw [h1] at hty hw
  obtain ⟨qs, rs, rfl, h3, h4⟩ := typedFs_append gs more ps hty
  obtain ⟨qs', h5, h6⟩ := simFs_typed (P := flip (EnumRel Eq)) (E := IsVariant) (E' := IsVariant)
    (fun e e' n hp hn => ((enumRel_eq hp).2 n).2 hn) gs e₁.fields qs (simFs_symm _ _ h2) h3
  obtain rfl := alikeProps_eq _ _ (alikeProps_mono (fun a b h => h.symm) _ _ h5)
  have h7 := simFs_encode rt (fun e e' h => (enumRel_eq h).1.symm) gs e₁.fields _ _ (simFs_symm _ _ h2) h5
  rw [encodeFields_append gs more _ rs h3, h7] at hw
  exact ⟨_, _, rs, rfl, hw, shaped_of h₁ h6, C32_trailing_after_write rt h₁ u₁ hs h6
    (C30_write_format rt h₁ u₁.loads (faithful_hasFields rt (trueEnums h₁) h6)) _⟩

/-- The schema of C59 without the field `n`. -/
def shortText : Str := "E: struct { x: uint8 }\nA: struct { e: E }\nS: struct { a: A }\nexport S".toList
def shortAst : AST :=
  [.decl "E".toList (.struct [("x".toList, ⟨"uint8".toList, false, false⟩)]),
   .decl "A".toList (.struct [("e".toList, ⟨"E".toList, false, false⟩)]),
   .decl "S".toList (.struct [("a".toList, ⟨"A".toList, false, false⟩)]),
   .export "S".toList]
def shortExport : Artifact := ⟨⟨"S".toList, [fieldA]⟩, exampleCode id shortText⟩

theorem short_compiled : Compiled shortAst shortExport :=
  compiled_of (ord := id) (by decide +kernel) (fun _ => .refl _) rfl rfl

theorem short_plain : PlainSchema shortAst := plain_of (by decide)

theorem short_small : SmallEnums shortAst := by
  intro n vs h
  unfold shortAst at h
  simp only [List.mem_cons, Node.decl.injEq, reduceCtorEq, and_false, or_false, List.not_mem_nil] at h

theorem short_appends : Appends shortAst reorderAst [("n".toList, ⟨"uint8".toList, false, false⟩)] where
  top := ⟨"S".toList, _, rfl, rfl, List.mem_cons_of_mem _ (List.mem_cons_of_mem _ List.mem_cons_self),
    List.mem_cons_of_mem _ (List.mem_cons_of_mem _ List.mem_cons_self)⟩
  kept := by
    intro n t _ hx hd
    simp only [shortAst, decls, List.filterMap_cons, List.filterMap_nil, List.mem_cons, List.not_mem_nil, or_false] at hd
    rcases hd with h | h | h
    · rw [h]; exact List.mem_cons_self
    · rw [h]; exact List.mem_cons_of_mem _ List.mem_cons_self
    · cases h; exact absurd rfl hx

/-- C63 is false: the new field `n` is sent first. -/
theorem C63_false : ¬ C63_claim := by
  intro h
  have h1 : Scalar.Ok .uint8 (.int 1) := ⟨by decide, by decide⟩
  have h2 : Scalar.Ok .uint8 (.int 2) := ⟨by decide, by decide⟩
  have u1 := plain_usable runOne_compiled reorder_plain
  have u2 := plain_usable short_compiled short_plain
  obtain ⟨bytes, qs, hw, hqs, hr, hm⟩ := h leUtf8 _ _ _ _ _ short_appends short_compiled runOne_compiled short_plain reorder_plain
    short_small reorder_small [propN 1, propA 2] (one_typed _ _ h1 h2)
  obtain rfl := writes_unique leUtf8 runOne_compiled u1 (one_typed ShortStr IsVariant h1 h2) hw
    (C30_write_format leUtf8 runOne_compiled u1.loads (one_typed _ _ h1 h2))
  have ht : ∀ S E, TypedFs S E shortExport.fields [propA 1] := fun S E => ⟨_, _, rfl, fieldA_typed S E h1, rfl⟩
  have hr' := C32_trailing_after_write leUtf8 short_compiled u2 short_small (ht _ _)
    (C30_write_format leUtf8 short_compiled u2.loads (ht _ _)) [2]
  have hb : encodeFields leUtf8 runOne.fields [propN 1, propA 2] = encodeFields leUtf8 shortExport.fields [propA 1] ++ [2] := by
    decide +kernel
  rw [hb] at hr
  obtain rfl := reads_unique leUtf8 hqs (ht _ _) hr hr'
  have := hm _ List.mem_cons_self
  simp only [List.mem_cons, List.not_mem_nil, or_false] at this
  rcases this with h3 | h3
  · injection h3 with h3 _
    revert h3
    decide
  · injection h3 with _ h3
    injection h3 with h3
    injection h3 with h3 _
    injection h3 with _ h3
    injection h3 with h3
    injection h3 with h3 _
    injection h3 with _ h3
    injection h3 with h3
    injection h3 with h3
    revert h3
    decide

/-! ### an example -/

/-- `stringAst` with another field. -/
def longText : Str := "A: struct { s: string, n: uint8 }\nexport A".toList
def longAst : AST :=
  [.decl "A".toList (.struct [("s".toList, ⟨"string".toList, false, false⟩), ("n".toList, ⟨"uint8".toList, false, false⟩)]), .export "A".toList]
def longExport : Artifact :=
  ⟨⟨"A".toList, [⟨"s".toList, "string".toList, .builtin .string, false, false⟩, fieldN]⟩, exampleCode id longText⟩

theorem long_compiled : Compiled longAst longExport :=
  compiled_of (ord := id) (by decide +kernel) (fun _ => .refl _) rfl rfl

theorem long_plain : PlainSchema longAst := plain_of (by decide)

theorem long_small : SmallEnums longAst := by
  intro n vs h
  unfold longAst at h
  simp only [List.mem_cons, Node.decl.injEq, reduceCtorEq, and_false, or_false, List.not_mem_nil] at h

theorem string_small : SmallEnums stringAst := by
  intro n vs h
  unfold stringAst at h
  simp only [List.mem_cons, Node.decl.injEq, reduceCtorEq, and_false, or_false, List.not_mem_nil] at h

theorem long_appends : Appends stringAst longAst [("n".toList, ⟨"uint8".toList, false, false⟩)] where
  top := ⟨"A".toList, _, rfl, rfl, List.mem_cons_self, List.mem_cons_self⟩
  kept := by
    intro n t _ hx hd
    simp only [stringAst, decls, List.filterMap_cons, List.filterMap_nil, List.mem_cons, List.not_mem_nil, or_false] at hd
    cases hd
    exact absurd rfl hx

theorem string_inOrder : AllInOrder stringAst := single_inOrder _ _ (by decide)
theorem long_inOrder : AllInOrder longAst := single_inOrder _ _ (by decide)

theorem long_typed (S E) (hS : S "hi".toList) : TypedFs S E longExport.fields [⟨"s".toList, .str "hi".toList⟩, propN 7] :=
  ⟨_, _, rfl, ⟨rfl, Or.inr ⟨_, rfl, hS⟩⟩, _, _, rfl, fieldN_typed S E ⟨by decide, by decide⟩, rfl⟩

example : ∃ (old new : AST) (added : List (Str × Unresolved)) (e₁ e₂ : Artifact) (ps : List (PropOf JVal)), Appends old new added ∧
    AllInOrder old ∧ AllInOrder new ∧ Compiled old e₁ ∧ Compiled new e₂ ∧ Usable e₁ ∧ Usable e₂ ∧ SmallEnums old ∧
    TypedFs (FaithfulStr leUtf8) IsVariant e₂.fields ps ∧ added ≠ [] ∧ e₁.fields ≠ [] :=
  ⟨_, _, _, _, _, _, long_appends, string_inOrder, long_inOrder, string_compiled, long_compiled,
    plain_usable string_compiled string_plain, plain_usable long_compiled long_plain, string_small, long_typed _ _ ⟨by decide, by decide⟩,
    (by intro h; cases h), (by intro h; cases h)⟩

/-! ## C64 -/

theorem renames_sim {τ : Str → Str} {old new : AST} (hn : Renames τ old new) (ho : AllInOrder old) {e₁ e₂ : Artifact}
    (h₁ : Compiled old e₁) (h₂ : Compiled new e₂) :
    SimFs (fun _ _ => True) (fun a b => b = τ a) (EnumRel fun vs us => us.length = vs.length) e₁.fields e₂.fields := by
  obtain ⟨x, hx, hy⟩ := hn.top
  exact compiled_sim (renames_maps hn ho) hx hy h₁ h₂

/-- C64: renaming does not change the bytes of a packet. -/
theorem C64_rename_bytes {τ : Str → Str} {old new : AST} (hn : Renames τ old new) (ho : AllInOrder old) {e₁ e₂ : Artifact}
    (h₁ : Compiled old e₁) (h₂ : Compiled new e₂) (u₁ : Usable e₁) (u₂ : Usable e₂) {ps qs : List (PropOf JVal)}
    (hps : HasFields e₁.fields ps) (hqs : HasFields e₂.fields qs) (hsame : SameValues ps qs) {bytes : List UInt8} :
    Writes rt e₁ ps bytes ↔ Writes rt e₂ qs bytes := by
  have w₁ := C30_write_format rt h₁ u₁.loads hps
  have w₂ := C30_write_format rt h₂ u₂.loads hqs
  have he := simFs_encode rt (fun e e' h => (rename_enum h).1) _ _ ps qs (renames_sim hn ho h₁ h₂) hsame
  constructor
  · intro h
    rw [writes_unique rt h₁ u₁ hps h w₁, he]
    exact w₂
  · intro h
    rw [writes_unique rt h₂ u₂ hqs h w₂, ← he]
    exact w₁

/-- C64: every packet of the old version is one of the new version, up to names. -/
theorem C64_rename_values {τ : Str → Str} {old new : AST} (hn : Renames τ old new) (ho : AllInOrder old) {e₁ e₂ : Artifact}
    (h₁ : Compiled old e₁) (h₂ : Compiled new e₂) {ps : List (PropOf JVal)} (hps : HasFields e₁.fields ps) :
    ∃ qs, SameValues ps qs ∧ HasFields e₂.fields qs := by
  refine simFs_typed (fun e e' n h hv => ?_) _ _ ps (renames_sim hn ho h₁ h₂) hps
  obtain ⟨vs, us, hl, -, -, r₁, r₂⟩ := h
  exact variant_of_values r₁ r₂ (Nat.le_of_eq hl.symm) hv

/-- C64: the programs accept the same packets, and read the same from them, up to names. -/
theorem C64_rename_reads {τ : Str → Str} {old new : AST} (hn : Renames τ old new) (ho : AllInOrder old) {e₁ e₂ : Artifact}
    (h₁ : Compiled old e₁) (h₂ : Compiled new e₂) (u₁ : Usable e₁) (u₂ : Usable e₂) (data : List UInt8) :
    (Rejects rt e₁ data ∧ Rejects rt e₂ data) ∨
    ∃ ps qs, Shaped e₁.fields ps ∧ Shaped e₂.fields qs ∧ Reads rt e₁ data ps ∧ Reads rt e₂ data qs ∧ SameValues ps qs := by
  have hs := renames_sim hn ho h₁ h₂
  cases hb : (rdFields rt e₁.fields ⟨data, false, 0⟩).2.failed with
  | false =>
    obtain ⟨a, b⟩ := simFs_rd rt (fun e e' h => ⟨(rename_enum h).1, fun n h' => by rw [← (rename_enum h).2 n]; exact h'⟩) _ _ _ hs hb
    have hb' := hb
    rw [b] at hb'
    exact Or.inr ⟨_, _, shaped_of h₁ (typed_fields rt _ _ hb), shaped_of h₂ (typed_fields rt _ _ hb'), reads_of_rd rt h₁ u₁ hb,
      reads_of_rd rt h₂ u₂ hb', a⟩
  | true =>
    refine Or.inl ⟨rejects_of_rd rt h₁ u₁ hb, rejects_of_rd rt h₂ u₂ (not_false fun hc => ?_)⟩
    obtain ⟨a, b⟩ := simFs_rd (P := flip (EnumRel fun vs us => us.length = vs.length)) rt
      (fun e e' h => ⟨(rename_enum h).1.symm, fun n h' => by rw [(rename_enum h).2 n]; exact h'⟩) _ _ _ (simFs_symm _ _ hs) hc
    rw [← b, hc] at hb
    cases hb

/-- `enumAst` with other names. -/
def renamedText : Str := "F: enum { X, Y, Z }\nQ: struct { f: F }\nexport Q".toList
def renamedAst : AST :=
  [.decl "F".toList (.enum ["X".toList, "Y".toList, "Z".toList]),
   .decl "Q".toList (.struct [("f".toList, ⟨"F".toList, false, false⟩)]), .export "Q".toList]
def renamedExport : Artifact :=
  ⟨⟨"Q".toList, [⟨"f".toList, "F".toList, .enum ⟨.u8, [⟨"X".toList, 0⟩, ⟨"Y".toList, 1⟩, ⟨"Z".toList, 2⟩]⟩, false, false⟩]⟩,
    exampleCode id renamedText⟩

theorem renamed_compiled : Compiled renamedAst renamedExport :=
  compiled_of (ord := id) (by decide +kernel) (fun _ => .refl _) rfl rfl

theorem renamed_plain : PlainSchema renamedAst := plain_of (by decide)

def newName (n : Str) : Str := if n = "E".toList then "F".toList else if n = "P".toList then "Q".toList else n

theorem renamed_renames : Renames newName enumAst renamedAst where
  top := ⟨"P".toList, rfl, rfl⟩
  builtins := by decide
  structs := by
    intro n fs _ hd
    simp only [enumAst, decls, List.filterMap_cons, List.filterMap_nil, List.mem_cons, Prod.mk.injEq, List.not_mem_nil,
      or_false, Ty.struct.injEq, reduceCtorEq, and_false, false_or] at hd
    obtain ⟨rfl, rfl⟩ := hd
    exact ⟨_, List.mem_cons_of_mem _ List.mem_cons_self, .cons rfl .nil⟩
  enums := by
    intro n vs _ hd
    simp only [enumAst, decls, List.filterMap_cons, List.filterMap_nil, List.mem_cons, Prod.mk.injEq, List.not_mem_nil,
      or_false, Ty.enum.injEq, reduceCtorEq, and_false] at hd
    obtain ⟨rfl, rfl⟩ := hd
    exact ⟨_, List.mem_cons_self, rfl⟩

theorem enum_inOrder : AllInOrder enumAst := by
  refine AllSimple.inOrder ?_
  intro n fs hd f hf
  simp only [enumAst, decls, List.filterMap_cons, List.filterMap_nil, List.mem_cons, Prod.mk.injEq, List.not_mem_nil,
    or_false, Ty.struct.injEq, reduceCtorEq, and_false, false_or] at hd
  obtain ⟨rfl, rfl⟩ := hd
  rw [List.mem_singleton] at hf
  subst hf
  exact Or.inr (Or.inl ⟨_, List.mem_cons_self⟩)

theorem enum_small : SmallEnums enumAst := by
  intro n vs h
  unfold enumAst at h
  simp only [List.mem_cons, Node.decl.injEq, Ty.enum.injEq, reduceCtorEq, and_false, or_false, List.not_mem_nil] at h
  rw [h.2]
  decide

theorem enum_typed (S) : TypedFs S IsVariant enumExport.fields [⟨"e".toList, .num (.int 2)⟩] :=
  ⟨_, _, rfl, ⟨rfl, Or.inr ⟨_, rfl, ⟨_, List.mem_cons_of_mem _ List.mem_cons_self, rfl⟩⟩⟩, rfl⟩

example : ∃ (τ : Str → Str) (old new : AST) (e₁ e₂ : Artifact) (ps qs : List (PropOf JVal)), Renames τ old new ∧ AllInOrder old ∧
    Compiled old e₁ ∧ Compiled new e₂ ∧ Usable e₁ ∧ Usable e₂ ∧ HasFields e₁.fields ps ∧ HasFields e₂.fields qs ∧ SameValues ps qs ∧
    ps.map PropOf.name ≠ qs.map PropOf.name :=
  ⟨_, _, _, _, _, _, [⟨"f".toList, .num (.int 2)⟩], renamed_renames, enum_inOrder, enum_compiled, renamed_compiled,
    plain_usable enum_compiled enum_plain, plain_usable renamed_compiled renamed_plain, enum_typed _,
    ⟨_, _, rfl, ⟨rfl, Or.inr ⟨_, rfl, ⟨_, List.mem_cons_of_mem _ List.mem_cons_self, rfl⟩⟩⟩, rfl⟩,
    ⟨_, _, rfl, ⟨trivial, rfl⟩, rfl⟩, by decide⟩

/-! ## C65 -/

/-- C65 as described: when variants are added at the end of enums, the new program still reads packets of the old one. -/
def C65_claim : Prop := ∀ (rt : Runtime) (old new : AST) (e₁ e₂ : Artifact), AddsVariants old new →
  Compiled old e₁ → Compiled new e₂ → PlainSchema old → PlainSchema new → SmallEnums old → SmallEnums new →
  ∀ ps, TypedFs (FaithfulStr rt) IsVariant e₁.fields ps → ∃ bytes, Writes rt e₁ ps bytes ∧ Reads rt e₂ bytes ps

theorem adds_sim {old new : AST} (ha : AddsVariants old new) (hw : SameWidths old new) (hs : SmallEnums new) (ho : AllInOrder old)
    {e₁ e₂ : Artifact} (h₁ : Compiled old e₁) (h₂ : Compiled new e₂) : SimFs Eq (fun a b => b = a) (EnumRel Grows) e₁.fields e₂.fields := by
  obtain ⟨env, text, r, hf, -, p, -, c, x⟩ := id h₁
  obtain ⟨-, -, n, -⟩ := typeCheck_final hf.1 (parsed_noBuiltinDecl p) c
  exact compiled_sim (adds_maps ha hw hs ho) n (by rw [ha.top]; exact n) h₁ h₂

/-- C65, what holds: if no enum outgrows its representation and no field can be overtaken by a later one, then both programs
write the old packets in the same way, and the new program reads them. What is missing: enums that grow beyond 8 or 16 variants
and fields that can be overtaken, for which it is false. -/
theorem C65_new_reads_old_partial {old new : AST} (ha : AddsVariants old new) (hw : SameWidths old new) (ho : AllInOrder old)
    {e₁ e₂ : Artifact} (h₁ : Compiled old e₁) (h₂ : Compiled new e₂) (u₁ : Usable e₁) (u₂ : Usable e₂) (hs : SmallEnums new)
    {ps : List (PropOf JVal)} (hty : TypedFs (FaithfulStr rt) IsVariant e₁.fields ps) :
    ∃ bytes, Writes rt e₁ ps bytes ∧ Writes rt e₂ ps bytes ∧ Reads rt e₂ bytes ps := by
  have hsim := adds_sim ha hw hs ho h₁ h₂
  obtain ⟨qs, h5, h6⟩ := simFs_typed (P := EnumRel Grows) (E := IsVariant) (E' := IsVariant)
    (fun e e' n hp hn => (grows_enum hp).2.2.1 n hn) _ _ ps hsim hty
  have h7 := simFs_encode rt (fun e e' h => (grows_enum h).1) _ _ _ _ hsim h5
  obtain rfl := alikeProps_eq _ _ h5
  obtain ⟨bytes, w, r⟩ := C31_read_inverts_write_partial rt h₂ u₂ hs h6
  refine ⟨bytes, ?_, w, r⟩
  rw [writes_unique rt h₂ u₂ h6 w (C30_write_format rt h₂ u₂.loads (faithful_hasFields rt (trueEnums h₂) h6)), ← h7]
  exact C30_write_format rt h₁ u₁.loads (faithful_hasFields rt (trueEnums h₁) hty)

/-- C65, the other direction: the old program reads packets of the new one that use old variants only, and rejects all others. -/
theorem C65_old_reads_new_partial {old new : AST} (ha : AddsVariants old new) (hw : SameWidths old new) (ho : AllInOrder old)
    {e₁ e₂ : Artifact} (h₁ : Compiled old e₁) (h₂ : Compiled new e₂) (u₁ : Usable e₁) (u₂ : Usable e₂)
    (hs₁ : SmallEnums old) (hs : SmallEnums new) {ps : List (PropOf JVal)} (hty : TypedFs (FaithfulStr rt) IsVariant e₂.fields ps) :
    ∃ bytes, Writes rt e₂ ps bytes ∧
      ((HasFields e₁.fields ps ∧ Reads rt e₁ bytes ps) ∨ (¬ HasFields e₁.fields ps ∧ Rejects rt e₁ bytes)) := by
  have hsim := adds_sim ha hw hs ho h₁ h₂
  refine ⟨_, C30_write_format rt h₂ u₂.loads (faithful_hasFields rt (trueEnums h₂) hty), ?_⟩
  obtain ⟨c', hd⟩ := dec_fields rt e₂.fields ps (faithful_typed rt (compiled_small h₂ hs) hty) [] 0
  rw [List.append_nil] at hd
  cases hb : (rdFields rt e₁.fields ⟨encodeFields rt e₂.fields ps, false, 0⟩).2.failed with
  | false =>
    obtain ⟨a, b⟩ := simFs_rd rt (fun e e' h => ⟨(grows_enum h).1, (grows_enum h).2.1⟩) _ _ _ hsim hb
    have a : (rdFields rt e₂.fields ⟨encodeFields rt e₂.fields ps, false, 0⟩).1 = _ := alikeProps_eq _ _ a
    rw [hd] at a
    have a : ps = (rdFields rt e₁.fields ⟨encodeFields rt e₂.fields ps, false, 0⟩).1 := a
    have h3 := typed_fields rt e₁.fields _ hb
    have h4 := reads_of_rd rt h₁ u₁ hb
    rw [← a] at h3 h4
    have h5 := simFs_both (P := EnumRel Grows) (E₁ := InBoundsP) (E := IsVariant) (E' := IsVariant) (S := FaithfulStr rt)
      (fun e e' n hp hi hv => (grows_enum hp).2.2.2 n hi hv) _ _ ps hsim h3 hty
    exact Or.inl ⟨faithful_hasFields rt (trueEnums h₁) h5, h4⟩
  | true =>
    refine Or.inr ⟨fun hc => ?_, rejects_of_rd rt h₁ u₁ hb⟩
    have h5 := simFs_both (P := EnumRel Grows) (E₁ := IsVariant) (E := IsVariant) (E' := IsVariant) (S := FaithfulStr rt)
      (fun e e' n _ hi _ => hi) _ _ ps hsim hc hty
    obtain ⟨qs, h6, -⟩ := simFs_typed (P := EnumRel Grows) (E := IsVariant) (E' := IsVariant)
      (fun e e' n hp hn => (grows_enum hp).2.2.1 n hn) _ _ ps hsim h5
    have h7 := simFs_encode rt (fun e e' h => (grows_enum h).1) _ _ _ _ hsim h6
    obtain rfl := alikeProps_eq _ _ h6
    obtain ⟨c, h8⟩ := dec_fields rt e₁.fields _ (faithful_typed rt (compiled_small h₁ hs₁) h5) [] 0
    rw [List.append_nil, h7] at h8
    rw [h8] at hb
    cases hb

/-! ### an example -/

def enum4Text : Str := "E: enum { A, B, C, D }\nP: struct { e: E }\nexport P".toList
def enum4Ast : AST :=
  [.decl "E".toList (.enum ["A".toList, "B".toList, "C".toList, "D".toList]),
   .decl "P".toList (.struct [("e".toList, ⟨"E".toList, false, false⟩)]), .export "P".toList]
def enum4Export : Artifact :=
  ⟨⟨"P".toList, [⟨"e".toList, "E".toList, .enum ⟨.u8, [⟨"A".toList, 0⟩, ⟨"B".toList, 1⟩, ⟨"C".toList, 2⟩, ⟨"D".toList, 3⟩]⟩, false, false⟩]⟩,
    exampleCode id enum4Text⟩

theorem enum4_compiled : Compiled enum4Ast enum4Export :=
  compiled_of (ord := id) (by decide +kernel) (fun _ => .refl _) rfl rfl

theorem enum4_plain : PlainSchema enum4Ast := plain_of (by decide)

theorem enum4_small : SmallEnums enum4Ast := by
  intro n vs h
  unfold enum4Ast at h
  simp only [List.mem_cons, Node.decl.injEq, Ty.enum.injEq, reduceCtorEq, and_false, or_false, List.not_mem_nil] at h
  rw [h.2]
  decide

theorem enum4_adds : AddsVariants enumAst enum4Ast where
  top := rfl
  structs := by
    intro n fs _ hd
    simp only [enumAst, decls, List.filterMap_cons, List.filterMap_nil, List.mem_cons, Prod.mk.injEq, List.not_mem_nil,
      or_false, Ty.struct.injEq, reduceCtorEq, and_false, false_or] at hd
    obtain ⟨rfl, rfl⟩ := hd
    exact List.mem_cons_of_mem _ List.mem_cons_self
  enums := by
    intro n vs _ hd
    simp only [enumAst, decls, List.filterMap_cons, List.filterMap_nil, List.mem_cons, Prod.mk.injEq, List.not_mem_nil,
      or_false, Ty.enum.injEq, reduceCtorEq, and_false] at hd
    obtain ⟨rfl, rfl⟩ := hd
    exact ⟨["D".toList], List.mem_cons_self⟩

theorem enum4_widths : SameWidths enumAst enum4Ast := by
  intro n vs us _ hd hd'
  simp only [enumAst, enum4Ast, decls, List.filterMap_cons, List.filterMap_nil, List.mem_cons, Prod.mk.injEq, List.not_mem_nil,
    or_false, Ty.enum.injEq, reduceCtorEq, and_false] at hd hd'
  rw [hd'.2, hd.2]
  decide

/-- Packets with an old variant and with the new one. -/
example : ∃ (old new : AST) (e₁ e₂ : Artifact) (ps qs : List (PropOf JVal)), AddsVariants old new ∧ SameWidths old new ∧ AllInOrder old ∧
    Compiled old e₁ ∧ Compiled new e₂ ∧ Usable e₁ ∧ Usable e₂ ∧ SmallEnums old ∧ SmallEnums new ∧
    TypedFs (FaithfulStr leUtf8) IsVariant e₁.fields ps ∧ TypedFs (FaithfulStr leUtf8) IsVariant e₂.fields qs ∧ ¬ HasFields e₁.fields qs := by
  refine ⟨_, _, _, _, _, [⟨"e".toList, .num (.int 8)⟩], enum4_adds, enum4_widths, enum_inOrder, enum_compiled, enum4_compiled,
    plain_usable enum_compiled enum_plain, plain_usable enum4_compiled enum4_plain, enum_small, enum4_small, enum_typed _,
    ⟨_, _, rfl, ⟨rfl, Or.inr ⟨_, rfl, ⟨⟨"D".toList, 3⟩, by decide, rfl⟩⟩⟩, rfl⟩, ?_⟩
  rintro ⟨p, qs, hq, ⟨-, ⟨h, -⟩ | ⟨n, h1, h2⟩⟩, -⟩
  · cases h
  · cases hq
    cases h1
    obtain ⟨v, hv, h3⟩ := h2
    have : ∀ v ∈ enumABC.variants, Num.int 8 ≠ .int (jsShl1 v.value) := by decide
    exact this v hv h3

def enum8Text : Str := "E: enum { A, B, C, D, F, G, H, I }\nP: struct { e: E }\nexport P".toList
def enum8Variants : List Str := ["A".toList, "B".toList, "C".toList, "D".toList, "F".toList, "G".toList, "H".toList, "I".toList]
def enum8Ast : AST :=
  [.decl "E".toList (.enum enum8Variants), .decl "P".toList (.struct [("e".toList, ⟨"E".toList, false, false⟩)]), .export "P".toList]
def enum8Export : Artifact :=
  ⟨⟨"P".toList, [⟨"e".toList, "E".toList, .enum (enumSpec enum8Variants), false, false⟩]⟩, exampleCode id enum8Text⟩
def enum9Text : Str := "E: enum { A, B, C, D, F, G, H, I, J }\nP: struct { e: E }\nexport P".toList
def enum9Ast : AST :=
  [.decl "E".toList (.enum (enum8Variants ++ ["J".toList])), .decl "P".toList (.struct [("e".toList, ⟨"E".toList, false, false⟩)]),
   .export "P".toList]
def enum9Export : Artifact :=
  ⟨⟨"P".toList, [⟨"e".toList, "E".toList, .enum (enumSpec (enum8Variants ++ ["J".toList])), false, false⟩]⟩, exampleCode id enum9Text⟩

theorem enum8_compiled : Compiled enum8Ast enum8Export :=
  compiled_of (ord := id) (by decide +kernel) (fun _ => .refl _) rfl rfl
theorem enum9_compiled : Compiled enum9Ast enum9Export :=
  compiled_of (ord := id) (by decide +kernel) (fun _ => .refl _) rfl rfl

theorem enum8_plain : PlainSchema enum8Ast := plain_of (by decide)
theorem enum9_plain : PlainSchema enum9Ast := plain_of (by decide)

theorem enum89_small : SmallEnums enum8Ast ∧ SmallEnums enum9Ast := by
  constructor
  · intro n vs h
    unfold enum8Ast at h
    simp only [List.mem_cons, Node.decl.injEq, Ty.enum.injEq, reduceCtorEq, and_false, or_false, List.not_mem_nil] at h
    rw [h.2]
    decide
  · intro n vs h
    unfold enum9Ast at h
    simp only [List.mem_cons, Node.decl.injEq, Ty.enum.injEq, reduceCtorEq, and_false, or_false, List.not_mem_nil] at h
    rw [h.2]
    decide

theorem enum9_adds : AddsVariants enum8Ast enum9Ast where
  top := rfl
  structs := by
    intro n fs _ hd
    simp only [enum8Ast, decls, List.filterMap_cons, List.filterMap_nil, List.mem_cons, Prod.mk.injEq, List.not_mem_nil,
      or_false, Ty.struct.injEq, reduceCtorEq, and_false, false_or] at hd
    obtain ⟨rfl, rfl⟩ := hd
    exact List.mem_cons_of_mem _ List.mem_cons_self
  enums := by
    intro n vs _ hd
    simp only [enum8Ast, decls, List.filterMap_cons, List.filterMap_nil, List.mem_cons, Prod.mk.injEq, List.not_mem_nil,
      or_false, Ty.enum.injEq, reduceCtorEq, and_false] at hd
    obtain ⟨rfl, rfl⟩ := hd
    exact ⟨["J".toList], List.mem_cons_self⟩

/-- C65 is false: the ninth variant makes enums two bytes long. -/
theorem C65_false : ¬ C65_claim := by
  intro h
  have ht : ∀ S, TypedFs S IsVariant enum8Export.fields [⟨"e".toList, .num (.int 1)⟩] := fun S =>
    ⟨_, _, rfl, ⟨rfl, Or.inr ⟨_, rfl, ⟨⟨"A".toList, 0⟩, by decide, rfl⟩⟩⟩, rfl⟩
  obtain ⟨bytes, hw, hr⟩ := h leUtf8 _ _ _ _ enum9_adds enum8_compiled enum9_compiled enum8_plain enum9_plain enum89_small.1
    enum89_small.2 _ (ht _)
  have u1 := plain_usable enum8_compiled enum8_plain
  obtain rfl := writes_unique leUtf8 enum8_compiled u1 (ht ShortStr) hw (C30_write_format leUtf8 enum8_compiled u1.loads (ht _))
  exact not_reads_rejects leUtf8 hr (rejects_of_rd leUtf8 enum9_compiled (plain_usable enum9_compiled enum9_plain) (by decide +kernel))

/-! ## C66 -/

/-- C66 as described: a program that knows added fields does not misread a packet without them, but rejects it (unless these
fields take up no space). -/
def C66_claim : Prop := ∀ (rt : Runtime) (old new : AST) (added : List (Str × Unresolved)) (e₁ e₂ : Artifact), Appends old new added →
  Compiled old e₁ → Compiled new e₂ → PlainSchema old → PlainSchema new → (∃ a ∈ added, TakesSpace new a.2) →
  ∀ ps, HasFields e₁.fields ps → ∃ bytes, Writes rt e₁ ps bytes ∧ Rejects rt e₂ bytes

/-- C66, what holds: if no field can be overtaken by a later one, then the new program rejects a packet of the old one exactly
if an added field takes up space; for values as in C31. What is missing: other values and schemas. -/
theorem C66_new_rejects_old_partial {old new : AST} {added} (ha : Appends old new added) (ho : AllInOrder old) (ho' : AllInOrder new)
    {e₁ e₂ : Artifact} (h₁ : Compiled old e₁) (h₂ : Compiled new e₂) (u₁ : Usable e₁) (u₂ : Usable e₂) (hs : SmallEnums old)
    {ps : List (PropOf JVal)} (hty : TypedFs (FaithfulStr rt) IsVariant e₁.fields ps) :
    ∃ bytes, Writes rt e₁ ps bytes ∧ (Rejects rt e₂ bytes ↔ ∃ a ∈ added, TakesSpace new a.2) ∧
      ((∀ a ∈ added, ¬ TakesSpace new a.2) → ∃ more, Shaped e₂.fields (ps ++ more) ∧ Reads rt e₂ bytes (ps ++ more)) := by
  obtain ⟨gs, more, c, h1, h2, F, h3⟩ := append_sim ha ho ho' h₁ h₂
  refine ⟨_, C30_write_format rt h₁ u₁.loads (faithful_hasFields rt (trueEnums h₁) hty), ?_⟩
  obtain ⟨c', hd⟩ := dec_fields rt e₁.fields ps (faithful_typed rt (compiled_small h₁ hs) hty) [] 0
  rw [List.append_nil] at hd
  have hen : ∀ e e', EnumRel Eq e e' → e.repr = e'.repr ∧ ∀ n, inBounds e n = true → inBounds e' n = true := by
    rintro e e' ⟨vs, us, rfl, o1, -, r1, r2⟩
    obtain ⟨a, b⟩ := rename_enum ⟨vs, vs, rfl, o1, o1, r1, r2⟩
    exact ⟨a, fun n h => by rw [← b n]; exact h⟩
  obtain ⟨a, b⟩ := simFs_rd rt hen _ _ ⟨encodeFields rt e₁.fields ps, false, 0⟩ h2 (by rw [hd])
  have a := alikeProps_eq _ _ a
  rw [hd] at a b
  have hrd := rdFields_append rt gs more ⟨encodeFields rt e₁.fields ps, false, 0⟩
  rw [← h1, ← b, a] at hrd
  have idle : (∀ a ∈ added, ¬ TakesSpace new a.2) → (rdFields rt e₂.fields ⟨encodeFields rt e₁.fields ps, false, 0⟩).2.failed = false := by
    intro h
    rw [hrd]
    simp only
    rw [idle_fields rt fun g hg => ?_]
    obtain ⟨f, hf, hR⟩ := Forall₂.exists_left h3 hg
    exact noSpace_idle rt F _ f.1 f.2 g hR (h f hf) (Nat.le_refl _)
  refine ⟨⟨fun hr => ?_, ?_⟩, fun h => ?_⟩
  · by_contra hc
    exact not_reads_rejects rt (reads_of_rd rt h₂ u₂ (idle fun a ha h => hc ⟨a, ha, h⟩)) hr
  · rintro ⟨f, hf, ht⟩
    obtain ⟨g, hg, hR⟩ := Forall₂.exists_right h3 hf
    refine rejects_of_rd rt h₂ u₂ ?_
    rw [hrd]
    exact ends_fields rt hg (takesSpace_ends rt F ht f.1 g hR) _ rfl
  · have hb := idle h
    have ht := shaped_of h₂ (typed_fields rt _ _ hb)
    have hr := reads_of_rd rt h₂ u₂ hb
    rw [hrd] at ht hr
    exact ⟨_, ht, hr⟩

example : ∃ (old new : AST) (added : List (Str × Unresolved)) (e₁ e₂ : Artifact) (ps : List (PropOf JVal)), Appends old new added ∧
    AllInOrder old ∧ AllInOrder new ∧ Compiled old e₁ ∧ Compiled new e₂ ∧ Usable e₁ ∧ Usable e₂ ∧ SmallEnums old ∧
    TypedFs (FaithfulStr leUtf8) IsVariant e₁.fields ps ∧ ∃ a ∈ added, TakesSpace new a.2 :=
  ⟨_, _, _, _, _, [⟨"s".toList, .str "hi".toList⟩], long_appends, string_inOrder, long_inOrder, string_compiled, long_compiled,
    plain_usable string_compiled string_plain, plain_usable long_compiled long_plain, string_small,
    ⟨_, _, rfl, ⟨rfl, Or.inr ⟨_, rfl, by decide, by decide⟩⟩, rfl⟩, _, List.mem_cons_self, .builtin (by decide)⟩

/-- C66 is false: with UTF-8, the last byte of "é" is taken for the added field. -/
theorem C66_false : ¬ C66_claim := by
  intro h
  obtain ⟨bytes, hw, hr⟩ := h leUtf8 _ _ _ _ _ long_appends string_compiled long_compiled string_plain long_plain
    ⟨_, List.mem_cons_self, .builtin (by decide)⟩ accent accent_typed
  obtain rfl := writes_unique leUtf8 string_compiled (plain_usable string_compiled string_plain) accent_typed hw accent_garbled.1
  exact not_reads_rejects leUtf8 (reads_of_rd leUtf8 long_compiled (plain_usable long_compiled long_plain) (by decide +kernel)) hr

end Packetc.Props
