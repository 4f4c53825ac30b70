import Verif.Proof.Compat
import Verif.Props.Outgrow
/-!
# C89: exactly which programs understand each other
-/

namespace Packetc.Props
open Ast Check Gen WellFormed Js Module Evolution Compat

variable (rt : Runtime)

/-- C89 for the resolved types: whatever the order in which fields were resolved, one program understands all packets of another one if
and only if the exported type of the other can take the place of its own. -/
theorem C89_programs (hrt : FaithfulStr rt []) (hss : SameSigned rt) {old new : AST} {e₁ e₂ : Artifact} (h₁ : Compiled old e₁)
    (h₂ : Compiled new e₂) (u₁ : Usable e₁) (u₂ : Usable e₂) (s₁ : SmallEnums old) (s₂ : SmallEnums new) :
    Understood rt e₁ e₂ ↔ CompFs e₁.fields e₂.fields := by
  have m₁ := compiled_small h₁ s₁
  have m₂ := compiled_small h₂ s₂
  have hen := soundFs_enums _ (compiled_sound h₁)
  constructor
  · intro h
    have hsub : SubFs rt e₁.fields e₂.fields := fun ps hps => by
      obtain ⟨hs, bytes, -, hr⟩ := h ps hps
      obtain ⟨bs, -, hb⟩ := (C75_reads rt h₂ u₂ hs).1 hr
      exact ⟨bs, hb⟩
    obtain ⟨-, hleast, hsame⟩ := ok_fields hrt _ m₁ _ m₂ hsub
    have hty := full_fields hrt _ hen
    obtain ⟨hs, bytes, hw, hr⟩ := h _ hty
    obtain ⟨b', hw', hl⟩ := C41_size rt h₁ u₁.loads (faithful_hasFields rt (trueEnums h₁) hty)
    obtain rfl := writes_unique rt h₁ u₁ hty hw hw'
    rw [full_size_fields hrt _ hen] at hl
    obtain ⟨bs, ⟨rest, rfl⟩, hb⟩ := (C75_reads rt h₂ u₂ hs).1 hr
    have := hleast _ hb
    rw [List.length_append] at hl
    exact hsame (by omega)
  · intro h ps hps
    have hh := comp_fields hss _ m₁ _ m₂ h ps hps
    have hs := C75_shaped rt h₂ hh
    exact ⟨hs, _, C30_write_format rt h₁ u₁.loads (faithful_hasFields rt (trueEnums h₁) hps),
      (C75_reads rt h₂ u₂ hs).2 ⟨_, List.prefix_refl _, hh⟩⟩

/-- C89: if no field can be overtaken by a later one, then a program of the new schema understands all packets of a program of the old
schema if and only if the schemas are compatible. -/
theorem C89_compatible (hrt : FaithfulStr rt []) (hss : SameSigned rt) {old new : AST} (o₁ : AllInOrder old) (o₂ : AllInOrder new)
    {e₁ e₂ : Artifact} (h₁ : Compiled old e₁) (h₂ : Compiled new e₂) (u₁ : Usable e₁) (u₂ : Usable e₂) (s₁ : SmallEnums old)
    (s₂ : SmallEnums new) : Understood rt e₁ e₂ ↔ Compatible old new := by
  rw [C89_programs rt hrt hss h₁ h₂ u₁ u₂ s₁ s₂, compatible_iff o₁ o₂ h₁ h₂]

/-- C89, both ways: two programs understand each other if and only if the exported types are the same up to names of types and variants. -/
theorem C89_mutual (hrt : FaithfulStr rt []) (hss : SameSigned rt) {old new : AST} (o₁ : AllInOrder old) (o₂ : AllInOrder new)
    {e₁ e₂ : Artifact} (h₁ : Compiled old e₁) (h₂ : Compiled new e₂) (u₁ : Usable e₁) (u₂ : Usable e₂) (s₁ : SmallEnums old)
    (s₂ : SmallEnums new) : (Understood rt e₁ e₂ ∧ Understood rt e₂ e₁) ↔ SamePackets old new := by
  rw [C89_compatible rt hrt hss o₁ o₂ h₁ h₂ u₁ u₂ s₁ s₂, C89_compatible rt hrt hss o₂ o₁ h₂ h₁ u₂ u₁ s₂ s₁, samePackets_iff h₁ h₂]

theorem le_sameSigned : SameSigned leUtf8 := by
  constructor <;> intro bs i _ h e
  · have e : Num.int (leNat bs % 2 ^ 8 : Nat) = .int i := e
    injection e with e
    show Num.int (leInt 1 bs) = .int i
    congr 1
    simp only [leInt]
    split <;> omega
  · have e : Num.int (leNat bs % 2 ^ 16 : Nat) = .int i := e
    injection e with e
    show Num.int (leInt 2 bs) = .int i
    congr 1
    simp only [leInt]
    split <;> omega
  · have e : Num.int (leNat bs % 2 ^ 32 : Nat) = .int i := e
    injection e with e
    show Num.int (leInt 4 bs) = .int i
    congr 1
    simp only [leInt]
    split <;> omega

/-! ### an enum becomes an integer -/

def intText : Str := "Q: struct { e: int8 }\nexport Q".toList
def intAst : AST := [.decl "Q".toList (.struct [("e".toList, ⟨"int8".toList, false, false⟩)]), .export "Q".toList]
def intExport : Artifact :=
  ⟨⟨"Q".toList, [⟨"e".toList, "int8".toList, .builtin .int8, false, false⟩]⟩, exampleCode id intText⟩

theorem int_compiled : Compiled intAst intExport :=
  compiled_of (ord := id) (by decide +kernel) (fun _ => .refl _) rfl rfl

theorem int_plain : PlainSchema intAst := plain_of (by decide)

theorem int_inOrder : AllInOrder intAst := single_inOrder _ _ (by decide)

theorem int_small : SmallEnums intAst := by
  intro n vs h
  unfold intAst at h
  simp only [List.mem_cons, Node.decl.injEq, reduceCtorEq, and_false, or_false, List.not_mem_nil] at h

theorem enum_int : Compatible enumAst intAst :=
  ⟨_, _, rfl, rfl, .struct (fs := [("e".toList, ⟨"E".toList, false, false⟩)]) (gs := [("e".toList, ⟨"int8".toList, false, false⟩)])
    (List.mem_cons_of_mem _ List.mem_cons_self) List.mem_cons_self (.cons ⟨rfl, rfl, rfl⟩ .nil) fun p hp => by
      rw [List.mem_singleton.1 hp]
      exact .int (vs := ["A".toList, "B".toList, "C".toList]) List.mem_cons_self (.i8 rfl (by decide))⟩

/-- The integer type takes the place of the enum, but not the other way round. -/
example : FaithfulStr leUtf8 [] ∧ SameSigned leUtf8 ∧ AllInOrder enumAst ∧ AllInOrder intAst ∧ Compiled enumAst enumExport ∧
    Compiled intAst intExport ∧ Usable enumExport ∧ Usable intExport ∧ SmallEnums enumAst ∧ SmallEnums intAst ∧
    Understood leUtf8 enumExport intExport ∧ ¬ Understood leUtf8 intExport enumExport := by
  have hrt : FaithfulStr leUtf8 [] := ⟨by decide, by decide⟩
  have u₁ := plain_usable enum_compiled enum_plain
  have u₂ := plain_usable int_compiled int_plain
  refine ⟨hrt, le_sameSigned, enum_inOrder, int_inOrder, enum_compiled, int_compiled, u₁, u₂, enum_small, int_small,
    (C89_compatible leUtf8 hrt le_sameSigned enum_inOrder int_inOrder enum_compiled int_compiled u₁ u₂ enum_small int_small).2 enum_int,
    fun h => ?_⟩
  obtain ⟨g, gs, hg, ⟨-, -, -, h⟩, -⟩ := (C89_programs leUtf8 hrt le_sameSigned int_compiled enum_compiled u₂ u₁ int_small enum_small).1 h
  have hg : [(⟨"e".toList, "E".toList, .enum enumABC, false, false⟩ : FieldOf RType)] = g :: gs := hg
  cases hg
  cases h

/-! ### other names of types and variants -/

def twinText : Str := "Q: struct { e: F }\nF: enum { X, Y, Z }\nexport Q".toList
def twinAst : AST :=
  [.decl "Q".toList (.struct [("e".toList, ⟨"F".toList, false, false⟩)]), .decl "F".toList (.enum ["X".toList, "Y".toList, "Z".toList]),
   .export "Q".toList]
def twinExport : Artifact :=
  ⟨⟨"Q".toList, [⟨"e".toList, "F".toList, .enum ⟨.u8, [⟨"X".toList, 0⟩, ⟨"Y".toList, 1⟩, ⟨"Z".toList, 2⟩]⟩, false, false⟩]⟩,
    exampleCode id twinText⟩

theorem twin_compiled : Compiled twinAst twinExport :=
  compiled_of (ord := id) (by decide +kernel) (fun _ => .refl _) rfl rfl

theorem twin_plain : PlainSchema twinAst := plain_of (by decide)

theorem twin_inOrder : AllInOrder twinAst := by
  intro n fs _ hd
  simp only [twinAst, decls, List.filterMap_cons, List.filterMap_nil, List.mem_cons, Prod.mk.injEq, List.not_mem_nil,
    or_false, Ty.struct.injEq, reduceCtorEq, and_false, false_or] at hd
  obtain ⟨-, rfl⟩ := hd
  exact List.pairwise_singleton _ _

theorem twin_small : SmallEnums twinAst := by
  intro n vs h
  unfold twinAst at h
  simp only [List.mem_cons, Node.decl.injEq, Ty.enum.injEq, reduceCtorEq, and_false, or_false, false_or, List.not_mem_nil] at h
  rw [h.2]
  decide

theorem enum_twin : SamePackets enumAst twinAst :=
  ⟨_, _, rfl, rfl, .struct (fs := [("e".toList, ⟨"E".toList, false, false⟩)]) (gs := [("e".toList, ⟨"F".toList, false, false⟩)])
    (List.mem_cons_of_mem _ List.mem_cons_self) List.mem_cons_self (.cons ⟨rfl, rfl, rfl⟩ .nil) fun p hp => by
      rw [List.mem_singleton.1 hp]
      exact .enum (vs := ["A".toList, "B".toList, "C".toList]) (us := ["X".toList, "Y".toList, "Z".toList]) List.mem_cons_self
        (List.mem_cons_of_mem _ List.mem_cons_self) rfl⟩

example : ∃ e₁ e₂, Compiled enumAst e₁ ∧ Compiled twinAst e₂ ∧ Understood leUtf8 e₁ e₂ ∧ Understood leUtf8 e₂ e₁ :=
  ⟨_, _, enum_compiled, twin_compiled, (C89_mutual leUtf8 ⟨by decide, by decide⟩ le_sameSigned enum_inOrder twin_inOrder enum_compiled
    twin_compiled (plain_usable enum_compiled enum_plain) (plain_usable twin_compiled twin_plain) enum_small twin_small).2 enum_twin⟩

end Packetc.Props
