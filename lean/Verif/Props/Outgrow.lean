import Verif.Proof.Outgrow
import Verif.Props.Evolution
import Verif.Props.Accept
/-!
# C65, exactly
-/

namespace Packetc.Props
open Ast Check Gen WellFormed Js Module Evolution

variable (rt : Runtime)

/-- C65, exactly: if variants are added at the end of enums and no field can be overtaken by a later one, then the new program
reads all packets of the old one if and only if no enum outgrows its representation. (The library writes the empty string as no
bytes.) What is missing from the full statement: enums that do, for which it is false. -/
theorem C65_exact_partial (hrt : FaithfulStr rt []) {old new : AST} (ha : AddsVariants old new) (ho : AllInOrder old)
    {e₁ e₂ : Artifact} (h₁ : Compiled old e₁) (h₂ : Compiled new e₂) (u₁ : Usable e₁) (u₂ : Usable e₂) (hs : SmallEnums new) :
    (∀ ps, TypedFs (FaithfulStr rt) IsVariant e₁.fields ps → ∃ bytes, Writes rt e₁ ps bytes ∧ Reads rt e₂ bytes ps) ↔
    SameWidths old new := by
  constructor
  · intro h
    have hen := soundFs_enums _ (compiled_sound h₁)
    have hty := full_fields hrt _ hen
    obtain ⟨bytes, hw, hr⟩ := h _ hty
    obtain ⟨b', hw', hl⟩ := C41_size rt h₁ u₁.loads (faithful_hasFields rt (trueEnums h₁) hty)
    obtain rfl := writes_unique rt h₁ u₁ hty hw hw'
    rw [full_size_fields hrt _ hen] at hl
    have hsim : SimFs Eq (fun a b => b = a) (EnumRel Longer) e₁.fields e₂.fields := by
      obtain ⟨env, text, r, hf, -, p, -, c, x⟩ := id h₁
      obtain ⟨-, -, n, -⟩ := typeCheck_final hf.1 (parsed_noBuiltinDecl p) c
      exact compiled_sim (adds_longer ha ho) n (by rw [ha.top]; exact n) h₁ h₂
    have hty' := full_fields hrt _ (soundFs_enums _ (compiled_sound h₂))
    rw [full_sim_fields _ _ hsim] at hty'
    obtain ⟨bs, ⟨rest, rfl⟩, hh⟩ := (C75_reads rt h₂ u₂ (shaped_of h₂ hty')).1 hr
    rw [← full_sim_fields _ _ hsim] at hh
    have hge := full_holds_fields _ _ hh
    have hle := full_le_fields (fun e e' => longer_repr) _ _ hsim
    rw [List.length_append] at hl
    exact widths_of_full ha ho h₁ h₂ (by omega)
  · intro hw ps hps
    obtain ⟨bytes, w, -, r⟩ := C65_new_reads_old_partial rt ha hw ho h₁ h₂ u₁ u₂ hs hps
    exact ⟨bytes, w, r⟩

theorem enum8_inOrder : AllInOrder enum8Ast := by
  intro n fs _ hd
  simp only [enum8Ast, decls, List.filterMap_cons, List.filterMap_nil, List.mem_cons, Prod.mk.injEq, List.not_mem_nil,
    or_false, Ty.struct.injEq, reduceCtorEq, and_false, false_or] at hd
  obtain ⟨-, rfl⟩ := hd
  exact List.pairwise_singleton _ _

/-- One pair of schemas on either side. -/
example : FaithfulStr leUtf8 [] ∧
    (AddsVariants enumAst enum4Ast ∧ AllInOrder enumAst ∧ Compiled enumAst enumExport ∧ Compiled enum4Ast enum4Export ∧
      Usable enumExport ∧ Usable enum4Export ∧ SmallEnums enum4Ast ∧ SameWidths enumAst enum4Ast) ∧
    (AddsVariants enum8Ast enum9Ast ∧ AllInOrder enum8Ast ∧ Compiled enum8Ast enum8Export ∧ Compiled enum9Ast enum9Export ∧
      Usable enum8Export ∧ Usable enum9Export ∧ SmallEnums enum9Ast ∧ ¬ SameWidths enum8Ast enum9Ast) := by
  refine ⟨⟨by decide, by decide⟩, ⟨enum4_adds, enum_inOrder, enum_compiled, enum4_compiled, plain_usable enum_compiled enum_plain,
    plain_usable enum4_compiled enum4_plain, enum4_small, enum4_widths⟩, enum9_adds, enum8_inOrder, enum8_compiled, enum9_compiled,
    plain_usable enum8_compiled enum8_plain, plain_usable enum9_compiled enum9_plain, enum89_small.2, fun h => ?_⟩
  have hu : Used enum8Ast "E".toList := ⟨"P".toList, rfl, .tail .refl ⟨_, by
    exact List.mem_cons_of_mem _ List.mem_cons_self, ("e".toList, ⟨"E".toList, false, false⟩), List.mem_cons_self, rfl⟩⟩
  have := h "E".toList enum8Variants (enum8Variants ++ ["J".toList]) hu List.mem_cons_self List.mem_cons_self
  revert this
  decide

end Packetc.Props
