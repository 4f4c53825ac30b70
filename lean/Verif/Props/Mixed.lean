import Verif.Proof.Mixed
import Verif.Props.Bridge
import Verif.Props.RustCompat
/-!
# C120: a Rust program and a TypeScript program of another schema
-/

namespace Packetc.Props
open Ast Check WellFormed Rs RustGen Evolution
open Js (leUtf8 encodeFields dec_fields Runtime Compiled Usable Reads Writes JVal PropOf TypedFs FaithfulStr ShortStr IsVariant HoldsFs Holds
  Ascii Artifact SmallEnums)
open Compat (CompFs SameSigned Compatible SamePackets compatible_iff samePackets_iff cross_fields ok_fields full_le_fields few_fields SubFs)

section
variable {rt : Runtime} {lib : Lib}

theorem agree_faithful (ha : Agree rt lib) (s : Str) : FaithfulStr rt s ↔ ShortStr s ∧ Ascii s := by
  unfold FaithfulStr
  rw [ha.text, (utf8_length s).2]

/-- What is sent is text in UTF-8. -/
theorem sent_text (ha : Agree rt lib) {ast : AST} {e : Artifact} (hc : Compiled ast e) (hsm : Js.EnumsFs Small e.fields)
    {ps : List (PropOf JVal)} (h : TypedFs (FaithfulStr rt) IsVariant e.fields ps) :
    HoldsFs rt (fun _ _ => True) (fun _ => True) IsText e.fields (encodeFields rt e.fields ps) ps := by
  obtain ⟨c', h4⟩ := dec_fields rt e.fields ps (faithful_typed rt hsm h) [] 0
  obtain ⟨-, used, -, h6⟩ := (does_compiled rt hc).sound ⟨encodeFields rt e.fields ps ++ [], false, 0⟩ (by rw [h4])
  rw [h4] at h6
  have h7 := Js.renew_Fs rt e.fields used ps h6 (Js.typedFs_mono (fun _ h => h) (fun _ _ _ _ => True.intro) _ (trueEnums hc) _ h)
  exact Js.holdsFs_mono rt (fun _ _ _ _ => True.intro) (fun _ _ => True.intro) (fun b h => ⟨_, by rw [← ha.text]; exact h.1.symm⟩) _ _ _ h7

variable {old new : AST} {r₁ r₂ : Resolved} {s₁ s₂ : Source} {P₁ P₂ : Prog} {e₁ e₂ : Artifact}

/-- What a Rust program writes, as TypeScript programs see it. -/
theorem rust_sends (ha : Agree rt lib) (hk : Checked old r₁) (hn : NamesFit old) (hB : Built r₁ s₁ P₁)
    (hs : ∀ n vs, Used old n → .decl n (.enum vs) ∈ old → vs.length ≤ 31) {vs : List (Str × Val)}
    (hvs : ValFs (2 ^ 32) r₁.export.fields vs) :
    HoldsFs rt (fun _ _ => True) (fun _ => True) IsText r₁.export.fields (encFs lib r₁.export.fields vs) (jsFs r₁.export.fields vs) ∧
      TypedFs (fun _ => True) IsVariant r₁.export.fields (jsFs r₁.export.fields vs) := by
  have h := encFs_has (roomy lib) (lim := 2 ^ 32) (by decide) (Nat.le_succ _) _ (checked_sound hk) (fits_export hk hn (hB.has hk)).2.2 _ hvs
  rw [roomy_enc] at h
  have ha' : Agree rt (roomy lib) := ⟨ha.num, ha.text⟩
  obtain ⟨h1, h2, -⟩ := (both_fields ha' r₁.export.fields ((checked_small hk).2 hs) (checked_noOptArrays hk).1
    (checked_noOptArrays hk).2 _ _).1 ⟨vs, h, rfl⟩
  exact ⟨h1, h2⟩

/-- Each packet that a TypeScript program can send is one of the Rust program of the same schema. -/
theorem rust_value (ha : Agree rt lib) (hk : Checked old r₁) (hs : ∀ n vs, Used old n → .decl n (.enum vs) ∈ old → vs.length ≤ 31)
    {ps : List (PropOf JVal)} (h : TypedFs (FaithfulStr rt) IsVariant r₁.export.fields ps) :
    ∃ vs, ValFs (2 ^ 32) r₁.export.fields vs ∧ jsFs r₁.export.fields vs = ps := by
  have ha' : Agree rt (roomy lib) := ⟨ha.num, ha.text⟩
  obtain ⟨code, hc⟩ := hk.compiled
  have hsm := (checked_small hk).2 hs
  have h1 := sent_text ha hc hsm h
  obtain ⟨vs, h2, h3⟩ := (both_fields ha' r₁.export.fields hsm (checked_noOptArrays hk).1 (checked_noOptArrays hk).2 _ ps).2
    ⟨h1, Js.typedFs_mono (fun _ _ => True.intro) (fun _ _ _ h => h) _ (trueEnums hc) _ h, few_fields (Nat.le_succ _) _ _ h⟩
  exact ⟨vs, valFs_mono (Nat.min_le_left _ _) _ _ (hasFs_fits _ (checked_noOptArrays hk).1 (checked_noOptArrays hk).2 _ _ h2), h3⟩

/-- C120 for the resolved types, from Rust to TypeScript. -/
theorem C120_rust_to_ts (ha : Agree rt lib) (hss : SameSigned rt) (k₁ : Checked old r₁) (n₁ : NamesFit old) (b₁ : Built r₁ s₁ P₁)
    (h₂ : Compiled new e₂) (u₂ : Usable e₂) (z₁ : ∀ n vs, Used old n → .decl n (.enum vs) ∈ old → vs.length ≤ 31) (z₂ : SmallEnums new) :
    TsFollows rt lib r₁ s₁ P₁ e₂ ↔ CompFs r₁.export.fields e₂.fields := by
  have m₁ := (checked_small k₁).2 z₁
  have m₂ := compiled_small h₂ z₂
  have hrt : FaithfulStr rt [] := (agree_faithful ha _).2 ⟨by decide, fun _ h => absurd h List.not_mem_nil⟩
  constructor
  · intro h
    have key : ∀ ps, TypedFs (FaithfulStr rt) IsVariant r₁.export.fields ps → ∃ bytes bs, bs <+: bytes ∧ Holds rt e₂.fields bs ps ∧
        HoldsFs rt (fun _ _ => True) (fun _ => True) IsText r₁.export.fields bytes ps := fun ps hps => by
      obtain ⟨vs, hvs, rfl⟩ := rust_value ha k₁ z₁ hps
      obtain ⟨hs, hr⟩ := h vs _ hvs (C91_write lib k₁ n₁ b₁ hvs)
      obtain ⟨bs, hp, hb⟩ := (C75_reads rt h₂ u₂ hs).1 hr
      exact ⟨_, bs, hp, hb, (rust_sends ha k₁ n₁ b₁ z₁ hvs).1⟩
    have hsub : SubFs rt r₁.export.fields e₂.fields := fun ps hps => by
      obtain ⟨_, bs, -, hb, -⟩ := key ps hps
      exact ⟨bs, hb⟩
    obtain ⟨-, hleast, hsame⟩ := ok_fields hrt _ m₁ _ m₂ hsub
    obtain ⟨bytes, bs, hp, hb, hx⟩ := key _ (full_fields hrt _ (checked_sound k₁))
    have h1 := hleast _ hb
    have h2 := full_le_fields ha.text _ _ hx
    have h3 := hp.length_le
    exact hsame (by omega)
  · intro h vs bytes hvs hw
    rw [C91_write lib k₁ n₁ b₁ hvs] at hw
    cases hw
    obtain ⟨h1, h2⟩ := rust_sends ha k₁ n₁ b₁ z₁ hvs
    have h3 := Js.holdsFs_any rt _ _ _ (cross_fields hss _ m₁ _ m₂ h _ _ h1 h2).1
    have hs := C75_shaped rt h₂ h3
    exact ⟨hs, (C75_reads rt h₂ u₂ hs).2 ⟨_, List.prefix_refl _, h3⟩⟩

/-- C120 for the resolved types, from TypeScript to Rust, if the type can take the place of the other. -/
theorem C120_understood (ha : Agree rt lib) (hss : SameSigned rt) (h₁ : Compiled old e₁) (u₁ : Usable e₁) (k₂ : Checked new r₂)
    (n₂ : NamesFit new) (b₂ : Built r₂ s₂ P₂) (z₁ : SmallEnums old) (z₂ : ∀ n vs, Used new n → .decl n (.enum vs) ∈ new → vs.length ≤ 31)
    (h : CompFs e₁.fields r₂.export.fields) : RustFollows rt lib e₁ r₂ s₂ P₂ := by
  intro ps hps hfew
  have m₁ := compiled_small h₁ z₁
  have m₂ := (checked_small k₂).2 z₂
  obtain ⟨code, hc⟩ := k₂.compiled
  have h1 : TypedFs (FaithfulStr rt) IsVariant e₁.fields ps :=
    Js.typedFs_mono (fun s h => (agree_faithful ha s).2 h) (fun _ _ _ h => h) _ (trueEnums h₁) _ hps
  obtain ⟨h2, h3⟩ := cross_fields hss _ m₁ _ m₂ h _ _ (sent_text ha h₁ m₁ h1) h1
  obtain ⟨vs, h4, h5⟩ := (C96_rust_reads ha k₂ (e := ⟨r₂.export, code⟩) rfl n₂ b₂ z₂ _ ps []).2
    ⟨_, rfl, h2, Js.typedFs_mono (fun _ _ => True.intro) (fun _ _ _ h => h) _ (trueEnums hc) _ h3, hfew⟩
  rw [List.append_nil] at h4
  exact ⟨_, vs, C30_write_format rt h₁ u₁.loads (faithful_hasFields rt (trueEnums h₁) h1), h4, h5⟩

/-- C120 for the resolved types, from TypeScript to Rust, exactly. -/
theorem C120_ts_to_rust (ha : Agree rt lib) (hss : SameSigned rt) (h₁ : Compiled old e₁) (u₁ : Usable e₁) (k₂ : Checked new r₂)
    (n₂ : NamesFit new) (b₂ : Built r₂ s₂ P₂) (z₁ : SmallEnums old) (z₂ : ∀ n vs, Used new n → .decl n (.enum vs) ∈ new → vs.length ≤ 31)
    (hm : 2 ^ 32 ≤ lib.maxItems + 1) : RustFollows rt lib e₁ r₂ s₂ P₂ ↔ CompFs e₁.fields r₂.export.fields := by
  refine ⟨fun h => ?_, C120_understood ha hss h₁ u₁ k₂ n₂ b₂ z₁ z₂⟩
  have m₁ := compiled_small h₁ z₁
  have m₂ := (checked_small k₂).2 z₂
  have hrt : FaithfulStr rt [] := (agree_faithful ha _).2 ⟨by decide, fun _ h => absurd h List.not_mem_nil⟩
  obtain ⟨code, hc⟩ := k₂.compiled
  have key : ∀ ps, TypedFs (FaithfulStr rt) IsVariant e₁.fields ps → Holds rt r₂.export.fields (encodeFields rt e₁.fields ps) ps := fun ps hps => by
    obtain ⟨bytes, vs, hw, hr, hv⟩ := h ps
      (Js.typedFs_mono (fun s h => (agree_faithful ha s).1 h) (fun _ _ _ h => h) _ (trueEnums h₁) _ hps) (few_fields hm _ _ hps)
    obtain rfl := writes_unique rt h₁ u₁ hps hw (C30_write_format rt h₁ u₁.loads (faithful_hasFields rt (trueEnums h₁) hps))
    obtain ⟨bs, hb, hx, -⟩ := (C96_rust_reads ha k₂ (e := ⟨r₂.export, code⟩) rfl n₂ b₂ z₂ _ ps []).1 ⟨vs, hr, hv⟩
    rw [List.append_nil] at hb
    rw [hb]
    exact Js.holdsFs_any rt _ _ _ hx
  obtain ⟨-, hleast, hsame⟩ := ok_fields hrt _ m₁ _ m₂ fun ps hps => ⟨_, key ps hps⟩
  have hen := Js.soundFs_enums _ (compiled_sound h₁)
  have hf := full_fields hrt _ hen
  have h1 := hleast _ (key _ hf)
  have h2 := full_le_fields ha.text _ _ (sent_text ha h₁ m₁ hf)
  exact hsame (by omega)

/-- C120: if no field can be overtaken by a later one, then a TypeScript program of the new schema understands all that a Rust program of
the old schema writes if and only if the schemas are compatible as for two TypeScript programs (C89). -/
theorem C120_from_rust (ha : Agree rt lib) (hss : SameSigned rt) (o₁ : AllInOrder old) (o₂ : AllInOrder new) (k₁ : Checked old r₁)
    (n₁ : NamesFit old) (b₁ : Built r₁ s₁ P₁) (h₂ : Compiled new e₂) (u₂ : Usable e₂)
    (z₁ : ∀ n vs, Used old n → .decl n (.enum vs) ∈ old → vs.length ≤ 31) (z₂ : SmallEnums new) :
    TsFollows rt lib r₁ s₁ P₁ e₂ ↔ Compatible old new := by
  obtain ⟨code, hc⟩ := k₁.compiled
  rw [C120_rust_to_ts ha hss k₁ n₁ b₁ h₂ u₂ z₁ z₂, compatible_iff o₁ o₂ hc h₂]

/-- C120, the other way: a Rust program of the new schema understands what a TypeScript program of the old schema sends (strings as in C96)
under the same condition. -/
theorem C120_from_ts (ha : Agree rt lib) (hss : SameSigned rt) (o₁ : AllInOrder old) (o₂ : AllInOrder new) (h₁ : Compiled old e₁)
    (u₁ : Usable e₁) (k₂ : Checked new r₂) (n₂ : NamesFit new) (b₂ : Built r₂ s₂ P₂) (z₁ : SmallEnums old)
    (z₂ : ∀ n vs, Used new n → .decl n (.enum vs) ∈ new → vs.length ≤ 31) (hm : 2 ^ 32 ≤ lib.maxItems + 1) :
    RustFollows rt lib e₁ r₂ s₂ P₂ ↔ Compatible old new := by
  obtain ⟨code, hc⟩ := k₂.compiled
  rw [C120_ts_to_rust ha hss h₁ u₁ k₂ n₂ b₂ z₁ z₂ hm, compatible_iff o₁ o₂ h₁ hc]

/-- C120, both ways: a Rust program and a TypeScript program understand each other if and only if the exported types are the same up to
names of types and variants. -/
theorem C120_mutual (ha : Agree rt lib) (hss : SameSigned rt) (o₁ : AllInOrder old) (o₂ : AllInOrder new) (k₁ : Checked old r₁)
    (n₁ : NamesFit old) (b₁ : Built r₁ s₁ P₁) (h₂ : Compiled new e₂) (u₂ : Usable e₂)
    (z₁ : ∀ n vs, Used old n → .decl n (.enum vs) ∈ old → vs.length ≤ 31) (z₂ : SmallEnums new) (hm : 2 ^ 32 ≤ lib.maxItems + 1) :
    (TsFollows rt lib r₁ s₁ P₁ e₂ ∧ RustFollows rt lib e₂ r₁ s₁ P₁) ↔ SamePackets old new := by
  obtain ⟨code, hc⟩ := k₁.compiled
  rw [C120_from_rust ha hss o₁ o₂ k₁ n₁ b₁ h₂ u₂ z₁ z₂, C120_from_ts ha hss o₂ o₁ h₂ u₂ k₁ n₁ b₁ z₂ z₁ hm, samePackets_iff hc h₂]

end

/-- Other names of types and variants: two Rust programs do not understand each other (C106), but each of them and the TypeScript program
of the other do. An integer in place of an enum works one way only. -/
example : ∃ s P s' P', Built (resultFor enumAst) s P ∧ Built (resultFor twinAst) s' P' ∧ Agree leUtf8 (leLib (2 ^ 32)) ∧ SameSigned leUtf8 ∧
    (TsFollows leUtf8 (leLib (2 ^ 32)) (resultFor enumAst) s P twinExport ∧ RustFollows leUtf8 (leLib (2 ^ 32)) twinExport (resultFor enumAst) s P) ∧
    TsFollows leUtf8 (leLib (2 ^ 32)) (resultFor enumAst) s P intExport ∧
    ¬ RustFollows leUtf8 (leLib (2 ^ 32)) intExport (resultFor enumAst) s P := by
  have n₁ : NamesFit enumAst := namesFit_of (by decide)
  have n₂ : NamesFit twinAst := namesFit_of (by decide)
  have b₁ := built_of enum3_checked n₁
  have z₁ : ∀ n vs, Used enumAst n → .decl n (.enum vs) ∈ enumAst → vs.length ≤ 31 := fun n vs _ h => enum_small n vs h
  have ut := plain_usable twin_compiled twin_plain
  have ui := plain_usable int_compiled int_plain
  have hm : 2 ^ 32 ≤ (leLib (2 ^ 32)).maxItems + 1 := Nat.le_succ _
  have ha := le_agree (2 ^ 32)
  refine ⟨_, _, _, _, b₁, built_of twin_checked n₂, ha, le_sameSigned, ?_, ?_, fun h => ?_⟩
  · exact (C120_mutual ha le_sameSigned enum_inOrder twin_inOrder enum3_checked n₁ b₁ twin_compiled ut z₁ twin_small hm).2 enum_twin
  · exact (C120_from_rust ha le_sameSigned enum_inOrder int_inOrder enum3_checked n₁ b₁ int_compiled ui z₁ int_small).2 enum_int
  · obtain ⟨g, gs, hg, ⟨-, -, -, h⟩, -⟩ := (C120_ts_to_rust ha le_sameSigned int_compiled ui enum3_checked n₁ b₁ int_small z₁ hm).1 h
    have hg : [(⟨"e".toList, "E".toList, .enum enumABC, false, false⟩ : FieldOf RType)] = g :: gs := hg
    cases hg
    cases h

end Packetc.Props
