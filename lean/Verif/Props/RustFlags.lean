import Verif.Props.Flags
import Verif.Props.Bridge
/-!
# C128: combined variants sent from TypeScript to Rust
-/

namespace Packetc.Props
open Ast Check WellFormed Rs
open Js (leUtf8 Runtime Compiled Usable Reads Writes Rejects JVal PropOf TypedFs FaithfulStr ShortStr IsVariant Shaped Ascii Artifact Combination Combines orBits
  PassingCombination)

/-- C128 as described: whatever combination of variants a TypeScript program sends, if TypeScript programs receive it, then Rust programs of the schema do. -/
def C128_claim : Prop := ∀ (rt : Runtime) (lib : Lib) (ast : AST) (r : Resolved) (s : Source) (P : Prog) (e : Artifact), Agree rt lib → Checked ast r →
  Compiled ast e → r.export = e.toExport → NamesFit ast → Built r s P → Usable e →
  ∀ ps bytes, TypedFs (fun s => ShortStr s ∧ Ascii s) Combination e.fields ps → FewProps lib.maxItems ps → Writes rt e ps bytes → Reads rt e bytes ps →
    ∃ v, readDefault lib P s bytes = .ok v []

section
variable {rt : Runtime} {lib : Lib} {ast : AST} {r : Resolved} {s : Source} {P : Prog} {e : Artifact}

/-- C128, exactly: of the packets with combinations of variants that a TypeScript program writes, a Rust program reads those in which every combination is a single
variant, as the same packet; it rejects all others, even those that TypeScript programs read (C90), and never takes one for another packet. What is missing from the
full statement: the other combinations, for which it is false, and enums with 32 variants. -/
theorem C128_exact_partial (ha : Agree rt lib) (hk : Checked ast r) (hc : Compiled ast e) (hx : r.export = e.toExport) (hn : NamesFit ast)
    (hB : Built r s P) (hu : Usable e) (hs : ∀ n vs, Used ast n → .decl n (.enum vs) ∈ ast → vs.length ≤ 31)
    {ps : List (PropOf JVal)} (hps : TypedFs (fun s => ShortStr s ∧ Ascii s) Combination e.fields ps) (hfew : FewProps lib.maxItems ps) :
    ∃ bytes, Writes rt e ps bytes ∧
      (TypedFs (fun _ => True) IsVariant e.fields ps → ∃ vs, readDefault lib P s bytes = .ok (.struct vs) [] ∧ jsFs r.export.fields vs = ps) ∧
      (¬ TypedFs (fun _ => True) IsVariant e.fields ps → ∀ v rest, readDefault lib P s bytes ≠ .ok v rest) := by
  have hfaith : ∀ s, ShortStr s ∧ Ascii s → FaithfulStr rt s := fun s h => by
    unfold FaithfulStr
    rw [ha.text, (utf8_length s).2]
    exact h
  have hty : TypedFs (FaithfulStr rt) Combination e.fields ps := Js.typedFs_mono hfaith (fun _ _ _ h => h) _ (trueEnums hc) _ hps
  obtain ⟨bytes, hw, h1, h2⟩ := C90_exact_partial rt hc hu hty
  refine ⟨bytes, hw, fun hv => ?_, fun hv v rest hr => ?_⟩
  · have h3 := typedFs_and _ _ hps hv
    have h4 : TypedFs (fun s => ShortStr s ∧ Ascii s) IsVariant e.fields ps := Js.typedFs_mono (fun _ h => h.1) (fun _ _ _ h => h.2) _ (trueEnums hc) _ h3
    have h5 : Js.HasFields e.fields ps := Js.typedFs_mono (fun _ h => h.1) (fun _ _ _ h => h) _ (trueEnums hc) _ h4
    obtain ⟨bytes', vs, hw', hr, hj⟩ := (C96_ts_to_rust_partial ha hk hc hx hn hB hu hs h5 []).2 ⟨h4, hfew⟩
    obtain rfl := writes_unique rt hc hu h5 hw hw'
    rw [List.append_nil] at hr
    exact ⟨vs, hr, hj⟩
  · obtain ⟨bs, vs, rfl, rfl, -⟩ := (C93_reads_partial lib hk hn hB hs _ _ _).1 hr
    obtain ⟨bs', hbs, h3, h4, -⟩ := (C96_rust_reads ha hk hx hn hB hs _ _ rest).1 ⟨vs, hr, rfl⟩
    have h5 := C96_ts_follows ha hk hc hx hn hB hu hs hr
    by_cases hp : TypedFs (FaithfulStr rt) PassingCombination e.fields ps
    · have h6 := reads_unique rt (shaped_of hc hps) (shaped_of hc h4) (h1 hp) h5
      rw [h6] at hv
      exact hv h4
    · exact not_reads_rejects rt h5 (h2 hp)

end

theorem enum_checked : Checked enumAst (resultFor enumAst) := checked_of (text := enumText) (by decide +kernel) (by rfl)
theorem enum_names : NamesFit enumAst := namesFit_of (by decide)

/-- C128 is false of the code: `A | B` of the enum `A, B, C` arrives in TypeScript programs (C90), but not in Rust programs. -/
theorem C128_false : ¬ C128_claim := by
  intro h
  have hu := plain_usable enum_compiled enum_plain
  have hB := built_of enum_checked enum_names
  have hty : TypedFs (fun s => ShortStr s ∧ Ascii s) Combination enumExport.fields [⟨"e".toList, .num (.int 3)⟩] :=
    ⟨_, _, rfl, ⟨rfl, Or.inr ⟨_, rfl, _, enum_AB⟩⟩, rfl⟩
  have hfew : FewProps (leLib 100).maxItems [⟨"e".toList, .num (.int 3)⟩] := ⟨True.intro, True.intro⟩
  obtain ⟨⟨b, hw, hr⟩, -⟩ := C90_false_always leUtf8
  obtain ⟨b', hw', -, hno⟩ := C128_exact_partial (le_agree 100) enum_checked enum_compiled (by rfl) enum_names hB hu
    (fun n vs _ hd => enum_small n vs hd) hty hfew
  obtain rfl := writes_unique leUtf8 enum_compiled hu hty hw hw'
  obtain ⟨v, hv⟩ := h leUtf8 (leLib 100) _ _ _ _ _ (le_agree 100) enum_checked enum_compiled (by rfl) enum_names hB hu _ _ hty hfew hw hr
  refine hno ?_ v [] hv
  rintro ⟨p, qs, h1, ⟨-, h2⟩, -⟩
  cases h1
  rcases h2 with ⟨h3, -⟩ | ⟨m, h3, h4⟩
  · cases h3
  · cases h3
    obtain ⟨w, hw, h5⟩ := h4
    have hmem : w ∈ [(⟨"A".toList, 0⟩ : EnumVariant), ⟨"B".toList, 1⟩, ⟨"C".toList, 2⟩] := hw
    simp only [List.mem_cons, List.not_mem_nil, or_false] at hmem
    rcases hmem with rfl | rfl | rfl <;> exact absurd h5 (by decide)

/-- The hypotheses are met, with a packet of each kind. -/
example : Agree leUtf8 (leLib 100) ∧ Checked enumAst (resultFor enumAst) ∧ Compiled enumAst enumExport ∧ NamesFit enumAst ∧ Usable enumExport ∧
    TypedFs (fun s => ShortStr s ∧ Ascii s) Combination enumExport.fields [⟨"e".toList, .num (.int 3)⟩] ∧
    TypedFs (fun s => ShortStr s ∧ Ascii s) Combination enumExport.fields [⟨"e".toList, .num (.int 5)⟩] :=
  ⟨le_agree 100, enum_checked, enum_compiled, enum_names, plain_usable enum_compiled enum_plain,
    ⟨_, _, rfl, ⟨rfl, Or.inr ⟨_, rfl, _, enum_AB⟩⟩, rfl⟩, ⟨_, _, rfl, ⟨rfl, Or.inr ⟨_, rfl, _, enum_AC⟩⟩, rfl⟩⟩

end Packetc.Props
