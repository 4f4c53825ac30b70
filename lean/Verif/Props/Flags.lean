import Verif.Props.Exact
import Verif.Proof.Flags
/-!
# C90: combinations of enum variants
-/

namespace Packetc.Props
open Ast Check WellFormed Js Gen

variable (rt : Runtime)

/-- C30 for numbers that need not be variants: `write` sends whatever number is in the place of an enum. -/
theorem C90_writes {ast : AST} {e : Artifact} (hc : Compiled ast e) (hl : load e.code ≠ none) {S : Str → Prop}
    {E : REnum → Num → Prop} {ps : List (PropOf JVal)} (hty : TypedFs S E e.fields ps) :
    Writes rt e ps (encodeFields rt e.fields ps) := by
  intro heap this buffer fuel hfuel hbuf hrep
  obtain ⟨hm, hrun⟩ := compiled_text hc hl
  rw [(hrun rt fuel heap).2]
  exact runWrite_ok (rt := rt) hm (compiled_sound hc) hfuel heap this buffer hbuf hty hrep

/-- C90 as described. -/
def C90_claim : Prop := ∀ (rt : Runtime) (ast : AST) (e : Artifact), Compiled ast e → PlainSchema ast → SmallEnums ast →
  ∀ ps, TypedFs (FaithfulStr rt) (fun en n => ∃ vs, vs ≠ [] ∧ Combines en vs n) e.fields ps →
    ∃ bytes, Writes rt e ps bytes ∧ Reads rt e bytes ps

/-- C90, exactly: a packet with combinations of variants in the place of enums is read back if, in each of them, the last
variant of the enum is combined with no other one (and there is one variant at least, and the enum has at most 31);
otherwise, what `write` makes of it is rejected by `read`. What is missing from the full statement: the latter packets. -/
theorem C90_exact_partial {ast : AST} {e : Artifact} (hc : Compiled ast e) (hu : Usable e) {ps : List (PropOf JVal)}
    (hty : TypedFs (FaithfulStr rt) Combination e.fields ps) :
    ∃ bytes, Writes rt e ps bytes ∧
      (TypedFs (FaithfulStr rt) PassingCombination e.fields ps → Reads rt e bytes ps) ∧
      (¬ TypedFs (FaithfulStr rt) PassingCombination e.fields ps → Rejects rt e bytes) := by
  have hes := soundFs_enums _ (compiled_sound hc)
  refine ⟨_, C90_writes rt hc hu.loads hty, fun h => ?_, fun h => ?_⟩
  · obtain ⟨c', h5⟩ := dec_fields rt e.fields ps
      (typedFs_mono (fun _ h => h) (fun en n hp (h : PassingCombination en n) =>
        (passing_iff hp ⟨h.choose, h.choose_spec.1⟩).1 h) _ hes _ h) [] 0
    have := reads_of_rd rt hc hu (data := encodeFields rt e.fields ps ++ []) (by rw [h5])
    rwa [h5, List.append_nil] at this
  · refine rejects_of_rd rt hc hu ?_
    by_contra hf
    rw [Bool.not_eq_true] at hf
    refine h ?_
    have h1 := pass_fields rt e.fields hes ps
      (typedFs_mono (E' := FitsE) (P := SoundEnum) (fun _ h => h) (fun _ _ hp h => combination_fits hp h) _ hes _ hty) [] 0 (by rwa [List.append_nil])
    exact typedFs_both (fun en n hp h1 h2 => (passing_iff hp h1).2 h2) _ hes _ hty h1

/-- C90, for one enum: all combinations of its variants can be transmitted only if there is but one variant. What is missing
from the full statement: enums with several variants. -/
theorem C90_schema_partial {ast : AST} {e : Artifact} (hc : Compiled ast e) (hu : Usable e) {f tn : Str} {en : REnum}
    (he : e.fields = [⟨f, tn, .enum en, false, false⟩]) :
    (∀ vs n, vs ≠ [] → Combines en vs n → ∃ bytes, Writes rt e [⟨f, .num n⟩] bytes ∧ Reads rt e bytes [⟨f, .num n⟩]) ↔
      en.variants.length = 1 := by
  have hs : SoundEnum en := by
    have := compiled_sound hc
    rw [he] at this
    exact this.1.2
  have hty : ∀ n, Combination en n → TypedFs (FaithfulStr rt) Combination e.fields [⟨f, .num n⟩] := by
    intro n hn
    rw [he]
    exact ⟨_, _, rfl, ⟨rfl, Or.inr ⟨_, rfl, hn⟩⟩, rfl⟩
  have hgood : ∀ n, TypedFs (FaithfulStr rt) PassingCombination e.fields [⟨f, .num n⟩] ↔ PassingCombination en n := by
    intro n
    rw [he]
    constructor
    · rintro ⟨p, qs, h1, ⟨-, h2⟩, -⟩
      cases h1
      rcases h2 with ⟨h3, -⟩ | ⟨m, h3, h4⟩
      · cases h3
      · cases h3
        exact h4
    · intro h
      exact ⟨_, _, rfl, ⟨rfl, Or.inr ⟨_, rfl, h⟩⟩, rfl⟩
  obtain ⟨k, h1, h2, h3, -, -, ⟨a, ha, ha0⟩, ⟨l, hl, hlk⟩⟩ := sound_values hs
  have hla : l ∈ en.variants := List.mem_of_getLast? hl
  have haa : a ∈ en.variants := List.mem_of_head? ha
  constructor
  · intro h
    have hsub : [a, l] ⊆ en.variants := by
      intro x hx
      rcases List.mem_cons.1 hx with rfl | hx
      · exact haa
      · rw [List.mem_singleton.1 hx]
        exact hla
    have hcomb : Combines en [a, l] (.int (orBits [a, l]).toInt) := ⟨hsub, rfl⟩
    obtain ⟨b1, hw, hr⟩ := h _ _ (by simp) hcomb
    obtain ⟨b2, hw2, -, hrej⟩ := C90_exact_partial rt hc hu (hty _ ⟨_, hcomb⟩)
    obtain rfl := writes_unique rt hc hu (hty _ ⟨_, hcomb⟩) hw hw2
    by_contra hne
    refine not_reads_rejects rt hr (hrej ?_)
    rw [hgood, passing_iff hs ⟨_, hcomb⟩]
    rintro ⟨-, hb⟩
    obtain ⟨-, h4, -⟩ := (combination_bounds hs hcomb).1 hb
    have := h4 l hl (by simp) a (by simp)
    rw [this] at ha0
    omega
  · intro hone vs n hne hcomb
    obtain ⟨b, hw, hr, -⟩ := C90_exact_partial rt hc hu (hty _ ⟨_, hcomb⟩)
    refine ⟨b, hw, hr ?_⟩
    rw [hgood, passing_iff hs ⟨_, hcomb⟩]
    refine ⟨combination_fits hs ⟨_, hcomb⟩ (by omega), (combination_bounds hs hcomb).2 ⟨hne, ?_, by omega⟩⟩
    intro last hlast hin v hv
    obtain ⟨x, hx⟩ := List.length_eq_one_iff.1 hone
    have e1 := hcomb.1 hv
    have e2 := hcomb.1 hin
    rw [hx, List.mem_singleton] at e1 e2
    rw [e1, e2]

theorem enum_small : SmallEnums enumAst := by
  intro n vs h
  unfold enumAst at h
  simp only [List.mem_cons, Node.decl.injEq, Ty.enum.injEq, reduceCtorEq, and_false, or_false, List.not_mem_nil] at h
  rw [h.2]
  decide

/-- `A | C` for the enum `A, B, C`. -/
theorem enum_AC : Combines enumABC [⟨"A".toList, 0⟩, ⟨"C".toList, 2⟩] (.int 5) := ⟨by decide, by decide⟩
/-- `A | B` for the enum `A, B, C`. -/
theorem enum_AB : Combines enumABC [⟨"A".toList, 0⟩, ⟨"B".toList, 1⟩] (.int 3) := ⟨by decide, by decide⟩

/-- C90 is false: of the enum `A, B, C`, the combination `A | B` is transmitted, but `A | C` is not, whatever the library. -/
theorem C90_false_always :
    (∃ bytes, Writes rt enumExport [⟨"e".toList, .num (.int 3)⟩] bytes ∧
      Reads rt enumExport bytes [⟨"e".toList, .num (.int 3)⟩]) ∧
    ∃ bytes, Writes rt enumExport [⟨"e".toList, .num (.int 5)⟩] bytes ∧ Rejects rt enumExport bytes := by
  have hu := plain_usable enum_compiled enum_plain
  have hty : ∀ n, Combination enumABC n → TypedFs (FaithfulStr rt) Combination enumExport.fields [⟨"e".toList, .num n⟩] :=
    fun n hn => ⟨_, _, rfl, ⟨rfl, Or.inr ⟨_, rfl, hn⟩⟩, rfl⟩
  have hs : SoundEnum enumABC := (compiled_sound enum_compiled).1.2
  constructor
  · obtain ⟨b, hw, hr, -⟩ := C90_exact_partial rt enum_compiled hu (hty _ ⟨_, enum_AB⟩)
    refine ⟨b, hw, hr ⟨_, _, rfl, ⟨rfl, Or.inr ⟨_, rfl, _, enum_AB, by simp, ?_, by decide⟩⟩, rfl⟩⟩
    intro last hlast hin
    exact absurd hin (by
      have : some (⟨"C".toList, 2⟩ : EnumVariant) = some last := hlast
      cases this
      decide)
  · obtain ⟨b, hw, -, hrej⟩ := C90_exact_partial rt enum_compiled hu (hty _ ⟨_, enum_AC⟩)
    refine ⟨b, hw, hrej ?_⟩
    rintro ⟨p, qs, h1, ⟨-, h2⟩, -⟩
    cases h1
    rcases h2 with ⟨h3, -⟩ | ⟨m, h3, h4⟩
    · cases h3
    · cases h3
      obtain ⟨-, hb⟩ := (passing_iff hs ⟨_, enum_AC⟩).1 h4
      exact absurd hb (by decide)

theorem C90_false : ¬ C90_claim := by
  intro h
  obtain ⟨b, hw, hr⟩ := h leUtf8 enumAst enumExport enum_compiled enum_plain enum_small [⟨"e".toList, .num (.int 5)⟩]
    ⟨_, _, rfl, ⟨rfl, Or.inr ⟨_, rfl, _, by simp, enum_AC⟩⟩, rfl⟩
  obtain ⟨-, b', hw', hrej⟩ := C90_false_always leUtf8
  have hty : TypedFs (FaithfulStr leUtf8) Combination enumExport.fields [⟨"e".toList, .num (.int 5)⟩] :=
    ⟨_, _, rfl, ⟨rfl, Or.inr ⟨_, rfl, _, enum_AC⟩⟩, rfl⟩
  obtain rfl := writes_unique leUtf8 enum_compiled (plain_usable enum_compiled enum_plain) hty hw hw'
  exact not_reads_rejects leUtf8 hr hrej

/-- The hypotheses of the theorems are met by the schema `enumAst`, with packets of both kinds. -/
example : Compiled enumAst enumExport ∧ Usable enumExport ∧
    enumExport.fields = [⟨"e".toList, "E".toList, .enum enumABC, false, false⟩] ∧
    TypedFs (FaithfulStr leUtf8) Combination enumExport.fields [⟨"e".toList, .num (.int 3)⟩] ∧
    TypedFs (FaithfulStr leUtf8) Combination enumExport.fields [⟨"e".toList, .num (.int 5)⟩] :=
  ⟨enum_compiled, plain_usable enum_compiled enum_plain, rfl,
    ⟨_, _, rfl, ⟨rfl, Or.inr ⟨_, rfl, _, enum_AB⟩⟩, rfl⟩, ⟨_, _, rfl, ⟨rfl, Or.inr ⟨_, rfl, _, enum_AC⟩⟩, rfl⟩⟩

end Packetc.Props
