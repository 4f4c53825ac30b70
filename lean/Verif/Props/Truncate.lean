import Verif.Props.Wire
import Verif.Proof.Truncate
/-!
# C33, exactly: for which schemas truncated packets are rejected
-/

namespace Packetc.Props
open Ast Check WellFormed Js Gen

variable (rt : Runtime)

/-- C33 for schemas without strings, whatever the library: every strict prefix of every packet is rejected. -/
theorem C33_no_strings {ast : AST} {e : Artifact} (hc : Compiled ast e) (hu : Usable e) (hs : SmallEnums ast)
    (ht : TextFreeFs e.fields) {ps : List (PropOf JVal)} (hps : HasFields e.fields ps) {bytes : List UInt8} (hw : Writes rt e ps bytes)
    {pre : List UInt8} (hpre : pre <+: bytes) (hne : pre ≠ bytes) : Rejects rt e pre :=
  C33_truncated_rejected_partial rt hc hu hs (textFreeFs_typed e.fields ht ps hps) hw hpre hne

example : ∃ ps bytes pre, Compiled bytesAst bytesExport ∧ Usable bytesExport ∧ TextFreeFs bytesExport.fields ∧
    HasFields bytesExport.fields ps ∧ Writes leUtf8 bytesExport ps bytes ∧ pre <+: bytes ∧ pre ≠ bytes := by
  have hu := plain_usable bytes_compiled bytes_plain
  have hz : HasFields bytesExport.fields (zeroPs bytesExport.fields) := by
    refine ⟨_, _, rfl, ⟨rfl, Or.inr ⟨[], rfl, by decide, fun x hx => absurd hx (by simp)⟩⟩, rfl⟩
  refine ⟨_, _, [], bytes_compiled, hu, ⟨(show Builtin.uint8 ≠ Builtin.string by decide), True.intro⟩, hz,
    C30_write_format leUtf8 bytes_compiled hu.loads hz, List.nil_prefix, ?_⟩
  decide +kernel

/-- C33, exactly, for a library that encodes text in UTF-8: truncated packets are always rejected if and only if there is no string
in the packet, at any depth. What is missing from the full statement: schemas with a string, all of which have a packet that is
accepted after removing some of its end. (Schemas with an enum of 32 variants, of which `read` accepts no variant, and those with
2^28 reads or more are not considered.) -/
theorem C33_exact_partial {ast : AST} {e : Artifact} (hc : Compiled ast e) (hu : Usable e) (hs : SmallEnums ast)
    (hz : slotsFs e.fields < 2 ^ 28) :
    (∀ ps, HasFields e.fields ps → ∀ bytes, Writes leUtf8 e ps bytes → ∀ pre, pre <+: bytes → pre ≠ bytes → Rejects leUtf8 e pre) ↔
      TextFreeFs e.fields := by
  constructor
  · intro h
    by_contra hn
    obtain ⟨ps, pre, extra, h1, h2, h3, h4⟩ := tricks_fields e.fields (compiled_small hc hs) hn [] (fun _ h => absurd h (by simp)) (by
      rw [List.length_nil]
      omega)
    have hw := C30_write_format leUtf8 hc hu.loads h1
    have hx := h3 rfl
    have h5 := h ps h1 _ hw pre (by rw [h2]; exact List.prefix_append _ _) (by
      rw [h2]
      intro he
      exact hx ((List.append_eq_nil_iff.1 (List.self_eq_append_right.1 he)).2))
    obtain ⟨c', h6⟩ := h4 [] 0
    rw [List.append_nil] at h6
    exact not_reads_rejects leUtf8 (reads_of_rd leUtf8 hc hu (by rw [h6])) h5
  · intro ht ps hps bytes hw pre hpre hne
    exact C33_no_strings leUtf8 hc hu hs ht hps hw hpre hne

/-- Both cases occur. -/
example : Compiled stringAst stringExport ∧ Usable stringExport ∧ SmallEnums stringAst ∧ slotsFs stringExport.fields < 2 ^ 28 ∧
    ¬ TextFreeFs stringExport.fields ∧ Compiled bytesAst bytesExport ∧ Usable bytesExport ∧ SmallEnums bytesAst ∧
    slotsFs bytesExport.fields < 2 ^ 28 ∧ TextFreeFs bytesExport.fields := by
  refine ⟨string_compiled, plain_usable string_compiled string_plain, ?_, by decide, fun h => absurd rfl h.1,
    bytes_compiled, plain_usable bytes_compiled bytes_plain, ?_, by decide, ⟨(show Builtin.uint8 ≠ Builtin.string by decide), True.intro⟩⟩
  all_goals
    intro n vs h
    simp [stringAst, bytesAst] at h

end Packetc.Props
