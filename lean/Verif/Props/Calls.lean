import Verif.Props.Wire
import Verif.Proof.Calls
/-!
# C43, exactly: for which schemas the work of `read` is bounded
-/

namespace Packetc.Props
open Ast Check WellFormed Js Gen

variable (rt : Runtime)

/-- C43, exactly: if the items of arrays have no parts that are read (in particular, if there are no arrays), then no data
whatsoever causes more reads than there are in the code. Otherwise a few bytes, at most four for each read in the code, cause
2^32 reads (if no enum has 32 variants; otherwise all data is rejected, and how much is read depends on what the
library's failing reads return). What is missing from the full statement: the latter schemas. -/
theorem C43_exact_partial {ast : AST} {e : Artifact} (hc : Compiled ast e) (hu : Usable e) :
    (CalmFs e.fields → ∀ data heap fuel v st, 2 ^ 32 ≤ fuel → readText rt fuel e.code heap data = .returns v st →
      st.rd.calls ≤ slotsFs e.fields) ∧
    (¬ CalmFs e.fields → SmallEnums ast → ∃ data, data.length ≤ 4 * slotsFs e.fields ∧
      ∀ heap fuel v st, 2 ^ 32 ≤ fuel → readText rt fuel e.code heap data = .returns v st → 2 ^ 32 ≤ st.rd.calls) := by
  constructor
  · intro h data heap fuel v st hfuel hr
    rw [read_state rt hc hu hfuel hr]
    have := fields_at_most rt e.fields h ⟨data, false, 0⟩
    simpa using this
  · intro h hs
    obtain ⟨data, h1, h2⟩ := flood_fields rt e.fields (compiled_small hc hs) h
    refine ⟨data, h1, fun heap fuel v st hfuel hr => ?_⟩
    rw [read_state rt hc hu hfuel hr]
    have := h2 0
    rwa [Nat.zero_add] at this

/-- Both cases occur. -/
example : Compiled stringAst stringExport ∧ Usable stringExport ∧ CalmFs stringExport.fields ∧
    Compiled bytesAst bytesExport ∧ Usable bytesExport ∧ ¬ CalmFs bytesExport.fields ∧ SmallEnums bytesAst := by
  refine ⟨string_compiled, plain_usable string_compiled string_plain, ⟨⟨fun h => absurd h (by decide), True.intro⟩, True.intro⟩,
    bytes_compiled, plain_usable bytes_compiled bytes_plain, fun h => absurd (h.1.1 rfl) (by decide), ?_⟩
  intro n vs h
  unfold bytesAst at h
  simp at h

end Packetc.Props
