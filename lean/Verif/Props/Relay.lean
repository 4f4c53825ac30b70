import Verif.Props.RustToTs
import Verif.Proof.SameVal
import Verif.Proof.RustEvolution
/-!
# C131: packets passed on by a TypeScript program
-/

namespace Packetc.Props
open Ast Check WellFormed Rs
open Js (leUtf8 Runtime Compiled Usable Reads Writes JVal PropOf TypedFs ShortStr IsVariant HasFields Ascii Artifact)

/-- A TypeScript program reads a packet and writes what it has read. -/
def PassesOn (rt : Runtime) (e : Artifact) (data bytes : List UInt8) : Prop :=
  ∃ ps, HasFields e.fields ps ∧ Reads rt e data ps ∧ Writes rt e ps bytes

/-- C131, full statement: a packet of a Rust program that a TypeScript program passes on arrives in a Rust program as the same packet (up to the bits of NaN), if it
fits in memory. -/
def C131_claim : Prop := ∀ (rt : Runtime) (lib : Lib) (ast : AST) (r : Resolved) (s : Source) (P : Prog) (e : Artifact), Agree rt lib → Checked ast r →
  Compiled ast e → r.export = e.toExport → NamesFit ast → Built r s P → Usable e →
  ∀ vs bytes, ValFs (2 ^ 32) r.export.fields vs → FewProps lib.maxItems (jsFs r.export.fields vs) → runWrite lib P s.write.2 (.struct vs) = some bytes →
    ∃ b vs', PassesOn rt e bytes b ∧ readDefault lib P s b = .ok (.struct vs') [] ∧ jsFs r.export.fields vs' = jsFs r.export.fields vs

section
variable {rt : Runtime} {lib : Lib} {ast : AST} {r : Resolved} {s : Source} {P : Prog} {e : Artifact}

/-- C131, exactly: the packet is passed on, with as many bytes, whatever it contains, and only in one way; it arrives as the same packet, with what follows left alone, if and only if all
strings in it are ASCII and the arrays fit in memory. What is missing from the full statement: other strings, for which it is false, and enums with 32 variants. -/
theorem C131_exact_partial (ha : Agree rt lib) (hk : Checked ast r) (hc : Compiled ast e) (hx : r.export = e.toExport) (hn : NamesFit ast)
    (hB : Built r s P) (hu : Usable e) (hs : ∀ n vs, Used ast n → .decl n (.enum vs) ∈ ast → vs.length ≤ 31)
    {vs : List (Str × Val)} (hvs : ValFs (2 ^ 32) r.export.fields vs) {bytes : List UInt8} (hw : runWrite lib P s.write.2 (.struct vs) = some bytes)
    (rest rest' : List UInt8) :
    ∃ b, PassesOn rt e (bytes ++ rest) b ∧ (∀ b', PassesOn rt e (bytes ++ rest) b' → b' = b) ∧ b.length = bytes.length ∧
      ((∃ vs', readDefault lib P s (b ++ rest') = .ok (.struct vs') rest' ∧ jsFs r.export.fields vs' = jsFs r.export.fields vs) ↔
        TypedFs (fun s => ShortStr s ∧ Ascii s) IsVariant r.export.fields (jsFs r.export.fields vs) ∧ FewProps lib.maxItems (jsFs r.export.fields vs)) := by
  have hf : e.fields = r.export.fields := by rw [hx]
  obtain ⟨h1, b, h2, h3⟩ := C130_same_size ha hk hc hx hn hB hu hvs hw
  have hr := (C96_rust_to_ts_partial ha hk hc hx hn hB hu).2 hs vs bytes rest hvs hw
  refine ⟨b, ⟨_, h1, hr, h2⟩, ?_, h3, ?_⟩
  · rintro b' ⟨ps, h4, h5, h6⟩
    obtain rfl := reads_unique rt (shaped_of hc h1) (shaped_of hc h4) hr h5
    exact writes_unique rt hc hu h1 h6 h2
  · have := C96_ts_to_rust_partial ha hk hc hx hn hB hu hs h1 rest'
    rw [hf] at this
    rw [← this]
    constructor
    · rintro ⟨vs', h4, h5⟩
      exact ⟨b, vs', h2, h4, h5⟩
    · rintro ⟨b', vs', h4, h5, h6⟩
      obtain rfl := writes_unique rt hc hu h1 h2 h4
      exact ⟨vs', h5, h6⟩

/-- C131, what "the same packet" is in Rust: a packet that the Rust program reads, and whose content in TypeScript is that of `vs`, equals `vs` except that a NaN can be
another NaN. -/
theorem C131_same (hk : Checked ast r) (hn : NamesFit ast) (hB : Built r s P) (hs : ∀ n vs, Used ast n → .decl n (.enum vs) ∈ ast → vs.length ≤ 31)
    {vs vs' : List (Str × Val)} (hvs : ValFs (2 ^ 32) r.export.fields vs) {data rest : List UInt8} (h : readDefault lib P s data = .ok (.struct vs') rest)
    (hj : jsFs r.export.fields vs' = jsFs r.export.fields vs) : SameVal (.struct vs') (.struct vs) := by
  obtain ⟨bs, qs, -, h1, h2⟩ := (C93_reads_partial lib hk hn hB hs _ _ _).1 h
  obtain rfl := Val.struct.inj h1
  obtain ⟨h3, h4⟩ := jsFs_same _ (checked_sound hk) _ _ (hasFs_val _ (checked_noOptArrays hk).1 (checked_noOptArrays hk).2 _ _ h2) hvs hj
  exact .struct h3 h4

end

/-- Values that differ only in the bits of a NaN are the same in this sense, other numbers are not. -/
example : SameVal (.struct [("x".toList, .num (.f32 0x7fc00000#32))]) (.struct [("x".toList, .num (.f32 0xffc00001#32))]) ∧
    ¬ SameVal (.num (.f32 0x7f800000#32)) (.num (.f32 0x7fc00000#32)) := by
  refine ⟨.struct rfl (.cons (.nan ⟨by decide, by decide⟩ ⟨by decide, by decide⟩) .nil), fun h => ?_⟩
  cases h with
  | nan h _ => exact absurd h.2 (by decide)

theorem accent_val : ValFs (2 ^ 32) (resultFor stringAst).export.fields [("s".toList, .str "é".toList)] :=
  ⟨_, _, rfl, ⟨rfl, Or.inr ⟨_, rfl, _, rfl, by decide⟩⟩, rfl⟩

/-- C131 is false of the code: what TypeScript writes as the length of a string is not its number of bytes (see C96). -/
theorem C131_false : ¬ C131_claim := by
  intro h
  have hu := plain_usable string_compiled string_plain
  have hB := built_of string_checked string_names
  have hw := C91_write (leLib 100) string_checked string_names hB accent_val
  obtain ⟨b, vs', h1, h2, h3⟩ := h leUtf8 (leLib 100) stringAst (resultFor stringAst) _ _ stringExport (le_agree 100) string_checked string_compiled
    (by rfl) string_names hB hu _ _ accent_val (by exact ⟨True.intro, True.intro⟩) hw
  obtain ⟨b', -, h4, -, h5⟩ := C131_exact_partial (le_agree 100) string_checked string_compiled (by rfl) string_names hB hu
    (fun n vs _ hd => by simp [stringAst] at hd) accent_val hw [] []
  rw [List.append_nil] at h4
  rw [List.append_nil] at h5
  obtain rfl := h4 b h1
  obtain ⟨⟨p, qs, hp, ⟨-, ⟨ho, -⟩ | ⟨s, hs, -, hA⟩⟩, -⟩, -⟩ := h5.1 ⟨vs', h2, h3⟩
  · cases ho
  · obtain ⟨rfl, -⟩ := List.cons.inj hp
    obtain rfl := JVal.str.inj hs
    exact absurd (hA 'é' (by decide)) (by decide)

/-- The hypotheses are met by a packet that is passed on unharmed. -/
example : ∃ vs bytes, ValFs (2 ^ 32) (resultFor stringAst).export.fields vs ∧
    runWrite (leLib 100) (progOf (resultFor stringAst).types) (sourceFor stringAst).write.2 (.struct vs) = some bytes ∧
    TypedFs (fun s => ShortStr s ∧ Ascii s) IsVariant (resultFor stringAst).export.fields (jsFs (resultFor stringAst).export.fields vs) ∧
    FewProps (leLib 100).maxItems (jsFs (resultFor stringAst).export.fields vs) := by
  have hv : ValFs (2 ^ 32) (resultFor stringAst).export.fields [("s".toList, .str "ab".toList)] :=
    ⟨_, _, rfl, ⟨rfl, Or.inr ⟨_, rfl, _, rfl, by decide⟩⟩, rfl⟩
  exact ⟨_, _, hv, C91_write (leLib 100) string_checked string_names (built_of string_checked string_names) hv,
    ⟨_, _, rfl, ⟨rfl, Or.inr ⟨_, rfl, by decide, by unfold Ascii; decide⟩⟩, rfl⟩, True.intro, True.intro⟩

/-- And it arrives: the hypotheses of `C131_same` are met. -/
example : ∃ vs vs' data, ValFs (2 ^ 32) (resultFor stringAst).export.fields vs ∧
    readDefault (leLib 100) (progOf (resultFor stringAst).types) (sourceFor stringAst) data = .ok (.struct vs') [] ∧
    jsFs (resultFor stringAst).export.fields vs' = jsFs (resultFor stringAst).export.fields vs := by
  have hB := built_of string_checked string_names
  have hv : ValFs (2 ^ 32) (resultFor stringAst).export.fields [("s".toList, .str "ab".toList)] :=
    ⟨_, _, rfl, ⟨rfl, Or.inr ⟨_, rfl, _, rfl, by decide⟩⟩, rfl⟩
  obtain ⟨b, -, -, -, h⟩ := C131_exact_partial (le_agree 100) string_checked string_compiled (by rfl) string_names hB
    (plain_usable string_compiled string_plain) (fun n vs _ hd => by simp [stringAst] at hd) hv (C91_write (leLib 100) string_checked string_names hB hv) [] []
  obtain ⟨vs', h1, h2⟩ := h.2 ⟨⟨_, _, rfl, ⟨rfl, Or.inr ⟨_, rfl, by decide, by unfold Ascii; decide⟩⟩, rfl⟩, True.intro, True.intro⟩
  exact ⟨_, vs', _, hv, h1, h2⟩

end Packetc.Props
