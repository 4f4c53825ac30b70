import Verif.Proof.RustRelay
import Verif.Props.RustEvolution
import Verif.Props.Accept
/-!
# What a Rust program reads, it writes again as the same bytes (C105)
-/

namespace Packetc.Props
open Ast Check WellFormed RustGen Rs

set_option linter.unusedSectionVars false

section
variable (lib : Lib) {ast : AST} {r : Resolved} {s : Source} {P : Prog}

/-- C105, full statement: what has been read is written again as the bytes that were read, if each number has only one encoding. -/
def C105_claim : Prop := ∀ (lib : Lib) (ast : AST) (r : Resolved) (s : Source) (P : Prog), OneCode lib → Checked ast r → NamesFit ast →
  Built r s P → (∀ n vs, Used ast n → .decl n (.enum vs) ∈ ast → vs.length ≤ 31) → ∀ data v rest bytes,
  readDefault lib P s data = .ok v rest → runWrite lib P s.write.2 v = some bytes → bytes ++ rest = data

/-- What has been read can be written, and a program that reads that gets the same value. -/
theorem C105_again (hc : Checked ast r) (hn : NamesFit ast) (hB : Built r s P)
    (hs : ∀ n vs, Used ast n → .decl n (.enum vs) ∈ ast → vs.length ≤ 31) {data : List UInt8} {v : Val} {rest : List UInt8}
    (h : readDefault lib P s data = .ok v rest) :
    ∃ bytes, runWrite lib P s.write.2 v = some bytes ∧ ∀ more, readDefault lib P s (bytes ++ more) = .ok v more := by
  obtain ⟨bs, ps, rfl, rfl, hh⟩ := (C93_reads_partial lib hc hn hB hs _ _ _).1 h
  have ha := checked_noOptArrays hc
  have hw := C91_write lib hc hn hB (hasFs_val _ ha.1 ha.2 _ _ hh)
  exact ⟨_, hw, C92_round_trip_partial lib hc hn hB hs (Nat.min_le_left _ _) (Nat.min_le_right _ _) (hasFs_fits _ ha.1 ha.2 _ _ hh) hw⟩

/-- What has been read is written as the same bytes exactly if the flags of the optional fields in them are 0 or 1. -/
theorem C105_same_iff (hl : OneCode lib) (hc : Checked ast r) (hn : NamesFit ast) (hB : Built r s P)
    (hs : ∀ n vs, Used ast n → .decl n (.enum vs) ∈ ast → vs.length ≤ 31) {data : List UInt8} {ps : List (Str × Val)} {rest : List UInt8}
    (h : readDefault lib P s data = .ok (.struct ps) rest) {bytes : List UInt8} (hw : runWrite lib P s.write.2 (.struct ps) = some bytes) :
    bytes ++ rest = data ↔ ∃ bs, data = bs ++ rest ∧ NeatFs lib r.export.fields bs ps := by
  obtain ⟨bs, qs, rfl, hq, hh⟩ := (C93_reads_partial lib hc hn hB hs _ _ _).1 h
  cases hq
  have ha := checked_noOptArrays hc
  rw [C91_write lib hc hn hB (hasFs_val _ ha.1 ha.2 _ _ hh)] at hw
  cases hw
  constructor
  · intro he
    exact ⟨_, he.symm, encFs_neat (Nat.min_le_left _ _) (Nat.min_le_right _ _) _ (checked_sound hc) ha.1 ha.2 _ (hasFs_fits _ ha.1 ha.2 _ _ hh)⟩
  · rintro ⟨b, he, hb⟩
    rw [he, neatFs_enc hl _ (checked_sound hc) ha.1 ha.2 _ _ hb]

/-- C105 for schemas of which no used struct has an optional field. What is missing from the full statement: optional fields, with which it
is false. -/
theorem C105_same_partial (hl : OneCode lib) (hc : Checked ast r) (hn : NamesFit ast) (hB : Built r s P)
    (hs : ∀ n vs, Used ast n → .decl n (.enum vs) ∈ ast → vs.length ≤ 31)
    (ho : ∀ n fs, Used ast n → .decl n (.struct fs) ∈ ast → ∀ f ∈ fs, f.2.optional = false) {data : List UInt8} {v : Val} {rest : List UInt8}
    (h : readDefault lib P s data = .ok v rest) {bytes : List UInt8} (hw : runWrite lib P s.write.2 v = some bytes) :
    bytes ++ rest = data := by
  obtain ⟨bs, ps, hd, rfl, hh⟩ := (C93_reads_partial lib hc hn hB hs _ _ _).1 h
  have hno := (checked_fields hc (fun f => f.2.optional = false)).2 ho
  exact (C105_same_iff lib hl hc hn hB hs h hw).2 ⟨bs, hd, hasFs_neat _ hno.1 hno.2 _ _ hh⟩

/-- C105, exactly: this holds for all data if and only if no used struct has an optional field. -/
theorem C105_exact (hl : OneCode lib) (hc : Checked ast r) (hn : NamesFit ast) (hB : Built r s P) (hm : 1 ≤ lib.maxItems)
    (hs : ∀ n vs, Used ast n → .decl n (.enum vs) ∈ ast → vs.length ≤ 31) :
    (∀ data v rest bytes, readDefault lib P s data = .ok v rest → runWrite lib P s.write.2 v = some bytes → bytes ++ rest = data) ↔
      ∀ n fs, Used ast n → .decl n (.struct fs) ∈ ast → ∀ f ∈ fs, f.2.optional = false := by
  constructor
  · intro h
    have ha := checked_noOptArrays hc
    have hd := (fits_export hc hn (hB.has hc)).2.2
    have hodd := oddFs_has (lib := lib) hm _ (checked_sound hc) hd
    have hr := (C93_reads_partial lib hc hn hB hs _ _ []).2 ⟨_, _, (List.append_nil _).symm, rfl, hodd⟩
    have hw := C91_write lib hc hn hB (lastFs_val (by decide) _ (checked_sound hc) hd)
    have he := h _ _ _ _ hr hw
    rw [List.append_nil] at he
    exact (checked_fields hc (fun f => f.2.optional = false)).1
      (oddFs_opts (lib := lib) hm _ (checked_sound hc) hd ha.1 ha.2 he.symm)
  · intro ho data v rest bytes h hw
    exact C105_same_partial lib hl hc hn hB hs ho h hw

theorem le_oneCode (k : Nat) : OneCode (leLib k) := by
  intro s bs hl
  cases s
  case float =>
    have hlt := Js.leNat_lt bs
    have hb := leBytes_leNat bs
    rw [hl] at hlt hb
    show Js.leBytes 4 (BitVec.ofNat 32 (Js.leNat bs)).toNat = bs
    rw [BitVec.toNat_ofNat, Nat.mod_eq_of_lt (by simpa [Js.Scalar.width] using hlt)]
    exact hb
  all_goals exact le_tidy _ bs hl (fun h => by cases h)

/-- The full statement is false of the code: the flag 2 is read like 1. -/
theorem C105_false : ¬ C105_claim := by
  intro h
  have hu : Used exampleAst "A".toList := ⟨"A".toList, rfl, .refl⟩
  have := (C105_exact (leLib 100) (le_oneCode 100) example_checked example_names example_built (by decide) example_small_enums).1
    (h (leLib 100) _ _ _ _ (le_oneCode 100) example_checked example_names example_built example_small_enums)
  exact absurd (this _ _ hu (.tail _ (.tail _ (.head _))) ("o".toList, ⟨"string".toList, false, true⟩) (.tail _ (.head _))) (by decide)

/-- Data with the flag 2, which is written as 1; and a schema without optionals. -/
example : OneCode (leLib 100) ∧ Checked exampleAst (resultFor exampleAst) ∧ NamesFit exampleAst ∧
    (∀ n vs, Used exampleAst n → .decl n (.enum vs) ∈ exampleAst → vs.length ≤ 31) ∧
    (∃ s P, Built (resultFor exampleAst) s P ∧
      readDefault (leLib 100) P s [2, 2, 0, 0, 0, 0xc3, 0xa9, 1, 0, 0, 0, 2, 7, 99] = .ok (.struct examplePacket) [99] ∧
      runWrite (leLib 100) P s.write.2 (.struct examplePacket) = some [1, 2, 0, 0, 0, 0xc3, 0xa9, 1, 0, 0, 0, 2, 7]) ∧
    Checked enumAst (resultFor enumAst) ∧ (∀ n fs, Used enumAst n → .decl n (.struct fs) ∈ enumAst → ∀ f ∈ fs, f.2.optional = false) ∧
    ∃ s P, Built (resultFor enumAst) s P ∧
      readDefault (leLib 100) P s [2, 9] = .ok (.struct [("e".toList, .variant "E".toList "B".toList)]) [9] := by
  have n₁ : NamesFit enumAst := namesFit_of (by decide)
  refine ⟨le_oneCode 100, example_checked, example_names, example_small_enums, ⟨_, _, example_built, ?_, ?_⟩, enum3_checked, ?_,
    _, _, built_of enum3_checked n₁, ?_⟩
  · exact (C93_reads_partial _ example_checked example_names example_built example_small_enums _ _ _).2
      ⟨[2, 2, 0, 0, 0, 0xc3, 0xa9, 1, 0, 0, 0, 2, 7], _, rfl, rfl,
        [2, 2, 0, 0, 0, 0xc3, 0xa9], [1, 0, 0, 0, 2, 7], _, _, rfl, rfl,
        ⟨[2], [2, 0, 0, 0, 0xc3, 0xa9], rfl, rfl, Or.inr ⟨by decide, _, rfl, [2, 0, 0, 0], "é".toList, by decide, rfl, by decide, rfl⟩⟩,
        [1, 0, 0, 0, 2, 7], [], _, _, rfl, rfl,
        ⟨[1, 0, 0, 0], [[2, 7]], _, rfl, rfl, by decide, by decide, rfl, .cons ⟨_, rfl,
          [2], [7], _, _, rfl, rfl, ⟨rfl, ⟨"Y".toList, 1⟩, .tail _ (.head _), by decide, rfl⟩,
          [7], [], _, [], rfl, rfl, ⟨rfl, rfl⟩, rfl, rfl⟩ .nil⟩, rfl, rfl⟩
  · rw [C91_write (leLib 100) example_checked example_names example_built (example_val (by decide))]
    decide +kernel
  · intro n fs _ h
    unfold enumAst at h
    simp only [List.mem_cons, Node.decl.injEq, Ty.struct.injEq, reduceCtorEq, and_false, false_or, or_false, List.not_mem_nil] at h
    rw [h.2]
    decide
  · exact (C93_reads_partial _ enum3_checked n₁ (built_of enum3_checked n₁) (fun n vs _ h => enum_small n vs h) _ _ _).2
      ⟨[2], _, rfl, rfl, [2], [], _, [], rfl, rfl, ⟨rfl, ⟨"B".toList, 1⟩, .tail _ (.head _), by decide, rfl⟩, rfl, rfl⟩

end
end Packetc.Props
