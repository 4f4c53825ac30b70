import Verif.Props.Rust
import Verif.Proof.RustLeft
/-!
# C100: what a failing `read` emitted by rust.rs leaves in its output

`read(reader, output)` assigns to the fields of `output` as it goes (`Rust/Left.lean` gives the variables at the time when `?` returns).
-/

namespace Packetc.Props
open Ast Check Gen WellFormed Rs RustGen

variable (lib : Lib) {ast : AST} {r : Resolved} {s : Source} {P : Prog}

/-- C100, full statement: if `read` returns an error, `output` is as it was. -/
def C100_claim : Prop := ∀ (lib : Lib) (ast : AST) (r : Resolved) (s : Source) (P : Prog), Checked ast r → NamesFit ast → Built r s P →
  ∀ lim ps data, ValFs lim r.export.fields ps → runRead lib P s.read.2 (.struct ps) data = .err →
  outputAfter lib P s (.struct ps) data = some (.struct ps)

/-- What the claim is about agrees with the result of `read` where that succeeds. -/
theorem C100_success {output v : Val} {data rest : List UInt8} (h : runRead lib P s.read.2 output data = .ok v rest) :
    outputAfter lib P s output data = some v := by
  unfold runRead at h
  unfold outputAfter
  split at h
  · rename_i s' hs
    rw [leaveAll_ok lib P _ hs]
    split at h
    · rename_i v' hv
      cases h
      exact hv
    · cases h
  · cases h
  · cases h
  · cases h

theorem read_err (hc : Checked ast r) (hn : NamesFit ast) (hB : Built r s P) {old : List (Str × Val)} {lim : Nat}
    (h : ValFs lim r.export.fields old) {data : List UInt8} : runRead lib P s.read.2 (.struct old) data = .err ↔
      rdFs lib r.export.fields old data = .err := by
  rw [runRead_eq lib hc hn hB h]
  cases rdFs lib r.export.fields old data with
  | ok ps rest => exact ⟨fun h => (by cases h), fun h => (by cases h)⟩
  | err => exact ⟨fun _ => rfl, fun _ => rfl⟩
  | abort => exact ⟨fun h => (by cases h), fun h => (by cases h)⟩

theorem outputAfter_eq (hc : Checked ast r) (hn : NamesFit ast) (hB : Built r s P) {old : List (Str × Val)} {lim : Nat}
    (h : ValFs lim r.export.fields old) {data : List UInt8} (he : rdFs lib r.export.fields old data = .err) :
    outputAfter lib P s (.struct old) data = some (.struct (leftFs lib r.export.fields old data)) := by
  have hP := hB.has hc
  obtain rfl := (emitted_iff hc).1 hB.emitted
  exact output_after lib hc hn hP (valFs_shape _ _ h) he

/-- C100 for schemas in which nothing that may change comes before something that takes space, except inside an optional field, and all arrays
outside of optional fields are of items that take no space. What is missing from the full statement: all other schemas, for which it is
false. -/
theorem C100_same_partial (hc : Checked ast r) (hn : NamesFit ast) (hB : Built r s P) (hs : ¬ LeavesFs r.export.fields) {lim : Nat}
    {ps : List (Str × Val)} (hps : ValFs lim r.export.fields ps) {data : List UInt8} (he : runRead lib P s.read.2 (.struct ps) data = .err) :
    outputAfter lib P s (.struct ps) data = some (.struct ps) := by
  rw [read_err lib hc hn hB hps] at he
  rw [outputAfter_eq lib hc hn hB hps he, leftFs_same lib _ hs (checked_sound hc) ps hps data he]

/-- C100, exactly: a failing `read` leaves `output` as it was if and only if the schema is of this form. -/
theorem C100_exact (hc : Checked ast r) (hn : NamesFit ast) (hB : Built r s P) (hm : 2 ≤ lib.maxItems) {lim : Nat} (hl : 0 < lim) :
    (∀ ps data, ValFs lim r.export.fields ps → runRead lib P s.read.2 (.struct ps) data = .err →
      outputAfter lib P s (.struct ps) data = some (.struct ps)) ↔ ¬ LeavesFs r.export.fields := by
  constructor
  · intro h hL
    obtain ⟨old, data, h1, h2, h3⟩ := leftFs_other lib hl hm _ hL (checked_sound hc)
    have h4 := h old data h1 ((read_err lib hc hn hB h1).2 h2)
    rw [outputAfter_eq lib hc hn hB h1 h2] at h4
    exact h3 (Val.struct.inj (Option.some.inj h4))
  · exact fun hs ps data hps he => C100_same_partial lib hc hn hB hs hps he

theorem bytes_fields : (resultFor bytesAst).export.fields = [⟨"xs".toList, "uint8".toList, .builtin .uint8, true, false⟩] := by rfl

theorem C100_false : ¬ C100_claim := by
  intro h
  refine (C100_exact (leLib (2 ^ 32)) (lim := 1) bytes_checked bytes_names bytes_built (by decide) (by decide)).1
    (h _ _ _ _ _ bytes_checked bytes_names bytes_built 1) ?_
  rw [bytes_fields]
  exact Or.inl ⟨rfl, fun h => by cases h⟩

/-! ### Examples -/

def lastText : Str := "E: enum { A }\nP: struct { e: E, o?: string }\nexport P".toList
def lastAst : AST :=
  [.decl "E".toList (.enum ["A".toList]),
   .decl "P".toList (.struct [("e".toList, ⟨"E".toList, false, false⟩), ("o".toList, ⟨"string".toList, false, true⟩)]), .export "P".toList]

theorem last_checked : Checked lastAst (resultFor lastAst) := checked_of (text := lastText) (by decide +kernel) (by rfl)
theorem last_names : NamesFit lastAst := namesFit_of (by decide)
theorem last_built : Built (resultFor lastAst) (sourceFor lastAst) (progOf (resultFor lastAst).types) := built_of last_checked last_names

theorem last_fields : (resultFor lastAst).export.fields =
    [⟨"e".toList, "E".toList, .enum ⟨.u8, [⟨"A".toList, 0⟩]⟩, false, false⟩, ⟨"o".toList, "string".toList, .builtin .string, false, true⟩] := by rfl

theorem last_same : ¬ LeavesFs (resultFor lastAst).export.fields := by
  rw [last_fields]
  rintro (⟨-, h⟩ | ⟨h, -⟩ | ⟨h, -⟩ | ⟨-, h⟩ | h)
  · exact h
  · rcases h with h | h | h
    · cases h
    · cases h
    · exact absurd (show 2 ≤ 1 from h) (by decide)
  · cases h
  · exact h rfl
  · exact h

/-- `E: enum { A } P: struct { e: E, o?: string }`: of two bytes, the second is not for the text that should follow; `output` is as before. -/
example : runRead (leLib 4) (progOf (resultFor lastAst).types) (sourceFor lastAst).read.2
      (.struct [("e".toList, .variant "E".toList "A".toList), ("o".toList, .some (.str ['x']))]) [1, 1, 9] = .err ∧
    outputAfter (leLib 4) (progOf (resultFor lastAst).types) (sourceFor lastAst)
      (.struct [("e".toList, .variant "E".toList "A".toList), ("o".toList, .some (.str ['x']))]) [1, 1, 9] =
      some (.struct [("e".toList, .variant "E".toList "A".toList), ("o".toList, .some (.str ['x']))]) := by
  have h : runRead (leLib 4) (progOf (resultFor lastAst).types) (sourceFor lastAst).read.2
      (.struct [("e".toList, .variant "E".toList "A".toList), ("o".toList, .some (.str ['x']))]) [1, 1, 9] = .err := by rfl
  refine ⟨h, C100_same_partial (lim := 1) (leLib 4) last_checked last_names last_built last_same ?_ h⟩
  rw [last_fields]
  exact ⟨_, _, rfl, ⟨rfl, .inr ⟨_, rfl, _, List.mem_cons_self, rfl⟩⟩, _, _, rfl, ⟨rfl, .inr ⟨_, rfl, _, rfl, by decide⟩⟩, rfl⟩

/-- `P: struct { xs: uint8[] }`: of three announced items one is there; it stays in `output`. -/
example : outputAfter (leLib 4) (progOf (resultFor bytesAst).types) (sourceFor bytesAst) (.struct [("xs".toList, .vec [])]) [3, 0, 0, 0, 7] =
    some (.struct [("xs".toList, .vec [.num (.int 7)])]) := by rfl

end Packetc.Props
