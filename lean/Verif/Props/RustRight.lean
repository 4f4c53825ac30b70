import Verif.Props.RustCheck
import Verif.Props.Bridge
/-!
# C98: Rust code that compiles is right

The schemas for which C92 and C93 fail, and names that would make a program mean something else, are all refused by the compiler (C97).
-/

namespace Packetc.Props
open Ast Check WellFormed Rs RustGen
open Js (Runtime Compiled Usable Reads Artifact)

variable (lib : Lib) {ast : AST} {r : Resolved} {text : Str} {s : Source} {P : Prog}

/-- Names of types that the compiler takes are not names of Rust's own types. -/
theorem namesFit_of_rustNames (hc : Checked ast r) (hn : RustNames ast) : NamesFit ast := by
  refine ⟨fun n fs hu hd => (hn.fields n fs hu hd).1, fun n hp hu => ?_⟩
  obtain ⟨ord, src, hord, hparse, ht⟩ := hc
  have hwf := (C12_text hord hparse).1 ⟨_, ht⟩
  have hdecl : n ∈ builtinNames ∨ Declared ast n := by
    obtain ⟨e, he, hr⟩ := id hu
    rcases hr.cases_tail with h | ⟨b, -, hbn⟩
    · obtain ⟨e', fs, he', hd⟩ := hwf.exported
      rw [he] at he'
      obtain rfl := (List.cons.inj he').1
      rw [h]
      exact Or.inr ⟨_, hd⟩
    · exact hwf.closed b n hbn
  rcases hdecl with hb | ⟨t, hd⟩
  · have : ∀ m ∈ primNames, m ∉ builtinNames := by decide
    exact this n hp hb
  · have : ∀ m ∈ primNames, m ∈ taken := by decide
    exact (hn.types n t hu (Js.mem_decls.1 hd)).2 (this n hp)

section
variable (hc : Checked ast r) (hf : rustFile r = some text) (hk : Compiles text) (hB : Built r s P)
include hc hf hk

/-- C98: the names of a schema whose file compiles mean what they should. -/
theorem C98_names : NamesFit ast := namesFit_of_rustNames hc ((C97_exact_partial hc hf).1 hk).1

include hB

/-- C98: if the file compiles, `write` writes the format of format.md. -/
theorem C98_write {ps : List (Str × Val)} (hps : ValFs (2 ^ 32) r.export.fields ps) :
    runWrite lib P s.write.2 (.struct ps) = some (encFs lib r.export.fields ps) :=
  C91_write lib hc (C98_names hc hf hk) hB hps

/-- C98: if the file compiles, `read` returns what `write` wrote (if it fits in memory). -/
theorem C98_round_trip {lim : Nat} (h1 : lim ≤ 2 ^ 32) (h2 : lim ≤ lib.maxItems + 1) {ps : List (Str × Val)}
    (hps : ValFs lim r.export.fields ps) {bytes : List UInt8} (hw : runWrite lib P s.write.2 (.struct ps) = some bytes)
    (rest : List UInt8) : readDefault lib P s (bytes ++ rest) = .ok (.struct ps) rest :=
  C92_round_trip_partial lib hc (C98_names hc hf hk) hB ((C97_exact_partial hc hf).1 hk).2.enums h1 h2 hps hw rest

/-- C98: if the file compiles, `read` accepts exactly the data that begin with the bytes of a value. -/
theorem C98_reads (data : List UInt8) (v : Val) (rest : List UInt8) :
    readDefault lib P s data = .ok v rest ↔ ∃ bs ps, data = bs ++ rest ∧ v = .struct ps ∧ HasFs lib r.export.fields bs ps :=
  C93_reads_partial lib hc (C98_names hc hf hk) hB ((C97_exact_partial hc hf).1 hk).2.enums data v rest

/-- C98: if the file compiles, `read` succeeds, or returns an error, or is stopped for lack of memory; it does nothing else. -/
theorem C98_outcomes (data : List UInt8) :
    (∃ v rest, readDefault lib P s data = .ok v rest) ∨ readDefault lib P s data = .err ∨ readDefault lib P s data = .abort := by
  rw [readDefault_eq lib hc (C98_names hc hf hk) hB]
  cases rdFs lib r.export.fields (dfltFs r.export.fields) data with
  | ok ps rest => exact Or.inl ⟨_, _, rfl⟩
  | err => exact Or.inr (Or.inl rfl)
  | abort => exact Or.inr (Or.inr rfl)

/-- C98: if the file compiles, the TypeScript program of the same run reads what the Rust program writes, and all that it reads. -/
theorem C98_typescript {rt : Runtime} {e : Artifact} (ha : Agree rt lib) (hcomp : Compiled ast e) (hx : r.export = e.toExport) (hu : Usable e) :
    (∀ vs bytes rest, ValFs (2 ^ 32) r.export.fields vs → runWrite lib P s.write.2 (.struct vs) = some bytes →
      Reads rt e (bytes ++ rest) (jsFs r.export.fields vs)) ∧
    ∀ data vs rest, readDefault lib P s data = .ok (.struct vs) rest → Reads rt e data (jsFs r.export.fields vs) :=
  ⟨(C96_rust_to_ts_partial ha hc hcomp hx (C98_names hc hf hk) hB hu).2 ((C97_exact_partial hc hf).1 hk).2.enums,
    fun _ _ _ h => C96_ts_follows ha hc hcomp hx (C98_names hc hf hk) hB hu ((C97_exact_partial hc hf).1 hk).2.enums h⟩

end

/-- C98: there is such a program. -/
theorem C98_program (hc : Checked ast r) (hf : rustFile r = some text) (hk : Compiles text) : ∃ s P, Built r s P :=
  C91_program hc (C98_names hc hf hk)

/-- `A { b: vec![B { e: None, n: 7 }], c: Some(B { e: Some(E::Y), n: 8 }), s: vec!["é"] }`. -/
def plainPacket : List (Str × Val) :=
  [("s".toList, .vec [.str "é".toList]),
   ("b".toList, .vec [.struct [("e".toList, .none), ("n".toList, .num (.int 7))]]),
   ("c".toList, .some (.struct [("e".toList, .some (.variant "E".toList "Y".toList)), ("n".toList, .num (.int 8))]))]

theorem plain_val {lim : Nat} (h : 1 < lim) : ValFs lim (resultFor plainAst).export.fields plainPacket := by
  have hfs : (resultFor plainAst).export.fields =
      [⟨"s".toList, "string".toList, .builtin .string, true, false⟩,
       ⟨"b".toList, "B".toList, .struct [⟨"e".toList, "E".toList, .enum ⟨.u8, [⟨"X".toList, 0⟩, ⟨"Y".toList, 1⟩]⟩, false, true⟩,
         ⟨"n".toList, "uint8".toList, .builtin .uint8, false, false⟩], true, false⟩,
       ⟨"c".toList, "B".toList, .struct [⟨"e".toList, "E".toList, .enum ⟨.u8, [⟨"X".toList, 0⟩, ⟨"Y".toList, 1⟩]⟩, false, true⟩,
         ⟨"n".toList, "uint8".toList, .builtin .uint8, false, false⟩], false, true⟩] := by rfl
  rw [hfs]
  refine ⟨_, _, rfl, ⟨rfl, Or.inr ⟨_, rfl, _, rfl, h, fun w hw => ?_⟩⟩, _, _, rfl, ⟨rfl, Or.inr ⟨_, rfl, _, rfl, h, fun w hw => ?_⟩⟩,
    _, _, rfl, ⟨rfl, Or.inr ⟨_, rfl, ?_⟩⟩, rfl⟩
  · rw [List.mem_singleton.1 hw]
    exact ⟨_, rfl, by decide⟩
  · rw [List.mem_singleton.1 hw]
    exact ⟨_, rfl, _, _, rfl, ⟨rfl, Or.inl ⟨rfl, rfl⟩⟩, _, _, rfl, ⟨rfl, Or.inr ⟨_, rfl, _, rfl, by decide, by decide⟩⟩, rfl⟩
  · exact ⟨_, rfl, _, _, rfl, ⟨rfl, Or.inr ⟨_, rfl, _, List.mem_cons_of_mem _ List.mem_cons_self, rfl⟩⟩, _, _, rfl,
      ⟨rfl, Or.inr ⟨_, rfl, _, rfl, by decide, by decide⟩⟩, rfl⟩

/-- A file that compiles, a program with it, a packet, and its bytes. -/
example : Checked plainAst (resultFor plainAst) ∧ rustFile (resultFor plainAst) = some (textFor plainAst) ∧ Compiles (textFor plainAst) ∧
    Built (resultFor plainAst) (sourceFor plainAst) (progOf (resultFor plainAst).types) ∧
    ValFs 100 (resultFor plainAst).export.fields plainPacket ∧
    runWrite (leLib 100) (progOf (resultFor plainAst).types) (sourceFor plainAst).write.2 (.struct plainPacket) =
      some [1, 0, 0, 0, 2, 0, 0, 0, 0xc3, 0xa9, 1, 0, 0, 0, 0, 7, 1, 1, 2, 8] := by
  obtain ⟨hc, hn, -, hf, hk⟩ := plain_compiles
  have hB := built_of hc (namesFit_of_rustNames hc hn)
  refine ⟨hc, hf, hk, hB, plain_val (by decide), ?_⟩
  rw [C98_write (leLib 100) hc hf hk hB (plain_val (by decide))]
  decide +kernel

end Packetc.Props
