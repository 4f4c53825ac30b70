import Verif.Proof.BridgeSize
import Verif.Props.Bridge
import Verif.Props.Stream
import Verif.Props.RustStream
/-!
# C130: streams of packets from Rust to TypeScript
-/

namespace Packetc.Props
open Ast Check WellFormed Rs
open Js (leUtf8 Runtime Compiled Usable Reads Writes JVal PropOf HasFields Artifact)

/-- A TypeScript program takes packets from the front of data one after the other: `read` has no position, so it calls `read` on what is left and skips as many bytes
as `write` makes of the packet. -/
inductive Takes (rt : Runtime) (e : Artifact) : List UInt8 → List (List (PropOf JVal)) → List UInt8 → Prop
  | none (data) : Takes rt e data [] data
  | more (data ps b pss rest) : Reads rt e data ps → Writes rt e ps b → b.length ≤ data.length → Takes rt e (data.drop b.length) pss rest →
      Takes rt e data (ps :: pss) rest

/-- C130, full statement: a TypeScript program takes the packets that a Rust program has written one after the other. -/
def C130_claim : Prop := ∀ (rt : Runtime) (lib : Lib) (ast : AST) (r : Resolved) (s : Source) (P : Prog) (e : Artifact), Agree rt lib → Checked ast r →
  Compiled ast e → r.export = e.toExport → NamesFit ast → Built r s P → Usable e →
  ∀ vss bytes rest, (∀ vs ∈ vss, ValFs (2 ^ 32) r.export.fields vs) → Sent lib P s vss bytes →
    Takes rt e (bytes ++ rest) (vss.map (jsFs r.export.fields)) rest

section
variable {rt : Runtime} {lib : Lib} {ast : AST} {r : Resolved} {s : Source} {P : Prog} {e : Artifact}

/-- C130, sizes: the TypeScript program writes the packet with as many bytes as the Rust program, also where the bytes differ (the lengths of strings that are not
ASCII). -/
theorem C130_same_size (ha : Agree rt lib) (hk : Checked ast r) (hc : Compiled ast e) (hx : r.export = e.toExport) (hn : NamesFit ast)
    (hB : Built r s P) (hu : Usable e) {vs : List (Str × Val)} (hvs : ValFs (2 ^ 32) r.export.fields vs) {bytes : List UInt8}
    (hw : runWrite lib P s.write.2 (.struct vs) = some bytes) :
    HasFields e.fields (jsFs r.export.fields vs) ∧ ∃ b, Writes rt e (jsFs r.export.fields vs) b ∧ b.length = bytes.length := by
  have hf : e.fields = r.export.fields := by rw [hx]
  rw [C91_write lib hk hn hB hvs] at hw
  cases hw
  obtain ⟨h1, h2⟩ := jsFs_sized ha (Nat.le_refl _) _ _ hvs
  rw [← hf] at h1 h2 ⊢
  have h3 := C30_write_format rt hc hu.loads h1
  exact ⟨h1, _, h3, (writes_size rt hc hu h1 h3).trans h2⟩

/-- C130, exactly: a TypeScript program takes whatever packets a Rust program has sent, if and only if no used enum has 32 variants. What is missing from the full
statement: enums with 32 variants, for which it is false. -/
theorem C130_exact_partial (ha : Agree rt lib) (hk : Checked ast r) (hc : Compiled ast e) (hx : r.export = e.toExport) (hn : NamesFit ast)
    (hB : Built r s P) (hu : Usable e) :
    (∀ vss bytes rest, (∀ vs ∈ vss, ValFs (2 ^ 32) r.export.fields vs) → Sent lib P s vss bytes →
      Takes rt e (bytes ++ rest) (vss.map (jsFs r.export.fields)) rest) ↔
    ∀ n vs, Used ast n → .decl n (.enum vs) ∈ ast → vs.length ≤ 31 := by
  rw [← C96_rust_to_ts_partial ha hk hc hx hn hB hu]
  constructor
  · intro h vs bytes rest hvs hw
    have h1 := h [vs] _ rest (fun q hq => by rw [List.mem_singleton.1 hq]; exact hvs) (.more _ _ _ _ hw .none)
    rw [List.append_nil] at h1
    cases h1
    assumption
  · intro h vss bytes rest hvss hw
    induction hw with
    | none => exact .none _
    | more vs vss b bytes hw _ ih =>
      have hvs := hvss vs List.mem_cons_self
      obtain ⟨-, b', h1, h2⟩ := C130_same_size ha hk hc hx hn hB hu hvs hw
      rw [List.append_assoc]
      refine .more _ _ b' _ _ (h vs b _ hvs hw) h1 (by rw [h2, List.length_append]; exact Nat.le_add_right _ _) ?_
      rw [h2, List.drop_left]
      exact ih fun q hq => hvss q (List.mem_cons_of_mem _ hq)

/-- C130: and what it takes is determined by the data and the number of packets. -/
theorem C130_unique (hc : Compiled ast e) (hu : Usable e) {data rest rest' : List UInt8} {pss qss : List (List (PropOf JVal))} (h : Takes rt e data pss rest)
    (h' : Takes rt e data qss rest') (hp : ∀ ps ∈ pss, HasFields e.fields ps) (hq : ∀ ps ∈ qss, HasFields e.fields ps) (hl : pss.length = qss.length) :
    pss = qss ∧ rest = rest' := by
  induction h generalizing qss with
  | none =>
    cases h' with
    | none => exact ⟨rfl, rfl⟩
    | more => cases hl
  | more data ps b pss rest h1 h2 _ _ ih =>
    cases h' with
    | none => cases hl
    | more _ qs b' qss _ h3 h4 _ h5 =>
      have h6 := hp ps List.mem_cons_self
      have h7 := hq qs List.mem_cons_self
      obtain rfl := reads_unique rt (shaped_of hc h6) (shaped_of hc h7) h1 h3
      obtain rfl := writes_unique rt hc hu h6 h2 h4
      obtain ⟨rfl, rfl⟩ := ih h5 (fun q h => hp q (List.mem_cons_of_mem _ h)) (fun q h => hq q (List.mem_cons_of_mem _ h)) (Nat.succ.inj hl)
      exact ⟨rfl, rfl⟩

end

/-- C130 is false of the code: with 32 variants TypeScript reads no packets at all (see C37). -/
theorem C130_false : ¬ C130_claim := by
  intro h
  have hu := plain_usable big_compiled big_plain
  have := (C130_exact_partial (le_agree 100) big_checked big_compiled (by rfl) big_names big_built hu).1
    (h _ _ _ _ _ _ _ (le_agree 100) big_checked big_compiled (by rfl) big_names big_built hu)
  exact absurd (this _ _ big_used List.mem_cons_self) (by decide)

/-- The hypotheses are met, with text that is not ASCII: such packets are taken from a stream too. -/
example (rest : List UInt8) : ∃ bytes, Sent (leLib 100) (progOf (resultFor stringAst).types) (sourceFor stringAst)
      [[("s".toList, .str "é".toList)], [("s".toList, .str "ab".toList)]] bytes ∧
    Takes leUtf8 stringExport (bytes ++ rest) [[⟨"s".toList, .str "é".toList⟩], [⟨"s".toList, .str "ab".toList⟩]] rest := by
  have hB := built_of string_checked string_names
  have val : ∀ x : Str, (Js.utf8Enc x).length < 2 ^ 32 → ValFs (2 ^ 32) (resultFor stringAst).export.fields [("s".toList, .str x)] :=
    fun x h => ⟨_, _, rfl, ⟨rfl, Or.inr ⟨_, rfl, x, rfl, h⟩⟩, rfl⟩
  have h1 := val "é".toList (by decide)
  have h2 := val "ab".toList (by decide)
  have hw : Sent (leLib 100) (progOf (resultFor stringAst).types) (sourceFor stringAst)
      [[("s".toList, .str "é".toList)], [("s".toList, .str "ab".toList)]] _ :=
    .more _ _ _ _ (C91_write _ string_checked string_names hB h1) (.more _ _ _ _ (C91_write _ string_checked string_names hB h2) .none)
  exact ⟨_, hw, (C130_exact_partial (le_agree 100) string_checked string_compiled (by rfl) string_names hB
    (plain_usable string_compiled string_plain)).2 (fun n vs _ hd => by simp [stringAst] at hd) _ _ rest (by
      intro vs hvs
      simp only [List.mem_cons, List.not_mem_nil, or_false] at hvs
      rcases hvs with rfl | rfl
      · exact h1
      · exact h2) hw⟩

end Packetc.Props
