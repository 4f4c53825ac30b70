import Verif.Props.Bridge
import Verif.Props.Stream
import Verif.Props.RustStream
/-!
# C129: streams of packets from TypeScript to Rust
-/

namespace Packetc.Props
open Ast Check WellFormed Rs
open Js (leUtf8 encodeFields Runtime Compiled Usable Reads Writes JVal PropOf TypedFs ShortStr IsVariant HasFields Ascii Artifact)

/-- C129, full statement: what a TypeScript program sends as packets back to back, the Rust program receives as the same packets, one after the other (if they fit in
memory). -/
def C129_claim : Prop := ∀ (rt : Runtime) (lib : Lib) (ast : AST) (r : Resolved) (s : Source) (P : Prog) (e : Artifact), Agree rt lib → Checked ast r →
  Compiled ast e → r.export = e.toExport → NamesFit ast → Built r s P → Usable e →
  ∀ l bytes rest, Sends rt e l bytes → (∀ ps ∈ l, FewProps lib.maxItems ps) →
    ∃ vss, Received lib P s (bytes ++ rest) vss rest ∧ vss.map (jsFs r.export.fields) = l

section
variable {rt : Runtime} {lib : Lib} {ast : AST} {r : Resolved} {s : Source} {P : Prog} {e : Artifact}

/-- C129, exactly: the Rust program receives a stream of packets of a TypeScript program as the same packets if and only if the strings in all of them are ASCII and
their arrays fit in memory; then it stops where the packets end. What is missing from the full statement: other strings, for which it is false, and enums with 32
variants. -/
theorem C129_exact_partial (ha : Agree rt lib) (hk : Checked ast r) (hc : Compiled ast e) (hx : r.export = e.toExport) (hn : NamesFit ast)
    (hB : Built r s P) (hu : Usable e) (hs : ∀ n vs, Used ast n → .decl n (.enum vs) ∈ ast → vs.length ≤ 31)
    {l : List (List (PropOf JVal))} {bytes : List UInt8} (hl : Sends rt e l bytes) (rest : List UInt8) :
    ((∀ ps ∈ l, TypedFs (fun s => ShortStr s ∧ Ascii s) IsVariant e.fields ps ∧ FewProps lib.maxItems ps) →
      ∃ vss, Received lib P s (bytes ++ rest) vss rest ∧ vss.map (jsFs r.export.fields) = l) ∧
    ∀ vss rest', Received lib P s (bytes ++ rest) vss rest' → vss.map (jsFs r.export.fields) = l →
      (∀ ps ∈ l, TypedFs (fun s => ShortStr s ∧ Ascii s) IsVariant e.fields ps ∧ FewProps lib.maxItems ps) ∧ rest' = rest := by
  obtain ⟨packets, rfl, h⟩ := hl
  induction h with
  | nil =>
    refine ⟨fun _ => ⟨[], .none _, rfl⟩, fun vss rest' h1 h2 => ⟨fun _ h => absurd h List.not_mem_nil, ?_⟩⟩
    obtain rfl := List.map_eq_nil_iff.1 h2
    cases h1
    rfl
  | @cons ps b l packets h1 _ ih =>
    rw [List.flatten_cons, List.append_assoc]
    constructor
    · intro hall
      obtain ⟨b', vs, hw, hr, hj⟩ := (C96_ts_to_rust_partial ha hk hc hx hn hB hu hs h1.1 (packets.flatten ++ rest)).2 (hall ps List.mem_cons_self)
      obtain rfl := writes_unique rt hc hu h1.1 h1.2 hw
      obtain ⟨vss, h3, h4⟩ := ih.1 fun q hq => hall q (List.mem_cons_of_mem _ hq)
      exact ⟨vs :: vss, .more _ _ _ _ _ hr h3, by rw [List.map_cons, hj, h4]⟩
    · intro vss rest' h3 h4
      cases h3 with
      | none => cases h4
      | more _ vs data' vss _ hr hrest =>
        obtain ⟨hj, h4⟩ := List.cons.inj h4
        obtain ⟨bs, h5, h6, -, -⟩ := (C96_rust_reads ha hk hx hn hB hs _ _ _).1 ⟨vs, hr, hj⟩
        have h7 : TypedFs ShortStr (fun _ _ => True) e.fields ps :=
          Js.typedFs_mono (fun _ h => h) (fun _ _ _ _ => True.intro) _ (trueEnums hc) _ h1.1
        have hb := writes_unique rt hc hu h1.1 h1.2 (C30_write_format rt hc hu.loads h1.1)
        rw [hb] at h5
        obtain ⟨-, rfl⟩ := align_Fs ha.text e.fields bs ps _ _ h6 h7 h5
        obtain ⟨h8, h9⟩ := ih.2 vss rest' hrest h4
        refine ⟨fun q hq => ?_, h9⟩
        rcases List.mem_cons.1 hq with rfl | hq
        · exact (C96_ts_to_rust_partial ha hk hc hx hn hB hu hs h1.1 (packets.flatten ++ rest)).1 ⟨b, vs, h1.2, hr, hj⟩
        · exact h8 q hq

end

theorem accent_sends : ∃ bytes, Sends leUtf8 stringExport [accent] bytes :=
  ⟨_, [_], rfl, .cons ⟨accent_typed, accent_garbled.1⟩ .nil⟩

/-- C129 is false of the code: see C96. -/
theorem C129_false : ¬ C129_claim := by
  intro h
  have hu := plain_usable string_compiled string_plain
  have hB := built_of string_checked string_names
  obtain ⟨bytes, hl⟩ := accent_sends
  obtain ⟨vss, h1, h2⟩ := h leUtf8 (leLib 100) stringAst (resultFor stringAst) _ _ stringExport (le_agree 100) string_checked string_compiled
    (by rfl) string_names hB hu _ _ [] hl (by
      intro ps hps
      rw [List.mem_singleton.1 hps]
      exact ⟨True.intro, True.intro⟩)
  obtain ⟨h3, -⟩ := (C129_exact_partial (le_agree 100) string_checked string_compiled (by rfl) string_names hB hu
    (fun n vs _ hd => by simp [stringAst] at hd) hl []).2 vss _ h1 h2
  obtain ⟨⟨p, qs, hp, ⟨-, ⟨ho, -⟩ | ⟨s, hs, -, hA⟩⟩, -⟩, -⟩ := h3 _ List.mem_cons_self
  · cases ho
  · obtain ⟨rfl, -⟩ := List.cons.inj hp
    obtain rfl := JVal.str.inj hs
    exact absurd (hA 'é' (by decide)) (by decide)

/-- The hypotheses are met by a stream of three packets, with strings that arrive. -/
example : ∃ bytes, Sends leUtf8 stringExport [[⟨"s".toList, .str "ab".toList⟩], [⟨"s".toList, .str []⟩], [⟨"s".toList, .str "c".toList⟩]] bytes ∧
    ∀ ps ∈ [[⟨"s".toList, .str "ab".toList⟩], [⟨"s".toList, .str []⟩], [⟨"s".toList, .str "c".toList⟩]],
      TypedFs (fun s => ShortStr s ∧ Ascii s) IsVariant stringExport.fields ps ∧ FewProps (leLib 100).maxItems ps := by
  have hu := plain_usable string_compiled string_plain
  have good : ∀ x : Str, ShortStr x → Ascii x → TypedFs (fun s => ShortStr s ∧ Ascii s) IsVariant stringExport.fields [⟨"s".toList, .str x⟩] :=
    fun x h1 h2 => ⟨_, _, rfl, ⟨rfl, Or.inr ⟨x, rfl, h1, h2⟩⟩, rfl⟩
  have has : ∀ x : Str, ShortStr x → HasFields stringExport.fields [⟨"s".toList, .str x⟩] := fun x h1 => ⟨_, _, rfl, ⟨rfl, Or.inr ⟨x, rfl, h1⟩⟩, rfl⟩
  have short : ShortStr "ab".toList ∧ ShortStr [] ∧ ShortStr "c".toList := ⟨by decide, by decide, by decide⟩
  refine ⟨_, ⟨[_, _, _], rfl, .cons ⟨has _ short.1, C30_write_format _ string_compiled hu.loads (has _ short.1)⟩
    (.cons ⟨has _ short.2.1, C30_write_format _ string_compiled hu.loads (has _ short.2.1)⟩
      (.cons ⟨has _ short.2.2, C30_write_format _ string_compiled hu.loads (has _ short.2.2)⟩ .nil))⟩, ?_⟩
  intro ps hps
  simp only [List.mem_cons, List.not_mem_nil, or_false] at hps
  rcases hps with rfl | rfl | rfl
  · exact ⟨good _ short.1 (by unfold Ascii; decide), True.intro, True.intro⟩
  · exact ⟨good _ short.2.1 (by unfold Ascii; decide), True.intro, True.intro⟩
  · exact ⟨good _ short.2.2 (by unfold Ascii; decide), True.intro, True.intro⟩

end Packetc.Props
