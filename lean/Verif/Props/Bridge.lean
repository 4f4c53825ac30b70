import Verif.Proof.Bridge
import Verif.Props.Rust
import Verif.Props.Accept
import Verif.Props.RoundTrip
import Verif.Props.Interop
/-!
# C96: Rust and TypeScript programs of the same schema

`hx` says that both were made by the same run of the compiler; `C96_runs` is about different runs.
-/

namespace Packetc.Props
open Ast Check WellFormed Rs RustGen
open Js (leUtf8 encodeFields dec_fields Runtime Compiled Usable Reads Writes Rejects JVal PropOf TypedFs FaithfulStr ShortStr IsVariant HasFields HoldsFs Ascii utf8Enc Artifact)

/-- C96, full statement: programs generated from the same schema understand each other: what the Rust program writes, the TypeScript
program reads as the same packet, and the other way round (if it fits in memory). -/
def C96_claim : Prop := ∀ (rt : Runtime) (lib : Lib) (ast : AST) (r : Resolved) (s : Source) (P : Prog) (e : Artifact), Agree rt lib → Checked ast r →
  Compiled ast e → r.export = e.toExport → NamesFit ast → Built r s P → Usable e →
  (∀ vs bytes, ValFs (2 ^ 32) r.export.fields vs → runWrite lib P s.write.2 (.struct vs) = some bytes →
    Reads rt e bytes (jsFs r.export.fields vs)) ∧
  ∀ ps bytes, HasFields e.fields ps → FewProps lib.maxItems ps → Writes rt e ps bytes →
    ∃ vs, readDefault lib P s bytes = .ok (.struct vs) [] ∧ jsFs r.export.fields vs = ps

/-- C96: runs of the compiler give the same export if no field can be overtaken by a later one (see C24). -/
theorem C96_runs {ast : AST} {r : Resolved} {e : Artifact} (hs : AllInOrder ast) (hk : Checked ast r) (hc : Compiled ast e) :
    r.export = e.toExport := by
  obtain ⟨code, h⟩ := hk.compiled
  exact compiled_eq_of_inOrder hs h hc

section
variable {rt : Runtime} {lib : Lib} {ast : AST} {r : Resolved} {s : Source} {P : Prog} {e : Artifact}

theorem checked_noOptArrays (hk : Checked ast r) : NoOptArrays r.export.fields ∧ Js.AllFs NoOptArrays r.export.fields :=
  (checked_fields hk (fun f => ¬ (f.2.array = true ∧ f.2.optional = true))).2 (checked_plain hk)

/-- C96: the Rust program reads data as a packet exactly if the TypeScript program does and the texts are UTF-8, the enums are declared
variants and the arrays fit in memory. -/
theorem C96_rust_reads (ha : Agree rt lib) (hk : Checked ast r) (hx : r.export = e.toExport) (hn : NamesFit ast)
    (hB : Built r s P) (hs : ∀ n vs, Used ast n → .decl n (.enum vs) ∈ ast → vs.length ≤ 31) (data : List UInt8)
    (ps : List (PropOf JVal)) (rest : List UInt8) :
    (∃ vs, readDefault lib P s data = .ok (.struct vs) rest ∧ jsFs r.export.fields vs = ps) ↔
    ∃ bs, data = bs ++ rest ∧ HoldsFs rt (fun _ _ => True) (fun _ => True) IsText e.fields bs ps ∧
      TypedFs (fun _ => True) IsVariant e.fields ps ∧ FewProps lib.maxItems ps := by
  have hf : e.fields = r.export.fields := by rw [hx]
  have hb := fun bs => both_fields ha r.export.fields ((checked_small hk).2 hs) (checked_noOptArrays hk).1 (checked_noOptArrays hk).2 bs ps
  rw [hf]
  constructor
  · rintro ⟨vs, h1, h2⟩
    obtain ⟨bs, qs, rfl, h3, h4⟩ := (C93_reads_partial lib hk hn hB hs _ _ _).1 h1
    obtain rfl := Val.struct.inj h3
    exact ⟨bs, rfl, (hb bs).1 ⟨vs, h4, h2⟩⟩
  · rintro ⟨bs, rfl, h⟩
    obtain ⟨vs, h1, h2⟩ := (hb bs).2 h
    exact ⟨vs, (C93_reads_partial lib hk hn hB hs _ _ _).2 ⟨bs, vs, rfl, rfl, h1⟩, h2⟩

/-- C96: the TypeScript program understands all data that the Rust program understands, in the same way. -/
theorem C96_ts_follows (ha : Agree rt lib) (hk : Checked ast r) (hc : Compiled ast e) (hx : r.export = e.toExport) (hn : NamesFit ast)
    (hB : Built r s P) (hu : Usable e) (hs : ∀ n vs, Used ast n → .decl n (.enum vs) ∈ ast → vs.length ≤ 31)
    {data rest : List UInt8} {vs : List (Str × Val)} (h : readDefault lib P s data = .ok (.struct vs) rest) :
    Reads rt e data (jsFs r.export.fields vs) := by
  obtain ⟨bs, rfl, h1, -, -⟩ := (C96_rust_reads ha hk hx hn hB hs data _ rest).1 ⟨vs, h, rfl⟩
  have h2 := Js.holdsFs_any rt e.fields bs _ h1
  exact (C75_reads rt hc hu (C75_shaped rt hc h2)).2 ⟨bs, ⟨rest, rfl⟩, h2⟩

/-- The same library in a process with more memory. -/
def roomy (lib : Lib) : Lib := { lib with maxItems := 2 ^ 32 }

theorem roomy_enc (lib : Lib) (fs : List (FieldOf RType)) (vs : List (Str × Val)) : encFs (roomy lib) fs vs = encFs lib fs vs := by
  delta encFs
  rfl

theorem rust_holds (ha : Agree rt lib) (hk : Checked ast r) (hn : NamesFit ast) (hB : Built r s P)
    (hs : ∀ n vs, Used ast n → .decl n (.enum vs) ∈ ast → vs.length ≤ 31) {vs : List (Str × Val)}
    (hvs : ValFs (2 ^ 32) r.export.fields vs) : Js.Holds rt r.export.fields (encFs lib r.export.fields vs) (jsFs r.export.fields vs) := by
  have hm : 2 ^ 32 ≤ (roomy lib).maxItems + 1 := Nat.le_succ _
  have h := encFs_has (roomy lib) (lim := 2 ^ 32) (by decide) hm _ (checked_sound hk) (fits_export hk hn (hB.has hk)).2.2 _ hvs
  rw [roomy_enc] at h
  have ha' : Agree rt (roomy lib) := ⟨ha.num, ha.text⟩
  obtain ⟨h1, -, -⟩ := (both_fields ha' r.export.fields ((checked_small hk).2 hs) (checked_noOptArrays hk).1
    (checked_noOptArrays hk).2 _ _).1 ⟨vs, h, rfl⟩
  exact Js.holdsFs_any rt _ _ _ h1

/-- C96, from Rust to TypeScript, exactly: whatever the Rust program writes is read as the same packet by the TypeScript program, if and
only if no used enum has 32 variants. What is missing from the full statement: enums with 32 variants, for which it is false. -/
theorem C96_rust_to_ts_partial (ha : Agree rt lib) (hk : Checked ast r) (hc : Compiled ast e) (hx : r.export = e.toExport) (hn : NamesFit ast)
    (hB : Built r s P) (hu : Usable e) :
    (∀ vs bytes rest, ValFs (2 ^ 32) r.export.fields vs → runWrite lib P s.write.2 (.struct vs) = some bytes →
      Reads rt e (bytes ++ rest) (jsFs r.export.fields vs)) ↔
    ∀ n vs, Used ast n → .decl n (.enum vs) ∈ ast → vs.length ≤ 31 := by
  have hf : e.fields = r.export.fields := by rw [hx]
  constructor
  · intro h
    rw [← checked_small hk]
    have hl := lastFs_val (lim := 2 ^ 32) (by decide) _ (checked_sound hk) (fits_export hk hn (hB.has hk)).2.2
    have h1 := h _ _ [] hl (C91_write lib hk hn hB hl)
    have h2 := jsFs_shaped ha (Nat.le_refl _) _ _ hl
    rw [← hf] at h2
    rw [← hf] at h1
    obtain ⟨bs, -, h3⟩ := (C75_reads rt hc hu h2).1 h1
    rw [hf] at h3
    exact lastFs_small _ (checked_sound hk) (checked_noOptArrays hk).1 (checked_noOptArrays hk).2 bs h3
  · intro hs vs bytes rest hvs hw
    rw [C91_write lib hk hn hB hvs] at hw
    cases hw
    have h := rust_holds ha hk hn hB hs hvs
    rw [← hf] at h
    rw [← hf]
    exact (C75_reads rt hc hu (C75_shaped rt hc h)).2 ⟨_, ⟨rest, rfl⟩, h⟩

/-- C96, from TypeScript to Rust, exactly: the Rust program reads a packet written by the TypeScript program, if and only if all strings
in it are ASCII and the arrays fit in memory. What is missing from the full statement: other strings, for which it
is false (the TypeScript program counts UTF-16 units, the Rust program bytes), and enums with 32 variants. -/
theorem C96_ts_to_rust_partial (ha : Agree rt lib) (hk : Checked ast r) (hc : Compiled ast e) (hx : r.export = e.toExport) (hn : NamesFit ast)
    (hB : Built r s P) (hu : Usable e) (hs : ∀ n vs, Used ast n → .decl n (.enum vs) ∈ ast → vs.length ≤ 31)
    {ps : List (PropOf JVal)} (hps : HasFields e.fields ps) (rest : List UInt8) :
    (∃ bytes vs, Writes rt e ps bytes ∧ readDefault lib P s (bytes ++ rest) = .ok (.struct vs) rest ∧
      jsFs r.export.fields vs = ps) ↔
    TypedFs (fun s => ShortStr s ∧ Ascii s) IsVariant e.fields ps ∧ FewProps lib.maxItems ps := by
  have hf : e.fields = r.export.fields := by rw [hx]
  have hw := C30_write_format rt hc hu.loads hps
  have hfaith : ∀ s, FaithfulStr rt s ↔ ShortStr s ∧ Ascii s := fun s => by
    unfold FaithfulStr
    rw [ha.text, (utf8_length s).2]
  constructor
  · rintro ⟨bytes, vs, h1, h2, h3⟩
    obtain rfl := writes_unique rt hc hu hps h1 hw
    obtain ⟨bs, h4, h5, -, h6⟩ := (C96_rust_reads ha hk hx hn hB hs _ _ _).1 ⟨vs, h2, h3⟩
    have h7 : TypedFs ShortStr (fun _ _ => True) e.fields ps :=
      Js.typedFs_mono (fun _ h => h) (fun _ _ _ _ => True.intro) _ (trueEnums hc) _ hps
    obtain ⟨h8, -⟩ := align_Fs ha.text e.fields bs ps rest rest h5 h7 h4
    exact ⟨Js.typedFs_mono (fun s h => (hfaith s).1 h.1) (fun _ _ _ h => h.2) _ (trueEnums hc) _ (typedFs_and _ _ h8 hps), h6⟩
  · rintro ⟨h1, h2⟩
    have h3 : TypedFs (FaithfulStr rt) IsVariant e.fields ps :=
      Js.typedFs_mono (fun s h => (hfaith s).2 h) (fun _ _ _ h => h) _ (trueEnums hc) _ h1
    have hsm : Js.EnumsFs Small e.fields := by
      rw [hf]
      exact (checked_small hk).2 hs
    obtain ⟨c', h4⟩ := dec_fields rt e.fields ps (faithful_typed rt hsm h3) [] 0
    have h5 := reads_of_rd rt hc hu (data := encodeFields rt e.fields ps ++ []) (by rw [h4])
    rw [h4] at h5
    obtain ⟨bs, -, h6⟩ := (C75_reads rt hc hu (shaped_of hc hps)).1 h5
    have h7 := Js.renew_Fs rt e.fields bs ps h6
      (Js.typedFs_mono (fun _ h => h) (fun _ _ _ _ => True.intro) _ (trueEnums hc) _ h3)
    have h8 : HoldsFs rt (fun _ _ => True) (fun _ => True) IsText e.fields (encodeFields rt e.fields ps) ps :=
      Js.holdsFs_mono rt (fun _ _ _ _ => True.intro) (fun _ _ => True.intro) (fun b h => ⟨_, by rw [← ha.text]; exact h.1.symm⟩) _ _ _ h7
    obtain ⟨vs, h9, h10⟩ := (C96_rust_reads ha hk hx hn hB hs (encodeFields rt e.fields ps ++ rest) ps rest).2
      ⟨_, rfl, h8, Js.typedFs_mono (fun _ _ => True.intro) (fun _ _ _ h => h) _ (trueEnums hc) _ hps, h2⟩
    exact ⟨_, vs, hw, h9, h10⟩

end

/-! ### Examples -/

theorem le_agree (k : Nat) : Agree leUtf8 (leLib k) :=
  ⟨fun s bs _ => by cases s <;> rfl, fun _ => rfl⟩

theorem string_checked : Checked stringAst (resultFor stringAst) := checked_of (text := stringText) (by decide +kernel) (by rfl)
theorem string_names : NamesFit stringAst := namesFit_of (by decide)

/-- C96 is false: the TypeScript program announces "é" as one unit, so that the Rust program reads the first of its two bytes. -/
theorem C96_false : ¬ C96_claim := by
  intro h
  have hu := plain_usable string_compiled string_plain
  have hB := built_of string_checked string_names
  obtain ⟨vs, h1, h2⟩ := (h leUtf8 (leLib 100) stringAst (resultFor stringAst) _ _ stringExport (le_agree 100) string_checked string_compiled
    (by rfl) string_names hB hu).2 accent _ accent_typed (by exact ⟨True.intro, True.intro⟩) accent_garbled.1
  have h3 := (C96_ts_to_rust_partial (le_agree 100) string_checked string_compiled (by rfl) string_names hB hu
    (fun n vs _ hd => by simp [stringAst] at hd) accent_typed []).1 ⟨_, vs, accent_garbled.1, by rw [List.append_nil]; exact h1, h2⟩
  obtain ⟨⟨p, qs, hp, ⟨-, ⟨ho, -⟩ | ⟨s, hs, -, hA⟩⟩, -⟩, -⟩ := h3
  · cases ho
  · obtain ⟨rfl, -⟩ := List.cons.inj hp
    obtain rfl := JVal.str.inj hs
    exact absurd (hA 'é' (by decide)) (by decide)

/-- The hypotheses are met: a packet goes from TypeScript to Rust and, with other text, from Rust to TypeScript. -/
example : ∃ e, Compiled exampleAst e ∧ Usable e ∧ Checked exampleAst (resultFor exampleAst) ∧ (resultFor exampleAst).export = e.toExport ∧
    NamesFit exampleAst ∧ Built (resultFor exampleAst) (sourceFor exampleAst) (progOf (resultFor exampleAst).types) ∧
    Agree leUtf8 (leLib 100) ∧
    (∃ bytes vs, Writes leUtf8 e exampleValue bytes ∧
      readDefault (leLib 100) (progOf (resultFor exampleAst).types) (sourceFor exampleAst) (bytes ++ [9]) = .ok (.struct vs) [9] ∧
      jsFs (resultFor exampleAst).export.fields vs = exampleValue) ∧
    Reads leUtf8 e [1, 2, 0, 0, 0, 0xc3, 0xa9, 1, 0, 0, 0, 2, 7]
      [⟨"o".toList, .str "é".toList⟩, ⟨"b".toList, .arr [.obj [⟨"e".toList, .num (.int 2)⟩, ⟨"n".toList, .num (.int 7)⟩]]⟩] := by
  obtain ⟨e, h1, h2, h3⟩ := example_compiled
  have hu := plain_usable h1 example_plain
  have hx : (resultFor exampleAst).export = e.toExport := by
    have : (resultFor exampleAst).export = ⟨"A".toList, exampleFields⟩ := by rfl
    rw [this, ← h2, ← h3]
  have hB := example_built
  refine ⟨e, h1, hu, example_checked, hx, example_names, hB, le_agree 100, ?_, ?_⟩
  · refine (C96_ts_to_rust_partial (le_agree 100) example_checked h1 hx example_names hB hu example_small_enums
      (faithful_hasFields leUtf8 (trueEnums h1) (example_typed e h3)) [9]).2 ⟨?_, ?_⟩
    · refine Js.typedFs_mono (fun s h => ⟨h.1, (utf8_length s).2.1 h.2⟩) (fun _ _ _ h => h) _ (trueEnums h1) _ (example_typed e h3)
    · exact ⟨True.intro, ⟨by decide, ⟨True.intro, True.intro, True.intro⟩, True.intro⟩, True.intro⟩
  · have := (C96_rust_to_ts_partial (le_agree 100) example_checked h1 hx example_names hB hu).2 example_small_enums examplePacket
      [1, 2, 0, 0, 0, 0xc3, 0xa9, 1, 0, 0, 0, 2, 7] [] (example_val (by decide)) (by
        rw [C91_write (leLib 100) example_checked example_names hB (example_val (by decide))]
        decide +kernel)
    rw [List.append_nil] at this
    exact this

end Packetc.Props
