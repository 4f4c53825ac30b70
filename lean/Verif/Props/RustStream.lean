import Verif.Props.Rust
/-!
# C111: Rust programs and streams of packets
-/

namespace Packetc.Props
open Ast Check Gen WellFormed Rs RustGen

variable (lib : Lib) {ast : AST} {r : Resolved} {s : Source} {P : Prog}

/-- These packets have been written one after the other, in all as these bytes. -/
inductive Sent (P : Prog) (s : Source) : List (List (Str × Val)) → List UInt8 → Prop
  | none : Sent P s [] []
  | more (ps pss b bytes) : runWrite lib P s.write.2 (.struct ps) = some b → Sent P s pss bytes →
      Sent P s (ps :: pss) (b ++ bytes)

/-- Reading packets one after the other from a stream, each into a new default value, gives these packets and leaves the rest
of the stream. -/
inductive Received (P : Prog) (s : Source) : List UInt8 → List (List (Str × Val)) → List UInt8 → Prop
  | none (data) : Received P s data [] data
  | more (data ps data' pss rest) : readDefault lib P s data = .ok (.struct ps) data' → Received P s data' pss rest →
      Received P s data (ps :: pss) rest

/-- Reading packets one after the other into one and the same variable, which holds `old` at first, gives these packets: the
contents of the variable after each call. -/
inductive ReceivedInto (P : Prog) (s : Source) : Val → List UInt8 → List (List (Str × Val)) → List UInt8 → Prop
  | none (old data) : ReceivedInto P s old data [] data
  | more (old data ps data' pss rest) : runRead lib P s.read.2 old data = .ok (.struct ps) data' →
      ReceivedInto P s (.struct ps) data' pss rest → ReceivedInto P s old data (ps :: pss) rest

/-- C111, full statement: a loop that reads packets into one variable, at first a default value, receives what has been sent. -/
def C111_claim : Prop := ∀ (lib : Lib) (ast : AST) (r : Resolved) (s : Source) (P : Prog), Checked ast r → NamesFit ast →
  Built r s P → ∀ lim pss bytes rest, lim ≤ 2 ^ 32 → lim ≤ lib.maxItems + 1 → (∀ ps ∈ pss, ValFs lim r.export.fields ps) →
  Sent lib P s pss bytes → ReceivedInto lib P s (P.dflt s.read.1) (bytes ++ rest) pss rest

/-- C111 for a loop that uses a new default value for each packet, for schemas whose used enums have less than 32 variants
(see C92). What is missing from the full statement: `C111_exact` says when one variable is enough. -/
theorem C111_fresh_partial (hc : Checked ast r) (hn : NamesFit ast) (hB : Built r s P)
    (hs : ∀ n vs, Used ast n → .decl n (.enum vs) ∈ ast → vs.length ≤ 31) {lim : Nat} (h1 : lim ≤ 2 ^ 32) (h2 : lim ≤ lib.maxItems + 1)
    {pss : List (List (Str × Val))} (hps : ∀ ps ∈ pss, ValFs lim r.export.fields ps) {bytes : List UInt8}
    (hw : Sent lib P s pss bytes) (rest : List UInt8) : Received lib P s (bytes ++ rest) pss rest := by
  induction hw with
  | none => exact .none _
  | more ps pss b bytes hw _ ih =>
    rw [List.append_assoc]
    exact .more _ _ _ _ _ (C92_round_trip_partial lib hc hn hB hs h1 h2 (hps _ List.mem_cons_self) hw _)
      (ih fun p hp => hps p (List.mem_cons_of_mem _ hp))

theorem received_unique {data rest rest' : List UInt8} {pss pss' : List (List (Str × Val))} (h : Received lib P s data pss rest)
    (h' : Received lib P s data pss' rest') (hl : pss.length = pss'.length) : pss = pss' ∧ rest = rest' := by
  induction h generalizing pss' with
  | none =>
    cases h' with
    | none => exact ⟨rfl, rfl⟩
    | more => cases hl
  | more data ps data' pss rest h1 _ ih =>
    cases h' with
    | none => cases hl
    | more _ ps' data'' pss' _ h2 h3 =>
      rw [h1] at h2
      simp only [ReadResult.ok.injEq, Val.struct.injEq] at h2
      obtain ⟨rfl, rfl⟩ := h2
      obtain ⟨rfl, rfl⟩ := ih h3 (Nat.succ.inj hl)
      exact ⟨rfl, rfl⟩

/-- C111: the bytes on a stream determine the packets, if it is known how many there are. -/
theorem C111_split (hc : Checked ast r) (hn : NamesFit ast) (hB : Built r s P)
    (hs : ∀ n vs, Used ast n → .decl n (.enum vs) ∈ ast → vs.length ≤ 31) {lim : Nat} (h1 : lim ≤ 2 ^ 32) (h2 : lim ≤ lib.maxItems + 1)
    {pss pss' : List (List (Str × Val))} (hps : ∀ ps ∈ pss, ValFs lim r.export.fields ps)
    (hps' : ∀ ps ∈ pss', ValFs lim r.export.fields ps) {bytes : List UInt8} (hw : Sent lib P s pss bytes)
    (hw' : Sent lib P s pss' bytes) (hl : pss.length = pss'.length) : pss = pss' :=
  (received_unique lib (C111_fresh_partial lib hc hn hB hs h1 h2 hps hw []) (C111_fresh_partial lib hc hn hB hs h1 h2 hps' hw' []) hl).1

theorem dflt_eq (hc : Checked ast r) (hn : NamesFit ast) (hB : Built r s P) :
    P.dflt s.read.1 = .struct (dfltFs r.export.fields) := by
  have hP := hB.has hc
  obtain rfl := (emitted_iff hc).1 hB.emitted
  have h := (fits_export hc hn hP).2.dflt
  rw [name_eq ((checked_entries hc).2.2 _ _ _ (checked_entries hc).2.1).2.2] at h
  exact h

/-- C111, exactly: one variable is enough if and only if no used enum has 32 variants and neither arrays nor optionals are
used. -/
theorem C111_exact (hc : Checked ast r) (hn : NamesFit ast) (hB : Built r s P) {lim : Nat} (h0 : 1 < lim)
    (h1 : lim ≤ 2 ^ 32) (h2 : lim ≤ lib.maxItems + 1) :
    (∀ pss bytes rest, (∀ ps ∈ pss, ValFs lim r.export.fields ps) → Sent lib P s pss bytes →
      ReceivedInto lib P s (P.dflt s.read.1) (bytes ++ rest) pss rest) ↔
    (∀ n vs, Used ast n → .decl n (.enum vs) ∈ ast → vs.length ≤ 31) ∧
    ∀ n fs, Used ast n → .decl n (.struct fs) ∈ ast → ∀ f ∈ fs, f.2.array = false ∧ f.2.optional = false := by
  have hm : 1 ≤ lib.maxItems := by omega
  constructor
  · intro h
    refine ⟨(C92_exact lib hc hn hB h0 h1 h2).1 fun ps rest bytes hps hw => ?_, ?_⟩
    · have := h [ps] (bytes ++ []) rest (fun p hp => List.mem_singleton.1 hp ▸ hps) (.more _ _ _ _ hw .none)
      rw [List.append_nil] at this
      cases this with
      | more _ _ _ data' _ _ h3 h4 =>
        cases h4
        exact h3
    · rw [← checked_fields hc (fun f => f.2.array = false ∧ f.2.optional = false)]
      have hb := (checked_fields hc (fun f => ¬ (f.2.array = true ∧ f.2.optional = true))).2 (checked_plain hc)
      have hv : ∀ b, ValFs lim r.export.fields (fillFs b r.export.fields) := fun b =>
        fillFs_val b h0 _ (checked_sound hc) hb.1 hb.2
      have hd : ValFs lim r.export.fields (dfltFs r.export.fields) := dfltFs_val (by omega) _ (checked_sound hc)
      have w1 := C91_write lib hc hn hB (valFs_mono h1 _ _ (hv true))
      have w2 := C91_write lib hc hn hB (valFs_mono h1 _ _ hd)
      have := h [fillFs true r.export.fields, dfltFs r.export.fields] _ [] (by
        intro p hp
        simp only [List.mem_cons, List.not_mem_nil, or_false] at hp
        rcases hp with rfl | rfl
        exacts [hv true, hd]) (.more _ _ _ _ w1 (.more _ _ _ _ w2 .none))
      cases this with
      | more _ _ _ data' _ _ h3 h4 =>
        -- the first packet has been read as it was sent, since the variable was new
        have h5 : data' = encFs lib r.export.fields (dfltFs r.export.fields) ++ [] := by
          have hsm := (C92_exact lib hc hn hB h0 h1 h2).1 fun ps rest bytes hps hw => by
            have := h [ps] (bytes ++ []) rest (fun p hp => List.mem_singleton.1 hp ▸ hps) (.more _ _ _ _ hw .none)
            rw [List.append_nil] at this
            cases this with
            | more _ _ _ data' _ _ h3 h4 =>
              cases h4
              exact h3
          have h6 := C92_round_trip_partial lib hc hn hB hsm h1 h2 (hv true) w1 (encFs lib r.export.fields (dfltFs r.export.fields) ++ [] ++ [])
          rw [← List.append_assoc] at h6
          unfold readDefault at h6
          rw [h6] at h3
          injection h3 with _ h7
          rw [← h7, List.append_nil]
        cases h4 with
        | more _ _ _ data'' _ _ h6 _ =>
          rw [h5, runRead_eq lib hc hn hB (hv true), rd_dfltFs lib true hm _ (checked_sound hc)] at h6
          injection h6 with h7 _
          rw [← fillFs_false] at h7
          exact fillFs_eq _ (Val.struct.inj h7)
  · rintro ⟨hs, ho⟩ pss bytes rest hps hw
    have key : ∀ old, ValFs lim r.export.fields old → ReceivedInto lib P s (.struct old) (bytes ++ rest) pss rest := by
      induction hw with
      | none => intro old _; exact .none _ _
      | more ps pss b bytes hw _ ih =>
        intro old hold
        rw [List.append_assoc]
        have hp := hps _ List.mem_cons_self
        refine .more _ _ _ _ _ _ ?_ (ih (fun p hp => hps p (List.mem_cons_of_mem _ hp)) _ hp)
        have h3 := C92_round_trip_partial lib hc hn hB hs h1 h2 hp hw (bytes ++ rest)
        unfold readDefault at h3
        rw [dflt_eq hc hn hB] at h3
        rw [← h3]
        exact (C95_exact_partial lib hc hn hB hm h0).2 ho _ _ _ hold (dfltFs_val (by omega) _ (checked_sound hc))
    rw [dflt_eq hc hn hB]
    exact key _ (dfltFs_val (by omega) _ (checked_sound hc))

/-- C111 is false: the second of two packets begins with the items of the first. -/
theorem C111_false : ¬ C111_claim := by
  intro h
  have := ((C111_exact (leLib 1) bytes_checked bytes_names bytes_built (lim := 2) (by decide) (by decide) (by decide)).1
    (fun pss bytes rest hps hw => h _ _ _ _ _ bytes_checked bytes_names bytes_built 2 pss bytes rest (by decide) (by decide) hps hw)).2
  exact absurd (this _ _ bytes_used List.mem_cons_self _ List.mem_cons_self) (by decide)

/-- Two packets of the example schema, back to back. -/
example : Received (leLib 100) (progOf (resultFor exampleAst).types) (sourceFor exampleAst)
      [1, 2, 0, 0, 0, 0xc3, 0xa9, 1, 0, 0, 0, 2, 7, 1, 2, 0, 0, 0, 0xc3, 0xa9, 1, 0, 0, 0, 2, 7, 99] [examplePacket, examplePacket] [99] := by
  have hw : runWrite (leLib 100) (progOf (resultFor exampleAst).types) (sourceFor exampleAst).write.2 (.struct examplePacket) =
      some [1, 2, 0, 0, 0, 0xc3, 0xa9, 1, 0, 0, 0, 2, 7] := by
    rw [C91_write (leLib 100) example_checked example_names example_built (example_val (by decide))]
    decide +kernel
  exact C111_fresh_partial (leLib 100) example_checked example_names example_built example_small_enums (lim := 2) (by decide) (by decide)
    (fun ps hp => by
      simp only [List.mem_cons, List.not_mem_nil, or_false, or_self] at hp
      rw [hp]
      exact example_val (by decide)) (.more _ _ _ _ hw (.more _ _ _ _ hw .none)) [99]

end Packetc.Props
