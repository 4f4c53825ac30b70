import Verif.Proof.RustSized
import Verif.Props.RustStream
import Verif.Props.Stream
/-!
# C114: sized packets are records
-/

namespace Packetc.Props
open Ast Check Gen WellFormed Rs RustGen
open Js (minFs sizedFs flagsFs)

section
variable (lib : Lib) {ast : AST} {r : Resolved} {s : Source} {P : Prog}

theorem checked_least (hc : Checked ast r) (k : Nat) : Least ast r.export.name k ↔ minFs r.export.fields = k := by
  obtain ⟨code, h⟩ := hc.compiled
  exact compiled_least h k

theorem checked_sized (hc : Checked ast r) : Sized ast r.export.name ↔ sizedFs r.export.fields := by
  obtain ⟨code, h⟩ := hc.compiled
  exact compiled_sized h

theorem checked_flags (hc : Checked ast r) : flagsFs r.export.fields := by
  obtain ⟨code, h⟩ := hc.compiled
  exact compiled_flags h

/-- C114, smallest packets in Rust: the default value is the smallest packet; it has the size given by the schema. -/
theorem C114_smallest (hc : Checked ast r) (hn : NamesFit ast) (hB : Built r s P) :
    ∃ k, Least ast r.export.name k ∧ (∃ bytes, runWrite lib P s.write.2 (P.dflt s.read.1) = some bytes ∧ bytes.length = k) ∧
      ∀ ps bytes, ValFs (2 ^ 32) r.export.fields ps → runWrite lib P s.write.2 (.struct ps) = some bytes → k ≤ bytes.length := by
  refine ⟨_, (checked_least hc _).2 rfl, ⟨_, ?_, dfltFs_length lib _ (checked_sound hc)⟩, fun ps bytes hps hw => ?_⟩
  · rw [dflt_eq hc hn hB]
    exact C91_write lib hc hn hB (dfltFs_val (by decide) _ (checked_sound hc))
  · rw [C91_write lib hc hn hB hps] at hw
    cases hw
    exact (encFs_length lib _ (checked_flags hc) _ hps).1

/-- C114: all packets that a Rust program writes have the same number of bytes if and only if the exported struct has no unsized
members, at any depth. -/
theorem C114_sized (hc : Checked ast r) (hn : NamesFit ast) (hB : Built r s P) :
    (∃ k, ∀ ps bytes, ValFs (2 ^ 32) r.export.fields ps → runWrite lib P s.write.2 (.struct ps) = some bytes → bytes.length = k) ↔
    Sized ast r.export.name := by
  rw [checked_sized hc]
  constructor
  · rintro ⟨k, h⟩
    by_contra hs
    obtain ⟨ps, h1, h2⟩ := largerFs lib (lim := 2 ^ 32) (by decide) _ (checked_sound hc) (checked_flags hc) hs
    have hd : ValFs (2 ^ 32) r.export.fields (dfltFs r.export.fields) := dfltFs_val (by decide) _ (checked_sound hc)
    have h3 := h _ _ h1 (C91_write lib hc hn hB h1)
    have h4 := h _ _ hd (C91_write lib hc hn hB hd)
    rw [dfltFs_length lib _ (checked_sound hc)] at h4
    omega
  · intro h
    refine ⟨minFs r.export.fields, fun ps bytes hps hw => ?_⟩
    rw [C91_write lib hc hn hB hps] at hw
    cases hw
    exact (encFs_length lib _ (checked_flags hc) _ hps).2 h

/-- C114: the size of the packets of a schema without unsized members. -/
theorem C114_size (hc : Checked ast r) (hn : NamesFit ast) (hB : Built r s P) (hz : Sized ast r.export.name) {k : Nat}
    (hk : Least ast r.export.name k) {ps : List (Str × Val)} {bytes : List UInt8} (hps : ValFs (2 ^ 32) r.export.fields ps)
    (hw : runWrite lib P s.write.2 (.struct ps) = some bytes) : bytes.length = k := by
  rw [C91_write lib hc hn hB hps] at hw
  cases hw
  rw [(encFs_length lib _ (checked_flags hc) _ hps).2 ((checked_sized hc).1 hz)]
  exact (checked_least hc k).1 hk

/-- C114, reading: whatever the variable holds, `read` never succeeds on less data than the smallest packet has; without unsized
members it takes just that number of bytes. -/
theorem C114_consumes (hc : Checked ast r) (hn : NamesFit ast) (hB : Built r s P) {k : Nat} (hk : Least ast r.export.name k) {lim : Nat}
    {old : List (Str × Val)} (ho : ValFs lim r.export.fields old) {data rest : List UInt8} {v : Val}
    (h : runRead lib P s.read.2 (.struct old) data = .ok v rest) :
    k ≤ data.length ∧ rest <:+ data ∧ (Sized ast r.export.name → rest = data.drop k) := by
  rw [runRead_eq lib hc hn hB ho, resultOf_ok] at h
  obtain ⟨ps, -, h⟩ := h
  obtain ⟨used, rfl, h1, h2⟩ := rdFs_takes lib _ (checked_flags hc) _ _ _ _ h
  rw [(checked_least hc k).1 hk] at h1 h2
  refine ⟨by rw [List.length_append]; omega, List.suffix_append _ _, fun hz => ?_⟩
  rw [← h2 ((checked_sized hc).1 hz), List.drop_left]

/-- C114, records: in a sequence of packets without unsized members, each packet is read from its place, which is a multiple of the
size. -/
theorem C114_record (hc : Checked ast r) (hn : NamesFit ast) (hB : Built r s P)
    (hs : ∀ n vs, Used ast n → .decl n (.enum vs) ∈ ast → vs.length ≤ 31) (hz : Sized ast r.export.name) {k : Nat}
    (hk : Least ast r.export.name k) {lim : Nat} (h1 : lim ≤ 2 ^ 32) (h2 : lim ≤ lib.maxItems + 1)
    {pss : List (List (Str × Val))} (hps : ∀ ps ∈ pss, ValFs lim r.export.fields ps) {bytes : List UInt8}
    (hw : Sent lib P s pss bytes) (i : Nat) {ps : List (Str × Val)} (hi : pss[i]? = some ps) :
    readDefault lib P s (bytes.drop (i * k)) = .ok (.struct ps) (bytes.drop ((i + 1) * k)) := by
  induction hw generalizing i with
  | none => cases hi
  | more qs pss b bytes hw _ ih =>
    have hlen := C114_size lib hc hn hB hz hk (valFs_mono h1 _ _ (hps _ List.mem_cons_self)) hw
    have hdrop : ∀ j, (b ++ bytes).drop ((j + 1) * k) = bytes.drop (j * k) := by
      intro j
      have : (j + 1) * k = b.length + j * k := by rw [hlen, Nat.add_mul]; omega
      rw [this, List.drop_length_add_append]
    cases i with
    | zero =>
      cases hi
      rw [hdrop, Nat.zero_mul]
      exact C92_round_trip_partial lib hc hn hB hs h1 h2 (hps _ List.mem_cons_self) hw _
    | succ i =>
      rw [hdrop, hdrop]
      exact ih (fun p hp => hps p (List.mem_cons_of_mem _ hp)) i hi

/-- C114, updates: a packet that is written over the one at its place replaces it, and no other. -/
theorem C114_update (hc : Checked ast r) (hn : NamesFit ast) (hB : Built r s P) (hz : Sized ast r.export.name) {k : Nat}
    (hk : Least ast r.export.name k) {pss : List (List (Str × Val))} (hps : ∀ ps ∈ pss, ValFs (2 ^ 32) r.export.fields ps)
    {bytes : List UInt8} (hw : Sent lib P s pss bytes) {i : Nat} (hi : i < pss.length) {qs : List (Str × Val)} {b : List UInt8}
    (hb : runWrite lib P s.write.2 (.struct qs) = some b) :
    Sent lib P s (pss.set i qs) (bytes.take (i * k) ++ b ++ bytes.drop ((i + 1) * k)) := by
  induction hw generalizing i with
  | none => exact absurd hi (Nat.not_lt_zero _)
  | more ps pss a bytes ha hrest ih =>
    have hlen := C114_size lib hc hn hB hz hk (hps _ List.mem_cons_self) ha
    have hmul : ∀ j, (j + 1) * k = a.length + j * k := fun j => by rw [hlen, Nat.add_mul]; omega
    cases i with
    | zero =>
      rw [hmul, Nat.zero_mul, List.drop_length_add_append]
      exact .more _ _ _ _ hb hrest
    | succ i =>
      rw [hmul, hmul (i + 1), List.drop_length_add_append, List.take_length_add_append, List.append_assoc, List.append_assoc,
        ← List.append_assoc (bytes.take _)]
      exact .more _ _ _ _ ha (ih (fun p hp => hps p (List.mem_cons_of_mem _ hp)) (Nat.lt_of_succ_lt_succ hi))

end

/-! ## TypeScript -/

section
open Js Module

mutual
theorem typed_sized {S S' : Str → Prop} {E} : (t : RType) → flagsT t → sizedT t → ∀ j, TypedT S E t j → TypedT S' E t j
  | .builtin b, _, hs, j, h => by
    unfold TypedT at h ⊢
    cases hb : scalarOf b with
    | none => exact absurd (by cases b <;> first | rfl | cases hb) hs
    | some sc => rw [hb] at h; exact h
  | .enum e, _, _, j, h => h
  | .struct fs, hf, hs, j, h => by
    obtain ⟨ps, rfl, h⟩ := h
    exact ⟨ps, rfl, typedFs_sized fs hf hs ps h⟩
theorem typedFs_sized {S S' : Str → Prop} {E} : (fs : List (FieldOf RType)) → flagsFs fs → sizedFs fs →
    ∀ ps, TypedFs S E fs ps → TypedFs S' E fs ps
  | [], _, _, _, h => h
  | f :: fs, hf, hs, ps, h => by
    obtain ⟨p, qs, rfl, h1, h2⟩ := h
    exact ⟨p, qs, rfl, typedF_sized f hf.1 hs.1 p h1, typedFs_sized fs hf.2 hs.2 qs h2⟩
theorem typedF_sized {S S' : Str → Prop} {E} : (f : FieldOf RType) → flagsF f → sizedF f → ∀ p, TypedF S E f p → TypedF S' E f p
  | ⟨n, tn, t, a, o⟩, hf, hs, ⟨pn, j⟩, h => by
    have hs' : sizedT t := by
      have hs : if o = true ∨ a = true then minT t = 0 else sizedT t := hs
      split at hs
      · exact sized_of_zero t hf.2 hs
      · exact hs
    have key : ∀ j, TypedT S E t j → TypedT S' E t j := typed_sized t hf.2 hs'
    obtain ⟨hn, h⟩ := h
    refine ⟨hn, h.imp id fun h => ?_⟩
    cases a with
    | true =>
      obtain ⟨js, hj, hl, hjs⟩ := h
      exact ⟨js, hj, hl, fun x hx => key x (hjs x hx)⟩
    | false => exact key _ h
end

/-- C114, records in TypeScript: in a sequence of packets without unsized members, each packet is read from its place. -/
theorem C114_ts_record (rt : Runtime) {ast : AST} {e : Artifact} (hc : Compiled ast e) (hu : Usable e) (hs : SmallEnums ast)
    (hz : Sized ast e.name) {k : Nat} (hk : Least ast e.name k) {l : List (List (PropOf JVal))} {bytes : List UInt8}
    (h : Sends rt e l bytes) (i : Nat) {ps : List (PropOf JVal)} (hi : l[i]? = some ps) : Reads rt e (bytes.drop (i * k)) ps := by
  obtain ⟨packets, rfl, h⟩ := h
  induction h generalizing i with
  | nil => cases hi
  | @cons qs b l packets h1 _ ih =>
    have hlen := C86_size rt hc hu hz hk h1.1 h1.2
    rw [List.flatten_cons]
    cases i with
    | zero =>
      cases hi
      have hty : TypedFs (FaithfulStr rt) IsVariant e.fields ps :=
        typedFs_sized _ (compiled_flags hc) ((compiled_sized hc).1 hz) _ h1.1
      obtain ⟨b', h2, h3⟩ := C31_read_inverts_write_partial rt hc hu hs hty
      obtain rfl := writes_unique rt hc hu h1.1 h1.2 h2
      rw [Nat.zero_mul]
      exact C32_trailing_ignored rt hc hu (shaped_of hc hty) h3 _
    | succ i =>
      have : (i + 1) * k = b.length + i * k := by rw [hlen, Nat.add_mul]; omega
      rw [this, List.drop_length_add_append]
      exact ih i hi

end

/-! ### An example -/

theorem sized_checked : Checked sizedAst (resultFor sizedAst) := checked_of (text := sizedText) (by decide +kernel) (by rfl)
theorem sized_names : NamesFit sizedAst := namesFit_of (by decide)
theorem sized_built : Built (resultFor sizedAst) (sourceFor sizedAst) (progOf (resultFor sizedAst).types) :=
  built_of sized_checked sized_names

theorem sized_small : Js.SmallEnums sizedAst := by
  intro n vs h
  simp only [sizedAst, List.mem_cons, List.not_mem_nil, or_false, Node.decl.injEq, Ast.Ty.enum.injEq, reduceCtorEq, and_false] at h
  obtain ⟨-, rfl⟩ := h
  decide

theorem sized_sized : Sized sizedAst "P".toList ∧ Least sizedAst "P".toList 15 := by
  refine ⟨(compiled_sized sized_compiled).2 ?_, (compiled_least sized_compiled 15).2 rfl⟩
  refine ⟨True.intro, rfl, ?_, ⟨?_, ?_, True.intro⟩, True.intro⟩
  · show Builtin.uint16 ≠ .string
    decide
  all_goals
    show Builtin.float ≠ .string
    decide

/-- Three records. -/
example : Checked sizedAst (resultFor sizedAst) ∧ NamesFit sizedAst ∧
    Built (resultFor sizedAst) (sourceFor sizedAst) (progOf (resultFor sizedAst).types) ∧
    (resultFor sizedAst).export.name = "P".toList ∧ Sized sizedAst "P".toList ∧ Least sizedAst "P".toList 15 ∧
    (∀ n vs, Used sizedAst n → .decl n (.enum vs) ∈ sizedAst → vs.length ≤ 31) ∧
    ∃ pss bytes, pss.length = 3 ∧ bytes.length = 45 ∧ (∀ ps ∈ pss, ValFs 2 (resultFor sizedAst).export.fields ps) ∧
      Sent (leLib 100) (progOf (resultFor sizedAst).types) (sourceFor sizedAst) pss bytes := by
  have hd : ∀ lim, 0 < lim → ValFs lim (resultFor sizedAst).export.fields (dfltFs (resultFor sizedAst).export.fields) :=
    fun lim h => dfltFs_val h _ (checked_sound sized_checked)
  have hw := C91_write (leLib 100) sized_checked sized_names sized_built (hd _ (by decide))
  have hl : (encFs (leLib 100) (resultFor sizedAst).export.fields (dfltFs (resultFor sizedAst).export.fields)).length = 15 := by
    rw [dfltFs_length _ _ (checked_sound sized_checked)]
    rfl
  refine ⟨sized_checked, sized_names, sized_built, rfl, sized_sized.1, sized_sized.2, fun n vs _ h => sized_small n vs h,
    [_, _, _], _, rfl, ?_, ?_, .more _ _ _ _ hw (.more _ _ _ _ hw (.more _ _ _ _ hw .none))⟩
  · rw [List.append_nil, List.length_append, List.length_append, hl]
  · intro ps hp
    simp only [List.mem_cons, List.not_mem_nil, or_false, or_self] at hp
    subst hp
    exact hd 2 (by decide)

end Packetc.Props
