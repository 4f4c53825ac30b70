import Verif.Proof.Sized
import Verif.Props.Exact
/-!
# C85 (packets back to back), C86 (sizes of packets)
-/

namespace Packetc.Props
open Ast Check Gen WellFormed Js Module

variable (rt : Runtime)

theorem compiled_least {ast : AST} {e : Artifact} (hc : Compiled ast e) (k : Nat) : Least ast e.name k ↔ minFs e.fields = k := by
  obtain ⟨env, text, r, hfair, -, hp, -, ht, he⟩ := hc
  have hnb := parsed_noBuiltinDecl hp
  obtain ⟨c, hf, hex, hg, -, -, -⟩ := typeCheck_final hfair.1 hnb ht
  rw [he] at hg
  exact final_least hf hnb _ _ _ _ (Nat.le_refl _) hg k

theorem compiled_flags {ast : AST} {e : Artifact} (hc : Compiled ast e) : flagsFs e.fields := by
  obtain ⟨env, text, r, hfair, -, hp, -, ht, he⟩ := hc
  have hnb := parsed_noBuiltinDecl hp
  obtain ⟨c, hf, hex, hg, -, -, -⟩ := typeCheck_final hfair.1 hnb ht
  rw [he] at hg
  exact final_flags hf _ _ _ _ (Nat.le_refl _) hg

theorem compiled_sized {ast : AST} {e : Artifact} (hc : Compiled ast e) : Sized ast e.name ↔ sizedFs e.fields := by
  obtain ⟨env, text, r, hfair, -, hp, -, ht, he⟩ := hc
  have hnb := parsed_noBuiltinDecl hp
  obtain ⟨c, hf, hex, hg, -, -, -⟩ := typeCheck_final hfair.1 hnb ht
  rw [he] at hg
  exact final_sized hf hnb _ _ _ _ (Nat.le_refl _) hg

theorem writes_size {ast : AST} {e : Artifact} (hc : Compiled ast e) (hu : Usable e) {ps : List (PropOf JVal)}
    (hps : HasFields e.fields ps) {bytes : List UInt8} (h : Writes rt e ps bytes) : bytes.length = sizeFs rt e.fields ps := by
  obtain ⟨b, h1, h2⟩ := C41_size rt hc hu.loads hps
  rw [writes_unique rt hc hu hps h h1, h2]

/-! ## C86 -/

/-- C86, smallest packets: the size given by the schema is that of the smallest packet, for libraries that write empty
text as no bytes. -/
theorem C86_smallest (hrt : rt.encS [] = []) {ast : AST} {e : Artifact} (hc : Compiled ast e) (hu : Usable e) :
    ∃ k, Least ast e.name k ∧ (∃ ps bytes, HasFields e.fields ps ∧ Writes rt e ps bytes ∧ bytes.length = k) ∧
      ∀ ps bytes, HasFields e.fields ps → Writes rt e ps bytes → k ≤ bytes.length := by
  have hs := soundFs_enums _ (compiled_sound hc)
  refine ⟨minFs e.fields, (compiled_least hc _).2 rfl, ?_, fun ps bytes hps hw => ?_⟩
  · obtain ⟨b, h1, h2⟩ := C41_size rt hc hu.loads (least_fields e.fields hs)
    exact ⟨_, b, least_fields e.fields hs, h1, by rw [h2, size_least_fields hrt e.fields hs]⟩
  · rw [writes_size rt hc hu hps hw]
    exact min_le_fields rt e.fields ps hps

/-- The size of the smallest packet is determined by the schema. -/
theorem C86_determined {ast : AST} {e : Artifact} (hc : Compiled ast e) {k l : Nat} (h1 : Least ast e.name k)
    (h2 : Least ast e.name l) : k = l :=
  ((compiled_least hc k).1 h1).symm.trans ((compiled_least hc l).1 h2)

/-- C86: all packets have the same number of bytes if and only if the exported struct has no unsized members, at any
depth. -/
theorem C86_sized (hrt : rt.encS [] = []) {ast : AST} {e : Artifact} (hc : Compiled ast e) (hu : Usable e) :
    (∃ k, ∀ ps bytes, HasFields e.fields ps → Writes rt e ps bytes → bytes.length = k) ↔ Sized ast e.name := by
  have hs := soundFs_enums _ (compiled_sound hc)
  have hf := compiled_flags hc
  rw [compiled_sized hc]
  constructor
  · rintro ⟨k, h⟩
    by_contra hn
    obtain ⟨ps, h1, h2⟩ := bigger_fields hrt e.fields hs hf hn
    obtain ⟨b, h3, h4⟩ := C41_size rt hc hu.loads h1
    obtain ⟨b', h5, h6⟩ := C41_size rt hc hu.loads (least_fields e.fields hs)
    have h7 := h _ _ h1 h3
    have h8 := h _ _ (least_fields e.fields hs) h5
    rw [size_least_fields hrt e.fields hs] at h6
    omega
  · intro h
    refine ⟨minFs e.fields, fun ps bytes hps hw => ?_⟩
    rw [writes_size rt hc hu hps hw]
    exact size_sized_fields rt e.fields hf h ps hps

/-- C86: the size of the packets of a schema without unsized members, for every library. -/
theorem C86_size {ast : AST} {e : Artifact} (hc : Compiled ast e) (hu : Usable e) (h : Sized ast e.name) {k : Nat}
    (hk : Least ast e.name k) {ps : List (PropOf JVal)} {bytes : List UInt8} (hps : HasFields e.fields ps)
    (hw : Writes rt e ps bytes) : bytes.length = k := by
  rw [writes_size rt hc hu hps hw, ← (compiled_least hc k).1 hk]
  exact size_sized_fields rt e.fields (compiled_flags hc) ((compiled_sized hc).1 h) ps hps

/-- A schema without unsized members, in spite of its array. -/
def sizedText : Str :=
  "E: enum { A, B, C }\nN: struct { }\nV: struct { x: float, y: float }\nP: struct { e: E, n: N[], id: uint16, v: V }\nexport P".toList
def sizedAst : AST :=
  [.decl "E".toList (.enum ["A".toList, "B".toList, "C".toList]), .decl "N".toList (.struct []),
   .decl "V".toList (.struct [("x".toList, ⟨"float".toList, false, false⟩), ("y".toList, ⟨"float".toList, false, false⟩)]),
   .decl "P".toList (.struct [("e".toList, ⟨"E".toList, false, false⟩), ("n".toList, ⟨"N".toList, true, false⟩),
     ("id".toList, ⟨"uint16".toList, false, false⟩), ("v".toList, ⟨"V".toList, false, false⟩)]),
   .export "P".toList]

def sizedV : RType := .struct [⟨"x".toList, "float".toList, .builtin .float, false, false⟩, ⟨"y".toList, "float".toList, .builtin .float, false, false⟩]

def sizedExport : Artifact :=
  ⟨⟨"P".toList, [⟨"e".toList, "E".toList, .enum enumABC, false, false⟩, ⟨"n".toList, "N".toList, .struct [], true, false⟩,
    ⟨"id".toList, "uint16".toList, .builtin .uint16, false, false⟩, ⟨"v".toList, "V".toList, sizedV, false, false⟩]⟩,
   exampleCode id sizedText⟩

theorem sized_compiled : Compiled sizedAst sizedExport :=
  compiled_of (ord := id) (by decide +kernel) (fun _ => .refl _) rfl rfl

theorem sized_plain : PlainSchema sizedAst := plain_of (by decide)

example : leUtf8.encS [] = [] ∧ Compiled sizedAst sizedExport ∧ Usable sizedExport ∧ Sized sizedAst sizedExport.name ∧
    Least sizedAst sizedExport.name 15 ∧ ∃ ps, HasFields sizedExport.fields ps := by
  refine ⟨rfl, sized_compiled, plain_usable sized_compiled sized_plain, (compiled_sized sized_compiled).2 ?_,
    (compiled_least sized_compiled 15).2 rfl, _, least_fields _ (soundFs_enums _ (compiled_sound sized_compiled))⟩
  refine ⟨True.intro, ?_, ?_, ⟨?_, ?_, True.intro⟩, True.intro⟩
  · rfl
  · show Builtin.uint16 ≠ .string
    decide
  all_goals
    show Builtin.float ≠ .string
    decide

/-- With a string there is no fixed size. -/
example : Compiled exampleAst (Classical.choose example_compiled) ∧
    ¬ Sized exampleAst (Classical.choose example_compiled).name := by
  obtain ⟨h1, -, h3⟩ := Classical.choose_spec example_compiled
  refine ⟨h1, fun h => ?_⟩
  have := (compiled_sized h1).1 h
  rw [h3] at this
  have h4 := this.1
  have h5 : minT (.builtin .string) = 0 := h4
  revert h5
  decide

/-! ## C85 -/

/-- C85, one packet: what follows a packet does not change what it means; in particular no packet is the beginning of
another one. -/
theorem C85_split {ast : AST} {e : Artifact} (hc : Compiled ast e) (hu : Usable e) (hd : Delimiting rt)
    {ps qs : List (PropOf JVal)} (hps : HasFields e.fields ps) (hqs : HasFields e.fields qs) {a b x y : List UInt8}
    (h1 : Writes rt e ps a) (h2 : Writes rt e qs b) (h : a ++ x = b ++ y) : ps = qs ∧ a = b ∧ x = y := by
  have e1 := writes_unique rt hc hu hps h1 (C30_write_format rt hc hu.loads hps)
  have e2 := writes_unique rt hc hu hqs h2 (C30_write_format rt hc hu.loads hqs)
  obtain ⟨rfl, rfl⟩ := inj_fields hd e.fields (soundFs_enums _ (compiled_sound hc)) ps qs x y hps hqs (by rw [← e1, ← e2, h])
  exact ⟨rfl, e1.trans e2.symm, rfl⟩

/-- C85, one packet, for every library, for values as in C31. -/
theorem C85_split_faithful {ast : AST} {e : Artifact} (hc : Compiled ast e) (hu : Usable e) (hs : SmallEnums ast)
    {ps qs : List (PropOf JVal)} (hps : TypedFs (FaithfulStr rt) IsVariant e.fields ps)
    (hqs : TypedFs (FaithfulStr rt) IsVariant e.fields qs) {a b x y : List UInt8}
    (h1 : Writes rt e ps a) (h2 : Writes rt e qs b) (h : a ++ x = b ++ y) : ps = qs ∧ a = b ∧ x = y := by
  obtain ⟨a', h3, h4⟩ := C31_read_inverts_write_partial rt hc hu hs hps
  obtain ⟨b', h5, h6⟩ := C31_read_inverts_write_partial rt hc hu hs hqs
  obtain rfl := writes_unique rt hc hu hps h1 h3
  obtain rfl := writes_unique rt hc hu hqs h2 h5
  have h7 := C32_trailing_ignored rt hc hu (shaped_of hc hps) h4 x
  have h8 := C32_trailing_ignored rt hc hu (shaped_of hc hqs) h6 y
  rw [h] at h7
  obtain rfl := reads_unique rt (shaped_of hc hps) (shaped_of hc hqs) h7 h8
  obtain rfl := writes_unique rt hc hu hps h1 h2
  exact ⟨rfl, rfl, List.append_cancel_left h⟩

/-- A sequence of values sent as packets back to back. -/
def Sends (e : Artifact) (l : List (List (PropOf JVal))) (bytes : List UInt8) : Prop :=
  ∃ packets : List (List UInt8), bytes = packets.flatten ∧
    List.Forall₂ (fun ps b => HasFields e.fields ps ∧ Writes rt e ps b) l packets

/-- C85, sequences: two sequences of the same number of values that are sent as the same bytes are the same. -/
theorem C85_sequence {ast : AST} {e : Artifact} (hc : Compiled ast e) (hu : Usable e) (hd : Delimiting rt)
    {l m : List (List (PropOf JVal))} (hlen : l.length = m.length) {bytes : List UInt8} (h1 : Sends rt e l bytes)
    (h2 : Sends rt e m bytes) : l = m := by
  obtain ⟨as, rfl, h1⟩ := h1
  obtain ⟨bs, he, h2⟩ := h2
  induction h1 generalizing m bs with
  | nil => exact (List.length_eq_zero_iff.1 hlen.symm).symm
  | @cons ps a l as h _ ih =>
    cases h2 with
    | nil => cases hlen
    | @cons qs b m bs h' h2 =>
      obtain ⟨rfl, -, h3⟩ := C85_split rt hc hu hd h.1 h'.1 h.2 h'.2 he
      rw [ih (by simpa using hlen) bs h3 h2]

/-- C85 as described: the bytes determine the sequence. -/
def C85_claim : Prop := ∀ (rt : Runtime) (ast : AST) (e : Artifact), Compiled ast e → Usable e → Delimiting rt →
  ∀ l m bytes, Sends rt e l bytes → Sends rt e m bytes → l = m

/-- C85, exactly: the bytes determine the sequence of values if and only if there is no empty packet. What is missing
from the full statement: schemas with empty packets, for which it is false; there only sequences of the same length can be
told (`C85_sequence`). -/
theorem C85_exact_partial (hrt : rt.encS [] = []) {ast : AST} {e : Artifact} (hc : Compiled ast e) (hu : Usable e)
    (hd : Delimiting rt) :
    (∀ l m bytes, Sends rt e l bytes → Sends rt e m bytes → l = m) ↔ ¬ Least ast e.name 0 := by
  obtain ⟨k, hk, ⟨ps, b, h1, h2, h3⟩, h4⟩ := C86_smallest rt hrt hc hu
  constructor
  · intro h h0
    have hk0 := C86_determined hc hk h0
    have hb : b = [] := List.length_eq_zero_iff.1 (h3.trans hk0)
    have := h [] [ps] [] ⟨[], rfl, .nil⟩ ⟨[b], by rw [hb]; rfl, .cons ⟨h1, h2⟩ .nil⟩
    cases this
  · intro h0 l m bytes hl hm
    have hk0 : 0 < k := by
      rcases Nat.eq_zero_or_pos k with h | h
      · exact absurd (h ▸ hk) h0
      · exact h
    obtain ⟨as, rfl, hl⟩ := hl
    obtain ⟨bs, he, hm⟩ := hm
    have hne : ∀ {qs c} (r : List UInt8), HasFields e.fields qs ∧ Writes rt e qs c → c ++ r ≠ [] := by
      intro qs c r h he
      have h5 := h4 _ _ h.1 h.2
      rw [(List.append_eq_nil_iff.1 he).1] at h5
      exact absurd h5 (by simp; omega)
    induction hl generalizing m bs with
    | nil =>
      cases hm with
      | nil => rfl
      | cons h _ => exact absurd he.symm (hne _ h)
    | @cons ps a l as h _ ih =>
      cases hm with
      | nil => exact absurd he (hne _ h)
      | @cons qs b m bs h' h2 =>
        obtain ⟨rfl, -, h3⟩ := C85_split rt hc hu hd h.1 h'.1 h.2 h'.2 he
        rw [ih _ bs h3 h2]

def noFieldsText : Str := "P: struct { }\nexport P".toList
def noFieldsAst : AST := [.decl "P".toList (.struct []), .export "P".toList]
def noFieldsExport : Artifact := ⟨⟨"P".toList, []⟩, exampleCode id noFieldsText⟩

theorem noFields_compiled : Compiled noFieldsAst noFieldsExport :=
  compiled_of (ord := id) (by decide +kernel) (fun _ => .refl _) rfl rfl

theorem noFields_plain : PlainSchema noFieldsAst := plain_of (by decide)

theorem C85_false : ¬ C85_claim := by
  intro h
  have hu := plain_usable noFields_compiled noFields_plain
  exact (C85_exact_partial leUtf8 rfl noFields_compiled hu leUtf8_delimiting).1
    (h leUtf8 _ _ noFields_compiled hu leUtf8_delimiting) ((compiled_least noFields_compiled 0).2 rfl)

example : leUtf8.encS [] = [] ∧ Delimiting leUtf8 ∧ Compiled sizedAst sizedExport ∧ Usable sizedExport ∧
    ¬ Least sizedAst sizedExport.name 0 ∧ ∃ l bytes, l.length = 2 ∧ Sends leUtf8 sizedExport l bytes := by
  have hl := least_fields _ (soundFs_enums _ (compiled_sound sized_compiled))
  have hu := plain_usable sized_compiled sized_plain
  obtain ⟨b, hb, -⟩ := C41_size leUtf8 sized_compiled hu.loads hl
  refine ⟨rfl, leUtf8_delimiting, sized_compiled, hu, fun h => ?_, [_, _], _, rfl, [b, b], rfl,
    .cons ⟨hl, hb⟩ (.cons ⟨hl, hb⟩ .nil)⟩
  have := (compiled_least sized_compiled 0).1 h
  revert this
  decide

end Packetc.Props
