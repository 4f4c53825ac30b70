import Verif.Props.RoundTrip
import Verif.Proof.JsAccept
/-!
# C75, C76: which bytes `read` accepts, and when writing the packet again gives these bytes
-/

namespace Packetc.Props
open Ast Check WellFormed Js Gen

variable (rt : Runtime)

theorem does_compiled {ast : AST} {e : Artifact} (hc : Compiled ast e) : Does (rdFields rt e.fields) (Holds rt e.fields) :=
  does_fields rt e.fields (soundFs_enums _ (compiled_sound hc))

/-! ## C75 -/

/-- C75: `read` returns a packet exactly if the data begins with bytes holding this packet. -/
theorem C75_reads {ast : AST} {e : Artifact} (hc : Compiled ast e) (hu : Usable e) {data : List UInt8} {ps}
    (hps : Shaped e.fields ps) : Reads rt e data ps ↔ ∃ bs, bs <+: data ∧ Holds rt e.fields bs ps := by
  rw [reads_iff rt hc hu hps]
  constructor
  · rintro ⟨h1, rfl⟩
    obtain ⟨-, used, h2, h3⟩ := (does_compiled rt hc).sound _ h1
    exact ⟨used, ⟨_, h2.symm⟩, h3⟩
  · rintro ⟨bs, ⟨rest, rfl⟩, h⟩
    obtain ⟨c', h1⟩ := (does_compiled rt hc).complete bs ps rest 0 h
    rw [h1]
    exact ⟨rfl, rfl⟩

/-- C75: what the bytes hold is a packet of the exported type (so that the condition above is no restriction). -/
theorem C75_shaped {ast : AST} {e : Artifact} (hc : Compiled ast e) {bs : List UInt8} {ps} (h : Holds rt e.fields bs ps) :
    Shaped e.fields ps := by
  obtain ⟨c', h1⟩ := (does_compiled rt hc).complete bs ps [] 0 h
  have h2 := typed_fields rt e.fields ⟨bs ++ [], false, 0⟩ (by rw [h1])
  rw [h1] at h2
  exact shaped_of hc h2

/-- C75: `read` returns `null` exactly if the data does not begin with bytes holding a packet. -/
theorem C75_rejects {ast : AST} {e : Artifact} (hc : Compiled ast e) (hu : Usable e) {data : List UInt8} :
    Rejects rt e data ↔ ¬ ∃ bs ps, bs <+: data ∧ Holds rt e.fields bs ps := by
  constructor
  · rintro h ⟨bs, ps, h1, h2⟩
    exact not_reads_rejects rt ((C75_reads rt hc hu (C75_shaped rt hc h2)).2 ⟨bs, h1, h2⟩) h
  · intro h
    cases hb : (rdFields rt e.fields ⟨data, false, 0⟩).2.failed with
    | true => exact rejects_of_rd rt hc hu hb
    | false =>
      obtain ⟨-, used, h2, h3⟩ := (does_compiled rt hc).sound _ hb
      exact absurd ⟨used, _, ⟨_, h2.symm⟩, h3⟩ h

/-- C75: there is at most one way to understand data as a packet. -/
theorem C75_unique {ast : AST} {e : Artifact} (hc : Compiled ast e) {data b₁ b₂ : List UInt8} {ps qs} (h₁ : b₁ <+: data)
    (h₂ : b₂ <+: data) (hp : Holds rt e.fields b₁ ps) (hq : Holds rt e.fields b₂ qs) : b₁ = b₂ ∧ ps = qs := by
  obtain ⟨r1, rfl⟩ := h₁
  obtain ⟨r2, h2⟩ := h₂
  obtain ⟨c1, e1⟩ := (does_compiled rt hc).complete b₁ ps r1 0 hp
  obtain ⟨c2, e2⟩ := (does_compiled rt hc).complete b₂ qs r2 0 hq
  rw [h2, e1] at e2
  injection e2 with e3 e4
  injection e4 with e4
  subst e4
  exact ⟨(List.append_cancel_right h2).symm, e3⟩

/-! ### an example: a presence flag and an enum -/

def flagText : Str := "E: enum { X, Y, Z }\nA: struct { a?: uint8, e: E }\nexport A".toList
def flagAst : AST := [.decl "E".toList (.enum ["X".toList, "Y".toList, "Z".toList]),
  .decl "A".toList (.struct [("a".toList, ⟨"uint8".toList, false, true⟩), ("e".toList, ⟨"E".toList, false, false⟩)]), .export "A".toList]
def flagExport : Artifact :=
  ⟨⟨"A".toList, [⟨"a".toList, "uint8".toList, .builtin .uint8, false, true⟩,
    ⟨"e".toList, "E".toList, .enum ⟨.u8, [⟨"X".toList, 0⟩, ⟨"Y".toList, 1⟩, ⟨"Z".toList, 2⟩]⟩, false, false⟩]⟩, exampleCode id flagText⟩

theorem flag_compiled : Compiled flagAst flagExport :=
  compiled_of (ord := id) (by decide +kernel) (fun _ => .refl _) rfl rfl

theorem flag_plain : PlainSchema flagAst := plain_of (by decide)

def flagValue : List (PropOf JVal) := [⟨"a".toList, .num (.int 9)⟩, ⟨"e".toList, .num (.int 3)⟩]

theorem flag_holds : Holds leUtf8 flagExport.fields [2, 9, 3] flagValue := by
  refine ⟨[2, 9], [3], _, _, rfl, rfl, ⟨rfl, Or.inr ⟨[2], [9], rfl, ⟨.int 2, ⟨rfl, trivial, by decide⟩, by decide, trivial⟩,
    ⟨.int 9, ⟨rfl, trivial, by decide⟩, rfl⟩⟩⟩, [3], [], _, _, rfl, rfl, ⟨rfl, Or.inr ⟨[], [3], rfl, rfl, 3, ⟨rfl, trivial, by decide⟩,
      by decide, by decide, rfl⟩⟩, rfl, rfl⟩

example : ∃ (e : Artifact) (data : List UInt8) (ps : List (PropOf JVal)), Compiled flagAst e ∧ Usable e ∧ Shaped e.fields ps ∧
    Reads leUtf8 e data ps ∧ (∃ bs, bs <+: data ∧ Holds leUtf8 e.fields bs ps) ∧ ps ≠ [] :=
  have hs := C75_shaped leUtf8 flag_compiled flag_holds
  have hh : ∃ bs, bs <+: [2, 9, 3, 77] ∧ Holds leUtf8 flagExport.fields bs flagValue := ⟨_, ⟨[77], rfl⟩, flag_holds⟩
  ⟨flagExport, [2, 9, 3, 77], flagValue, flag_compiled, plain_usable flag_compiled flag_plain, hs,
    (C75_reads leUtf8 flag_compiled (plain_usable flag_compiled flag_plain) hs).2 hh, hh, by intro h; cases h⟩

/-! ## C76 -/

theorem writes_shaped {ast : AST} {e : Artifact} (hc : Compiled ast e) (hu : Usable e) {ps} (hps : Shaped e.fields ps) :
    Writes rt e ps (encodeFields rt e.fields ps) := by
  intro heap this buffer fuel hfuel hbuf hrep
  obtain ⟨hm, hrun⟩ := compiled_text hc hu.loads
  rw [(hrun rt fuel heap).2]
  exact runWrite_ok (rt := rt) hm (compiled_sound hc) hfuel heap this buffer hbuf hps hrep

/-- C76 as described: writing a packet that was read gives the bytes that were read. -/
def C76_claim : Prop := ∀ (rt : Runtime) (ast : AST) (e : Artifact), Compiled ast e → PlainSchema ast →
  ∀ data ps bytes, Shaped e.fields ps → Reads rt e data ps → Writes rt e ps bytes → bytes <+: data

/-- C76 is false: any number other than 0 is understood as "present", and 1 is written. -/
theorem C76_false : ¬ C76_claim := by
  intro h
  have hu := plain_usable flag_compiled flag_plain
  have hs := C75_shaped leUtf8 flag_compiled flag_holds
  have h1 := h leUtf8 flagAst flagExport flag_compiled flag_plain [2, 9, 3] flagValue _ hs
    ((C75_reads leUtf8 flag_compiled hu hs).2 ⟨_, List.prefix_refl _, flag_holds⟩) (writes_shaped leUtf8 flag_compiled hu hs)
  have h2 : encodeFields leUtf8 flagExport.fields flagValue = [1, 9, 3] := by decide +kernel
  rw [h2] at h1
  exact absurd h1 (by decide)

/-- C76, what holds: if the bytes are as `write` would choose them, they are read and written again. What is missing: other bytes, for
which it is false (`C76_exact`). -/
theorem C76_relay_partial {ast : AST} {e : Artifact} (hc : Compiled ast e) (hu : Usable e) {bs : List UInt8} {ps}
    (h : HoldsTidily rt e.fields bs ps) (rest : List UInt8) : Reads rt e (bs ++ rest) ps ∧ Writes rt e ps bs := by
  have h1 := holdsFs_any rt e.fields bs ps h
  have hs := C75_shaped rt hc h1
  refine ⟨(C75_reads rt hc hu hs).2 ⟨bs, ⟨rest, rfl⟩, h1⟩, ?_⟩
  have := writes_shaped rt hc hu hs
  rwa [tidy_Fs rt e.fields bs ps h] at this

/-- C76, exactly, for packets whose strings have as many bytes as UTF-16 units: the bytes are the same if and only if the data
begins with bytes as `write` would choose them. -/
theorem C76_exact {ast : AST} {e : Artifact} (hc : Compiled ast e) (hu : Usable e) {data bytes : List UInt8} {ps}
    (hty : TypedFs (FaithfulStr rt) (fun _ _ => True) e.fields ps) (hr : Reads rt e data ps) (hw : Writes rt e ps bytes) :
    bytes <+: data ↔ ∃ bs, bs <+: data ∧ HoldsTidily rt e.fields bs ps := by
  have hs : Shaped e.fields ps := shaped_of hc hty
  obtain rfl := writes_unique rt hc hu hs hw (writes_shaped rt hc hu hs)
  obtain ⟨bs, ⟨y, rfl⟩, hb⟩ := (C75_reads rt hc hu hs).1 hr
  constructor
  · rintro ⟨x, hx⟩
    exact ⟨bs, ⟨y, rfl⟩, (relay_Fs rt e.fields bs ps x y hb hty hx).1⟩
  · rintro ⟨b', h1, h2⟩
    rwa [tidy_Fs rt e.fields b' ps h2]

/-- C76, continued: what is written is as `write` would choose it, so that from then on the packet is passed on unchanged. -/
theorem C76_settles {ast : AST} {e : Artifact} (hc : Compiled ast e) (hu : Usable e) {data bytes : List UInt8} {ps}
    (hty : TypedFs (FaithfulStr rt) (fun _ _ => True) e.fields ps) (hr : Reads rt e data ps) (hw : Writes rt e ps bytes) :
    HoldsTidily rt e.fields bytes ps ∧ Reads rt e bytes ps := by
  have hs : Shaped e.fields ps := shaped_of hc hty
  obtain rfl := writes_unique rt hc hu hs hw (writes_shaped rt hc hu hs)
  obtain ⟨bs, -, hb⟩ := (C75_reads rt hc hu hs).1 hr
  have h := renew_Fs rt e.fields bs ps hb hty
  have := (C76_relay_partial rt hc hu h []).1
  rw [List.append_nil] at this
  exact ⟨h, this⟩

/-! ### little endian, UTF-8 -/

theorem leBytes_leNat : (bs : List UInt8) → leBytes bs.length (leNat bs) = bs
  | [] => rfl
  | b :: bs => by
    have hb : b.toNat < 256 := UInt8.toNat_lt b
    simp only [List.length_cons, leBytes, leNat]
    rw [show (b.toNat + 256 * leNat bs) % 256 = b.toNat by omega, show (b.toNat + 256 * leNat bs) / 256 = leNat bs by omega,
      leBytes_leNat bs]
    simp

/-- The bytes of a float that is no NaN, or the NaN that JavaScript writes. -/
def PlainFloat (b : List UInt8) : Prop := Scalar.CanonF (BitVec.ofNat 32 (leNat b))

theorem le_tidy (s : Scalar) (b : List UInt8) (hl : b.length = s.width) (hf : s = .float → PlainFloat b) :
    leEnc s (leDec s b) = b := by
  have hlt := leNat_lt b
  have hb := leBytes_leNat b
  rw [hl] at hlt hb
  have key : ∀ n : Nat, n = leNat b → leBytes s.width n = b := by rintro _ rfl; exact hb
  cases s <;> simp only [leDec, leEnc, leInt, Scalar.width] at hlt hb key ⊢
  case float =>
    rw [canonF_of_canon _ (hf rfl)]
    apply key
    simp only [BitVec.toNat_ofNat]
    omega
  all_goals
    apply key
    omega

theorem ascii_tidy (b : List UInt8) (h : ∀ x ∈ b, x < 128) : TidyText leUtf8 b := by
  obtain ⟨s, hs, ha⟩ : ∃ s : Str, utf8Enc s = b ∧ Ascii s := by
    induction b with
    | nil => exact ⟨[], rfl, by simp [Ascii]⟩
    | cons x b ih =>
      obtain ⟨s, h1, h2⟩ := ih fun y hy => h y (List.mem_cons_of_mem _ hy)
      have hx : ∀ n < 128, String.utf8EncodeChar (Char.ofNat n) = [UInt8.ofNat n] ∧ (Char.ofNat n).toNat < 128 := by
        decide +kernel
      obtain ⟨h3, h4⟩ := hx x.toNat (h x List.mem_cons_self)
      rw [UInt8.ofNat_toNat] at h3
      refine ⟨Char.ofNat x.toNat :: s, ?_, ?_⟩
      · show List.flatMap _ _ = _
        rw [List.flatMap_cons, h3]
        exact congrArg _ h1
      · intro c hc
        rcases List.mem_cons.1 hc with rfl | hc
        · exact h4
        · exact h2 c hc
  subst hs
  show utf8Enc (utf8Dec (utf8Enc s)) = _ ∧ utf16Length (utf8Dec (utf8Enc s)) = _
  rw [utf8Dec_utf8Enc]
  exact ⟨rfl, ((utf8_length s).2.2 ha).symm⟩

/-- C76 for a little endian library with UTF-8: a packet is passed on unchanged if its flags are 0 or 1, its strings ASCII and its
floats no unusual NaNs. -/
theorem C76_utf8 {ast : AST} {e : Artifact} (hc : Compiled ast e) (hu : Usable e) {bs : List UInt8} {ps}
    (h : HoldsFs leUtf8 (fun s b => s = .float → PlainFloat b) (fun n => n = .int 1) (fun b => ∀ x ∈ b, x < 128) e.fields bs ps)
    (rest : List UInt8) : Reads leUtf8 e (bs ++ rest) ps ∧ Writes leUtf8 e ps bs :=
  C76_relay_partial leUtf8 hc hu (holdsFs_mono leUtf8 (fun s b hl hf => le_tidy s b hl hf) (fun _ h => h) ascii_tidy _ _ _ h) rest

theorem flag_tidy : HoldsFs leUtf8 (fun s b => s = .float → PlainFloat b) (fun n => n = .int 1) (fun b => ∀ x ∈ b, x < 128)
    flagExport.fields [1, 9, 3] flagValue := by
  refine ⟨[1, 9], [3], _, _, rfl, rfl, ⟨rfl, Or.inr ⟨[1], [9], rfl, ⟨.int 1, ⟨rfl, (by intro h; cases h), by decide⟩, by decide, rfl⟩,
    ⟨.int 9, ⟨rfl, (by intro h; cases h), by decide⟩, rfl⟩⟩⟩, [3], [], _, _, rfl, rfl, ⟨rfl, Or.inr ⟨[], [3], rfl, rfl, 3,
      ⟨rfl, (by intro h; cases h), by decide⟩, by decide, by decide, rfl⟩⟩, rfl, rfl⟩

example : Compiled flagAst flagExport ∧ Usable flagExport ∧ HoldsTidily leUtf8 flagExport.fields [1, 9, 3] flagValue ∧
    TypedFs (FaithfulStr leUtf8) (fun _ _ => True) flagExport.fields flagValue ∧ Reads leUtf8 flagExport [2, 9, 3] flagValue ∧
    Writes leUtf8 flagExport flagValue [1, 9, 3] :=
  have hu := plain_usable flag_compiled flag_plain
  have ht := holdsFs_mono leUtf8 (fun s b hl hf => le_tidy s b hl hf) (fun _ h => h) ascii_tidy _ _ _ flag_tidy
  ⟨flag_compiled, hu, ht, ⟨_, _, rfl, ⟨rfl, Or.inr ⟨_, rfl, by decide, by decide⟩⟩, _, _, rfl, ⟨rfl, Or.inr ⟨_, rfl, trivial⟩⟩, rfl⟩,
    (C75_reads leUtf8 flag_compiled hu (C75_shaped leUtf8 flag_compiled flag_holds)).2 ⟨_, List.prefix_refl _, flag_holds⟩,
    (C76_utf8 flag_compiled hu flag_tidy []).2⟩

end Packetc.Props
