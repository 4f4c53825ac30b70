import Verif.Props.Wire
import Verif.Proof.JsExact
/-!
# C31, exactly: which packets survive `write` followed by `read`
-/

namespace Packetc.Props
open Ast Check WellFormed Js Gen

variable (rt : Runtime)

/-- C31, exact: among packets whose strings are in `P`, where decoding the wrong number of bytes never happens to give
the right string, `read` returns what was written **exactly** when every string is encoded in as many bytes as
JavaScript says it has characters, and no value of an enum with 32 variants occurs. -/
theorem C31_exact {P : Str → Prop} (hP : Honest rt P) {ast : AST} {e : Artifact} (hc : Compiled ast e) (hu : Usable e)
    {ps : List (PropOf JVal)} (hty : TypedFs (fun s => ShortStr s ∧ P s) IsVariant e.fields ps) :
    (∃ bytes, Writes rt e ps bytes ∧ Reads rt e bytes ps) ↔ TypedFs (FaithfulStr rt) SmallVariant e.fields ps := by
  have hes := soundFs_enums _ (compiled_sound hc)
  have hf : HasFields e.fields ps := typedFs_mono (fun _ h => h.1) (fun _ _ _ h => h) _ (trueEnums hc) _ hty
  have hw := C30_write_format rt hc hu.loads hf
  constructor
  · rintro ⟨bytes, h1, h2⟩
    obtain rfl := writes_unique rt hc hu hf h1 hw
    obtain ⟨h3, h4⟩ := (reads_iff rt hc hu (shaped_of hc hf)).1 h2
    refine exact_fields rt hP e.fields hes ps hty [] 0 ?_ ?_
    · rw [List.append_nil]
      exact h3
    · rw [List.append_nil]
      exact h4.symm
  · intro h
    refine ⟨_, hw, ?_⟩
    obtain ⟨c', h5⟩ := dec_fields rt e.fields ps
      (typedFs_mono (fun _ h => h) (fun e n hp h => small_faithful (e := e) (n := n) hp h) _ hes _ h) [] 0
    have := reads_of_rd rt hc hu (data := encodeFields rt e.fields ps ++ []) (by rw [h5])
    rwa [h5, List.append_nil] at this

/-! ### UTF-8 -/

theorem utf8_decoded {bs : List UInt8} {s : Str} (h : utf8Dec bs = s) (hs : '�' ∉ s) : bs = utf8Enc s := by
  unfold utf8Dec at h
  split at h
  · rename_i a ha
    have hi : (bs.toByteArray).utf8Decode?.isSome = true := by rw [ha]; rfl
    have h1 := ByteArray.utf8Encode_get_utf8Decode? (h := hi)
    have h2 : (bs.toByteArray).utf8Decode?.get hi = a := by simp [ha]
    rw [h2, h] at h1
    have h3 : s.utf8Encode = (utf8Enc s).toByteArray := rfl
    rw [h3] at h1
    have h4 := congrArg (fun b : ByteArray => b.data.toList) h1
    simp only [List.data_toByteArray] at h4
    exact h4.symm
  · exact absurd (by rw [← h]; simp) hs

theorem utf8_honest : Honest leUtf8 fun s => '�' ∉ s := by
  intro s tail hs hne hle h
  have h1 := congrArg List.length (utf8_decoded h hs)
  rw [List.length_take, Nat.min_eq_left hle] at h1
  exact hne h1.symm

theorem utf8Char_length (c : Char) : (if c.toNat < 0x10000 then 1 else 2) ≤ (String.utf8EncodeChar c).length ∧
    ((String.utf8EncodeChar c).length = (if c.toNat < 0x10000 then 1 else 2) → c.toNat < 128) ∧
    (c.toNat < 128 → (String.utf8EncodeChar c).length = 1) := by
  rw [String.length_utf8EncodeChar]
  have : c.utf8Size = if c.toNat ≤ 127 then 1 else if c.toNat ≤ 2047 then 2 else if c.toNat ≤ 65535 then 3 else 4 := rfl
  rw [this]
  split_ifs <;> omega

theorem utf8_length (s : Str) : utf16Length s ≤ (utf8Enc s).length ∧ ((utf8Enc s).length = utf16Length s ↔ Ascii s) := by
  induction s with
  | nil => exact ⟨Nat.le_refl _, fun _ => by simp [Ascii], fun _ => rfl⟩
  | cons c s ih =>
    obtain ⟨h1, h2, h3⟩ := utf8Char_length c
    have he : (utf8Enc (c :: s)).length = (String.utf8EncodeChar c).length + (utf8Enc s).length := by
      simp [utf8Enc, List.flatMap_cons]
    have hu : utf16Length (c :: s) = (if c.toNat < 0x10000 then 1 else 2) + utf16Length s := rfl
    rw [he, hu]
    refine ⟨by omega, ?_, ?_⟩
    · intro h
      have hc := h2 (by omega)
      have hs := ih.2.1 (by omega)
      exact fun d hd => (List.mem_cons.1 hd).elim (fun e => e ▸ hc) (hs d)
    · intro h
      have hc : c.toNat < 128 := h c List.mem_cons_self
      have hs := ih.2.2 fun d hd => h d (List.mem_cons_of_mem _ hd)
      rw [h3 hc, if_pos (by omega), hs]

/-- C31, exact, with a library that encodes text in UTF-8: a packet whose strings do not contain the replacement
character is read back exactly when all its strings are ASCII and it holds no value of an enum with 32 variants. -/
theorem C31_utf8 {ast : AST} {e : Artifact} (hc : Compiled ast e) (hu : Usable e) {ps : List (PropOf JVal)}
    (hty : TypedFs (fun s => ShortStr s ∧ '�' ∉ s) IsVariant e.fields ps) :
    (∃ bytes, Writes leUtf8 e ps bytes ∧ Reads leUtf8 e bytes ps) ↔
      TypedFs (fun s => ShortStr s ∧ Ascii s) SmallVariant e.fields ps := by
  rw [C31_exact leUtf8 utf8_honest hc hu hty]
  constructor
  · exact typedFs_mono (fun s h => ⟨h.1, (utf8_length s).2.1 h.2⟩) (fun _ _ _ h => h) _ (trueEnums hc) _
  · exact typedFs_mono (fun s h => ⟨h.1, (utf8_length s).2.2 h.2⟩) (fun _ _ _ h => h) _ (trueEnums hc) _

/-- The hypothesis is met both by a packet that is read back and by one that is not. -/
example : ∃ (ast : AST) (e : Artifact) (ps qs : List (PropOf JVal)), Compiled ast e ∧ Usable e ∧
    TypedFs (fun s => ShortStr s ∧ '�' ∉ s) IsVariant e.fields ps ∧
    TypedFs (fun s => ShortStr s ∧ '�' ∉ s) IsVariant e.fields qs ∧
    (∃ bytes, Writes leUtf8 e ps bytes ∧ Reads leUtf8 e bytes ps) ∧
    ¬ ∃ bytes, Writes leUtf8 e qs bytes ∧ Reads leUtf8 e bytes qs := by
  have hu := plain_usable string_compiled string_plain
  have h1 : TypedFs (fun s => ShortStr s ∧ '�' ∉ s) IsVariant stringExport.fields [⟨"s".toList, .str "e".toList⟩] :=
    ⟨_, _, rfl, ⟨rfl, Or.inr ⟨_, rfl, by decide, by decide⟩⟩, rfl⟩
  have h2 : TypedFs (fun s => ShortStr s ∧ '�' ∉ s) IsVariant stringExport.fields accent :=
    ⟨_, _, rfl, ⟨rfl, Or.inr ⟨_, rfl, by decide, by decide⟩⟩, rfl⟩
  refine ⟨stringAst, stringExport, _, accent, string_compiled, hu, h1, h2, (C31_utf8 string_compiled hu h1).2 ?_, ?_⟩
  · exact ⟨_, _, rfl, ⟨rfl, Or.inr ⟨_, rfl, by decide, by unfold Ascii; decide⟩⟩, rfl⟩
  · rw [C31_utf8 string_compiled hu h2]
    rintro ⟨p, q, h3, ⟨-, h4⟩, -⟩
    injection h3 with h3 _
    subst h3
    rcases h4 with ⟨h4, -⟩ | ⟨s, h4, -, h5⟩
    · exact absurd h4 (by decide)
    · injection h4 with h4
      subst h4
      exact absurd (h5 'é' (by decide)) (by decide)

/-- The replacement character is a genuine exception: a packet consisting of it alone is read back, from its first byte,
although it is not ASCII. -/
theorem C31_replacement : (∃ bytes, Writes leUtf8 stringExport [⟨"s".toList, .str "�".toList⟩] bytes ∧
    Reads leUtf8 stringExport bytes [⟨"s".toList, .str "�".toList⟩]) ∧ ¬ Ascii "�".toList := by
  have hu := plain_usable string_compiled string_plain
  have ht : HasFields stringExport.fields [⟨"s".toList, .str "�".toList⟩] :=
    ⟨_, _, rfl, ⟨rfl, Or.inr ⟨_, rfl, by decide⟩⟩, rfl⟩
  refine ⟨⟨_, C30_write_format leUtf8 string_compiled hu.loads ht, ?_⟩, fun h => absurd (h '�' (by decide)) (by decide)⟩
  refine (reads_iff leUtf8 string_compiled hu (shaped_of string_compiled ht)).2 ⟨by decide +kernel, ?_⟩
  have h : (leUtf8.readStr 1 ⟨[0xef, 0xbf, 0xbd], false, 1⟩).1 = "�".toList := by decide +kernel
  exact congrArg (fun x => [(⟨"s".toList, .str x⟩ : PropOf JVal)]) h.symm

end Packetc.Props
