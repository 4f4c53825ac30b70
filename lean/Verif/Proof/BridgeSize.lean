import Verif.Proof.Bridge
import Verif.Proof.Sized
/-!
# The same packet has the same size in Rust and TypeScript (C130)
-/

namespace Packetc.Rs
open Check
open Js (Num Scalar JVal PropOf Runtime utf8Enc utf16Length scalarOf ShortStr IsVariant TypedT TypedFs TypedF sizeT sizeFs sizeF)

variable {rt : Runtime} {lib : Lib}

theorem utf16_le_utf8 (s : Str) : utf16Length s ≤ (utf8Enc s).length := by
  induction s with
  | nil => exact Nat.le_refl _
  | cons c s ih =>
    have hc : (if c.toNat < 0x10000 then 1 else 2) ≤ c.utf8Size := by
      have e : c.toNat = c.val.toNat := rfl
      unfold Char.utf8Size
      simp only [UInt32.le_iff_toNat_le, e, UInt32.toNat_ofNatLT]
      split <;> split <;> (try split) <;> (try split) <;> omega
    show (if c.toNat < 0x10000 then 1 else 2) + utf16Length s ≤ (String.utf8EncodeChar c ++ utf8Enc s).length
    rw [List.length_append, String.length_utf8EncodeChar]
    omega

mutual
theorem js_sized (ha : Agree rt lib) {lim : Nat} (hl : lim ≤ 2 ^ 32) (tn : Str) : (t : RType) → ∀ v, ValT lim tn t v →
    TypedT ShortStr IsVariant t (jsT t v) ∧ sizeT rt t (jsT t v) = (encT lib t v).length
  | .builtin b, v, h => by
    unfold ValT at h
    unfold TypedT sizeT encT
    cases hb : scalarOf b with
    | some sc =>
      rw [hb] at h
      obtain ⟨n, rfl, hn⟩ := h
      refine ⟨⟨jsNum n, rfl, ?_⟩, (lib.enc_len sc n).symm⟩
      have h1 := rt.dec_ok sc (lib.enc sc n)
      rwa [ha.num _ _ (lib.enc_len sc n), lib.dec_enc sc n hn] at h1
    | none =>
      rw [hb] at h
      obtain ⟨s, rfl, hs⟩ := h
      refine ⟨⟨s, rfl, Nat.lt_of_le_of_lt (utf16_le_utf8 s) hs⟩, ?_⟩
      show 4 + (rt.encS s).length = (lib.enc .uint32 (.int (utf8Enc s).length) ++ utf8Enc s).length
      rw [List.length_append, lib.enc_len, ha.text]
      rfl
  | .enum e, v, h => by
    obtain ⟨w, hw, rfl⟩ := h
    cases hx : e.variants.find? fun x => x.name = w.name with
    | none => exact absurd (List.find?_eq_none.1 hx w hw) (by simp)
    | some w' =>
      unfold jsT encT sizeT
      simp only [hx]
      refine ⟨⟨_, rfl, w', List.mem_of_find?_eq_some hx, rfl⟩, ?_⟩
      rw [lib.enc_len]
      cases e.repr <;> rfl
  | .struct fs, v, h => by
    obtain ⟨ps, rfl, hps⟩ := h
    obtain ⟨h1, h2⟩ := jsFs_sized ha hl fs ps hps
    exact ⟨⟨_, rfl, h1⟩, h2⟩
theorem jsFs_sized (ha : Agree rt lib) {lim : Nat} (hl : lim ≤ 2 ^ 32) : (fs : List (FieldOf RType)) → ∀ vs, ValFs lim fs vs →
    TypedFs ShortStr IsVariant fs (jsFs fs vs) ∧ sizeFs rt fs (jsFs fs vs) = (encFs lib fs vs).length
  | [], _, _ => ⟨rfl, rfl⟩
  | f :: fs, vs, h => by
    obtain ⟨p, qs, rfl, h1, h2⟩ := h
    obtain ⟨h3, h4⟩ := jsF_sized ha hl f p h1
    obtain ⟨h5, h6⟩ := jsFs_sized ha hl fs qs h2
    refine ⟨⟨_, _, rfl, h3, h5⟩, ?_⟩
    show sizeF rt f (jsF f p.2) + sizeFs rt fs (jsFs fs qs) = (encF lib f p.2 ++ encFs lib fs qs).length
    rw [List.length_append, h4, h6]
theorem jsF_sized (ha : Agree rt lib) {lim : Nat} (hl : lim ≤ 2 ^ 32) : (f : FieldOf RType) → ∀ p, ValF lim f p →
    TypedF ShortStr IsVariant f ⟨p.1, jsF f p.2⟩ ∧ sizeF rt f (jsF f p.2) = (encF lib f p.2).length
  | ⟨name, tn, ty, array, optional⟩, ⟨pn, pv⟩, h => by
    have ht := js_sized ha hl tn ty
    have h8 : ∀ i : Int, (lib.enc .uint8 (.int i)).length = 1 := fun i => lib.enc_len _ _
    have h32 : ∀ i : Int, (lib.enc .uint32 (.int i)).length = 4 := fun i => lib.enc_len _ _
    obtain ⟨h0, ⟨h1, h2⟩ | ⟨v, h1, h2⟩⟩ := h
    · simp only at h1 h2
      subst h1 h2
      refine ⟨⟨h0, Or.inl ⟨rfl, rfl⟩⟩, ?_⟩
      show 1 + 0 = (lib.enc .uint8 (.int 0)).length
      rw [h8]
    · simp only at h1
      subst h1
      cases array with
      | true =>
        obtain ⟨vs, rfl, h3, h4⟩ := h2
        have hx : jsF ⟨name, tn, ty, true, optional⟩ (if optional = true then Val.some (.vec vs) else .vec vs) =
            .arr (vs.map fun x => jsT ty x) := by cases optional <;> rfl
        have hsum : ((vs.map fun x => jsT ty x).map fun x => sizeT rt ty x).sum = (vs.map fun x => encT lib ty x).flatten.length := by
          rw [List.length_flatten, List.map_map, List.map_map]
          congr 1
          exact List.map_congr_left fun w hw => (ht w (h4 w hw)).2
        simp only [hx]
        refine ⟨⟨h0, Or.inr ⟨_, rfl, by rw [List.length_map]; omega, fun j hj => ?_⟩⟩, ?_⟩
        · obtain ⟨w, hw, rfl⟩ := List.mem_map.1 hj
          exact (ht w (h4 w hw)).1
        · cases optional with
          | false =>
            show 0 + (4 + ((vs.map fun x => jsT ty x).map fun x => sizeT rt ty x).sum) =
              (lib.enc .uint32 (.int vs.length) ++ (vs.map fun x => encT lib ty x).flatten).length
            rw [List.length_append, h32, hsum, Nat.zero_add]
          | true =>
            show 1 + (4 + ((vs.map fun x => jsT ty x).map fun x => sizeT rt ty x).sum) =
              (lib.enc .uint8 (.int 1) ++ (lib.enc .uint32 (.int vs.length) ++ (vs.map fun x => encT lib ty x).flatten)).length
            rw [List.length_append, List.length_append, h32, h8, hsum]
      | false =>
        have hx : jsF ⟨name, tn, ty, false, optional⟩ (if optional = true then Val.some v else v) = jsT ty v := by
          cases optional <;> rfl
        obtain ⟨h3, h4⟩ := ht v h2
        simp only [hx]
        refine ⟨⟨h0, Or.inr h3⟩, ?_⟩
        cases optional with
        | false =>
          rw [Js.sizeF_plain rt name tn ty h3, h4]
          unfold encF
          rfl
        | true =>
          rw [Js.sizeF_present rt name tn ty h3, h4]
          show _ = (lib.enc .uint8 (.int 1) ++ encT lib ty v).length
          rw [List.length_append, h8]
end

end Packetc.Rs
