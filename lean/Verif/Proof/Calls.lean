import Verif.Proof.JsWire
import Verif.Spec.Calls
/-!
# How many reads a packet can cause
-/

namespace Packetc.Js
open Check Gen

variable (rt : Runtime)

theorem readNum_calls (s : Scalar) (r : RState) : (rt.readNum s r).2.calls = r.calls + 1 := by
  unfold Runtime.readNum
  split <;> rfl

theorem readStr_calls (k : Nat) (r : RState) : (rt.readStr k r).2.calls = r.calls + 1 := by
  unfold Runtime.readStr
  split <;> rfl

theorem slotsF_eq (f : FieldOf RType) :
    slotsF f = (if f.optional then 1 else 0) + (if f.array then 1 else 0) + slotsT f.ty := by
  obtain ⟨_, _, t, a, o⟩ := f
  rfl

/-! ### lower bounds -/

theorem many_at_least {g : RState → Option JVal × RState} {k : Nat} (h : ∀ r, r.calls + k ≤ (g r).2.calls) (n : Nat) (r : RState) :
    r.calls + n * k ≤ (rdMany g n r).2.calls := by
  induction n generalizing r with
  | zero => simp [rdMany]
  | succ n ih =>
    rw [rdMany]
    have h1 := h r
    have h2 := ih (g r).2
    rw [Nat.succ_mul]
    show _ ≤ (rdMany g n (g r).2).2.calls
    omega

theorem field_at_least (f : FieldOf RType) (ih : ∀ r, r.calls + min 1 (slotsT f.ty) ≤ (rdType rt f.ty r).2.calls) (r : RState) :
    r.calls + min 1 (slotsF f) ≤ (rdField rt f r).2.calls := by
  have hb : ∀ r : RState, r.calls + min 1 ((if f.array then 1 else 0) + slotsT f.ty) ≤ (rdB rt f.ty f.array r).2.calls := by
    intro r
    unfold rdB
    split
    · have h1 := many_at_least ih (rt.readNum .uint32 r).1.toNat (rt.readNum .uint32 r).2
      rw [readNum_calls] at h1
      show _ ≤ (rdMany (rdType rt f.ty) _ _).2.calls
      omega
    · have := ih r
      omega
  rw [rdField_eq, slotsF_eq]
  cases ho : f.optional with
  | true =>
    simp only [if_true]
    by_cases hz : 0 < (rt.readNum .uint8 r).1.toNat
    · rw [if_pos hz]
      have := hb (rt.readNum .uint8 r).2
      rw [readNum_calls] at this
      show _ ≤ (rdB rt f.ty f.array _).2.calls
      omega
    · rw [if_neg hz]
      show _ ≤ (rt.readNum .uint8 r).2.calls
      rw [readNum_calls]
      omega
  | false =>
    simp only [Bool.false_eq_true, if_false]
    have := hb r
    show _ ≤ (rdB rt f.ty f.array r).2.calls
    omega

mutual
/-- A type with parts to be read causes a read, whatever the state. -/
theorem type_at_least : (t : RType) → ∀ r, r.calls + min 1 (slotsT t) ≤ (rdType rt t r).2.calls
  | .builtin b, r => by
    unfold rdType
    cases hs : scalarOf b with
    | some s =>
      simp only [readNum_calls]
      omega
    | none =>
      simp only [readNum_calls, readStr_calls]
      omega
  | .enum e, r => by
    unfold rdType
    split <;> simp only [readNum_calls] <;> omega
  | .struct fs, r => by
    unfold rdType
    exact fields_at_least fs r
theorem fields_at_least : (fs : List (FieldOf RType)) → ∀ r, r.calls + min 1 (slotsFs fs) ≤ (rdFields rt fs r).2.calls
  | [], r => by simp [rdFields, slotsFs]
  | f :: fs, r => by
    have h1 := field_at_least rt f (F_at_least f) r
    have h2 := fields_at_least fs (rdField rt f r).2
    unfold rdFields slotsFs
    show _ ≤ (rdFields rt fs (rdField rt f r).2).2.calls
    omega
theorem F_at_least : (f : FieldOf RType) → ∀ r, r.calls + min 1 (slotsT f.ty) ≤ (rdType rt f.ty r).2.calls
  | ⟨_, _, t, _, _⟩ => type_at_least t
end

/-! ### upper bounds -/

theorem many_at_most {g : RState → Option JVal × RState} (h : ∀ r, (g r).2.calls ≤ r.calls) (n : Nat) (r : RState) :
    (rdMany g n r).2.calls ≤ r.calls := by
  induction n generalizing r with
  | zero => exact Nat.le_refl _
  | succ n ih =>
    rw [rdMany]
    exact Nat.le_trans (ih _) (h r)

theorem field_at_most (f : FieldOf RType) (hc : f.array = true → slotsT f.ty = 0)
    (ih : ∀ r, (rdType rt f.ty r).2.calls ≤ r.calls + slotsT f.ty) (r : RState) :
    (rdField rt f r).2.calls ≤ r.calls + slotsF f := by
  have hb : ∀ r : RState, (rdB rt f.ty f.array r).2.calls ≤ r.calls + ((if f.array then 1 else 0) + slotsT f.ty) := by
    intro r
    unfold rdB
    split
    · rename_i ha
      have h1 := many_at_most (g := rdType rt f.ty) (fun r => by have := ih r; rw [hc ha] at this; exact this)
        (rt.readNum .uint32 r).1.toNat (rt.readNum .uint32 r).2
      rw [readNum_calls] at h1
      show (rdMany (rdType rt f.ty) _ _).2.calls ≤ _
      omega
    · have := ih r
      omega
  rw [rdField_eq, slotsF_eq]
  cases ho : f.optional with
  | true =>
    simp only [if_true]
    by_cases hz : 0 < (rt.readNum .uint8 r).1.toNat
    · rw [if_pos hz]
      have := hb (rt.readNum .uint8 r).2
      rw [readNum_calls] at this
      show (rdB rt f.ty f.array _).2.calls ≤ _
      omega
    · rw [if_neg hz]
      show (rt.readNum .uint8 r).2.calls ≤ _
      rw [readNum_calls]
      omega
  | false =>
    simp only [Bool.false_eq_true, if_false]
    have := hb r
    show (rdB rt f.ty f.array r).2.calls ≤ _
    omega

theorem calmF_iff (f : FieldOf RType) : CalmF f ↔ (f.array = true → slotsT f.ty = 0) ∧ CalmT f.ty := by
  obtain ⟨_, _, t, a, o⟩ := f
  exact Iff.rfl

mutual
/-- Without loops over reads, each part is read at most once, whatever the state. -/
theorem type_at_most : (t : RType) → CalmT t → ∀ r, (rdType rt t r).2.calls ≤ r.calls + slotsT t
  | .builtin b, _, r => by
    unfold rdType
    cases b <;> simp only [scalarOf, slotsT, readNum_calls, readStr_calls] <;> omega
  | .enum e, _, r => by
    unfold rdType
    split <;> simp only [readNum_calls, slotsT] <;> omega
  | .struct fs, h, r => by
    unfold rdType
    exact fields_at_most fs h r
theorem fields_at_most : (fs : List (FieldOf RType)) → CalmFs fs → ∀ r, (rdFields rt fs r).2.calls ≤ r.calls + slotsFs fs
  | [], _, r => by simp [rdFields, slotsFs]
  | f :: fs, h, r => by
    have h1 := field_at_most rt f ((calmF_iff f).1 h.1).1 (F_at_most f h.1) r
    have h2 := fields_at_most fs h.2 (rdField rt f r).2
    unfold rdFields slotsFs
    show (rdFields rt fs (rdField rt f r).2).2.calls ≤ _
    omega
theorem F_at_most : (f : FieldOf RType) → CalmF f → ∀ r, (rdType rt f.ty r).2.calls ≤ r.calls + slotsT f.ty
  | ⟨_, _, t, _, _⟩, h => type_at_most t h.2
end

mutual
/-- Types without any reads have no loops over reads. -/
theorem calm_of_slots : (t : RType) → slotsT t = 0 → CalmT t
  | .builtin _, _ => True.intro
  | .enum _, _ => True.intro
  | .struct fs, h => calmFs_of_slots fs h
theorem calmFs_of_slots : (fs : List (FieldOf RType)) → slotsFs fs = 0 → CalmFs fs
  | [], _ => True.intro
  | f :: fs, h => by
    unfold slotsFs at h
    exact ⟨calmF_of_slots f (by omega), calmFs_of_slots fs (by omega)⟩
theorem calmF_of_slots : (f : FieldOf RType) → slotsF f = 0 → CalmF f
  | ⟨_, _, t, a, o⟩, h => by
    unfold slotsF at h
    exact ⟨fun _ => by omega, calm_of_slots t (by omega)⟩
end

/-! ### floods -/

/-- Small enums. -/
abbrev Small31 (e : REnum) : Prop := SoundEnum e ∧ e.variants.length ≤ 31

mutual
/-- Bytes that get past a type. -/
def skipT : RType → List UInt8
  | .builtin b => match scalarOf b with | some s => rt.enc s (rt.dec s []) | none => rt.enc .uint32 (.int 0)
  | .enum e => rt.enc (reprScalar e.repr) (.int 1)
  | .struct fs => skipFs fs
def skipFs : List (FieldOf RType) → List UInt8
  | [] => []
  | f :: fs => skipF f ++ skipFs fs
def skipF : FieldOf RType → List UInt8
  | ⟨_, _, ty, array, optional⟩ =>
    if optional then rt.enc .uint8 (.int 0) else if array then rt.enc .uint32 (.int 0) else skipT ty
end

theorem readStr_zero (bs : List UInt8) (c : Nat) : (rt.readStr 0 ⟨bs, false, c⟩).2 = ⟨bs, false, c + 1⟩ := by
  unfold Runtime.readStr
  rw [if_pos ⟨rfl, Nat.zero_le _⟩]
  rfl

theorem one_ok (e : EnumRepr) : (reprScalar e).Ok (.int 1) := by cases e <;> exact ⟨by decide, by decide⟩

theorem one_inBounds {e : REnum} (h : Small31 e) : inBounds e (.int 1) = true := by
  obtain ⟨k, h1, h2, h3, -⟩ := sound_values h.1
  have hb := sound_bounds h.1 h3
  unfold inBounds
  simp only [hb, Option.getD_some]
  rw [jsShl1_small (by have := h.2; omega)]
  have : (1 : Int) ≤ 2 ^ (k - 1) := by exact_mod_cast Nat.one_le_two_pow
  simp [this]

theorem enc_le (s : Scalar) (n : Num) : (rt.enc s n).length ≤ 4 := by
  rw [rt.enc_len]
  cases s <;> decide

mutual
theorem skip_type : (t : RType) → EnumsT Small31 t → ∀ tail c, ∃ c', (rdType rt t ⟨skipT rt t ++ tail, false, c⟩).2 = ⟨tail, false, c'⟩
  | .builtin b, _, tail, c => by
    unfold rdType skipT
    cases hs : scalarOf b with
    | some s =>
      simp only
      rw [readNum_enc rt (rt.dec_ok s [])]
      exact ⟨_, rfl⟩
    | none =>
      simp only
      rw [readNum_enc rt (n := .int 0) (s := .uint32) ⟨by decide, by decide⟩]
      exact ⟨_, readStr_zero rt _ _⟩
  | .enum e, h, tail, c => by
    unfold rdType skipT
    rw [readNum_enc rt (one_ok e.repr), if_pos (one_inBounds h)]
    exact ⟨_, rfl⟩
  | .struct fs, h, tail, c => by
    unfold rdType skipT
    exact skip_fields fs h tail c
theorem skip_fields : (fs : List (FieldOf RType)) → EnumsFs Small31 fs → ∀ tail c,
    ∃ c', (rdFields rt fs ⟨skipFs rt fs ++ tail, false, c⟩).2 = ⟨tail, false, c'⟩
  | [], _, tail, c => ⟨c, rfl⟩
  | f :: fs, h, tail, c => by
    unfold rdFields skipFs
    rw [List.append_assoc]
    obtain ⟨c1, h1⟩ := skip_field f h.1 (skipFs rt fs ++ tail) c
    obtain ⟨c2, h2⟩ := skip_fields fs h.2 tail c1
    refine ⟨c2, ?_⟩
    show (rdFields rt fs (rdField rt f _).2).2 = _
    rw [h1, h2]
theorem skip_field : (f : FieldOf RType) → EnumsF Small31 f → ∀ tail c,
    ∃ c', (rdField rt f ⟨skipF rt f ++ tail, false, c⟩).2 = ⟨tail, false, c'⟩
  | ⟨n, tn, t, a, o⟩, h, tail, c => by
    rw [rdField_eq]
    unfold skipF
    cases o with
    | true =>
      simp only [if_true]
      rw [readNum_enc rt (n := .int 0) (s := .uint8) ⟨by decide, by decide⟩]
      exact ⟨_, rfl⟩
    | false =>
      simp only [Bool.false_eq_true, if_false]
      unfold rdB
      cases a with
      | true =>
        simp only [if_true]
        rw [readNum_enc rt (n := .int 0) (s := .uint32) ⟨by decide, by decide⟩]
        exact ⟨_, rfl⟩
      | false =>
        simp only [Bool.false_eq_true, if_false]
        exact skip_type t h tail c
end

mutual
theorem skip_le : (t : RType) → (skipT rt t).length ≤ 4 * slotsT t
  | .builtin b => by
    have h1 : 1 ≤ slotsT (.builtin b) := by cases b <;> decide
    unfold skipT
    cases scalarOf b with
    | some s =>
      simp only
      have := enc_le rt s (rt.dec s [])
      omega
    | none =>
      simp only
      have := enc_le rt .uint32 (.int 0)
      omega
  | .enum e => by
    unfold skipT slotsT
    exact enc_le rt _ _
  | .struct fs => skipFs_le fs
theorem skipFs_le : (fs : List (FieldOf RType)) → (skipFs rt fs).length ≤ 4 * slotsFs fs
  | [] => Nat.le_refl _
  | f :: fs => by
    have h1 := skipF_le f
    have h2 := skipFs_le fs
    unfold skipFs slotsFs
    rw [List.length_append]
    omega
theorem skipF_le : (f : FieldOf RType) → (skipF rt f).length ≤ 4 * slotsF f
  | ⟨n, tn, t, a, o⟩ => by
    have h1 := skip_le t
    have h2 := enc_le rt .uint8 (.int 0)
    have h3 := enc_le rt .uint32 (.int 0)
    unfold skipF slotsF
    split <;> (try split) <;> omega
end

theorem many_flood (t : RType) (h : slotsT t ≠ 0) (n : Nat) (r : RState) : r.calls + n ≤ (rdMany (rdType rt t) n r).2.calls := by
  have := many_at_least (type_at_least rt t) n r
  rwa [Nat.min_eq_left (by omega), Nat.mul_one] at this

theorem flood_array (t : RType) (hs : slotsT t ≠ 0) {r : RState} {c : Nat} {n : Num} {k m : Nat}
    (hr : rt.readNum .uint32 r = (n, ⟨[], false, c + 1⟩)) (hn : n.toNat = k) (hm : m = k + 1) :
    c + m ≤ (rdB rt t true r).2.calls := by
  have := many_flood rt t hs k ⟨[], false, c + 1⟩
  unfold rdB
  rw [if_pos rfl, hr, hn]
  show _ ≤ (rdMany (rdType rt t) k ⟨[], false, c + 1⟩).2.calls
  simp only at this
  omega

mutual
/-- Of a type with a loop over reads, few bytes cause 2^32 reads. -/
theorem flood_type : (t : RType) → EnumsT Small31 t → ¬ CalmT t → ∃ bs : List UInt8, bs.length ≤ 4 * slotsT t ∧
    ∀ c, c + 2 ^ 32 ≤ (rdType rt t ⟨bs, false, c⟩).2.calls
  | .builtin _, _, h => absurd True.intro h
  | .enum _, _, h => absurd True.intro h
  | .struct fs, he, h => by
    unfold rdType
    exact flood_fields fs he h
theorem flood_fields : (fs : List (FieldOf RType)) → EnumsFs Small31 fs → ¬ CalmFs fs → ∃ bs : List UInt8, bs.length ≤ 4 * slotsFs fs ∧
    ∀ c, c + 2 ^ 32 ≤ (rdFields rt fs ⟨bs, false, c⟩).2.calls
  | [], _, h => absurd True.intro h
  | f :: fs, he, h => by
    by_cases hf : CalmF f
    · obtain ⟨bs, h1, h2⟩ := flood_fields fs he.2 fun h' => h ⟨hf, h'⟩
      refine ⟨skipF rt f ++ bs, ?_, fun c => ?_⟩
      · have := skipF_le rt f
        unfold slotsFs
        rw [List.length_append]
        omega
      · obtain ⟨c1, h3⟩ := skip_field rt f he.1 bs c
        have h4 := h2 c1
        have h5 := field_at_least rt f (F_at_least rt f) ⟨skipF rt f ++ bs, false, c⟩
        rw [h3] at h5
        unfold rdFields
        show _ ≤ (rdFields rt fs (rdField rt f _).2).2.calls
        rw [h3]
        simp only at h5
        omega
    · obtain ⟨bs, h1, h2⟩ := flood_field f he.1 hf
      refine ⟨bs, ?_, fun c => ?_⟩
      · unfold slotsFs
        omega
      · have h3 := h2 c
        have h4 := fields_at_least rt fs (rdField rt f ⟨bs, false, c⟩).2
        unfold rdFields
        show _ ≤ (rdFields rt fs (rdField rt f _).2).2.calls
        omega
theorem flood_field : (f : FieldOf RType) → EnumsF Small31 f → ¬ CalmF f → ∃ bs : List UInt8, bs.length ≤ 4 * slotsF f ∧
    ∀ c, c + 2 ^ 32 ≤ (rdField rt f ⟨bs, false, c⟩).2.calls
  | ⟨n, tn, t, a, o⟩, he, h => by
    have hb : ∃ bs : List UInt8, bs.length ≤ 4 * ((if a then 1 else 0) + slotsT t) ∧
        ∀ c, c + 2 ^ 32 ≤ (rdB rt t a ⟨bs, false, c⟩).2.calls := by
      cases a with
      | true =>
        have hs : slotsT t ≠ 0 := fun h0 => h ⟨fun _ => h0, calm_of_slots t h0⟩
        refine ⟨rt.enc .uint32 (.int (2 ^ 32 - 1)), ?_, fun c => ?_⟩
        · have := enc_le rt .uint32 (.int (2 ^ 32 - 1))
          simp only [if_true]
          omega
        · have hr := readNum_enc rt (s := .uint32) (n := .int (2 ^ 32 - 1)) ⟨by decide, by decide⟩ [] c
          rw [List.append_nil] at hr
          have hn : (Num.int (2 ^ 32 - 1)).toNat = 2 ^ 32 - 1 := by decide
          exact flood_array rt t hs hr hn (by decide)
      | false =>
        obtain ⟨bs, h1, h2⟩ := flood_type t he fun h' => h ⟨fun h0 => absurd h0 (by decide), h'⟩
        refine ⟨bs, by simp only [Bool.false_eq_true, if_false]; omega, fun c => ?_⟩
        unfold rdB
        exact h2 c
    obtain ⟨bs, h1, h2⟩ := hb
    cases o with
    | false =>
      refine ⟨bs, by unfold slotsF; simp only [Bool.false_eq_true, if_false]; omega, fun c => ?_⟩
      rw [rdField_eq]
      exact h2 c
    | true =>
      refine ⟨rt.enc .uint8 (.int 1) ++ bs, ?_, fun c => ?_⟩
      · have := enc_le rt .uint8 (.int 1)
        unfold slotsF
        rw [List.length_append]
        simp only [if_true]
        omega
      · rw [rdField_eq]
        simp only [if_true]
        rw [readNum_enc rt (n := .int 1) (s := .uint8) ⟨by decide, by decide⟩, if_pos (show 0 < (Num.int 1).toNat by decide)]
        have := h2 (c + 1)
        show _ ≤ (rdB rt t a ⟨bs, false, c + 1⟩).2.calls
        omega
end

end Packetc.Js
