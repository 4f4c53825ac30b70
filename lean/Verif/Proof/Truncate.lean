import Verif.Proof.JsExact
import Verif.Proof.Calls
import Verif.Spec.Truncate
/-!
# Truncated packets that are accepted: one for each schema with a string
-/

namespace Packetc.Js
open Check Gen

/-! ### the smallest value -/

mutual
/-- Zeros, empty strings and arrays, absent optionals and first variants. -/
def zeroV : RType → JVal
  | .builtin b =>
    match scalarOf b with
    | some .float => .num (.f32 0#32)
    | some _ => .num (.int 0)
    | none => .str []
  | .enum _ => .num (.int 1)
  | .struct fs => .obj (zeroPs fs)
def zeroPs : List (FieldOf RType) → List (PropOf JVal)
  | [] => []
  | f :: fs => ⟨f.name, zeroF f⟩ :: zeroPs fs
def zeroF : FieldOf RType → JVal
  | ⟨_, _, ty, array, optional⟩ => if optional then .undef else if array then .arr [] else zeroV ty
end

theorem zeroF_eq (f : FieldOf RType) :
    zeroF f = if f.optional then .undef else if f.array then .arr [] else zeroV f.ty := by
  obtain ⟨_, _, t, a, o⟩ := f
  rfl

theorem small_one {e : REnum} (h : Small31 e) : SmallVariant e (.int 1) := by
  obtain ⟨k, h1, h2, h3, -, -, ⟨v, hv, hv0⟩, -⟩ := sound_values h.1
  refine ⟨⟨v, List.mem_of_head? hv, ?_⟩, h.2⟩
  rw [hv0]
  rfl

abbrev GoodT := TypedT (FaithfulStr leUtf8) SmallVariant
abbrev GoodFs := TypedFs (FaithfulStr leUtf8) SmallVariant

mutual
theorem zero_typed : (t : RType) → EnumsT Small31 t → GoodT t (zeroV t)
  | .builtin b, _ => by
    cases b <;> simp only [GoodT, TypedT, zeroV, scalarOf]
    case string => exact ⟨_, rfl, by decide, rfl⟩
    case float => exact ⟨_, rfl, fun h => absurd h (by decide)⟩
    all_goals exact ⟨_, rfl, by decide, by decide⟩
  | .enum e, h => ⟨_, rfl, small_one h⟩
  | .struct fs, h => ⟨_, rfl, zeroFs_typed fs h⟩
theorem zeroFs_typed : (fs : List (FieldOf RType)) → EnumsFs Small31 fs → GoodFs fs (zeroPs fs)
  | [], _ => rfl
  | f :: fs, h => by
    refine ⟨_, _, rfl, ?_, zeroFs_typed fs h.2⟩
    rw [typedF_iff, zeroF_eq]
    refine ⟨rfl, ?_⟩
    cases ho : f.optional with
    | true => exact Or.inl ⟨rfl, rfl⟩
    | false =>
      simp only [Bool.false_eq_true, if_false]
      refine Or.inr ?_
      unfold okB
      cases ha : f.array with
      | true => exact ⟨[], rfl, by decide, fun x hx => absurd hx (by simp)⟩
      | false =>
        simp only [Bool.false_eq_true, if_false]
        exact zeroF_typed f h.1
theorem zeroF_typed : (f : FieldOf RType) → EnumsF Small31 f → GoodT f.ty (zeroV f.ty)
  | ⟨_, _, t, _, _⟩, h => zero_typed t h
end

/-- Bytes that are characters of their own in UTF-8. -/
def Low (bs : List UInt8) : Prop := ∀ b ∈ bs, b.toNat < 128

theorem Low.append {a b : List UInt8} (ha : Low a) (hb : Low b) : Low (a ++ b) := fun x hx =>
  (List.mem_append.1 hx).elim (ha x) (hb x)

theorem low_zero (s : Scalar) : Low (leEnc s (.int 0)) := by
  cases s <;> unfold Low <;> decide

mutual
theorem zero_low : (t : RType) → Low (encode leUtf8 t (zeroV t))
  | .builtin b => by
    cases b
    case string =>
      show Low (leEnc .uint32 (.int 0) ++ [])
      unfold Low
      decide
    case float =>
      show Low (leEnc .float (.f32 0#32))
      unfold Low
      decide
    all_goals exact low_zero _
  | .enum e => by
    show Low (leEnc (reprScalar e.repr) (.int 1))
    cases e.repr <;> unfold Low <;> decide
  | .struct fs => zeroFs_low fs
theorem zeroFs_low : (fs : List (FieldOf RType)) → Low (encodeFields leUtf8 fs (zeroPs fs))
  | [] => fun _ h => absurd h (by simp [encodeFields])
  | f :: fs => by
    refine Low.append ?_ (zeroFs_low fs)
    show Low (encodeField leUtf8 f (zeroF f))
    rw [encodeField_eq, zeroF_eq]
    cases ho : f.optional with
    | true => exact low_zero .uint8
    | false =>
      simp only [Bool.false_eq_true, if_false]
      unfold encB
      cases ha : f.array with
      | true =>
        show Low (leEnc .uint32 (.int 0) ++ [])
        unfold Low
        decide
      | false =>
        simp only [Bool.false_eq_true, if_false]
        exact zeroF_low f
theorem zeroF_low : (f : FieldOf RType) → Low (encode leUtf8 f.ty (zeroV f.ty))
  | ⟨_, _, t, _, _⟩ => zero_low t
end

mutual
theorem zero_len : (t : RType) → (encode leUtf8 t (zeroV t)).length ≤ 4 * slotsT t
  | .builtin b => by cases b <;> decide
  | .enum e => by
    show (leUtf8.enc (reprScalar e.repr) (.int 1)).length ≤ 4
    exact enc_le _ _ _
  | .struct fs => zeroFs_len fs
theorem zeroFs_len : (fs : List (FieldOf RType)) → (encodeFields leUtf8 fs (zeroPs fs)).length ≤ 4 * slotsFs fs
  | [] => Nat.le_refl _
  | f :: fs => by
    have h1 : (encodeField leUtf8 f (zeroF f)).length ≤ 4 * slotsF f := by
      rw [encodeField_eq, zeroF_eq, slotsF_eq]
      cases ho : f.optional with
      | true =>
        have := enc_le leUtf8 .uint8 (.int 0)
        simp only [if_true, encOpt_undef]
        omega
      | false =>
        simp only [Bool.false_eq_true, if_false]
        unfold encB
        cases ha : f.array with
        | true =>
          have := enc_le leUtf8 .uint32 (.int 0)
          simp only [if_true, List.map_nil, List.flatten_nil, List.append_nil, List.length_nil]
          exact Nat.le_trans this (by omega)
        | false =>
          simp only [Bool.false_eq_true, if_false]
          have := zeroF_len f
          omega
    have h2 := zeroFs_len fs
    show (encodeField leUtf8 f (zeroF f) ++ encodeFields leUtf8 fs (zeroPs fs)).length ≤ 4 * (slotsF f + slotsFs fs)
    rw [List.length_append]
    omega
theorem zeroF_len : (f : FieldOf RType) → (encode leUtf8 f.ty (zeroV f.ty)).length ≤ 4 * slotsT f.ty
  | ⟨_, _, t, _, _⟩ => zero_len t
end

theorem good_fields_read {fs : List (FieldOf RType)} (he : EnumsFs Small31 fs) {ps} (h : GoodFs fs ps) (tail : List UInt8) (c : Nat) :
    ∃ c', (rdFields leUtf8 fs ⟨encodeFields leUtf8 fs ps ++ tail, false, c⟩).2 = ⟨tail, false, c'⟩ := by
  obtain ⟨c', h1⟩ := dec_fields leUtf8 fs ps
    (typedFs_mono (E' := FaithE) (P := Small31) (fun _ h => h) (fun e n hp h => small_faithful (e := e) (n := n) hp.1 h) fs he ps h) tail c
  exact ⟨c', by rw [h1]⟩

/-! ### strings -/

def lowChars (bs : List UInt8) : Str := bs.map fun b => Char.ofNat b.toNat

theorem utf8_low {b : UInt8} (h : b.toNat < 128) : String.utf8EncodeChar (Char.ofNat b.toNat) = [b] := by
  have hv : (Char.ofNat b.toNat).val.toNat = b.toNat := by
    rw [Char.ofNat, dif_pos (Or.inl (by omega))]
    rfl
  unfold String.utf8EncodeChar
  simp only [hv]
  rw [if_pos (by omega)]
  simp

theorem utf8_lowChars {bs : List UInt8} (h : Low bs) : utf8Enc (lowChars bs) = bs := by
  induction bs with
  | nil => rfl
  | cons b bs ih =>
    have h1 : utf8Enc (lowChars (b :: bs)) = String.utf8EncodeChar (Char.ofNat b.toNat) ++ utf8Enc (lowChars bs) := by
      simp [utf8Enc, lowChars]
    rw [h1, utf8_low (h b List.mem_cons_self), ih fun x hx => h x (List.mem_cons_of_mem _ hx)]
    rfl

theorem utf16_append (s t : Str) : utf16Length (s ++ t) = utf16Length s + utf16Length t := by
  induction s with
  | nil => simp [utf16Length]
  | cons c s ih =>
    simp only [List.cons_append, utf16Length, ih]
    omega

theorem utf16_lowChars (bs : List UInt8) : utf16Length (lowChars bs) = bs.length := by
  induction bs with
  | nil => rfl
  | cons b bs ih =>
    have hv : (Char.ofNat b.toNat).toNat = b.toNat := by
      have := b.toNat_lt
      rw [Char.ofNat, dif_pos (Or.inl (by omega))]
      rfl
    show (if (Char.ofNat b.toNat).toNat < 0x10000 then 1 else 2) + utf16Length (lowChars bs) = bs.length + 1
    have := b.toNat_lt
    rw [hv, ih, if_pos (by omega)]
    omega

theorem utf8_accents (d : Nat) : (utf8Enc (List.replicate d 'é')).length = 2 * d ∧ utf16Length (List.replicate d 'é') = d := by
  induction d with
  | zero => exact ⟨rfl, rfl⟩
  | succ d ih =>
    have h1 : utf8Enc (List.replicate (d + 1) 'é') = String.utf8EncodeChar 'é' ++ utf8Enc (List.replicate d 'é') := by
      simp [utf8Enc, List.replicate_succ]
    have h2 : (String.utf8EncodeChar 'é').length = 2 := by decide
    refine ⟨?_, ?_⟩
    · rw [h1, List.length_append, ih.1, h2]
      omega
    · show (if 'é'.toNat < 0x10000 then 1 else 2) + utf16Length (List.replicate d 'é') = d + 1
      rw [ih.2, if_pos (by decide)]
      omega

/-- The value `j` is sent as `pre`, then `R`, then something else (or anything, if `R` is not empty), and `read` takes `pre` for
a value. -/
structure Tricks (t : RType) (R : List UInt8) (j : JVal) (pre extra : List UInt8) : Prop where
  typed : HasType t j
  bytes : encode leUtf8 t j = pre ++ (R ++ extra)
  more : R = [] → extra ≠ []
  read : ∀ tail c, ∃ c', (rdType leUtf8 t ⟨pre ++ tail, false, c⟩).2 = ⟨tail, false, c'⟩

theorem string_take {len text tail : List UInt8} {k : Nat} (hk : k < 2 ^ 32) (hl : len = leUtf8.enc .uint32 (.int k))
    (ht : text.length = k) (c : Nat) :
    ∃ c', (rdType leUtf8 (.builtin .string) ⟨len ++ text ++ tail, false, c⟩).2 = ⟨tail, false, c'⟩ := by
  refine ⟨c + 2, ?_⟩
  show (leUtf8.readStr (leUtf8.readNum .uint32 _).1.toNat (leUtf8.readNum .uint32 _).2).2 = _
  rw [hl, List.append_assoc, readNum_enc leUtf8 (uint32_ok hk)]
  simp only [Num.toNat, Int.toNat_natCast]
  unfold Runtime.readStr
  rw [if_pos ⟨rfl, by simp [ht]⟩]
  simp only [List.drop_left' ht]

theorem string_tricks {R : List UInt8} (hR : Low R) (hlen : R.length < 2 ^ 31) :
    ∃ j pre extra, Tricks (.builtin .string) R j pre extra := by
  cases hd : R with
  | nil =>
    refine ⟨.str ['é'], leUtf8.enc .uint32 (.int (1 : Nat)) ++ [0xc3], [0xa9], ⟨⟨_, rfl, by decide⟩, by decide +kernel, fun _ => by simp, fun tail c => ?_⟩⟩
    exact string_take (by decide) rfl rfl c
  | cons b R' =>
    rw [← hd]
    obtain ⟨h1, h2⟩ := utf8_accents R.length
    have h3 : utf16Length (List.replicate R.length 'é' ++ lowChars R) = 2 * R.length := by
      rw [utf16_append, h2, utf16_lowChars]
      omega
    refine ⟨.str (List.replicate R.length 'é' ++ lowChars R),
      leUtf8.enc .uint32 (.int (2 * R.length : Nat)) ++ utf8Enc (List.replicate R.length 'é'), [],
      ⟨⟨_, rfl, ?_⟩, ?_, fun h => ?_, fun tail c => ?_⟩⟩
    · show utf16Length _ < 2 ^ 32
      rw [h3]
      omega
    · show leUtf8.enc .uint32 (.int (utf16Length _)) ++ utf8Enc _ = _
      rw [h3]
      have : utf8Enc (List.replicate R.length 'é' ++ lowChars R) = utf8Enc (List.replicate R.length 'é') ++ R := by
        have h4 := utf8_lowChars hR
        unfold utf8Enc at h4 ⊢
        rw [List.flatMap_append, h4]
      rw [this]
      simp only [List.append_nil, List.append_assoc]
    · rw [hd] at h
      exact absurd h (by simp)
    · exact string_take (by omega) rfl h1 c

/-! ### all types -/

theorem hasType_of_good {t : RType} (he : EnumsT Small31 t) {j : JVal} (h : GoodT t j) : HasType t j :=
  typedT_mono (P := Small31) (fun _ h => h.1) (fun _ _ _ h => h.1) t he j h

theorem hasFields_of_good {fs : List (FieldOf RType)} (he : EnumsFs Small31 fs) {ps} (h : GoodFs fs ps) : HasFields fs ps :=
  typedFs_mono (P := Small31) (fun _ h => h.1) (fun _ _ _ h => h.1) fs he ps h

/-- The same for one field. -/
structure TricksF (f : FieldOf RType) (R : List UInt8) (j : JVal) (pre extra : List UInt8) : Prop where
  typed : TypedF ShortStr IsVariant f ⟨f.name, j⟩
  bytes : encodeField leUtf8 f j = pre ++ (R ++ extra)
  more : R = [] → extra ≠ []
  read : ∀ tail c, ∃ c', (rdField leUtf8 f ⟨pre ++ tail, false, c⟩).2 = ⟨tail, false, c'⟩

/-- The same for several fields. -/
structure TricksFs (fs : List (FieldOf RType)) (R : List UInt8) (ps : List (PropOf JVal)) (pre extra : List UInt8) : Prop where
  typed : HasFields fs ps
  bytes : encodeFields leUtf8 fs ps = pre ++ (R ++ extra)
  more : R = [] → extra ≠ []
  read : ∀ tail c, ∃ c', (rdFields leUtf8 fs ⟨pre ++ tail, false, c⟩).2 = ⟨tail, false, c'⟩

theorem field_tricks (f : FieldOf RType) {R : List UInt8} {j : JVal} {pre extra : List UInt8} (h : Tricks f.ty R j pre extra) :
    ∃ j' pre', TricksF f R j' pre' extra := by
  obtain ⟨h1, h2, h3, h4⟩ := h
  have hb : ∃ j' pre', okB ShortStr IsVariant f.ty f.array j' ∧ encB leUtf8 f.ty f.array j' = pre' ++ (R ++ extra) ∧
      ∀ tail c, ∃ c', (rdB leUtf8 f.ty f.array ⟨pre' ++ tail, false, c⟩).2 = ⟨tail, false, c'⟩ := by
    cases ha : f.array with
    | false => exact ⟨j, pre, h1, h2, h4⟩
    | true =>
      refine ⟨.arr [j], leUtf8.enc .uint32 (.int (1 : Nat)) ++ pre, ⟨[j], rfl, (show 1 < 2 ^ 32 by decide), by simpa using h1⟩, ?_, fun tail c => ?_⟩
      · unfold encB
        simp only [if_true, List.length_singleton, List.map_cons, List.map_nil, List.flatten_cons, List.flatten_nil, List.append_nil, h2,
          List.append_assoc]
      · unfold rdB
        simp only [if_true, List.append_assoc]
        rw [readNum_enc leUtf8 (uint32_ok (k := 1) (by decide))]
        simp only [Num.toNat, Int.toNat_natCast]
        obtain ⟨c', h5⟩ := h4 tail (c + 1)
        refine ⟨c', ?_⟩
        show (rdMany (rdType leUtf8 f.ty) 0 (rdType leUtf8 f.ty _).2).2 = _
        rw [h5]
        rfl
  obtain ⟨j', pre', h5, h6, h7⟩ := hb
  cases ho : f.optional with
  | false =>
    refine ⟨j', pre', ⟨?_, ?_, h3, fun tail c => ?_⟩⟩
    · rw [typedF_iff]
      exact ⟨rfl, Or.inr h5⟩
    · rw [encodeField_eq, ho]
      exact h6
    · rw [rdField_eq, ho]
      exact h7 tail c
  | true =>
    refine ⟨j', leUtf8.enc .uint8 (.int 1) ++ pre', ⟨?_, ?_, h3, fun tail c => ?_⟩⟩
    · rw [typedF_iff]
      exact ⟨rfl, Or.inr h5⟩
    · rw [encodeField_eq, ho]
      simp only [if_true]
      rw [encOpt_def _ _ (okB_ne_undef h5), h6, List.append_assoc]
    · rw [rdField_eq, ho]
      simp only [if_true, List.append_assoc]
      rw [readNum_enc leUtf8 (s := .uint8) (n := .int 1) ⟨by decide, by decide⟩, if_pos (show 0 < (Num.int 1).toNat by decide)]
      exact h7 tail (c + 1)

mutual
theorem tricks_type : (t : RType) → EnumsT Small31 t → ¬ TextFreeT t → ∀ R, Low R → R.length + 4 * slotsT t < 2 ^ 31 →
    ∃ j pre extra, Tricks t R j pre extra
  | .builtin b, _, h, R, hR, hlen => by
    have : b = .string := not_not.1 h
    subst this
    exact string_tricks hR (by omega)
  | .enum _, _, h, _, _, _ => absurd True.intro h
  | .struct fs, he, h, R, hR, hlen => by
    obtain ⟨ps, pre, extra, h1, h2, h3, h4⟩ := tricks_fields fs he h R hR hlen
    exact ⟨.obj ps, pre, extra, ⟨_, rfl, h1⟩, h2, h3, h4⟩
theorem tricks_fields : (fs : List (FieldOf RType)) → EnumsFs Small31 fs → ¬ TextFreeFs fs → ∀ R, Low R →
    R.length + 4 * slotsFs fs < 2 ^ 31 → ∃ ps pre extra, TricksFs fs R ps pre extra
  | [], _, h, _, _, _ => absurd True.intro h
  | f :: fs, he, h, R, hR, hlen => by
    unfold slotsFs at hlen
    by_cases hf : TextFreeF f
    · obtain ⟨ps, pre, extra, h1, h2, h3, h4⟩ := tricks_fields fs he.2 (fun h' => h ⟨hf, h'⟩) R hR (by omega)
      have hz : GoodFs [f] (zeroPs [f]) := zeroFs_typed [f] ⟨he.1, True.intro⟩
      have hz1 : TypedF (FaithfulStr leUtf8) SmallVariant f ⟨f.name, zeroF f⟩ := by
        obtain ⟨p, qs, e1, e2, -⟩ := hz
        cases e1
        exact e2
      refine ⟨⟨f.name, zeroF f⟩ :: ps, encodeField leUtf8 f (zeroF f) ++ pre, extra, ?_, ?_, h3, fun tail c => ?_⟩
      · exact ⟨_, _, rfl, typedF_mono (P := Small31) (fun _ h => h.1) (fun _ _ _ h => h.1) f he.1 _ hz1, h1⟩
      · show encodeField leUtf8 f (zeroF f) ++ encodeFields leUtf8 fs ps = _
        rw [h2]
        simp only [List.append_assoc]
      · obtain ⟨c1, h5⟩ := good_fields_read (fs := [f]) ⟨he.1, True.intro⟩ hz (pre ++ tail) c
        have h6 : (rdField leUtf8 f ⟨encodeField leUtf8 f (zeroF f) ++ (pre ++ tail), false, c⟩).2 = ⟨pre ++ tail, false, c1⟩ := by
          have e1 : encodeFields leUtf8 [f] (zeroPs [f]) = encodeField leUtf8 f (zeroF f) := by
            show encodeField leUtf8 f (zeroF f) ++ [] = _
            rw [List.append_nil]
          rw [e1] at h5
          exact h5
        obtain ⟨c2, h7⟩ := h4 tail c1
        refine ⟨c2, ?_⟩
        show (rdFields leUtf8 fs (rdField leUtf8 f _).2).2 = _
        rw [List.append_assoc, h6, h7]
    · have hl := zeroFs_len fs
      have hs : slotsF f = (if f.optional then 1 else 0) + (if f.array then 1 else 0) + slotsT f.ty := slotsF_eq f
      obtain ⟨j, pre, extra, h0⟩ := tricks_F f he.1 hf (encodeFields leUtf8 fs (zeroPs fs) ++ R) ((zeroFs_low fs).append hR) (by
        rw [List.length_append]
        omega)
      obtain ⟨j', pre', h1, h2, h3, h4⟩ := field_tricks f h0
      refine ⟨⟨f.name, j'⟩ :: zeroPs fs, pre' ++ encodeFields leUtf8 fs (zeroPs fs), extra ++ encodeFields leUtf8 fs (zeroPs fs),
        ⟨_, _, rfl, h1, hasFields_of_good he.2 (zeroFs_typed fs he.2)⟩, ?_, fun hn => ?_, fun tail c => ?_⟩
      · show encodeField leUtf8 f j' ++ encodeFields leUtf8 fs (zeroPs fs) = _
        rw [h2]
        simp only [List.append_assoc]
      · intro hx
        obtain ⟨e1, e2⟩ := List.append_eq_nil_iff.1 hx
        exact h3 (by rw [e2, hn]; rfl) e1
      · obtain ⟨c1, h5⟩ := h4 (encodeFields leUtf8 fs (zeroPs fs) ++ tail) c
        obtain ⟨c2, h6⟩ := good_fields_read he.2 (zeroFs_typed fs he.2) tail c1
        refine ⟨c2, ?_⟩
        show (rdFields leUtf8 fs (rdField leUtf8 f _).2).2 = _
        rw [List.append_assoc, h5, h6]
theorem tricks_F : (f : FieldOf RType) → EnumsF Small31 f → ¬ TextFreeF f → ∀ R, Low R → R.length + 4 * slotsT f.ty < 2 ^ 31 →
    ∃ j pre extra, Tricks f.ty R j pre extra
  | ⟨_, _, t, _, _⟩, he, h => tricks_type t he h
end

/-! ### without strings -/

section
variable {S S' : Str → Prop} {E : REnum → Num → Prop}
set_option linter.unusedSectionVars false
mutual
theorem textFree_typed : (t : RType) → TextFreeT t → ∀ j, TypedT S E t j → TypedT S' E t j
  | .builtin b, h, j, ht => by
    cases b
    case string => exact absurd rfl h
    all_goals exact ht
  | .enum e, _, j, ht => ht
  | .struct fs, h, j, ht => by
    obtain ⟨ps, rfl, h1⟩ := ht
    exact ⟨ps, rfl, textFreeFs_typed fs h ps h1⟩
theorem textFreeFs_typed : (fs : List (FieldOf RType)) → TextFreeFs fs → ∀ ps, TypedFs S E fs ps → TypedFs S' E fs ps
  | [], _, ps, ht => ht
  | f :: fs, h, ps, ht => by
    obtain ⟨p, qs, rfl, h1, h2⟩ := ht
    refine ⟨p, qs, rfl, ?_, textFreeFs_typed fs h.2 qs h2⟩
    rw [typedF_iff] at h1 ⊢
    refine ⟨h1.1, h1.2.imp_right fun hb => ?_⟩
    unfold okB at hb ⊢
    split
    · rename_i ha
      rw [if_pos ha] at hb
      obtain ⟨js, e1, e2, e3⟩ := hb
      exact ⟨js, e1, e2, fun x hx => textFreeF_typed f h.1 x (e3 x hx)⟩
    · rename_i ha
      rw [if_neg ha] at hb
      exact textFreeF_typed f h.1 _ hb
theorem textFreeF_typed : (f : FieldOf RType) → TextFreeF f → ∀ j, TypedT S E f.ty j → TypedT S' E f.ty j
  | ⟨_, _, t, _, _⟩, h => textFree_typed t h
end
end

end Packetc.Js
