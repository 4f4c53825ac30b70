import Verif.Proof.JsExact
import Verif.Spec.Flags
/-!
# Numbers in the place of enums, and combinations of variants
-/

namespace Packetc.Js
open Check Gen

/-! ### reading what was written -/

section
variable (rt : Runtime)

/-- Numbers that fit into the representation of the enum, unless it has 32 variants. -/
def FitsE (e : REnum) (n : Num) : Prop := e.variants.length ≤ 31 → (reprScalar e.repr).Ok n

theorem pass_many {t : RType} {js : List JVal}
    (ih : ∀ j ∈ js, ∀ tail c, (rdType rt t ⟨encode rt t j ++ tail, false, c⟩).2.failed = false →
      TypedT (FaithfulStr rt) FaithE t j)
    (tail : List UInt8) (c : Nat)
    (hf : (rdMany (rdType rt t) js.length ⟨(js.map fun x => encode rt t x).flatten ++ tail, false, c⟩).2.failed = false) :
    ∀ j ∈ js, TypedT (FaithfulStr rt) FaithE t j := by
  induction js generalizing c with
  | nil => simp
  | cons j js ihl =>
    rw [List.length_cons, List.map_cons, List.flatten_cons, List.append_assoc, rdMany] at hf
    have hj := ih j List.mem_cons_self _ c (local_failed (local_many (local_type rt t) js.length) hf)
    obtain ⟨c1, h2⟩ := dec_type rt t j hj ((js.map fun x => encode rt t x).flatten ++ tail) c
    rw [h2] at hf
    intro x hx
    rcases List.mem_cons.1 hx with rfl | hx
    · exact hj
    · exact ihl (fun y hy => ih y (List.mem_cons_of_mem _ hy)) c1 hf x hx

theorem pass_field (f : FieldOf RType) {S : Str → Prop} {E : REnum → Num → Prop}
    (ih : ∀ j, TypedT S E f.ty j → ∀ tail c, (rdType rt f.ty ⟨encode rt f.ty j ++ tail, false, c⟩).2.failed = false →
      TypedT (FaithfulStr rt) FaithE f.ty j)
    (p : PropOf JVal) (hp : TypedF S E f p) (tail : List UInt8) (c : Nat)
    (hf : (rdField rt f ⟨encodeField rt f p.value ++ tail, false, c⟩).2.failed = false) :
    TypedF (FaithfulStr rt) FaithE f p := by
  rw [typedF_iff] at hp ⊢
  obtain ⟨hn, hp⟩ := hp
  refine ⟨hn, ?_⟩
  have hb : okB S E f.ty f.array p.value → ∀ c,
      (rdB rt f.ty f.array ⟨encB rt f.ty f.array p.value ++ tail, false, c⟩).2.failed = false →
      okB (FaithfulStr rt) FaithE f.ty f.array p.value := by
    intro h c
    unfold okB at h ⊢
    unfold rdB encB
    split at h
    · rename_i ha
      obtain ⟨js, hj, hlen, hjs⟩ := h
      simp only [hj, if_pos ha, List.append_assoc]
      rw [readNum_enc rt (uint32_ok hlen)]
      simp only [Num.toNat, Int.toNat_natCast]
      intro hf
      exact ⟨js, rfl, hlen, pass_many rt (fun j hj => ih j (hjs j hj)) tail (c + 1) hf⟩
    · rename_i ha
      simp only [if_neg ha]
      exact ih _ h tail c
  rw [rdField_eq, encodeField_eq] at hf
  cases ho : f.optional with
  | false =>
    rw [ho] at hp hf
    simp only [Bool.false_eq_true, false_and, false_or, if_false] at hp hf ⊢
    exact hb hp c hf
  | true =>
    rw [ho] at hp hf
    simp only [true_and, if_true] at hp hf ⊢
    rcases hp with hp | hp
    · exact Or.inl hp
    · rw [encOpt_def rt _ (okB_ne_undef hp), List.append_assoc,
        readNum_enc rt (s := .uint8) (n := .int 1) ⟨by omega, by omega⟩] at hf
      have : (0 : Nat) < (Num.int 1).toNat := by decide
      simp only [if_pos this] at hf
      exact Or.inr (hb hp (c + 1) hf)

mutual
theorem pass_type : (t : RType) → EnumsT SoundEnum t → (j : JVal) →
    TypedT (FaithfulStr rt) FitsE t j → ∀ tail c,
    (rdType rt t ⟨encode rt t j ++ tail, false, c⟩).2.failed = false → TypedT (FaithfulStr rt) FaithE t j
  | .builtin b, _, j, h, tail, c => by
    cases hs : scalarOf b with
    | some s =>
      simp only [TypedT, hs] at h ⊢
      exact fun _ => h
    | none =>
      simp only [TypedT, hs] at h ⊢
      exact fun _ => h
  | .enum e, he, j, h, tail, c => by
    obtain ⟨n, rfl, h1⟩ := h
    intro hf
    by_cases hle : e.variants.length ≤ 31
    · have hok := h1 hle
      refine ⟨n, rfl, hok, ?_⟩
      rw [rdType, encode] at hf
      simp only [readNum_enc rt hok] at hf
      by_contra hne
      rw [if_neg hne] at hf
      exact absurd hf (by simp)
    · rw [rdType, if_neg (by rw [big_never he hle]; simp)] at hf
      exact absurd hf (by simp)
  | .struct fs, he, j, h, tail, c => by
    obtain ⟨ps, rfl, hps⟩ := h
    intro hf
    simp only [rdType, encode] at hf
    exact ⟨ps, rfl, pass_fields fs he ps hps tail c hf⟩
theorem pass_fields : (fs : List (FieldOf RType)) → EnumsFs SoundEnum fs → (ps : List (PropOf JVal)) →
    TypedFs (FaithfulStr rt) FitsE fs ps → ∀ tail c,
    (rdFields rt fs ⟨encodeFields rt fs ps ++ tail, false, c⟩).2.failed = false → TypedFs (FaithfulStr rt) FaithE fs ps
  | [], _, ps, h, tail, c => fun _ => h
  | f :: fs, he, ps, h, tail, c => by
    obtain ⟨p, qs, rfl, hp, hqs⟩ := h
    intro hf
    simp only [rdFields, encodeFields, List.append_assoc] at hf
    have hff := local_failed (local_fields rt fs) hf
    have hpt := pass_field rt f (pass_F f he.1) p hp _ c hff
    obtain ⟨c1, h2⟩ := dec_field rt f _ _ (dec_F rt f) p hpt (encodeFields rt fs qs ++ tail) c
    rw [h2] at hf
    exact ⟨p, qs, rfl, hpt, pass_fields fs he.2 qs hqs tail c1 hf⟩
theorem pass_F : (f : FieldOf RType) → EnumsF SoundEnum f → ∀ j,
    TypedT (FaithfulStr rt) FitsE f.ty j → ∀ tail c,
    (rdType rt f.ty ⟨encode rt f.ty j ++ tail, false, c⟩).2.failed = false → TypedT (FaithfulStr rt) FaithE f.ty j
  | ⟨_, _, t, _, _⟩, he => pass_type t he
end

end

section
variable {S : Str → Prop} {E E' E'' : REnum → Num → Prop} {P : REnum → Prop} (hE : ∀ e n, P e → E e n → E' e n → E'' e n)
include hE
set_option linter.unusedSectionVars false

mutual
theorem typedT_both : (t : RType) → EnumsT P t → ∀ j, TypedT S E t j → TypedT S E' t j → TypedT S E'' t j
  | .builtin b, _, j, h, _ => by
    cases hs : scalarOf b <;> simp only [TypedT, hs] at h ⊢ <;> exact h
  | .enum e, hP, j, h, h' => by
    obtain ⟨n, rfl, h1⟩ := h
    obtain ⟨m, h2, h3⟩ := h'
    cases h2
    exact ⟨n, rfl, hE e n hP h1 h3⟩
  | .struct fs, hP, j, h, h' => by
    obtain ⟨ps, rfl, h1⟩ := h
    obtain ⟨qs, h2, h3⟩ := h'
    cases h2
    exact ⟨ps, rfl, typedFs_both fs hP ps h1 h3⟩
theorem typedFs_both : (fs : List (FieldOf RType)) → EnumsFs P fs → ∀ ps, TypedFs S E fs ps → TypedFs S E' fs ps →
    TypedFs S E'' fs ps
  | [], _, ps, h, _ => h
  | f :: fs, hP, ps, h, h' => by
    obtain ⟨p, qs, rfl, h2, h3⟩ := h
    obtain ⟨p', qs', h4, h5, h6⟩ := h'
    cases h4
    refine ⟨p, qs, rfl, ?_, typedFs_both fs hP.2 qs h3 h6⟩
    rw [typedF_iff] at h2 h5 ⊢
    refine ⟨h2.1, ?_⟩
    rcases h2.2 with hu | hv
    · exact Or.inl hu
    · rcases h5.2 with hu | hv'
      · exact absurd hu.2 (okB_ne_undef hv)
      · refine Or.inr ?_
        unfold okB at hv hv' ⊢
        split
        · rename_i ha
          rw [if_pos ha] at hv hv'
          obtain ⟨js, e1, e2, e3⟩ := hv
          obtain ⟨js', e4, -, e6⟩ := hv'
          rw [e1] at e4
          cases e4
          exact ⟨js, e1, e2, fun j hj => typedF_both f hP.1 j (e3 j hj) (e6 j hj)⟩
        · rename_i ha
          rw [if_neg ha] at hv hv'
          exact typedF_both f hP.1 _ hv hv'
theorem typedF_both : (f : FieldOf RType) → EnumsF P f → ∀ j, TypedT S E f.ty j → TypedT S E' f.ty j → TypedT S E'' f.ty j
  | ⟨_, _, t, _, _⟩, hP => typedT_both t hP
end
end

/-! ### combinations -/

theorem orBits_getLsb (vs : List EnumVariant) (i : Nat) (hi : i < 32) :
    (orBits vs).getLsbD i = true ↔ ∃ v ∈ vs, v.value = i := by
  induction vs with
  | nil => simp [orBits]
  | cons v vs ih =>
    have : orBits (v :: vs) = (1#32 <<< v.value) ||| orBits vs := rfl
    rw [this, BitVec.getLsbD_or, Bool.or_eq_true, ih]
    simp only [BitVec.getLsbD_shiftLeft, BitVec.getLsbD_one, List.mem_cons, exists_eq_or_imp]
    refine or_congr ?_ Iff.rfl
    simp
    omega

theorem toNat_testBit (vs : List EnumVariant) (i : Nat) :
    (orBits vs).toNat.testBit i = true ↔ i < 32 ∧ ∃ v ∈ vs, v.value = i := by
  rw [BitVec.testBit_toNat]
  by_cases hi : i < 32
  · rw [orBits_getLsb vs i hi]
    simp [hi]
  · constructor
    · intro h
      exact absurd (BitVec.lt_of_getLsbD h) hi
    · exact fun h => absurd h.1 hi

theorem orBits_lt {vs : List EnumVariant} {k : Nat} (h : ∀ v ∈ vs, v.value < k) : (orBits vs).toNat < 2 ^ k := by
  apply Nat.lt_pow_two_of_testBit
  intro i hi
  by_contra hne
  obtain ⟨-, v, hv, rfl⟩ := (toNat_testBit vs i).1 (by simpa using hne)
  exact absurd (h v hv) (by omega)

theorem orBits_toInt {vs : List EnumVariant} (h : ∀ v ∈ vs, v.value < 31) : (orBits vs).toInt = ((orBits vs).toNat : Int) := by
  have := orBits_lt h
  rw [BitVec.toInt_eq_toNat_of_lt (by omega)]

theorem orBits_pos {vs : List EnumVariant} (h : ∀ v ∈ vs, v.value < 31) : 1 ≤ (orBits vs).toNat ↔ vs ≠ [] := by
  constructor
  · rintro h1 rfl
    exact absurd h1 (by decide)
  · intro h1
    obtain ⟨v, hv⟩ := List.exists_mem_of_ne_nil vs h1
    have := (toNat_testBit vs v.value).2 ⟨by have := h v hv; omega, v, hv, rfl⟩
    by_contra hne
    have h0 : (orBits vs).toNat = 0 := by omega
    rw [h0] at this
    simp at this

theorem orBits_le {vs : List EnumVariant} {k : Nat} (hk : 1 ≤ k) (hk' : k ≤ 31) (h : ∀ v ∈ vs, v.value < k) :
    (orBits vs).toNat ≤ 2 ^ (k - 1) ↔ ((∃ v ∈ vs, v.value = k - 1) → ∀ v ∈ vs, v.value = k - 1) := by
  constructor
  · rintro h1 ⟨v, hv, hvk⟩ w hw
    have hb := (toNat_testBit vs (k - 1)).2 ⟨by omega, v, hv, hvk⟩
    have h2 := Nat.ge_two_pow_of_testBit hb
    have h3 : (orBits vs).toNat = 2 ^ (k - 1) := by omega
    have h4 := (toNat_testBit vs w.value).2 ⟨by have := h w hw; omega, w, hw, rfl⟩
    rw [h3, Nat.testBit_two_pow] at h4
    exact (by simpa using h4 : k - 1 = w.value).symm
  · intro h1
    by_cases hex : ∃ v ∈ vs, v.value = k - 1
    · have h2 := h1 hex
      have : (orBits vs).toNat = 2 ^ (k - 1) := by
        apply Nat.eq_of_testBit_eq
        intro i
        rw [Nat.testBit_two_pow, Bool.eq_iff_iff, toNat_testBit]
        simp only [decide_eq_true_eq]
        constructor
        · rintro ⟨-, v, hv, rfl⟩
          exact (h2 v hv).symm
        · rintro rfl
          exact ⟨by omega, hex⟩
      omega
    · refine Nat.le_of_lt (orBits_lt fun v hv => ?_)
      have := h v hv
      have h3 : v.value ≠ k - 1 := fun h => hex ⟨v, hv, h⟩
      omega

/-- Variants are told apart by their values. -/
theorem sound_value_inj {e : REnum} (hs : SoundEnum e) {v w : EnumVariant} (hv : v ∈ e.variants) (hw : w ∈ e.variants)
    (h : v.value = w.value) : v = w := by
  obtain ⟨vs, -, hr⟩ := hs
  have hnd : (e.variants.map EnumVariant.value).Nodup := by
    rw [hr.values]
    exact List.nodup_range
  exact List.inj_on_of_nodup_map hnd hv hw h

theorem combination_fits {e : REnum} {n : Num} (hs : SoundEnum e) (h : Combination e n) : FitsE e n := by
  intro hle
  obtain ⟨vs, hsub, rfl⟩ := h
  obtain ⟨k, h1, h2, h3, h4, h5, -, -⟩ := sound_values hs
  have hlt : ∀ v ∈ vs, v.value < k := fun v hv => h4 v (hsub hv)
  rw [orBits_toInt fun v hv => by have := hlt v hv; omega]
  have h6 := orBits_lt hlt
  have h7 : (orBits vs).toNat < 2 ^ WellFormed.reprBits e.repr :=
    Nat.lt_of_lt_of_le h6 (Nat.pow_le_pow_right (by omega) h5)
  cases hr : e.repr <;> rw [hr] at h7 <;> simp only [WellFormed.reprBits] at h7 <;>
    simp only [reprScalar, Scalar.Ok] <;> omega

theorem combination_bounds {e : REnum} {vs : List EnumVariant} {n : Num} (hs : SoundEnum e) (h : Combines e vs n) :
    inBounds e n = true ↔ vs ≠ [] ∧
      (∀ last, e.variants.getLast? = some last → last ∈ vs → ∀ v ∈ vs, v = last) ∧ e.variants.length ≤ 31 := by
  obtain ⟨hsub, rfl⟩ := h
  by_cases hle : e.variants.length ≤ 31
  · obtain ⟨k, h1, h2, h3, h4, h5, -, ⟨l, hl, hlk⟩⟩ := sound_values hs
    have hlt : ∀ v ∈ vs, v.value < k := fun v hv => h4 v (hsub hv)
    have h31 : ∀ v ∈ vs, v.value < 31 := fun v hv => by have := hlt v hv; omega
    have hb := sound_bounds hs h3
    unfold inBounds
    simp only [hb, Option.getD_some, Bool.and_eq_true, decide_eq_true_eq]
    rw [orBits_toInt h31, jsShl1_small (by omega)]
    have e1 : (1 : Int) ≤ ((orBits vs).toNat : Int) ↔ vs ≠ [] := by
      rw [← orBits_pos h31]
      omega
    have e2 : ((orBits vs).toNat : Int) ≤ 2 ^ (k - 1) ↔ (orBits vs).toNat ≤ 2 ^ (k - 1) := by
      exact_mod_cast Iff.rfl
    rw [e1, e2, orBits_le h1 (by omega) hlt]
    have hmem : l ∈ e.variants := List.mem_of_getLast? hl
    refine and_congr Iff.rfl ⟨fun h => ⟨?_, hle⟩, ?_⟩
    · intro last hlast hin v hv
      rw [hl] at hlast
      cases hlast
      exact sound_value_inj hs (hsub hv) hmem ((h ⟨l, hin, hlk⟩ v hv).trans hlk.symm)
    · rintro ⟨h, -⟩ ⟨v, hv, hvk⟩ w hw
      have : v = l := sound_value_inj hs (hsub hv) hmem (hvk.trans hlk.symm)
      subst this
      rw [h v hl hv w hw, hvk]
  · rw [big_never hs hle]
    simp [hle]

theorem passing_iff {e : REnum} {n : Num} (hs : SoundEnum e) (h : Combination e n) : PassingCombination e n ↔ FaithE e n := by
  constructor
  · rintro ⟨vs, hc, h1⟩
    exact ⟨combination_fits hs ⟨vs, hc⟩ h1.2.2, (combination_bounds hs hc).2 h1⟩
  · rintro ⟨-, hb⟩
    obtain ⟨vs, hc⟩ := h
    exact ⟨vs, hc, (combination_bounds hs hc).1 hb⟩

end Packetc.Js
