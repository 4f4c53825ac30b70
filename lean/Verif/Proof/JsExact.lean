import Verif.Proof.JsWire
import Verif.Spec.RoundTrip
/-!
# Which values survive encoding followed by decoding
-/

namespace Packetc.Js
open Check Gen

section
variable (rt : Runtime)

theorem big_never {e : REnum} (hs : SoundEnum e) (h : ¬ e.variants.length ≤ 31) (n : Num) : inBounds e n = false := by
  obtain ⟨k, h1, h2, h3, -⟩ := sound_values hs
  have hk : k = 32 := by omega
  subst hk
  have hb := sound_bounds hs h3
  cases n with
  | f32 _ => rfl
  | int i =>
    unfold inBounds
    simp only [hb, Option.getD_some]
    have : jsShl1 (32 - 1) = -2 ^ 31 := by decide
    rw [this]
    simp only [Bool.and_eq_false_iff, decide_eq_false_iff_not]
    omega

theorem small_faithful {e : REnum} {n : Num} (hs : SoundEnum e) (h : SmallVariant e n) : FaithE e n :=
  variant_faithful hs h.2 h.1

/-- Typed, faithfully. -/
theorem exact_state {t : RType} (he : EnumsT SoundEnum t) {j : JVal} (h : TypedT (FaithfulStr rt) SmallVariant t j)
    (tail : List UInt8) (c : Nat) : ∃ c', rdType rt t ⟨encode rt t j ++ tail, false, c⟩ = (some j, ⟨tail, false, c'⟩) :=
  dec_type rt t j (typedT_mono (fun _ h => h) (fun e n hp h => small_faithful (e := e) (n := n) hp h) t he j h) tail c

variable {P : Str → Prop}

theorem exact_many {t : RType} (he : EnumsT SoundEnum t) {js : List JVal}
    (ih : ∀ j ∈ js, ∀ tail c, (rdType rt t ⟨encode rt t j ++ tail, false, c⟩).2.failed = false →
      (rdType rt t ⟨encode rt t j ++ tail, false, c⟩).1 = some j → TypedT (FaithfulStr rt) SmallVariant t j)
    (tail : List UInt8) (c : Nat)
    (hf : (rdMany (rdType rt t) js.length ⟨(js.map fun x => encode rt t x).flatten ++ tail, false, c⟩).2.failed = false)
    (hv : (rdMany (rdType rt t) js.length ⟨(js.map fun x => encode rt t x).flatten ++ tail, false, c⟩).1 = js) :
    ∀ j ∈ js, TypedT (FaithfulStr rt) SmallVariant t j := by
  induction js generalizing c with
  | nil => simp
  | cons j js ihl =>
    rw [List.length_cons, List.map_cons, List.flatten_cons, List.append_assoc, rdMany] at hf hv
    simp only [List.cons.injEq] at hf hv
    obtain ⟨j0, h1, -⟩ := typed_type rt t _ (local_failed (local_many (local_type rt t) js.length) hf)
    have hj : TypedT (FaithfulStr rt) SmallVariant t j := by
      refine ih j List.mem_cons_self _ c (local_failed (local_many (local_type rt t) js.length) hf) ?_
      have := hv.1
      rw [h1, Option.getD_some] at this
      rw [h1, this]
    obtain ⟨c1, h2⟩ := exact_state rt he hj ((js.map fun x => encode rt t x).flatten ++ tail) c
    rw [h2] at hf hv
    intro x hx
    rcases List.mem_cons.1 hx with rfl | hx
    · exact hj
    · exact ihl (fun y hy => ih y (List.mem_cons_of_mem _ hy)) c1 hf hv.2 x hx

theorem exact_field (f : FieldOf RType) {S : Str → Prop} (he : EnumsT SoundEnum f.ty)
    (ih : ∀ j, TypedT S IsVariant f.ty j → ∀ tail c, (rdType rt f.ty ⟨encode rt f.ty j ++ tail, false, c⟩).2.failed = false →
      (rdType rt f.ty ⟨encode rt f.ty j ++ tail, false, c⟩).1 = some j → TypedT (FaithfulStr rt) SmallVariant f.ty j)
    (p : PropOf JVal) (hp : TypedF S IsVariant f p) (tail : List UInt8) (c : Nat)
    (hf : (rdField rt f ⟨encodeField rt f p.value ++ tail, false, c⟩).2.failed = false)
    (hv : (rdField rt f ⟨encodeField rt f p.value ++ tail, false, c⟩).1 = [p]) :
    TypedF (FaithfulStr rt) SmallVariant f p := by
  rw [typedF_iff] at hp ⊢
  obtain ⟨hn, hp⟩ := hp
  refine ⟨hn, ?_⟩
  have hb : okB S IsVariant f.ty f.array p.value → ∀ c,
      (rdB rt f.ty f.array ⟨encB rt f.ty f.array p.value ++ tail, false, c⟩).2.failed = false →
      (rdB rt f.ty f.array ⟨encB rt f.ty f.array p.value ++ tail, false, c⟩).1 = some p.value →
      okB (FaithfulStr rt) SmallVariant f.ty f.array p.value := by
    intro h c
    unfold okB at h ⊢
    unfold rdB encB
    split at h
    · rename_i ha
      obtain ⟨js, hj, hlen, hjs⟩ := h
      simp only [hj, if_pos ha, List.append_assoc]
      rw [readNum_enc rt (uint32_ok hlen)]
      simp only [Num.toNat, Int.toNat_natCast]
      intro hf hv
      simp only [Option.some.injEq, JVal.arr.injEq] at hv
      exact ⟨js, rfl, hlen, exact_many rt he (fun j hj => ih j (hjs j hj)) tail (c + 1) hf hv⟩
    · rename_i ha
      simp only [if_neg ha]
      exact ih _ h tail c
  have hc : ∀ o : Option JVal, component f.name o = [p] → o = some p.value := by
    intro o ho
    cases o with
    | none => exact absurd ho (by simp [component])
    | some j =>
      simp only [component, List.cons.injEq, and_true] at ho
      rw [← ho]
  rw [rdField_eq, encodeField_eq] at hf hv
  cases ho : f.optional with
  | false =>
    rw [ho] at hp hf hv
    simp only [Bool.false_eq_true, false_and, false_or, if_false] at hp hf hv ⊢
    exact hb hp c hf (hc _ hv)
  | true =>
    rw [ho] at hp hf hv
    simp only [true_and, if_true] at hp hf hv ⊢
    rcases hp with hp | hp
    · exact Or.inl hp
    · rw [encOpt_def rt _ (okB_ne_undef hp), List.append_assoc,
        readNum_enc rt (s := .uint8) (n := .int 1) ⟨by omega, by omega⟩] at hf hv
      have : (0 : Nat) < (Num.int 1).toNat := by decide
      simp only [if_pos this] at hf hv
      exact Or.inr (hb hp (c + 1) hf (hc _ hv))

mutual
theorem exact_type (hP : Honest rt P) : (t : RType) → EnumsT SoundEnum t → (j : JVal) →
    TypedT (fun s => ShortStr s ∧ P s) IsVariant t j → ∀ tail c,
    (rdType rt t ⟨encode rt t j ++ tail, false, c⟩).2.failed = false →
    (rdType rt t ⟨encode rt t j ++ tail, false, c⟩).1 = some j → TypedT (FaithfulStr rt) SmallVariant t j
  | .builtin b, _, j, h, tail, c => by
    cases hs : scalarOf b with
    | some s =>
      simp only [TypedT, hs] at h ⊢
      exact fun _ _ => h
    | none =>
      simp only [TypedT, hs] at h ⊢
      obtain ⟨s, rfl, hn, hl⟩ := h
      simp only [rdType, encode, hs, List.append_assoc]
      rw [readNum_enc rt (uint32_ok hn)]
      simp only [Num.toNat, Int.toNat_natCast]
      intro hf hv
      refine ⟨s, rfl, hn, ?_⟩
      by_contra hne
      unfold Runtime.readStr at hf hv
      by_cases hle : utf16Length s ≤ (rt.encS s ++ tail).length
      · rw [if_pos ⟨rfl, hle⟩] at hv
        simp only [Option.some.injEq, JVal.str.injEq] at hv
        exact hP s tail hl hne hle hv
      · rw [if_neg (fun hh => hle hh.2)] at hf
        exact absurd hf (by simp)
  | .enum e, he, j, h, tail, c => by
    obtain ⟨n, rfl, h1⟩ := h
    intro hf hv
    refine ⟨n, rfl, h1, ?_⟩
    by_contra hne
    rw [rdType, if_neg (by rw [big_never he hne]; simp)] at hf
    exact absurd hf (by simp)
  | .struct fs, he, j, h, tail, c => by
    obtain ⟨ps, rfl, hps⟩ := h
    intro hf hv
    simp only [rdType, encode, Option.some.injEq, JVal.obj.injEq] at hf hv
    exact ⟨ps, rfl, exact_fields hP fs he ps hps tail c hf hv⟩
theorem exact_fields (hP : Honest rt P) : (fs : List (FieldOf RType)) → EnumsFs SoundEnum fs → (ps : List (PropOf JVal)) →
    TypedFs (fun s => ShortStr s ∧ P s) IsVariant fs ps → ∀ tail c,
    (rdFields rt fs ⟨encodeFields rt fs ps ++ tail, false, c⟩).2.failed = false →
    (rdFields rt fs ⟨encodeFields rt fs ps ++ tail, false, c⟩).1 = ps → TypedFs (FaithfulStr rt) SmallVariant fs ps
  | [], _, ps, h, tail, c => fun _ _ => h
  | f :: fs, he, ps, h, tail, c => by
    obtain ⟨p, qs, rfl, hp, hqs⟩ := h
    intro hf hv
    simp only [rdFields, encodeFields, List.append_assoc] at hf hv
    have hff := local_failed (local_fields rt fs) hf
    obtain ⟨p', h1, -⟩ := typed_field rt f (typed_F rt f) _ hff
    have hpp : (rdField rt f ⟨encodeField rt f p.value ++ (encodeFields rt fs qs ++ tail), false, c⟩).1 = [p] := by
      rw [h1] at hv ⊢
      simp only [List.singleton_append, List.cons.injEq] at hv
      rw [hv.1]
    have hpt := exact_field rt f (by obtain ⟨_, _, t, _, _⟩ := f; exact he.1) (exact_F hP f he.1) p hp _ c hff hpp
    have hpt' : TypedF (FaithfulStr rt) FaithE f p :=
      typedF_mono (fun _ h => h) (fun e n hp h => small_faithful (e := e) (n := n) hp h) f he.1 p hpt
    obtain ⟨c1, h2⟩ := dec_field rt f _ _ (dec_F rt f) p hpt' (encodeFields rt fs qs ++ tail) c
    rw [h2] at hf hv
    simp only [List.singleton_append, List.cons.injEq, true_and] at hv
    exact ⟨p, qs, rfl, hpt, exact_fields hP fs he.2 qs hqs tail c1 hf hv⟩
theorem exact_F (hP : Honest rt P) : (f : FieldOf RType) → EnumsF SoundEnum f → ∀ j,
    TypedT (fun s => ShortStr s ∧ P s) IsVariant f.ty j → ∀ tail c,
    (rdType rt f.ty ⟨encode rt f.ty j ++ tail, false, c⟩).2.failed = false →
    (rdType rt f.ty ⟨encode rt f.ty j ++ tail, false, c⟩).1 = some j → TypedT (FaithfulStr rt) SmallVariant f.ty j
  | ⟨_, _, t, _, _⟩, he => exact_type hP t he
end

end
end Packetc.Js
