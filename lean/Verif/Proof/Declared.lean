import Verif.Proof.JsExact
import Verif.Proof.JsRep
/-!
# Which values of the declared types survive (proofs for C118)
-/

namespace Packetc.Js
open Check Gen

/-- What passes representation and range check of an enum. -/
theorem faith_iff {e : REnum} (hs : SoundEnum e) (n : Num) : FaithE e n ↔ BetweenVariants e n ∧ e.variants.length ≤ 31 := by
  constructor
  · intro h
    refine ⟨inBounds_between hs h.2, ?_⟩
    by_contra hne
    have := h.2
    rw [big_never hs hne] at this
    exact absurd this (by simp)
  · rintro ⟨⟨v, hv, w, hw, i, rfl, h1, h2⟩, h31⟩
    obtain ⟨-, h3⟩ := variant_faithful hs h31 ⟨v, hv, rfl⟩
    obtain ⟨h4, h5⟩ := variant_faithful hs h31 ⟨w, hw, rfl⟩
    unfold inBounds at h3 h5
    simp only [Bool.and_eq_true, decide_eq_true_eq] at h3 h5
    obtain ⟨k, hk1, hk2, hk3, -⟩ := sound_values hs
    have hb := sound_bounds hs hk3
    rw [hb] at h3 h5
    simp only [Option.getD_some] at h3 h5
    constructor
    · have h0 : (1 : Int) ≤ i := by omega
      revert h4
      cases e.repr <;>
      · rintro ⟨h6, h7⟩
        exact ⟨by omega, by omega⟩
    · unfold inBounds
      rw [hb]
      simp only [Option.getD_some, Bool.and_eq_true, decide_eq_true_eq]
      omega

section
variable {S S' : Str → Prop} {N N' : Scalar → Num → Prop} {E E' : REnum → Num → Prop}

mutual
theorem declaredT_mono (hS : ∀ s, S s → S' s) (hN : ∀ sc n, N sc n → N' sc n) (hE : ∀ e n, E e n → E' e n) : (t : RType) → (j : JVal) → DeclaredT S N E t j →
    DeclaredT S' N' E' t j
  | .builtin b, j, h => by
    unfold DeclaredT at h ⊢
    cases hs : scalarOf b with
    | none => rw [hs] at h; obtain ⟨s, h, h'⟩ := h; exact ⟨s, h, hS s h'⟩
    | some sc => rw [hs] at h; obtain ⟨n, h, h'⟩ := h; exact ⟨n, h, hN sc n h'⟩
  | .enum e, j, h => by obtain ⟨n, h, h'⟩ := h; exact ⟨n, h, hE _ n h'⟩
  | .struct fs, j, h => by obtain ⟨ps, h, h'⟩ := h; exact ⟨ps, h, declaredFs_mono hS hN hE fs ps h'⟩
theorem declaredFs_mono (hS : ∀ s, S s → S' s) (hN : ∀ sc n, N sc n → N' sc n) (hE : ∀ e n, E e n → E' e n) : (fs : List (FieldOf RType)) →
    (ps : List (PropOf JVal)) → DeclaredFs S N E fs ps → DeclaredFs S' N' E' fs ps
  | [], _, h => h
  | f :: fs, ps, h => by
    obtain ⟨p, qs, h0, h1, h2⟩ := h
    exact ⟨p, qs, h0, declaredF_mono hS hN hE f p h1, declaredFs_mono hS hN hE fs qs h2⟩
theorem declaredF_mono (hS : ∀ s, S s → S' s) (hN : ∀ sc n, N sc n → N' sc n) (hE : ∀ e n, E e n → E' e n) : (f : FieldOf RType) → (p : PropOf JVal) →
    DeclaredF S N E f p → DeclaredF S' N' E' f p
  | ⟨n, tn, t, a, o⟩, p, h => by
    have key := declaredT_mono hS hN hE t
    obtain ⟨hn, h⟩ := h
    refine ⟨hn, h.imp_right fun h => ?_⟩
    cases a with
    | false => exact key _ h
    | true =>
      obtain ⟨js, h1, h2, h3⟩ := h
      exact ⟨js, h1, h2, fun j hj => key j (h3 j hj)⟩
end
end

section
variable (rt : Runtime)

variable {P : Str → Prop} {N : Scalar → Num → Prop} {E : REnum → Num → Prop}

theorem kept_many {t : RType} {js : List JVal}
    (ih : ∀ j ∈ js, ∀ tail c, (rdType rt t ⟨encode rt t j ++ tail, false, c⟩).2.failed = false →
      (rdType rt t ⟨encode rt t j ++ tail, false, c⟩).1 = some j → TypedT (FaithfulStr rt) FaithE t j)
    (tail : List UInt8) (c : Nat)
    (hf : (rdMany (rdType rt t) js.length ⟨(js.map fun x => encode rt t x).flatten ++ tail, false, c⟩).2.failed = false)
    (hv : (rdMany (rdType rt t) js.length ⟨(js.map fun x => encode rt t x).flatten ++ tail, false, c⟩).1 = js) :
    ∀ j ∈ js, TypedT (FaithfulStr rt) FaithE t j := by
  induction js generalizing c with
  | nil => simp
  | cons j js ihl =>
    rw [List.length_cons, List.map_cons, List.flatten_cons, List.append_assoc, rdMany] at hf hv
    simp only [List.cons.injEq] at hf hv
    obtain ⟨j0, h1, -⟩ := typed_type rt t _ (local_failed (local_many (local_type rt t) js.length) hf)
    have hj : TypedT (FaithfulStr rt) FaithE t j := by
      refine ih j List.mem_cons_self _ c (local_failed (local_many (local_type rt t) js.length) hf) ?_
      have := hv.1
      rw [h1, Option.getD_some] at this
      rw [h1, this]
    obtain ⟨c1, h2⟩ := dec_type rt t j hj ((js.map fun x => encode rt t x).flatten ++ tail) c
    rw [h2] at hf hv
    intro x hx
    rcases List.mem_cons.1 hx with rfl | hx
    · exact hj
    · exact ihl (fun y hy => ih y (List.mem_cons_of_mem _ hy)) c1 hf hv.2 x hx

theorem kept_field (f : FieldOf RType) {S : Str → Prop}
    (ih : ∀ j, DeclaredT S N E f.ty j → ∀ tail c, (rdType rt f.ty ⟨encode rt f.ty j ++ tail, false, c⟩).2.failed = false →
      (rdType rt f.ty ⟨encode rt f.ty j ++ tail, false, c⟩).1 = some j → TypedT (FaithfulStr rt) FaithE f.ty j)
    (p : PropOf JVal) (hp : DeclaredF S N E f p) (tail : List UInt8) (c : Nat)
    (hf : (rdField rt f ⟨encodeField rt f p.value ++ tail, false, c⟩).2.failed = false)
    (hv : (rdField rt f ⟨encodeField rt f p.value ++ tail, false, c⟩).1 = [p]) :
    TypedF (FaithfulStr rt) FaithE f p := by
  rw [declaredF_iff] at hp
  rw [typedF_iff]
  obtain ⟨hn, hp⟩ := hp
  refine ⟨hn, ?_⟩
  have hb : okD S N E f.ty f.array p.value → ∀ c,
      (rdB rt f.ty f.array ⟨encB rt f.ty f.array p.value ++ tail, false, c⟩).2.failed = false →
      (rdB rt f.ty f.array ⟨encB rt f.ty f.array p.value ++ tail, false, c⟩).1 = some p.value →
      okB (FaithfulStr rt) FaithE f.ty f.array p.value := by
    intro h c
    unfold okD at h
    unfold okB
    unfold rdB encB
    split at h
    · rename_i ha
      obtain ⟨js, hj, hlen, hjs⟩ := h
      simp only [hj, if_pos ha, List.append_assoc]
      rw [readNum_enc rt (uint32_ok hlen)]
      simp only [Num.toNat, Int.toNat_natCast]
      intro hf hv
      simp only [Option.some.injEq, JVal.arr.injEq] at hv
      exact ⟨js, rfl, hlen, kept_many rt (fun j hj => ih j (hjs j hj)) tail (c + 1) hf hv⟩
    · rename_i ha
      simp only [if_neg ha]
      exact ih _ h tail c
  have hc : ∀ o : Option JVal, component f.name o = [p] → o = some p.value := by
    intro o ho
    cases o with
    | none => exact absurd ho (by simp [component])
    | some j =>
      simp only [component, List.cons.injEq, and_true] at ho
      rw [← ho]
  rw [rdField_eq, encodeField_eq] at hf hv
  cases ho : f.optional with
  | false =>
    rw [ho] at hp hf hv
    simp only [Bool.false_eq_true, false_and, false_or, if_false] at hp hf hv ⊢
    exact hb hp c hf (hc _ hv)
  | true =>
    rw [ho] at hp hf hv
    simp only [true_and, if_true] at hp hf hv ⊢
    rcases hp with hp | hp
    · exact Or.inl hp
    · rw [encOpt_def rt _ (okD_ne_undef hp), List.append_assoc,
        readNum_enc rt (s := .uint8) (n := .int 1) ⟨by omega, by omega⟩] at hf hv
      have : (0 : Nat) < (Num.int 1).toNat := by decide
      simp only [if_pos this] at hf hv
      exact Or.inr (hb hp (c + 1) hf (hc _ hv))

mutual
theorem kept_type (hP : Honest rt P) : (t : RType) → (j : JVal) →
    DeclaredT (fun s => ShortStr s ∧ P s) N E t j → ∀ tail c,
    (rdType rt t ⟨encode rt t j ++ tail, false, c⟩).2.failed = false →
    (rdType rt t ⟨encode rt t j ++ tail, false, c⟩).1 = some j → TypedT (FaithfulStr rt) FaithE t j
  | .builtin b, j, h, tail, c => by
    cases hs : scalarOf b with
    | some s =>
      simp only [DeclaredT, hs] at h
      simp only [TypedT, hs]
      obtain ⟨n, rfl, -⟩ := h
      simp only [rdType, encode, hs]
      intro _ hv
      simp only [Option.some.injEq, JVal.num.injEq] at hv
      exact ⟨n, rfl, hv ▸ readNum_ok rt s _⟩
    | none =>
      simp only [DeclaredT, hs] at h
      simp only [TypedT, hs]
      obtain ⟨s, rfl, hn, hl⟩ := h
      simp only [rdType, encode, hs, List.append_assoc]
      rw [readNum_enc rt (uint32_ok hn)]
      simp only [Num.toNat, Int.toNat_natCast]
      intro hf hv
      refine ⟨s, rfl, hn, ?_⟩
      by_contra hne
      unfold Runtime.readStr at hf hv
      by_cases hle : utf16Length s ≤ (rt.encS s ++ tail).length
      · rw [if_pos ⟨rfl, hle⟩] at hv
        simp only [Option.some.injEq, JVal.str.injEq] at hv
        exact hP s tail hl hne hle hv
      · rw [if_neg (fun hh => hle hh.2)] at hf
        exact absurd hf (by simp)
  | .enum e, j, h, tail, c => by
    obtain ⟨n, rfl, -⟩ := h
    intro hf hv
    rw [rdType] at hf hv
    split at hf
    · rename_i hb
      rw [if_pos hb] at hv
      simp only [Option.some.injEq, JVal.num.injEq] at hv
      exact ⟨n, rfl, hv ▸ readNum_ok rt _ _, hv ▸ hb⟩
    · exact absurd hf (by simp)
  | .struct fs, j, h, tail, c => by
    obtain ⟨ps, rfl, hps⟩ := h
    intro hf hv
    simp only [rdType, encode, Option.some.injEq, JVal.obj.injEq] at hf hv
    exact ⟨ps, rfl, kept_fields hP fs ps hps tail c hf hv⟩
theorem kept_fields (hP : Honest rt P) : (fs : List (FieldOf RType)) → (ps : List (PropOf JVal)) →
    DeclaredFs (fun s => ShortStr s ∧ P s) N E fs ps → ∀ tail c,
    (rdFields rt fs ⟨encodeFields rt fs ps ++ tail, false, c⟩).2.failed = false →
    (rdFields rt fs ⟨encodeFields rt fs ps ++ tail, false, c⟩).1 = ps → TypedFs (FaithfulStr rt) FaithE fs ps
  | [], ps, h, tail, c => fun _ _ => h
  | f :: fs, ps, h, tail, c => by
    obtain ⟨p, qs, rfl, hp, hqs⟩ := h
    intro hf hv
    simp only [rdFields, encodeFields, List.append_assoc] at hf hv
    have hff := local_failed (local_fields rt fs) hf
    obtain ⟨p', h1, -⟩ := typed_field rt f (typed_F rt f) _ hff
    have hpp : (rdField rt f ⟨encodeField rt f p.value ++ (encodeFields rt fs qs ++ tail), false, c⟩).1 = [p] := by
      rw [h1] at hv ⊢
      simp only [List.singleton_append, List.cons.injEq] at hv
      rw [hv.1]
    have hpt := kept_field rt f (kept_F hP f) p hp _ c hff hpp
    obtain ⟨c1, h2⟩ := dec_field rt f _ _ (dec_F rt f) p hpt (encodeFields rt fs qs ++ tail) c
    rw [h2] at hf hv
    simp only [List.singleton_append, List.cons.injEq, true_and] at hv
    exact ⟨p, qs, rfl, hpt, kept_fields hP fs qs hqs tail c1 hf hv⟩
theorem kept_F (hP : Honest rt P) : (f : FieldOf RType) → ∀ j,
    DeclaredT (fun s => ShortStr s ∧ P s) N E f.ty j → ∀ tail c,
    (rdType rt f.ty ⟨encode rt f.ty j ++ tail, false, c⟩).2.failed = false →
    (rdType rt f.ty ⟨encode rt f.ty j ++ tail, false, c⟩).1 = some j → TypedT (FaithfulStr rt) FaithE f.ty j
  | ⟨_, _, t, _, _⟩ => kept_type hP t
end

/-! ### combining conditions -/

mutual
theorem combineT {S S' : Str → Prop} {N : Scalar → Num → Prop} {E E' : REnum → Num → Prop} : (t : RType) → (j : JVal) →
    TypedT S E t j → DeclaredT S' N E' t j → TypedT S E' t j
  | .builtin b, j, h, _ => by
    unfold TypedT at h ⊢
    exact h
  | .enum e, j, _, h => h
  | .struct fs, j, h, h' => by
    obtain ⟨ps, rfl, h⟩ := h
    obtain ⟨ps', hp, h'⟩ := h'
    cases hp
    exact ⟨ps, rfl, combineFs fs ps h h'⟩
theorem combineFs {S S' : Str → Prop} {N : Scalar → Num → Prop} {E E' : REnum → Num → Prop} : (fs : List (FieldOf RType)) →
    (ps : List (PropOf JVal)) → TypedFs S E fs ps → DeclaredFs S' N E' fs ps → TypedFs S E' fs ps
  | [], _, h, _ => h
  | f :: fs, ps, h, h' => by
    obtain ⟨p, qs, rfl, h1, h2⟩ := h
    obtain ⟨p', qs', hp, h1', h2'⟩ := h'
    cases hp
    exact ⟨p, qs, rfl, combineF f p h1 h1', combineFs fs qs h2 h2'⟩
theorem combineF {S S' : Str → Prop} {N : Scalar → Num → Prop} {E E' : REnum → Num → Prop} : (f : FieldOf RType) →
    (p : PropOf JVal) → TypedF S E f p → DeclaredF S' N E' f p → TypedF S E' f p
  | ⟨n, tn, t, a, o⟩, p, h, h' => by
    have key := fun j => combineT (S := S) (S' := S') (N := N) (E := E) (E' := E') t j
    obtain ⟨hn, h⟩ := h
    obtain ⟨-, h'⟩ := h'
    refine ⟨hn, ?_⟩
    rcases h with h | h
    · exact .inl h
    · rcases h' with h' | h'
      · exact .inl h'
      · right
        cases a with
        | false => exact key _ h h'
        | true =>
          obtain ⟨js, hj, hl, h⟩ := h
          obtain ⟨js', hj', -, h'⟩ := h'
          rw [hj] at hj'
          cases hj'
          exact ⟨js, hj, hl, fun j hm => key j (h j hm) (h' j hm)⟩
end

/-! ### numbers in range: only enums can be rejected -/

/-- The number fits in the representation of the enum. -/
def InReprE (e : REnum) (n : Num) : Prop := (reprScalar e.repr).Ok n

theorem fit_many {t : RType} {js : List JVal}
    (ih : ∀ j ∈ js, ∀ tail c, (rdType rt t ⟨encode rt t j ++ tail, false, c⟩).2.failed = false →
      TypedT (FaithfulStr rt) FaithE t j)
    (tail : List UInt8) (c : Nat)
    (hf : (rdMany (rdType rt t) js.length ⟨(js.map fun x => encode rt t x).flatten ++ tail, false, c⟩).2.failed = false) :
    ∀ j ∈ js, TypedT (FaithfulStr rt) FaithE t j := by
  induction js generalizing c with
  | nil => simp
  | cons j js ihl =>
    rw [List.length_cons, List.map_cons, List.flatten_cons, List.append_assoc, rdMany] at hf
    simp only at hf
    have hj : TypedT (FaithfulStr rt) FaithE t j :=
      ih j List.mem_cons_self _ c (local_failed (local_many (local_type rt t) js.length) hf)
    obtain ⟨c1, h2⟩ := dec_type rt t j hj ((js.map fun x => encode rt t x).flatten ++ tail) c
    rw [h2] at hf
    intro x hx
    rcases List.mem_cons.1 hx with rfl | hx
    · exact hj
    · exact ihl (fun y hy => ih y (List.mem_cons_of_mem _ hy)) c1 hf x hx

theorem fit_field (f : FieldOf RType)
    (ih : ∀ j, TypedT (FaithfulStr rt) InReprE f.ty j → ∀ tail c,
      (rdType rt f.ty ⟨encode rt f.ty j ++ tail, false, c⟩).2.failed = false → TypedT (FaithfulStr rt) FaithE f.ty j)
    (p : PropOf JVal) (hp : TypedF (FaithfulStr rt) InReprE f p) (tail : List UInt8) (c : Nat)
    (hf : (rdField rt f ⟨encodeField rt f p.value ++ tail, false, c⟩).2.failed = false) :
    TypedF (FaithfulStr rt) FaithE f p := by
  rw [typedF_iff] at hp ⊢
  obtain ⟨hn, hp⟩ := hp
  refine ⟨hn, ?_⟩
  have hb : okB (FaithfulStr rt) InReprE f.ty f.array p.value → ∀ c,
      (rdB rt f.ty f.array ⟨encB rt f.ty f.array p.value ++ tail, false, c⟩).2.failed = false →
      okB (FaithfulStr rt) FaithE f.ty f.array p.value := by
    intro h c
    unfold okB at h ⊢
    unfold rdB encB
    split at h
    · rename_i ha
      obtain ⟨js, hj, hlen, hjs⟩ := h
      simp only [hj, if_pos ha, List.append_assoc]
      rw [readNum_enc rt (uint32_ok hlen)]
      simp only [Num.toNat, Int.toNat_natCast]
      intro hf
      exact ⟨js, rfl, hlen, fit_many rt (fun j hj => ih j (hjs j hj)) tail (c + 1) hf⟩
    · rename_i ha
      simp only [if_neg ha]
      exact ih _ h tail c
  rw [rdField_eq, encodeField_eq] at hf
  cases ho : f.optional with
  | false =>
    rw [ho] at hp hf
    simp only [Bool.false_eq_true, false_and, false_or, if_false] at hp hf ⊢
    exact hb hp c hf
  | true =>
    rw [ho] at hp hf
    simp only [true_and, if_true] at hp hf ⊢
    rcases hp with hp | hp
    · exact Or.inl hp
    · rw [encOpt_def rt _ (okB_ne_undef hp), List.append_assoc,
        readNum_enc rt (s := .uint8) (n := .int 1) ⟨by omega, by omega⟩] at hf
      have : (0 : Nat) < (Num.int 1).toNat := by decide
      simp only [if_pos this] at hf
      exact Or.inr (hb hp (c + 1) hf)

mutual
theorem fit_type : (t : RType) → (j : JVal) → TypedT (FaithfulStr rt) InReprE t j → ∀ tail c,
    (rdType rt t ⟨encode rt t j ++ tail, false, c⟩).2.failed = false → TypedT (FaithfulStr rt) FaithE t j
  | .builtin b, j, h, tail, c => by
    intro _
    unfold TypedT at h ⊢
    exact h
  | .enum e, j, h, tail, c => by
    obtain ⟨n, rfl, h⟩ := h
    intro hf
    rw [rdType] at hf
    split at hf
    · rename_i hb
      have he : encode rt (.enum e) (.num n) = rt.enc (reprScalar e.repr) n := rfl
      rw [he, readNum_enc rt h] at hb
      exact ⟨n, rfl, h, hb⟩
    · exact absurd hf (by simp)
  | .struct fs, j, h, tail, c => by
    obtain ⟨ps, rfl, hps⟩ := h
    intro hf
    simp only [rdType, encode] at hf
    exact ⟨ps, rfl, fit_fields fs ps hps tail c hf⟩
theorem fit_fields : (fs : List (FieldOf RType)) → (ps : List (PropOf JVal)) → TypedFs (FaithfulStr rt) InReprE fs ps → ∀ tail c,
    (rdFields rt fs ⟨encodeFields rt fs ps ++ tail, false, c⟩).2.failed = false → TypedFs (FaithfulStr rt) FaithE fs ps
  | [], ps, h, tail, c => fun _ => h
  | f :: fs, ps, h, tail, c => by
    obtain ⟨p, qs, rfl, hp, hqs⟩ := h
    intro hf
    simp only [rdFields, encodeFields, List.append_assoc] at hf
    have hpt := fit_field rt f (fit_F f) p hp _ c (local_failed (local_fields rt fs) hf)
    obtain ⟨c1, h2⟩ := dec_field rt f _ _ (dec_F rt f) p hpt (encodeFields rt fs qs ++ tail) c
    rw [h2] at hf
    exact ⟨p, qs, rfl, hpt, fit_fields fs qs hqs tail c1 hf⟩
theorem fit_F : (f : FieldOf RType) → ∀ j, TypedT (FaithfulStr rt) InReprE f.ty j → ∀ tail c,
    (rdType rt f.ty ⟨encode rt f.ty j ++ tail, false, c⟩).2.failed = false → TypedT (FaithfulStr rt) FaithE f.ty j
  | ⟨_, _, t, _, _⟩ => fit_type t
end

/-! ### wrapping -/

theorem wrap_ok {sc : Scalar} {n : Num} (h : SameKind sc n) : sc.Ok (wrapNum sc n) := by
  cases sc
  case float =>
    cases n with
    | int i => exact absurd h (by simp [SameKind, Scalar.Ok])
    | f32 b => exact h
  all_goals
    obtain ⟨i, rfl⟩ := h
    simp only [wrapNum, wrapInt, Scalar.Ok]
    omega

theorem sameKind_repr {e : REnum} {n : Num} (h : AnyInt e n) : SameKind (reprScalar e.repr) n := by
  cases e.repr <;> exact h

theorem wrap_same {sc : Scalar} {n : Num} (h : sc.Ok n) : wrapNum sc n = n := by
  cases sc <;> cases n <;> simp only [Scalar.Ok] at h <;> simp only [wrapNum, wrapInt, Num.int.injEq] <;> omega

theorem wrap_enc (hw : WritesLowBits rt) {sc : Scalar} {n : Num} (h : SameKind sc n) : rt.enc sc (wrapNum sc n) = rt.enc sc n := by
  cases n with
  | f32 b => rfl
  | int i =>
    by_cases hs : sc = .float
    · subst hs
      exact absurd h (by simp [SameKind, Scalar.Ok])
    · exact (hw sc i hs).symm

theorem wrapF_undef (f : FieldOf RType) : wrapF f .undef = .undef := by
  obtain ⟨_, _, t, a, _⟩ := f
  unfold wrapF
  cases a
  · simp only [Bool.false_eq_true, if_false]
    cases t with
    | builtin b => unfold wrapT; cases scalarOf b <;> rfl
    | enum e => rfl
    | struct fs => rfl
  · rfl

variable {S : Str → Prop}

mutual
theorem wrapT_typed : (t : RType) → (j : JVal) → DeclaredT S SameKind AnyInt t j → TypedT S InReprE t (wrapT t j)
  | .builtin b, j, h => by
    cases hs : scalarOf b with
    | none =>
      simp only [DeclaredT, hs] at h
      obtain ⟨s, rfl, h⟩ := h
      simp only [TypedT, wrapT, hs]
      exact ⟨s, rfl, h⟩
    | some sc =>
      simp only [DeclaredT, hs] at h
      obtain ⟨n, rfl, h⟩ := h
      simp only [TypedT, wrapT, hs]
      exact ⟨_, rfl, wrap_ok h⟩
  | .enum e, j, h => by
    obtain ⟨n, rfl, h⟩ := h
    exact ⟨_, rfl, wrap_ok (sameKind_repr h)⟩
  | .struct fs, j, h => by
    obtain ⟨ps, rfl, h⟩ := h
    exact ⟨_, rfl, wrapFs_typed fs ps h⟩
theorem wrapFs_typed : (fs : List (FieldOf RType)) → (ps : List (PropOf JVal)) → DeclaredFs S SameKind AnyInt fs ps →
    TypedFs S InReprE fs (wrapFs fs ps)
  | [], ps, h => h
  | f :: fs, ps, h => by
    obtain ⟨p, qs, rfl, h1, h2⟩ := h
    exact ⟨_, _, rfl, wrapF_typed f p h1, wrapFs_typed fs qs h2⟩
theorem wrapF_typed : (f : FieldOf RType) → (p : PropOf JVal) → DeclaredF S SameKind AnyInt f p →
    TypedF S InReprE f ⟨p.name, wrapF f p.value⟩
  | ⟨n, tn, t, a, o⟩, p, h => by
    have key := wrapT_typed t
    obtain ⟨hn, h⟩ := h
    refine ⟨hn, ?_⟩
    simp only at h ⊢
    rcases h with ⟨h1, h2⟩ | h
    · exact Or.inl ⟨h1, by rw [h2, wrapF_undef]⟩
    · right
      cases a with
      | false => exact key _ h
      | true =>
        obtain ⟨js, hj, hl, h⟩ := h
        rw [hj]
        refine ⟨js.map fun x => wrapT t x, rfl, by simpa using hl, ?_⟩
        intro x hx
        obtain ⟨y, hy, rfl⟩ := List.mem_map.1 hx
        exact key y (h y hy)
end

mutual
theorem wrapT_encode (hw : WritesLowBits rt) : (t : RType) → (j : JVal) → DeclaredT S SameKind AnyInt t j →
    encode rt t (wrapT t j) = encode rt t j
  | .builtin b, j, h => by
    cases hs : scalarOf b with
    | none =>
      simp only [DeclaredT, hs] at h
      obtain ⟨s, rfl, h⟩ := h
      simp only [wrapT, hs]
    | some sc =>
      simp only [DeclaredT, hs] at h
      obtain ⟨n, rfl, h⟩ := h
      simp only [wrapT, encode, hs]
      exact wrap_enc rt hw h
  | .enum e, j, h => by
    obtain ⟨n, rfl, h⟩ := h
    exact wrap_enc rt hw (sameKind_repr h)
  | .struct fs, j, h => by
    obtain ⟨ps, rfl, h⟩ := h
    exact wrapFs_encode hw fs ps h
theorem wrapFs_encode (hw : WritesLowBits rt) : (fs : List (FieldOf RType)) → (ps : List (PropOf JVal)) →
    DeclaredFs S SameKind AnyInt fs ps → encodeFields rt fs (wrapFs fs ps) = encodeFields rt fs ps
  | [], ps, h => rfl
  | f :: fs, ps, h => by
    obtain ⟨p, qs, rfl, h1, h2⟩ := h
    show encodeField rt f (wrapF f p.value) ++ encodeFields rt fs (wrapFs fs qs) = _
    rw [wrapF_encode hw f p h1, wrapFs_encode hw fs qs h2]
    rfl
theorem wrapF_encode (hw : WritesLowBits rt) : (f : FieldOf RType) → (p : PropOf JVal) → DeclaredF S SameKind AnyInt f p →
    encodeField rt f (wrapF f p.value) = encodeField rt f p.value
  | ⟨n, tn, t, a, o⟩, p, h => by
    have key := wrapT_encode hw t
    have htyped := wrapF_typed _ p h
    have hnu : ∀ j, okB S InReprE t a j → j ≠ .undef := fun j h => okB_ne_undef h
    rw [declaredF_iff] at h
    obtain ⟨hn, h⟩ := h
    rcases h with ⟨h1, h2⟩ | h
    · rw [h2, wrapF_undef]
    · have hb : encB rt t a (wrapF ⟨n, tn, t, a, o⟩ p.value) = encB rt t a p.value := by
        unfold encB wrapF
        unfold okD at h
        simp only at h
        cases a with
        | false =>
          simp only [Bool.false_eq_true, if_false] at h ⊢
          exact key _ h
        | true =>
          simp only [if_true] at h ⊢
          obtain ⟨js, hj, hl, h⟩ := h
          rw [hj]
          simp only [List.length_map, List.map_map]
          congr 2
          exact List.map_congr_left fun x hx => key x (h x hx)
      have hu := okD_ne_undef h
      have hu' : wrapF ⟨n, tn, t, a, o⟩ p.value ≠ .undef := by
        intro hh
        have := okD_ne_undef h
        unfold okD at h
        simp only at h
        cases a with
        | true =>
          obtain ⟨js, hj, -⟩ := h
          rw [hj] at hh
          exact absurd hh (by simp [wrapF])
        | false =>
          simp only [wrapF, Bool.false_eq_true, if_false] at hh h
          exact typedT_ne_undef (wrapT_typed t _ h) hh
      rw [encodeField_eq, encodeField_eq]
      cases o with
      | false => exact hb
      | true =>
        simp only [if_true]
        rw [encOpt_def rt _ hu, encOpt_def rt _ hu', hb]
end

/-- The library of the examples writes the lowest bits. -/
theorem leUtf8_low : WritesLowBits leUtf8 := by
  intro sc i hs
  show leBytes _ _ = leBytes _ _
  congr 2
  cases sc <;> simp only [Scalar.width, wrapInt] <;> first | exact absurd rfl hs | (norm_num; try omega)

end
end Packetc.Js
