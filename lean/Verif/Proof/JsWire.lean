import Mathlib.Tactic.IntervalCases
import Verif.Proof.JsTop
/-!
# Decoding inverts encoding; decoding is local; decoded values are typed
-/

namespace Packetc.Js
open Check Gen

section
variable (rt : Runtime)

theorem readNum_enc {s : Scalar} {n : Num} (h : s.Ok n) (tail : List UInt8) (c : Nat) :
    rt.readNum s ⟨rt.enc s n ++ tail, false, c⟩ = (n, ⟨tail, false, c + 1⟩) := by
  unfold Runtime.readNum
  have hl := rt.enc_len s n
  rw [if_pos ⟨by simp, by simp [hl]⟩]
  simp only [List.take_left' hl, List.drop_left' hl, rt.dec_enc s n h]

theorem readStr_enc {s : Str} {k : Nat} (h : (rt.encS s).length = k) (tail : List UInt8) (c : Nat) :
    rt.readStr k ⟨rt.encS s ++ tail, false, c⟩ = (s, ⟨tail, false, c + 1⟩) := by
  unfold Runtime.readStr
  rw [if_pos ⟨rfl, by simp [h]⟩]
  simp only [List.take_left' h, List.drop_left' h, rt.decS_encS s]

/-- The number survives the enum's representation and range check. -/
def FaithE (e : REnum) (n : Num) : Prop := (reprScalar e.repr).Ok n ∧ inBounds e n = true

theorem dec_many {f : RState → Option JVal × RState} {enc : JVal → List UInt8} {js : List JVal}
    (h : ∀ j ∈ js, ∀ tail c, ∃ c', f ⟨enc j ++ tail, false, c⟩ = (some j, ⟨tail, false, c'⟩)) (tail : List UInt8) (c : Nat) :
    ∃ c', rdMany f js.length ⟨(js.map enc).flatten ++ tail, false, c⟩ = (js, ⟨tail, false, c'⟩) := by
  induction js generalizing c with
  | nil => exact ⟨c, rfl⟩
  | cons j js ih =>
    obtain ⟨c1, h1⟩ := h j List.mem_cons_self ((js.map enc).flatten ++ tail) c
    obtain ⟨c2, h2⟩ := ih (fun x hx => h x (List.mem_cons_of_mem _ hx)) c1
    refine ⟨c2, ?_⟩
    have : rdMany f (j :: js).length ⟨((j :: js).map enc).flatten ++ tail, false, c⟩ =
        rdMany f (js.length + 1) ⟨enc j ++ ((js.map enc).flatten ++ tail), false, c⟩ := by
      rw [List.length_cons, List.map_cons, List.flatten_cons, List.append_assoc]
    rw [this, rdMany, h1]
    simp only [h2, Option.getD_some]

theorem uint32_ok {k : Nat} (h : k < 2 ^ 32) : Scalar.uint32.Ok (.int k) := ⟨by omega, by omega⟩

theorem dec_field (f : FieldOf RType) (S : Str → Prop) (E : REnum → Num → Prop)
    (ih : ∀ j, TypedT S E f.ty j → ∀ tail c, ∃ c', rdType rt f.ty ⟨encode rt f.ty j ++ tail, false, c⟩ =
      (some j, ⟨tail, false, c'⟩)) (p : PropOf JVal) (hp : TypedF S E f p) (tail : List UInt8) (c : Nat) :
    ∃ c', rdField rt f ⟨encodeField rt f p.value ++ tail, false, c⟩ = ([p], ⟨tail, false, c'⟩) := by
  rw [typedF_iff] at hp
  obtain ⟨hn, hp⟩ := hp
  have hb : okB S E f.ty f.array p.value → ∀ c, ∃ c', rdB rt f.ty f.array ⟨encB rt f.ty f.array p.value ++ tail, false, c⟩ =
      (some p.value, ⟨tail, false, c'⟩) := by
    intro h c
    unfold okB at h
    unfold rdB encB
    split at h
    · rename_i ha
      obtain ⟨js, hj, hlen, hjs⟩ := h
      simp only [hj, if_pos ha, List.append_assoc]
      rw [readNum_enc rt (uint32_ok hlen)]
      simp only [Num.toNat, Int.toNat_natCast]
      obtain ⟨c2, h2⟩ := dec_many (f := rdType rt f.ty) (enc := fun x => encode rt f.ty x) (fun j hj => ih j (hjs j hj)) tail (c + 1)
      refine ⟨c2, ?_⟩
      simp only [h2]
    · rename_i ha
      simp only [if_neg ha]
      exact ih _ h tail c
  have hpe : component f.name (some p.value) = [p] := by
    rw [← hn]; rfl
  rw [rdField_eq, encodeField_eq]
  cases ho : f.optional with
  | false =>
    rw [ho] at hp
    simp only [Bool.false_eq_true, false_and, false_or, if_false] at hp ⊢
    obtain ⟨c1, h1⟩ := hb hp c
    refine ⟨c1, ?_⟩
    rw [h1, hpe]
  | true =>
    rw [ho] at hp
    simp only [true_and, if_true] at hp ⊢
    rcases hp with hp | hp
    · refine ⟨c + 1, ?_⟩
      rw [hp, encOpt_undef, readNum_enc rt (s := .uint8) (n := .int 0) ⟨by omega, by omega⟩]
      simp only [Num.toNat, Int.toNat_zero, Nat.lt_irrefl, if_false]
      rw [← hn, ← hp]
    · obtain ⟨c1, h1⟩ := hb hp (c + 1)
      refine ⟨c1, ?_⟩
      rw [encOpt_def rt _ (okB_ne_undef hp), List.append_assoc,
        readNum_enc rt (s := .uint8) (n := .int 1) ⟨by omega, by omega⟩]
      have : (0 : Nat) < (Num.int 1).toNat := by decide
      simp only [if_pos this]
      rw [h1, hpe]

mutual
theorem dec_type : (t : RType) → (j : JVal) → TypedT (FaithfulStr rt) FaithE t j → ∀ tail c,
    ∃ c', rdType rt t ⟨encode rt t j ++ tail, false, c⟩ = (some j, ⟨tail, false, c'⟩)
  | .builtin b, j, h, tail, c => by
    cases hs : scalarOf b with
    | some s =>
      simp only [TypedT, hs] at h
      obtain ⟨n, rfl, hn⟩ := h
      refine ⟨c + 1, ?_⟩
      simp only [rdType, encode, hs]
      rw [readNum_enc rt hn]
    | none =>
      simp only [TypedT, hs] at h
      obtain ⟨s, rfl, hn, hl⟩ := h
      refine ⟨c + 2, ?_⟩
      simp only [rdType, encode, hs, List.append_assoc]
      rw [readNum_enc rt (uint32_ok hn)]
      simp only [Num.toNat, Int.toNat_natCast]
      rw [readStr_enc rt hl]
  | .enum e, j, h, tail, c => by
    obtain ⟨n, rfl, h1, h2⟩ := h
    refine ⟨c + 1, ?_⟩
    show rdType rt (.enum e) ⟨rt.enc (reprScalar e.repr) n ++ tail, false, c⟩ = _
    rw [rdType, readNum_enc rt h1]
    simp only [h2, if_true]
  | .struct fs, j, h, tail, c => by
    obtain ⟨ps, rfl, hps⟩ := h
    obtain ⟨c1, h1⟩ := dec_fields fs ps hps tail c
    refine ⟨c1, ?_⟩
    simp only [rdType, encode, h1]
theorem dec_fields : (fs : List (FieldOf RType)) → (ps : List (PropOf JVal)) →
    TypedFs (FaithfulStr rt) FaithE fs ps → ∀ tail c,
    ∃ c', rdFields rt fs ⟨encodeFields rt fs ps ++ tail, false, c⟩ = (ps, ⟨tail, false, c'⟩)
  | [], ps, h, tail, c => by
    have : ps = [] := h
    subst this
    exact ⟨c, rfl⟩
  | f :: fs, ps, h, tail, c => by
    obtain ⟨p, qs, rfl, hp, hqs⟩ := h
    obtain ⟨c1, h1⟩ := dec_field rt f _ _ (dec_F f) p hp (encodeFields rt fs qs ++ tail) c
    obtain ⟨c2, h2⟩ := dec_fields fs qs hqs tail c1
    refine ⟨c2, ?_⟩
    simp only [rdFields, encodeFields, List.append_assoc, h1, h2, List.singleton_append]
theorem dec_F : (f : FieldOf RType) → ∀ j, TypedT (FaithfulStr rt) FaithE f.ty j → ∀ tail c,
    ∃ c', rdType rt f.ty ⟨encode rt f.ty j ++ tail, false, c⟩ = (some j, ⟨tail, false, c'⟩)
  | ⟨_, _, t, _, _⟩ => dec_type t
end

/-! ### Locality -/

/-- A successful run consumes a prefix of the bytes, makes at most one call per byte, and would do the same whatever
follows that prefix. -/
def Local {α : Type} (f : RState → α × RState) : Prop :=
  ∀ r, (f r).2.failed = false → r.failed = false ∧ ∃ used k, r.rest = used ++ (f r).2.rest ∧
    (f r).2.calls = r.calls + k ∧ k ≤ used.length ∧
    ∀ tail c, f ⟨used ++ tail, false, c⟩ = ((f r).1, ⟨tail, false, c + k⟩)

theorem local_pure {α : Type} (a : α) : Local fun r => (a, r) := by
  intro r h
  exact ⟨h, [], 0, by simp, rfl, by simp, fun tail c => rfl⟩

theorem local_bind {α β : Type} {f : RState → α × RState} {g : α → RState → β × RState} (hf : Local f)
    (hg : ∀ a, Local (g a)) : Local fun r => g (f r).1 (f r).2 := by
  intro r h
  obtain ⟨h1, u2, k2, e2, c2, l2, t2⟩ := hg _ _ h
  obtain ⟨h3, u1, k1, e1, c1, l1, t1⟩ := hf _ h1
  refine ⟨h3, u1 ++ u2, k1 + k2, ?_, ?_, ?_, ?_⟩
  · rw [List.append_assoc, ← e2]
    exact e1
  · rw [c2, c1, Nat.add_assoc]
  · rw [List.length_append]
    omega
  · intro tail c
    simp only [List.append_assoc, t1, t2, Nat.add_assoc]

theorem local_map {α β : Type} {f : RState → α × RState} (hf : Local f) (g : α → β) :
    Local fun r => (g (f r).1, (f r).2) := local_bind hf fun a => local_pure (g a)

theorem local_congr {α : Type} {f g : RState → α × RState} (hf : Local f) (h : ∀ r, g r = f r) : Local g := by
  have : g = f := funext h
  rw [this]
  exact hf

theorem readNum_local (s : Scalar) : Local (rt.readNum s) := by
  intro r h
  unfold Runtime.readNum at h ⊢
  by_cases hc : r.failed = false ∧ s.width ≤ r.rest.length
  · simp only [if_pos hc] at h ⊢
    refine ⟨hc.1, r.rest.take s.width, 1, (List.take_append_drop _ _).symm, by simp, ?_, ?_⟩
    · rw [List.length_take, Nat.min_eq_left hc.2]
      cases s <;> decide
    · intro tail c
      have hl : (r.rest.take s.width).length = s.width := by rw [List.length_take, Nat.min_eq_left hc.2]
      rw [if_pos ⟨by simp, by simp [hl]⟩]
      simp only [List.take_left' hl, List.drop_left' hl]
  · simp only [if_neg hc] at h
    exact absurd h (by simp)

/-- Reading a length and then a string. -/
theorem readString_local : Local fun r => rt.readStr (rt.readNum .uint32 r).1.toNat (rt.readNum .uint32 r).2 := by
  intro r h
  have hstr : ∀ (k : Nat) (r : RState), (rt.readStr k r).2.failed = false → r.failed = false ∧
      ∃ used, r.rest = used ++ (rt.readStr k r).2.rest ∧ (rt.readStr k r).2.calls = r.calls + 1 ∧
        ∀ tail c, rt.readStr k ⟨used ++ tail, false, c⟩ = ((rt.readStr k r).1, ⟨tail, false, c + 1⟩) := by
    intro k r h
    unfold Runtime.readStr at h ⊢
    by_cases hc : r.failed = false ∧ k ≤ r.rest.length
    · simp only [if_pos hc] at h ⊢
      refine ⟨hc.1, r.rest.take k, (List.take_append_drop _ _).symm, by simp, ?_⟩
      intro tail c
      have hl : (r.rest.take k).length = k := by rw [List.length_take, Nat.min_eq_left hc.2]
      rw [if_pos ⟨by simp, by simp [hl]⟩]
      simp only [List.take_left' hl, List.drop_left' hl]
    · simp only [if_neg hc] at h
      exact absurd h (by simp)
  obtain ⟨h1, u2, e2, c2, t2⟩ := hstr _ _ h
  have hw : 4 ≤ r.rest.length ∧ (rt.readNum .uint32 r).2.rest = r.rest.drop 4 ∧ r.failed = false ∧
      (rt.readNum .uint32 r).2.calls = r.calls + 1 := by
    unfold Runtime.readNum at h1 ⊢
    by_cases hc : r.failed = false ∧ Scalar.uint32.width ≤ r.rest.length
    · simp only [if_pos hc] at h1 ⊢
      exact ⟨hc.2, rfl, hc.1, by simp⟩
    · simp only [if_neg hc] at h1
      exact absurd h1 (by simp)
  obtain ⟨hw1, hw2, hw3, hw4⟩ := hw
  have hlen : (r.rest.take 4).length = 4 := by rw [List.length_take, Nat.min_eq_left hw1]
  refine ⟨hw3, r.rest.take 4 ++ u2, 2, ?_, ?_, ?_, ?_⟩
  · rw [List.append_assoc, ← e2, hw2, List.take_append_drop]
  · rw [c2, hw4]
  · rw [List.length_append, hlen]
    omega
  · intro tail c
    have h3 : rt.readNum .uint32 ⟨r.rest.take 4 ++ (u2 ++ tail), false, c⟩ =
        ((rt.readNum .uint32 r).1, ⟨u2 ++ tail, false, c + 1⟩) := by
      unfold Runtime.readNum
      rw [if_pos ⟨rfl, by show 4 ≤ _; simp [hlen]⟩, if_pos ⟨hw3, hw1⟩]
      have hw : Scalar.uint32.width = 4 := rfl
      simp only [hw, List.take_left' hlen, List.drop_left' hlen]
    simp only [List.append_assoc, h3, t2]

theorem local_many {f : RState → Option JVal × RState} (hf : Local f) (n : Nat) : Local (rdMany f n) := by
  induction n with
  | zero => exact local_pure []
  | succ n ih =>
    refine local_congr (local_bind hf fun a => local_map ih fun js => a.getD .undef :: js) ?_
    intro r
    rfl

theorem local_B (t : RType) (a : Bool) (h : Local (rdType rt t)) : Local (rdB rt t a) := by
  cases a with
  | false => exact h
  | true =>
    refine local_congr (local_bind (readNum_local rt .uint32) fun n => local_map (local_many h n.toNat) fun js => some (.arr js)) ?_
    intro r
    rfl

theorem local_field (f : FieldOf RType) (h : Local (rdType rt f.ty)) : Local (rdField rt f) := by
  have hb := local_map (local_B rt f.ty f.array h) (component f.name)
  cases ho : f.optional with
  | false =>
    refine local_congr hb ?_
    intro r
    rw [rdField_eq, ho]
    rfl
  | true =>
    refine local_congr (local_bind (g := fun n r => if 0 < n.toNat then
      (component f.name (rdB rt f.ty f.array r).1, (rdB rt f.ty f.array r).2) else ([⟨f.name, .undef⟩], r))
      (readNum_local rt .uint8) fun n => ?_) ?_
    · by_cases hn : 0 < n.toNat
      · simp only [if_pos hn]
        exact hb
      · simp only [if_neg hn]
        exact local_pure _
    · intro r
      rw [rdField_eq, ho]
      rfl

mutual
theorem local_type : (t : RType) → Local (rdType rt t)
  | .builtin b => by
    cases hs : scalarOf b with
    | some s =>
      refine local_congr (local_map (readNum_local rt s) fun n => some (.num n)) ?_
      intro r
      simp only [rdType, hs]
    | none =>
      refine local_congr (local_map (readString_local rt) fun s => some (.str s)) ?_
      intro r
      simp only [rdType, hs]
  | .enum e => by
    intro r h
    simp only [rdType] at h ⊢
    by_cases hb : inBounds e (rt.readNum (reprScalar e.repr) r).1 = true
    · simp only [if_pos hb] at h ⊢
      obtain ⟨h1, u, k, h2, h3, h4, h5⟩ := readNum_local rt _ r h
      refine ⟨h1, u, k, h2, h3, h4, fun tail c => ?_⟩
      rw [h5, if_pos hb]
    · simp only [if_neg hb] at h
      exact absurd h (by simp)
  | .struct fs => by
    refine local_congr (local_map (local_fields fs) fun ps => some (.obj ps)) ?_
    intro r
    rfl
theorem local_fields : (fs : List (FieldOf RType)) → Local (rdFields rt fs)
  | [] => local_pure []
  | f :: fs => by
    refine local_congr (local_bind (local_field rt f (local_F f)) fun ps => local_map (local_fields fs) fun qs => ps ++ qs) ?_
    intro r
    rfl
theorem local_F : (f : FieldOf RType) → Local (rdType rt f.ty)
  | ⟨_, _, t, _, _⟩ => local_type t
end

theorem local_failed {α : Type} {f : RState → α × RState} (h : Local f) {r : RState} (hr : (f r).2.failed = false) :
    r.failed = false := (h r hr).1

/-! ### Typing -/

/-- Passed the range check. -/
def InBoundsP (e : REnum) (n : Num) : Prop := inBounds e n = true

theorem typed_many {t : RType} {S : Str → Prop} {E : REnum → Num → Prop}
    (h : ∀ r, (rdType rt t r).2.failed = false → ∃ j, (rdType rt t r).1 = some j ∧ TypedT S E t j) (n : Nat) (r : RState)
    (hr : (rdMany (rdType rt t) n r).2.failed = false) : ∀ j ∈ (rdMany (rdType rt t) n r).1, TypedT S E t j := by
  induction n generalizing r with
  | zero => simp [rdMany]
  | succ n ih =>
    simp only [rdMany] at hr ⊢
    obtain ⟨j0, h1, h2⟩ := h r (local_failed (local_many (local_type rt t) n) hr)
    rw [h1]
    intro j hj
    simp only [Option.getD_some, List.mem_cons] at hj
    rcases hj with rfl | hj
    · exact h2
    · exact ih _ hr j hj

theorem typed_field (f : FieldOf RType) {S : Str → Prop} {E : REnum → Num → Prop}
    (h : ∀ r, (rdType rt f.ty r).2.failed = false → ∃ j, (rdType rt f.ty r).1 = some j ∧ TypedT S E f.ty j) (r : RState)
    (hr : (rdField rt f r).2.failed = false) : ∃ p, (rdField rt f r).1 = [p] ∧ TypedF S E f p := by
  have hb : ∀ r, (rdB rt f.ty f.array r).2.failed = false →
      ∃ j, (rdB rt f.ty f.array r).1 = some j ∧ okB S E f.ty f.array j := by
    intro r hr
    unfold rdB okB at *
    cases ha : f.array with
    | false =>
      rw [ha] at hr
      simp only [Bool.false_eq_true, if_false] at hr ⊢
      exact h r hr
    | true =>
      rw [ha] at hr
      simp only [if_true] at hr ⊢
      refine ⟨_, rfl, _, rfl, ?_, typed_many rt h _ _ hr⟩
      rw [rdMany_length]
      obtain ⟨k, hk, he⟩ := readNum_uint32 rt r
      rw [he]
      simpa [Num.toNat] using hk
  have hc : ∀ o : Option JVal, ∀ j, o = some j → component f.name o = [⟨f.name, j⟩] := by
    rintro _ j rfl
    rfl
  rw [rdField_eq] at hr ⊢
  cases ho : f.optional with
  | false =>
    rw [ho] at hr
    simp only [Bool.false_eq_true, if_false] at hr ⊢
    obtain ⟨j, h1, h2⟩ := hb r hr
    exact ⟨_, hc _ j h1, (typedF_iff S E f _).2 ⟨rfl, Or.inr h2⟩⟩
  | true =>
    rw [ho] at hr
    simp only [if_true] at hr ⊢
    by_cases hp : 0 < (rt.readNum .uint8 r).1.toNat
    · simp only [if_pos hp] at hr ⊢
      obtain ⟨j, h1, h2⟩ := hb _ hr
      exact ⟨_, hc _ j h1, (typedF_iff S E f _).2 ⟨rfl, Or.inr h2⟩⟩
    · simp only [if_neg hp] at hr ⊢
      exact ⟨_, rfl, (typedF_iff S E f _).2 ⟨rfl, Or.inl ⟨ho, rfl⟩⟩⟩

mutual
theorem typed_type : (t : RType) → ∀ r, (rdType rt t r).2.failed = false →
    ∃ j, (rdType rt t r).1 = some j ∧ TypedT (fun _ => True) InBoundsP t j
  | .builtin b, r, hr => by
    cases hs : scalarOf b with
    | some s =>
      simp only [rdType, hs, TypedT]
      exact ⟨_, rfl, _, rfl, readNum_ok rt s r⟩
    | none =>
      simp only [rdType, hs, TypedT]
      exact ⟨_, rfl, _, rfl, trivial⟩
  | .enum e, r, hr => by
    simp only [rdType] at hr ⊢
    by_cases hb : inBounds e (rt.readNum (reprScalar e.repr) r).1 = true
    · simp only [if_pos hb]
      exact ⟨_, rfl, _, rfl, hb⟩
    · simp only [if_neg hb] at hr
      exact absurd hr (by simp)
  | .struct fs, r, hr => ⟨_, rfl, _, rfl, typed_fields fs r hr⟩
theorem typed_fields : (fs : List (FieldOf RType)) → ∀ r, (rdFields rt fs r).2.failed = false →
    TypedFs (fun _ => True) InBoundsP fs (rdFields rt fs r).1
  | [], r, hr => rfl
  | f :: fs, r, hr => by
    simp only [rdFields] at hr ⊢
    obtain ⟨p, h1, h2⟩ := typed_field rt f (typed_F f) r (local_failed (local_fields rt fs) hr)
    refine ⟨p, _, ?_, h2, typed_fields fs _ hr⟩
    rw [h1, List.singleton_append]
theorem typed_F : (f : FieldOf RType) → ∀ r, (rdType rt f.ty r).2.failed = false →
    ∃ j, (rdType rt f.ty r).1 = some j ∧ TypedT (fun _ => True) InBoundsP f.ty j
  | ⟨_, _, t, _, _⟩ => typed_type t
end

end

/-! ### Changing the side conditions -/

mutual
theorem typedT_mono {S S' : Str → Prop} {E E' : REnum → Num → Prop} {P : REnum → Prop} (hS : ∀ s, S s → S' s)
    (hE : ∀ e n, P e → E e n → E' e n) : (t : RType) → EnumsT P t → ∀ j, TypedT S E t j → TypedT S' E' t j
  | .builtin b, _, j, h => by
    cases hs : scalarOf b with
    | some s =>
      simp only [TypedT, hs] at h ⊢
      exact h
    | none =>
      simp only [TypedT, hs] at h ⊢
      obtain ⟨s, h1, h2⟩ := h
      exact ⟨s, h1, hS s h2⟩
  | .enum e, hP, j, h => by
    obtain ⟨n, h1, h2⟩ := h
    exact ⟨n, h1, hE e n hP h2⟩
  | .struct fs, hP, j, h => by
    obtain ⟨ps, h1, h2⟩ := h
    exact ⟨ps, h1, typedFs_mono hS hE fs hP ps h2⟩
theorem typedFs_mono {S S' : Str → Prop} {E E' : REnum → Num → Prop} {P : REnum → Prop} (hS : ∀ s, S s → S' s)
    (hE : ∀ e n, P e → E e n → E' e n) : (fs : List (FieldOf RType)) → EnumsFs P fs → ∀ ps, TypedFs S E fs ps →
    TypedFs S' E' fs ps
  | [], _, ps, h => h
  | f :: fs, hP, ps, h => by
    obtain ⟨p, qs, h1, h2, h3⟩ := h
    exact ⟨p, qs, h1, typedF_mono hS hE f hP.1 p h2, typedFs_mono hS hE fs hP.2 qs h3⟩
theorem typedF_mono {S S' : Str → Prop} {E E' : REnum → Num → Prop} {P : REnum → Prop} (hS : ∀ s, S s → S' s)
    (hE : ∀ e n, P e → E e n → E' e n) : (f : FieldOf RType) → EnumsF P f → ∀ p, TypedF S E f p → TypedF S' E' f p
  | ⟨n, tn, t, a, o⟩, hP, p, h => by
    refine ⟨h.1, h.2.imp id ?_⟩
    cases a with
    | false => exact typedT_mono hS hE t hP _
    | true =>
      rintro ⟨js, h1, h2, h3⟩
      exact ⟨js, h1, h2, fun x hx => typedT_mono hS hE t hP x (h3 x hx)⟩
end

mutual
theorem enumsT_imp {P Q : REnum → Prop} (h : ∀ e, P e → Q e) : (t : RType) → EnumsT P t → EnumsT Q t
  | .builtin _, _ => trivial
  | .enum e, hp => h e hp
  | .struct fs, hp => enumsFs_imp h fs hp
theorem enumsFs_imp {P Q : REnum → Prop} (h : ∀ e, P e → Q e) : (fs : List (FieldOf RType)) → EnumsFs P fs → EnumsFs Q fs
  | [], _ => trivial
  | f :: fs, hp => ⟨enumsF_imp h f hp.1, enumsFs_imp h fs hp.2⟩
theorem enumsF_imp {P Q : REnum → Prop} (h : ∀ e, P e → Q e) : (f : FieldOf RType) → EnumsF P f → EnumsF Q f
  | ⟨_, _, t, _, _⟩, hp => enumsT_imp h t hp
end

mutual
theorem enumsT_and {P Q : REnum → Prop} : (t : RType) → EnumsT P t → EnumsT Q t → EnumsT (fun e => P e ∧ Q e) t
  | .builtin _, _, _ => trivial
  | .enum _, hp, hq => ⟨hp, hq⟩
  | .struct fs, hp, hq => enumsFs_and fs hp hq
theorem enumsFs_and {P Q : REnum → Prop} : (fs : List (FieldOf RType)) → EnumsFs P fs → EnumsFs Q fs →
    EnumsFs (fun e => P e ∧ Q e) fs
  | [], _, _ => trivial
  | f :: fs, hp, hq => ⟨enumsF_and f hp.1 hq.1, enumsFs_and fs hp.2 hq.2⟩
theorem enumsF_and {P Q : REnum → Prop} : (f : FieldOf RType) → EnumsF P f → EnumsF Q f → EnumsF (fun e => P e ∧ Q e) f
  | ⟨_, _, t, _, _⟩, hp, hq => enumsT_and t hp hq
end

mutual
theorem soundT_enums : (t : RType) → SoundT t → EnumsT SoundEnum t
  | .builtin _, _ => trivial
  | .enum _, h => h
  | .struct fs, h => soundFs_enums fs h
theorem soundFs_enums : (fs : List (FieldOf RType)) → SoundFs fs → EnumsFs SoundEnum fs
  | [], _ => trivial
  | f :: fs, h => ⟨soundF_enums f h.1, soundFs_enums fs h.2⟩
theorem soundF_enums : (f : FieldOf RType) → SoundF f → EnumsF SoundEnum f
  | ⟨_, _, t, _, _⟩, h => soundT_enums t h.2
end

/-! ### Enums -/

theorem sound_values {e : REnum} (h : SoundEnum e) :
    ∃ k, 1 ≤ k ∧ k ≤ 32 ∧ e.variants.length = k ∧ (∀ v ∈ e.variants, v.value < k) ∧ k ≤ WellFormed.reprBits e.repr ∧
      (∃ v, e.variants.head? = some v ∧ v.value = 0) ∧ (∃ v, e.variants.getLast? = some v ∧ v.value = k - 1) := by
  obtain ⟨vs, ⟨h1, h2, h3⟩, hr⟩ := h
  have hlen : e.variants.length = vs.length := by
    rw [← List.length_map (f := EnumVariant.name), hr.names]
  refine ⟨vs.length, h1, h2, hlen, ?_, hr.fits, ?_, ?_⟩
  · intro v hv
    have : v.value ∈ List.range vs.length := by
      rw [← hr.values]
      exact List.mem_map_of_mem hv
    exact List.mem_range.1 this
  · have hv := congrArg List.head? hr.values
    rw [List.head?_map] at hv
    cases hh : e.variants.head? with
    | none =>
      rw [List.head?_eq_none_iff] at hh
      rw [hh] at hlen
      simp at hlen
      omega
    | some v =>
      rw [hh] at hv
      refine ⟨v, rfl, ?_⟩
      obtain ⟨m, hm⟩ : ∃ m, vs.length = m + 1 := ⟨vs.length - 1, by omega⟩
      rw [hm, List.range_succ_eq_map] at hv
      simpa using hv
  · have hv := congrArg List.getLast? hr.values
    rw [List.getLast?_map] at hv
    cases hh : e.variants.getLast? with
    | none =>
      rw [List.getLast?_eq_none_iff] at hh
      rw [hh] at hlen
      simp at hlen
      omega
    | some v =>
      rw [hh] at hv
      refine ⟨v, rfl, ?_⟩
      obtain ⟨m, hm⟩ : ∃ m, vs.length = m + 1 := ⟨vs.length - 1, by omega⟩
      rw [hm, List.range_succ] at hv
      rw [hm]
      simpa using hv

theorem i32Shl1_eq {v : Nat} (h : v < 32) : i32Shl1 v = some (jsShl1 v) := by
  unfold i32Shl1 jsShl1
  rw [if_pos h]
  congr 1
  interval_cases v <;> decide

theorem sound_bounds {e : REnum} (h : SoundEnum e) {k : Nat} (hk : e.variants.length = k) :
    enumBounds e.variants = some (1, jsShl1 (k - 1)) := by
  obtain ⟨k', h1, h2, h3, -, -, ⟨v, hv, hv0⟩, ⟨w, hw, hw0⟩⟩ := sound_values h
  have : k = k' := by omega
  subst this
  unfold enumBounds
  rw [hv, hw]
  simp only [hv0, hw0, i32Shl1_eq (show 0 < 32 by omega), i32Shl1_eq (show k - 1 < 32 by omega)]
  rfl

theorem jsShl1_small {v : Nat} (h : v < 31) : jsShl1 v = 2 ^ v := by
  unfold jsShl1
  rw [Nat.mod_eq_of_lt (by omega), if_neg (by omega)]

theorem pow_lt_bits {v k : Nat} (hv : v < k) : (2 : Int) ^ v < 2 ^ k := by
  exact_mod_cast Nat.pow_lt_pow_right (by omega : 1 < 2) hv

theorem variant_faithful {e : REnum} (hs : SoundEnum e) (h31 : e.variants.length ≤ 31) {n : Num} (hn : IsVariant e n) :
    FaithE e n := by
  obtain ⟨v, hv, rfl⟩ := hn
  obtain ⟨k, h1, h2, h3, h4, h5, -, -⟩ := sound_values hs
  have hvk := h4 v hv
  have e1 : jsShl1 v.value = 2 ^ v.value := jsShl1_small (by omega)
  have hpos : (1 : Int) ≤ 2 ^ v.value := by exact_mod_cast Nat.one_le_two_pow
  have hb := sound_bounds hs h3
  constructor
  · rw [e1]
    have : (2 : Int) ^ v.value < 2 ^ WellFormed.reprBits e.repr := pow_lt_bits (by omega)
    have h0 : (0 : Int) ≤ 2 ^ v.value := by omega
    cases hr : e.repr <;> rw [hr] at this <;> exact ⟨h0, this⟩
  · unfold inBounds
    simp only [hb, Option.getD_some, e1, jsShl1_small (show k - 1 < 31 by omega)]
    have h6 : (2 : Int) ^ v.value ≤ 2 ^ (k - 1) := by
      exact_mod_cast Nat.pow_le_pow_right (by omega : 0 < 2) (by omega)
    simp [hpos, h6]

theorem inBounds_between {e : REnum} (hs : SoundEnum e) {n : Num} (h : inBounds e n = true) : BetweenVariants e n := by
  obtain ⟨k, h1, h2, h3, h4, h5, ⟨v, hv, hv0⟩, ⟨w, hw, hw0⟩⟩ := sound_values hs
  have hb := sound_bounds hs h3
  cases n with
  | f32 b => simp [inBounds] at h
  | int i =>
    unfold inBounds at h
    simp only [hb, Option.getD_some, Bool.and_eq_true, decide_eq_true_eq] at h
    refine ⟨v, List.mem_of_head? hv, w, List.mem_of_getLast? hw, i, rfl, ?_, ?_⟩
    · rw [hv0]
      exact h.1
    · rw [hw0]
      exact h.2

end Packetc.Js
