import Verif.Proof.RustFits
import Verif.Proof.Flags
import Verif.Props.RoundTrip
/-!
# Which bytes the emitted `read` accepts
-/

namespace Packetc.Rs
open Ast Check WellFormed
open Js (Num Scalar utf8Enc scalarOf reprScalar SoundEnum EnumsT EnumsFs EnumsF)

/-- `f` accepts the data beginning with bytes that `R` relates to a value, and no other. -/
def Accepts {α : Type} (f : List UInt8 → Got α) (R : List UInt8 → α → Prop) : Prop :=
  ∀ data v rest, f data = .ok v rest ↔ ∃ bs, data = bs ++ rest ∧ R bs v

theorem Accepts.congr {α} {f : List UInt8 → Got α} {R S : List UInt8 → α → Prop} (h : Accepts f R) (hs : ∀ bs v, R bs v ↔ S bs v) :
    Accepts f S := by
  intro data v rest
  rw [h]
  simp only [hs]

theorem Accepts.bind {α β} {f : List UInt8 → Got α} {g : α → List UInt8 → Got β} {R : List UInt8 → α → Prop}
    {S : α → List UInt8 → β → Prop} (hf : Accepts f R) (hg : ∀ a, Accepts (g a) (S a)) :
    Accepts (fun r => (f r).bind g) (fun bs b => ∃ b₁ b₂ a, bs = b₁ ++ b₂ ∧ R b₁ a ∧ S a b₂ b) := by
  intro data v rest
  dsimp only
  constructor
  · intro h
    cases hq : f data with
    | err => rw [hq] at h; cases h
    | abort => rw [hq] at h; cases h
    | ok a r =>
      rw [hq] at h
      obtain ⟨b₁, rfl, h1⟩ := (hf _ _ _).1 hq
      obtain ⟨b₂, rfl, h2⟩ := (hg a _ _ _).1 h
      exact ⟨b₁ ++ b₂, by simp, b₁, b₂, a, rfl, h1, h2⟩
  · rintro ⟨_, rfl, b₁, b₂, a, rfl, h1, h2⟩
    have h3 := (hf (b₁ ++ b₂ ++ rest) a (b₂ ++ rest)).2 ⟨b₁, by simp, h1⟩
    rw [h3]
    exact (hg a _ _ _).2 ⟨b₂, rfl, h2⟩

theorem accepts_pure {α} (a : α) : Accepts (fun r => .ok a r) (fun bs b => bs = [] ∧ b = a) := by
  intro data v rest
  constructor
  · intro h
    cases h
    exact ⟨[], rfl, rfl, rfl⟩
  · rintro ⟨_, rfl, rfl, rfl⟩
    rfl

theorem accepts_err {α} : Accepts (fun _ => .err) (fun _ (_ : α) => False) := by
  intro data v rest
  simp

theorem accepts_abort {α} : Accepts (fun _ => .abort) (fun _ (_ : α) => False) := by
  intro data v rest
  simp

theorem accepts_ite {α} {p : Prop} [Decidable p] {f g : List UInt8 → Got α} {R S : List UInt8 → α → Prop} (hf : Accepts f R)
    (hg : Accepts g S) : Accepts (fun r => if p then f r else g r) (fun bs v => if p then R bs v else S bs v) := by
  by_cases h : p
  · simpa [h] using hf
  · simpa [h] using hg

/-- Mapping the result. -/
theorem Accepts.map {α β} {f : List UInt8 → Got α} {R : List UInt8 → α → Prop} (hf : Accepts f R) (k : α → β) :
    Accepts (fun r => (f r).bind fun a r' => .ok (k a) r') (fun bs b => ∃ a, R bs a ∧ b = k a) := by
  refine (hf.bind (fun a => accepts_pure (k a))).congr fun bs v => ?_
  constructor
  · rintro ⟨b₁, b₂, a, rfl, h1, rfl, rfl⟩
    exact ⟨a, by simpa using h1, rfl⟩
  · rintro ⟨a, h1, rfl⟩
    exact ⟨bs, [], a, by simp, h1, rfl, rfl⟩

variable (lib : Lib)

theorem accepts_num (sc : Scalar) : Accepts (rdNum lib sc) (fun bs n => bs.length = sc.width ∧ n = lib.dec sc bs) := by
  intro data v rest
  unfold rdNum
  constructor
  · intro h
    split at h
    · cases h
      exact ⟨data.take sc.width, (List.take_append_drop _ _).symm, by simpa using ‹_›, rfl⟩
    · cases h
  · rintro ⟨bs, rfl, h1, rfl⟩
    rw [if_pos (by simp [h1])]
    rw [← h1, List.take_left, List.drop_left]

theorem utf8Dec_iff (bs : List UInt8) (s : Str) : utf8Dec? bs = some s ↔ bs = utf8Enc s := by
  unfold utf8Dec?
  constructor
  · intro h
    cases ha : (bs.toByteArray).utf8Decode? with
    | none => rw [ha] at h; cases h
    | some a =>
      rw [ha] at h
      cases h
      have hi : (bs.toByteArray).utf8Decode?.isSome = true := by rw [ha]; rfl
      have h1 := ByteArray.utf8Encode_get_utf8Decode? (h := hi)
      have h2 : (bs.toByteArray).utf8Decode?.get hi = a := by simp [ha]
      rw [h2] at h1
      have h3 : (utf8Enc a.toList).toByteArray = bs.toByteArray := h1
      have := congrArg (fun b : ByteArray => b.data.toList) h3
      simpa using this.symm
  · rintro rfl
    have : (utf8Enc s).toByteArray = s.utf8Encode := rfl
    rw [this, List.utf8Decode?_utf8Encode]
    simp

theorem accepts_str (n : Nat) : Accepts (rdStr n) (fun bs t => bs = utf8Enc t ∧ bs.length = n) := by
  intro data v rest
  unfold rdStr
  constructor
  · intro h
    split at h
    · split at h
      · rename_i hl _ t ht
        cases h
        exact ⟨data.take n, (List.take_append_drop _ _).symm, (utf8Dec_iff _ _).1 ht, by simpa using hl⟩
      · cases h
    · cases h
  · rintro ⟨bs, rfl, h1, rfl⟩
    rw [if_pos (by simp), List.take_left, List.drop_left, (utf8Dec_iff _ _).2 h1]

theorem accepts_items {one : List UInt8 → Got Val} {R : List UInt8 → Val → Prop} (h : Accepts one R) (n : Nat) : ∀ l : List Val,
    Accepts (rdItems one n l) (fun bs l' => ∃ items vs, bs = items.flatten ∧ l' = l ++ vs ∧ vs.length = n ∧ List.Forall₂ R items vs) := by
  induction n with
  | zero =>
    intro l
    refine (accepts_pure l).congr fun bs v => ?_
    constructor
    · rintro ⟨rfl, rfl⟩
      exact ⟨[], [], rfl, by simp, rfl, .nil⟩
    · rintro ⟨items, vs, rfl, rfl, h1, h2⟩
      cases vs with
      | nil => cases h2; simp
      | cons _ _ => cases h1
  | succ n ih =>
    intro l
    refine (h.bind fun v => ih (l ++ [v])).congr fun bs l' => ?_
    constructor
    · rintro ⟨b₁, b₂, a, rfl, h1, items, vs, rfl, rfl, h2, h3⟩
      exact ⟨b₁ :: items, a :: vs, by simp, by simp, by simp [h2], .cons h1 h3⟩
    · rintro ⟨items, vs, rfl, rfl, h1, h2⟩
      cases h2 with
      | nil => cases h1
      | @cons b v items vs h3 h4 =>
        exact ⟨b, items.flatten, v, by simp, h3, items, vs, rfl, by simp, by simpa using h1, h4⟩

/-! ### Enums -/

/-- Enums whose numbers fit. -/
abbrev Small (e : REnum) : Prop := SoundEnum e ∧ e.variants.length ≤ 31

theorem shl_value {k : Nat} (h : k < 31) : (Gen.i32Shl1 k).getD 0 = 2 ^ k := by
  have : ∀ k, k < 31 → (Gen.i32Shl1 k).getD 0 = 2 ^ k := by decide
  exact this k h

theorem small_value {e : REnum} (h : Small e) {w : EnumVariant} (hw : w ∈ e.variants) : w.value < 31 := by
  obtain ⟨⟨vs, -, hr⟩, hl⟩ := h
  have h1 : w.value ∈ e.variants.map EnumVariant.value := List.mem_map_of_mem hw
  rw [hr.values, List.mem_range] at h1
  have : vs.length = e.variants.length := by rw [← hr.names, List.length_map]
  omega

theorem lookup_mem {l : List (Int × Str)} {i : Int} {n : Str} (h : l.lookup i = some n) : (i, n) ∈ l := by
  induction l with
  | nil => cases h
  | cons p l ih =>
    obtain ⟨j, m⟩ := p
    rw [List.lookup_cons] at h
    by_cases hj : i = j
    · subst hj
      simp at h
      simp [h]
    · have : (i == j) = false := by simpa using hj
      rw [this] at h
      simp [ih h]

theorem lookup_some {l : List (Int × Str)} {i : Int} {n : Str} (h : (i, n) ∈ l) (hu : ∀ m, (i, m) ∈ l → m = n) : l.lookup i = some n := by
  cases hx : l.lookup i with
  | none =>
    exfalso
    induction l with
    | nil => cases h
    | cons p l ih =>
      obtain ⟨j, m⟩ := p
      rw [List.lookup_cons] at hx
      by_cases hj : i = j
      · subst hj
        simp at hx
      · have hb : (i == j) = false := by simpa using hj
        rw [hb] at hx
        refine ih ?_ (fun m hm => hu m (by simp [hm])) hx
        rcases List.mem_cons.1 h with h | h
        · exact absurd (Prod.mk.inj h).1 hj
        · exact h
  | some m => rw [hu m (lookup_mem hx)]

theorem two_pow_inj {a b : Nat} (h : (2 : Int) ^ a = 2 ^ b) : a = b := by
  have : (2 : Nat) ^ a = 2 ^ b := by exact_mod_cast h
  exact Nat.pow_right_injective (Nat.le_refl 2) this

theorem arms_iff {e : REnum} (h : Small e) (i : Int) (n : Str) :
    (e.variants.map fun v => ((Gen.i32Shl1 v.value).getD 0, v.name)).lookup i = some n ↔
      ∃ w ∈ e.variants, i = 2 ^ w.value ∧ n = w.name := by
  have hmem : ∀ m, (i, m) ∈ (e.variants.map fun v => ((Gen.i32Shl1 v.value).getD 0, v.name)) ↔
      ∃ w ∈ e.variants, i = 2 ^ w.value ∧ m = w.name := by
    intro m
    rw [List.mem_map]
    constructor
    · rintro ⟨w, hw, he⟩
      obtain ⟨rfl, rfl⟩ := Prod.mk.inj he
      exact ⟨w, hw, shl_value (small_value h hw), rfl⟩
    · rintro ⟨w, hw, rfl, rfl⟩
      exact ⟨w, hw, by rw [shl_value (small_value h hw)]⟩
  constructor
  · intro hl
    exact (hmem n).1 (lookup_mem hl)
  · intro hw
    refine lookup_some ((hmem n).2 hw) fun m hm => ?_
    obtain ⟨w, hw, rfl, rfl⟩ := hw
    obtain ⟨w', hw', h1, rfl⟩ := (hmem m).1 hm
    rw [Js.sound_value_inj h.1 hw' hw (two_pow_inj h1).symm]

theorem accepts_enum (tn : Str) (e : REnum) (h : Small e) (old : Val) : Accepts (rdT lib tn (.enum e) old) (HasT lib tn (.enum e)) := by
  refine ((accepts_num lib (reprScalar e.repr)).bind (g := fun n r' =>
      match (e.variants.map fun v => ((Gen.i32Shl1 v.value).getD 0, v.name)).lookup (toInt n) with
      | some v => .ok (Val.variant tn v) r'
      | none => .err) (S := fun n bs v => bs = [] ∧ ∃ w ∈ e.variants, toInt n = 2 ^ w.value ∧ v = Val.variant tn w.name) ?_).congr ?_
  · intro n
    cases hl : (e.variants.map fun v => ((Gen.i32Shl1 v.value).getD 0, v.name)).lookup (toInt n) with
    | some m =>
      refine (accepts_pure (Val.variant tn m)).congr fun bs v => ?_
      obtain ⟨w, hw, h1, h2⟩ := (arms_iff h _ _).1 hl
      constructor
      · rintro ⟨rfl, rfl⟩
        exact ⟨rfl, w, hw, h1, by rw [h2]⟩
      · rintro ⟨rfl, w', hw', h1', rfl⟩
        refine ⟨rfl, ?_⟩
        have := (arms_iff h _ _).2 ⟨w', hw', h1', rfl⟩
        rw [hl] at this
        cases this
        rfl
    | none =>
      refine accepts_err.congr fun bs v => ?_
      constructor
      · intro h; cases h
      · rintro ⟨-, w', hw', h1', -⟩
        have := (arms_iff h _ _).2 ⟨w', hw', h1', rfl⟩
        rw [hl] at this
        cases this
  · intro bs v
    have hint : ∀ b, lib.dec (reprScalar e.repr) b = .int (toInt (lib.dec (reprScalar e.repr) b)) := fun b =>
      num_int (by cases e.repr <;> decide) (lib.dec_ok _ _)
    constructor
    · rintro ⟨b₁, b₂, n, rfl, ⟨h1, rfl⟩, rfl, w, hw, h2, rfl⟩
      rw [List.append_nil]
      exact ⟨h1, w, hw, by rw [hint, h2], rfl⟩
    · rintro ⟨h1, w, hw, h2, rfl⟩
      exact ⟨bs, [], _, by simp, ⟨h1, rfl⟩, rfl, w, hw, by rw [h2]; rfl, rfl⟩

/-! ### Everything, from the default -/

mutual
theorem accepts_type (tn : Str) : (t : RType) → EnumsT Small t → Accepts (rdT lib tn t (dfltT tn t)) (HasT lib tn t)
  | .builtin b, _ => by
    cases hb : scalarOf b with
    | some sc =>
      have hr : rdT lib tn (.builtin b) (dfltT tn (.builtin b)) = fun r => (rdNum lib sc r).bind fun n r' => .ok (.num n) r' := by
        funext r
        unfold rdT
        rw [hb]
      rw [hr]
      refine ((accepts_num lib sc).map Val.num).congr fun bs v => ?_
      unfold HasT
      rw [hb]
      constructor
      · rintro ⟨n, ⟨h1, rfl⟩, rfl⟩
        exact ⟨h1, rfl⟩
      · rintro ⟨h1, rfl⟩
        exact ⟨_, ⟨h1, rfl⟩, rfl⟩
    | none =>
      have : b = .string := by cases b <;> first | rfl | cases hb
      subst this
      refine ((accepts_num lib .uint32).bind fun n => (accepts_str (toInt n).toNat).map Val.str).congr fun bs v => ?_
      constructor
      · rintro ⟨b₁, b₂, n, rfl, ⟨h1, rfl⟩, t, ⟨rfl, h2⟩, rfl⟩
        have hok := lib.dec_ok .uint32 b₁
        refine ⟨b₁, t, rfl, h1, ?_, rfl⟩
        rw [num_int (by decide) hok]
        have := (u32_range hok).1
        congr 1
        omega
      · rintro ⟨len, s, rfl, h1, h2, rfl⟩
        exact ⟨len, _, _, rfl, ⟨h1, rfl⟩, s, ⟨rfl, by rw [h2]; simp [toInt]⟩, rfl⟩
  | .enum e, he => accepts_enum lib tn e he _
  | .struct fs, he => by
    refine ((accepts_fields fs he).map Val.struct).congr fun bs v => ?_
    constructor
    · rintro ⟨ps, h1, rfl⟩
      exact ⟨ps, rfl, h1⟩
    · rintro ⟨ps, rfl, h1⟩
      exact ⟨ps, h1, rfl⟩
theorem accepts_fields : (fs : List (FieldOf RType)) → EnumsFs Small fs → Accepts (rdFs lib fs (dfltFs fs)) (HasFs lib fs)
  | [], _ => accepts_pure []
  | f :: fs, he => by
    refine ((accepts_field f he.1).bind fun v => (accepts_fields fs he.2).map fun qs => (f.name, v) :: qs).congr fun bs ps => ?_
    constructor
    · rintro ⟨b₁, b₂, v, rfl, h1, qs, h2, rfl⟩
      exact ⟨b₁, b₂, v, qs, rfl, rfl, h1, h2⟩
    · rintro ⟨b₁, b₂, v, qs, rfl, rfl, h1, h2⟩
      exact ⟨b₁, b₂, v, rfl, h1, qs, h2, rfl⟩
theorem accepts_field : (f : FieldOf RType) → EnumsF Small f → Accepts (rdF lib f (dfltF f)) (HasF lib f)
  | ⟨n, tn, t, a, o⟩, he => by
    have ht := accepts_type tn t he
    cases o with
    | true =>
      refine ((accepts_num lib .uint8).bind fun k => accepts_ite (p := 0 < toInt k) (ht.map Val.some) (accepts_pure Val.none)).congr
        fun bs v => ?_
      show _ ↔ ∃ flag body, _
      have hpos : ∀ b, 0 < toInt (lib.dec .uint8 b) ↔ lib.dec .uint8 b ≠ .int 0 := by
        intro b
        have hok := lib.dec_ok .uint8 b
        have h1 := num_int (by decide) hok
        rw [h1] at hok ⊢
        have h2 : 0 ≤ toInt (lib.dec .uint8 b) := hok.1
        show 0 < toInt (lib.dec .uint8 b) ↔ _
        simp only [ne_eq, Num.int.injEq]
        omega
      constructor
      · rintro ⟨b₁, b₂, k, rfl, ⟨h1, rfl⟩, h2⟩
        refine ⟨b₁, b₂, rfl, h1, ?_⟩
        split at h2
        · rename_i h0
          obtain ⟨w, h3, rfl⟩ := h2
          exact Or.inr ⟨(hpos _).1 h0, w, rfl, h3⟩
        · rename_i h0
          rw [hpos] at h0
          exact Or.inl ⟨not_not.1 h0, h2.1, h2.2⟩
      · rintro ⟨flag, body, rfl, h1, h2⟩
        refine ⟨flag, body, _, rfl, ⟨h1, rfl⟩, ?_⟩
        rcases h2 with ⟨h2, rfl, rfl⟩ | ⟨h2, w, rfl, h3⟩
        · rw [if_neg (by rw [hpos]; simp [h2])]
          exact ⟨rfl, rfl⟩
        · rw [if_pos ((hpos _).2 h2)]
          exact ⟨w, h3, rfl⟩
    | false =>
      cases a with
      | false => exact ht
      | true =>
        refine ((accepts_num lib .uint32).bind fun k => accepts_ite (p := ([] : List Val).length + (toInt k).toNat ≤ lib.maxItems)
          ((accepts_items ht (toInt k).toNat []).map Val.vec) accepts_abort).congr fun bs v => ?_
        show _ ↔ ∃ len items vs, _
        constructor
        · rintro ⟨b₁, b₂, k, rfl, ⟨h1, rfl⟩, h2⟩
          split at h2
          · rename_i h0
            obtain ⟨l, ⟨items, vs, rfl, rfl, h3, h4⟩, rfl⟩ := h2
            have hok := lib.dec_ok .uint32 b₁
            have hr := (u32_range hok).1
            refine ⟨b₁, items, l, rfl, h1, ?_, by simpa [h3] using h0, by simp, h4⟩
            rw [num_int (by decide) hok]
            congr 1
            omega
          · cases h2
        · rintro ⟨len, items, vs, rfl, h1, h2, h3, rfl, h4⟩
          refine ⟨len, items.flatten, _, rfl, ⟨h1, rfl⟩, ?_⟩
          rw [h2, if_pos (by simpa [toInt] using h3)]
          exact ⟨vs, ⟨items, vs, rfl, by simp, by simp [toInt], h4⟩, rfl⟩
end

end Packetc.Rs
