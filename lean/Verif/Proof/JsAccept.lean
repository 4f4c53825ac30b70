import Verif.Proof.JsWire
import Verif.Spec.Accept
/-!
# `read` accepts exactly the bytes that hold a value
-/

namespace Packetc.Js
open Check Gen

variable (rt : Runtime)

/-- Running `f` succeeds exactly if the bytes begin with some that are related to a result by `D`, and gives this result. -/
structure Does {α : Type} (f : RState → α × RState) (D : List UInt8 → α → Prop) : Prop where
  sound : ∀ r, (f r).2.failed = false → r.failed = false ∧ ∃ used, r.rest = used ++ (f r).2.rest ∧ D used (f r).1
  complete : ∀ used a rest c, D used a → ∃ c', f ⟨used ++ rest, false, c⟩ = (a, ⟨rest, false, c'⟩)

theorem Does.congr {α : Type} {f g : RState → α × RState} {D E : List UInt8 → α → Prop} (h : Does f D) (hf : ∀ r, g r = f r)
    (hD : ∀ bs a, E bs a ↔ D bs a) : Does g E := by
  have e1 : g = f := funext hf
  have e2 : E = D := funext fun bs => funext fun a => propext (hD bs a)
  rw [e1, e2]
  exact h

theorem does_pure {α : Type} (a : α) : Does (fun r => (a, r)) (fun bs b => bs = [] ∧ b = a) := by
  refine ⟨fun r h => ⟨h, [], rfl, rfl, rfl⟩, ?_⟩
  rintro used b rest c ⟨rfl, rfl⟩
  exact ⟨c, rfl⟩

theorem does_bind {α β : Type} {f : RState → α × RState} {g : α → RState → β × RState}
    {D : List UInt8 → α → Prop} {E : α → List UInt8 → β → Prop} (hf : Does f D)
    (hg : ∀ a, Does (g a) (E a)) :
    Does (fun r => g (f r).1 (f r).2) (fun bs b => ∃ b₁ b₂ a, bs = b₁ ++ b₂ ∧ D b₁ a ∧ E a b₂ b) := by
  refine ⟨?_, ?_⟩
  · intro r h
    obtain ⟨h1, u2, e2, d2⟩ := (hg _).sound _ h
    obtain ⟨h3, u1, e1, d1⟩ := hf.sound _ h1
    exact ⟨h3, u1 ++ u2, by rw [List.append_assoc, ← e2]; exact e1, u1, u2, _, rfl, d1, d2⟩
  · rintro used b rest c ⟨b1, b2, a, rfl, h1, h2⟩
    obtain ⟨c1, e1⟩ := hf.complete b1 a (b2 ++ rest) c h1
    obtain ⟨c2, e2⟩ := (hg a).complete b2 b rest c1 h2
    refine ⟨c2, ?_⟩
    simp only [List.append_assoc, e1, e2]

theorem does_map {α β : Type} {f : RState → α × RState} {D} (hf : Does f D) (g : α → β) :
    Does (fun r => (g (f r).1, (f r).2)) (fun bs b => ∃ a, D bs a ∧ b = g a) := by
  refine (does_bind hf fun a => does_pure (g a)).congr (fun _ => rfl) ?_
  intro bs b
  constructor
  · rintro ⟨a, h1, h2⟩
    exact ⟨bs, [], a, by simp, h1, rfl, h2⟩
  · rintro ⟨b1, b2, a, rfl, h1, rfl, h2⟩
    exact ⟨a, by simpa using h1, h2⟩

/-- Any number. -/
abbrev HoldsN (s : Scalar) (bs : List UInt8) (n : Num) : Prop := HoldsNum rt (fun _ _ => True) s bs n
abbrev HoldsTt (t : RType) (bs : List UInt8) (j : JVal) : Prop :=
  HoldsT rt (fun _ _ => True) (fun _ => True) (fun _ => True) t bs j
abbrev HoldsFt (f : FieldOf RType) (bs : List UInt8) (p : PropOf JVal) : Prop :=
  HoldsF rt (fun _ _ => True) (fun _ => True) (fun _ => True) f bs p

theorem does_readNum (s : Scalar) : Does (rt.readNum s) (HoldsN rt s) := by
  refine ⟨?_, ?_⟩
  · intro r h
    unfold Runtime.readNum at h ⊢
    by_cases hc : r.failed = false ∧ s.width ≤ r.rest.length
    · simp only [if_pos hc] at h ⊢
      exact ⟨hc.1, r.rest.take s.width, (List.take_append_drop _ _).symm, ⟨by rw [List.length_take, Nat.min_eq_left hc.2], trivial, rfl⟩⟩
    · simp only [if_neg hc] at h
      exact absurd h (by simp)
  · rintro used n rest c ⟨hl, -, rfl⟩
    refine ⟨c + 1, ?_⟩
    unfold Runtime.readNum
    rw [if_pos ⟨rfl, by simp [hl]⟩]
    simp only [List.take_left' hl, List.drop_left' hl]

theorem does_readStr (k : Nat) : Does (rt.readStr k) (fun bs s => bs.length = k ∧ s = rt.decS bs) := by
  refine ⟨?_, ?_⟩
  · intro r h
    unfold Runtime.readStr at h ⊢
    by_cases hc : r.failed = false ∧ k ≤ r.rest.length
    · simp only [if_pos hc] at h ⊢
      exact ⟨hc.1, r.rest.take k, (List.take_append_drop _ _).symm, by rw [List.length_take, Nat.min_eq_left hc.2], rfl⟩
    · simp only [if_neg hc] at h
      exact absurd h (by simp)
  · rintro used n rest c ⟨hl, rfl⟩
    refine ⟨c + 1, ?_⟩
    unfold Runtime.readStr
    rw [if_pos ⟨rfl, by simp [hl]⟩]
    simp only [List.take_left' hl, List.drop_left' hl]

/-- What is decoded as an unsigned number is one. -/
theorem dec_uint32 (bs : List UInt8) : ∃ k : Nat, k < 2 ^ 32 ∧ rt.dec .uint32 bs = .int k := by
  have := rt.dec_ok .uint32 bs
  cases h : rt.dec .uint32 bs with
  | f32 b => rw [h] at this; exact absurd this (by simp [Scalar.Ok])
  | int i =>
    rw [h] at this
    obtain ⟨h1, h2⟩ := this
    exact ⟨i.toNat, by omega, by rw [Int.toNat_of_nonneg h1]⟩

theorem dec_uint8 (bs : List UInt8) : ∃ k : Nat, k < 2 ^ 8 ∧ rt.dec .uint8 bs = .int k := by
  have := rt.dec_ok .uint8 bs
  cases h : rt.dec .uint8 bs with
  | f32 b => rw [h] at this; exact absurd this (by simp [Scalar.Ok])
  | int i =>
    rw [h] at this
    obtain ⟨h1, h2⟩ := this
    exact ⟨i.toNat, by omega, by rw [Int.toNat_of_nonneg h1]⟩

theorem dec_count (bs : List UInt8) (k : Nat) : (rt.dec .uint32 bs).toNat = k ↔ rt.dec .uint32 bs = .int k := by
  obtain ⟨m, -, h⟩ := dec_uint32 rt bs
  rw [h]
  simp [Num.toNat]

theorem does_many {f : RState → Option JVal × RState} {D : List UInt8 → JVal → Prop}
    (hf : Does f fun bs o => ∃ j, o = some j ∧ D bs j) (n : Nat) :
    Does (rdMany f n) (fun bs js => js.length = n ∧ ∃ items : List (List UInt8), bs = items.flatten ∧ List.Forall₂ D items js) := by
  induction n with
  | zero =>
    refine (does_pure []).congr (fun _ => rfl) ?_
    intro bs js
    constructor
    · rintro ⟨h1, items, rfl, h3⟩
      obtain rfl := List.length_eq_zero_iff.1 h1
      cases h3
      exact ⟨rfl, rfl⟩
    · rintro ⟨rfl, rfl⟩
      exact ⟨rfl, [], rfl, .nil⟩
  | succ n ih =>
    refine (does_bind hf fun a => does_map ih fun js => a.getD .undef :: js).congr (fun _ => rfl) ?_
    intro bs js
    constructor
    · rintro ⟨h1, items, rfl, h3⟩
      cases h3 with
      | nil => cases h1
      | cons hd ht =>
        refine ⟨_, _, _, List.flatten_cons, ⟨_, rfl, hd⟩, _, ⟨by simpa using h1, _, rfl, ht⟩, rfl⟩
    · rintro ⟨b1, b2, a, rfl, ⟨j, rfl, h1⟩, js', ⟨h2, items, rfl, h3⟩, rfl⟩
      exact ⟨by simp [h2], b1 :: items, by simp, .cons h1 h3⟩

theorem inBounds_iff {e : REnum} (he : SoundEnum e) (n : Num) :
    inBounds e n = true ↔ ∃ i : Int, n = .int i ∧ 1 ≤ i ∧ i ≤ jsShl1 (e.variants.length - 1) := by
  have hb := sound_bounds he rfl
  cases n with
  | f32 b => simp [inBounds]
  | int i => simp [inBounds, hb]

/-- The field without the optional. -/
def HoldsB (t : RType) (a : Bool) (body : List UInt8) (j : JVal) : Prop :=
  if a then ∃ (len : List UInt8) (items : List (List UInt8)) (js : List JVal), body = len ++ items.flatten ∧
    HoldsN rt .uint32 len (.int js.length) ∧ j = .arr js ∧ List.Forall₂ (fun b j => HoldsTt rt t b j) items js
  else HoldsTt rt t body j

theorem holds_count {len : List UInt8} {n : Num} {k : Nat} (h : HoldsN rt .uint32 len n) (hk : k = n.toNat) :
    HoldsN rt .uint32 len (.int k) :=
  ⟨h.width, trivial, (dec_count rt _ _).1 (by rw [h.value, hk])⟩

theorem does_body {t : RType} (h : Does (rdType rt t) fun bs o => ∃ j, o = some j ∧ HoldsTt rt t bs j) (a : Bool) :
    Does (rdB rt t a) fun bs o => ∃ j, o = some j ∧ HoldsB rt t a bs j := by
  cases a with
  | false => exact h.congr (fun _ => rfl) fun bs o => Iff.rfl
  | true =>
    refine (does_bind (does_readNum rt .uint32) fun n => does_map (does_many h n.toNat) fun js => some (.arr js)).congr
      (fun _ => rfl) ?_
    intro bs o
    constructor
    · rintro ⟨j, rfl, len, items, js, rfl, h1, rfl, h3⟩
      exact ⟨len, items.flatten, _, rfl, h1, js, ⟨rfl, items, rfl, h3⟩, rfl⟩
    · rintro ⟨b1, b2, n, rfl, h1, js, ⟨h2, items, rfl, h3⟩, rfl⟩
      exact ⟨_, rfl, b1, items, js, rfl, holds_count rt h1 h2, rfl, h3⟩

theorem does_field (f : FieldOf RType) (h : Does (rdType rt f.ty) fun bs o => ∃ j, o = some j ∧ HoldsTt rt f.ty bs j) :
    Does (rdField rt f) fun bs ps => ∃ p, ps = [p] ∧ HoldsFt rt f bs p := by
  have hb := does_body rt h f.array
  obtain ⟨n, tn, t, a, o⟩ := f
  simp only at hb h
  cases o with
  | false =>
    refine (does_map hb (component n)).congr (fun r => rdField_eq rt _ r) ?_
    intro bs ps
    constructor
    · rintro ⟨p, rfl, h1, h2 | ⟨flag, body, rfl, h2, h3⟩⟩
      · simp at h2
      · simp only [Bool.false_eq_true, if_false] at h2
        subst h2
        exact ⟨_, ⟨p.value, rfl, h3⟩, by cases p; cases h1; rfl⟩
    · rintro ⟨o, ⟨j, rfl, h1⟩, rfl⟩
      exact ⟨_, rfl, rfl, Or.inr ⟨[], bs, rfl, rfl, h1⟩⟩
  | true =>
    have hd : Does (rdField rt ⟨n, tn, t, a, true⟩) _ := (does_bind (does_readNum rt .uint8)
      (g := fun (k : Num) r => if 0 < k.toNat then (component n (rdB rt t a r).1, (rdB rt t a r).2) else ([⟨n, .undef⟩], r))
      (E := fun k bs ps => if 0 < k.toNat then ∃ o, (∃ j, o = some j ∧ HoldsB rt t a bs j) ∧ ps = component n o
        else bs = [] ∧ ps = [⟨n, .undef⟩]) (by
        intro k
        by_cases hk : 0 < k.toNat
        · simp only [if_pos hk]; exact does_map hb (component n)
        · simp only [if_neg hk]; exact does_pure _)).congr (fun r => by
          rw [rdField_eq]; simp only [if_true]) (fun _ _ => Iff.rfl)
    refine hd.congr (fun _ => rfl) ?_
    intro bs ps
    constructor
    · rintro ⟨p, rfl, h1, ⟨-, h2, h3⟩ | ⟨flag, body, rfl, h2, h3⟩⟩
      · refine ⟨bs, [], _, by simp, h3, ?_⟩
        rw [if_neg (by simp [Num.toNat])]
        exact ⟨rfl, by cases p; cases h1; cases h2; rfl⟩
      · simp only [if_true] at h2
        obtain ⟨k, h2, h4, -⟩ := h2
        refine ⟨flag, body, _, rfl, h2, ?_⟩
        obtain ⟨m, -, hk⟩ := dec_uint8 rt flag
        obtain rfl : k = .int m := by rw [← h2.value, hk]
        rw [if_pos (by simp only [Num.toNat]; by_contra hh; exact h4 (by congr 1; omega))]
        exact ⟨_, ⟨p.value, rfl, h3⟩, by cases p; cases h1; rfl⟩
    · rintro ⟨b1, b2, k, rfl, h1, h2⟩
      obtain ⟨m, -, hk⟩ := dec_uint8 rt b1
      obtain rfl : k = .int m := by rw [← h1.value, hk]
      by_cases hk0 : 0 < (Num.int m).toNat
      · rw [if_pos hk0] at h2
        obtain ⟨o, ⟨j, rfl, h3⟩, rfl⟩ := h2
        refine ⟨_, rfl, rfl, Or.inr ⟨b1, b2, rfl, ?_, h3⟩⟩
        simp only [if_true]
        refine ⟨_, h1, ?_, trivial⟩
        intro h0
        rw [h0] at hk0
        simp [Num.toNat] at hk0
      · rw [if_neg hk0] at h2
        obtain ⟨rfl, rfl⟩ := h2
        refine ⟨_, rfl, rfl, Or.inl ⟨rfl, rfl, ?_⟩⟩
        rw [List.append_nil]
        obtain rfl : m = 0 := by simp only [Num.toNat] at hk0; omega
        exact h1

mutual
theorem does_type : (t : RType) → EnumsT SoundEnum t → Does (rdType rt t) fun bs o => ∃ j, o = some j ∧ HoldsTt rt t bs j
  | .builtin b, _ => by
    cases hs : scalarOf b with
    | some sc =>
      refine (does_map (does_readNum rt sc) fun n => some (.num n)).congr ?_ ?_
      · intro r
        simp only [rdType, hs]
      · intro bs o
        simp only [HoldsTt, HoldsT, hs]
        constructor
        · rintro ⟨j, rfl, n, h1, rfl⟩
          exact ⟨_, h1, rfl⟩
        · rintro ⟨n, h1, rfl⟩
          exact ⟨_, rfl, n, h1, rfl⟩
    | none =>
      refine (does_bind (does_readNum rt .uint32) fun n => does_map (does_readStr rt n.toNat) fun s => some (.str s)).congr ?_ ?_
      · intro r
        simp only [rdType, hs]
      · intro bs o
        simp only [HoldsTt, HoldsT, hs]
        constructor
        · rintro ⟨j, rfl, len, text, rfl, h1, -, rfl⟩
          exact ⟨len, text, _, rfl, h1, _, ⟨rfl, rfl⟩, rfl⟩
        · rintro ⟨b1, b2, n, rfl, h1, s, ⟨h2, rfl⟩, rfl⟩
          exact ⟨_, rfl, b1, b2, rfl, holds_count rt h1 h2, trivial, rfl⟩
  | .enum e, he => by
    have hN := does_readNum rt (reprScalar e.repr)
    refine ⟨?_, ?_⟩
    · intro r h
      simp only [rdType] at h ⊢
      by_cases hb : inBounds e (rt.readNum (reprScalar e.repr) r).1 = true
      · rw [if_pos hb] at h ⊢
        obtain ⟨h1, used, h2, h3⟩ := hN.sound r h
        refine ⟨h1, used, h2, _, rfl, ?_⟩
        obtain ⟨i, hi, h5, h6⟩ := (inBounds_iff he _).1 hb
        rw [hi] at h3 ⊢
        exact ⟨i, h3, h5, h6, rfl⟩
      · rw [if_neg hb] at h
        cases h
    · rintro used o rest c ⟨j, rfl, i, h1, h3, h4, rfl⟩
      obtain ⟨c', hc⟩ := hN.complete used _ rest c h1
      refine ⟨c', ?_⟩
      simp only [rdType, hc]
      rw [if_pos ((inBounds_iff he _).2 ⟨i, rfl, h3, h4⟩)]
  | .struct fs, he => by
    refine (does_map (does_fields fs he) fun ps => some (.obj ps)).congr (fun _ => rfl) ?_
    intro bs o
    constructor
    · rintro ⟨j, rfl, ps, rfl, h⟩
      exact ⟨ps, h, rfl⟩
    · rintro ⟨ps, h, rfl⟩
      exact ⟨_, rfl, ps, rfl, h⟩
theorem does_fields : (fs : List (FieldOf RType)) → EnumsFs SoundEnum fs → Does (rdFields rt fs) (Holds rt fs)
  | [], _ => (does_pure []).congr (fun _ => rfl) fun bs ps => Iff.rfl
  | f :: fs, he => by
    refine (does_bind (does_field rt f (does_F f he.1)) fun ps => does_map (does_fields fs he.2) fun qs => ps ++ qs).congr
      (fun _ => rfl) ?_
    intro bs ps
    constructor
    · rintro ⟨b1, b2, p, qs, rfl, rfl, h1, h2⟩
      exact ⟨b1, b2, [p], rfl, ⟨p, rfl, h1⟩, qs, h2, rfl⟩
    · rintro ⟨b1, b2, _, rfl, ⟨p, rfl, h1⟩, qs, h2, rfl⟩
      exact ⟨b1, b2, p, qs, rfl, rfl, h1, h2⟩
theorem does_F : (f : FieldOf RType) → EnumsF SoundEnum f →
    Does (rdType rt f.ty) fun bs o => ∃ j, o = some j ∧ HoldsTt rt f.ty bs j
  | ⟨_, _, t, _, _⟩, he => does_type t he
end

/-! ### writing again -/

section
variable {N N' : Scalar → List UInt8 → Prop} {F F' : Num → Prop} {T T' : List UInt8 → Prop}
  (hN : ∀ s b, b.length = s.width → N s b → N' s b) (hF : ∀ n, F n → F' n) (hT : ∀ b, T b → T' b)

include hN in
theorem holdsNum_mono {s : Scalar} {bs : List UInt8} {n : Num} (h : HoldsNum rt N s bs n) : HoldsNum rt N' s bs n :=
  ⟨h.width, hN s bs h.width h.ok, h.value⟩

set_option linter.unusedSectionVars false
include hN hF hT
mutual
theorem holdsT_mono : (t : RType) → (bs : List UInt8) → (j : JVal) → HoldsT rt N F T t bs j → HoldsT rt N' F' T' t bs j
  | .builtin b, bs, j, h => by
    simp only [HoldsT] at h ⊢
    cases hs : scalarOf b with
    | some sc =>
      simp only [hs] at h ⊢
      obtain ⟨n, h1, h2⟩ := h
      exact ⟨n, holdsNum_mono rt hN h1, h2⟩
    | none =>
      simp only [hs] at h ⊢
      obtain ⟨len, text, h1, h2, h4, h3⟩ := h
      exact ⟨len, text, h1, holdsNum_mono rt hN h2, hT _ h4, h3⟩
  | .enum e, bs, j, ⟨i, h1, h2⟩ => ⟨i, holdsNum_mono rt hN h1, h2⟩
  | .struct fs, bs, j, ⟨ps, h1, h2⟩ => ⟨ps, h1, holdsFs_mono fs bs ps h2⟩
theorem holdsFs_mono : (fs : List (FieldOf RType)) → (bs : List UInt8) → (ps : List (PropOf JVal)) →
    HoldsFs rt N F T fs bs ps → HoldsFs rt N' F' T' fs bs ps
  | [], _, _, h => h
  | f :: fs, _, _, ⟨b1, b2, p, qs, h1, h2, h3, h4⟩ => ⟨b1, b2, p, qs, h1, h2, holdsF_mono f b1 p h3, holdsFs_mono fs b2 qs h4⟩
theorem holdsF_mono : (f : FieldOf RType) → (bs : List UInt8) → (p : PropOf JVal) → HoldsF rt N F T f bs p →
    HoldsF rt N' F' T' f bs p
  | ⟨name, _, ty, array, optional⟩, bs, p, h => by
    obtain ⟨h0, ⟨h1, h2, h3⟩ | ⟨flag, body, h1, h2, h3⟩⟩ := h
    · exact ⟨h0, Or.inl ⟨h1, h2, holdsNum_mono rt hN h3⟩⟩
    · refine ⟨h0, Or.inr ⟨flag, body, h1, ?_, ?_⟩⟩
      · cases optional with
        | false => exact h2
        | true =>
          obtain ⟨n, h4, h5, h6⟩ := h2
          exact ⟨n, holdsNum_mono rt hN h4, h5, hF _ h6⟩
      · cases array with
        | false => exact holdsT_mono ty body p.value h3
        | true =>
          obtain ⟨len, items, js, h4, h5, h6, h7⟩ := h3
          exact ⟨len, items, js, h4, holdsNum_mono rt hN h5, h6, h7.imp fun b j hh => holdsT_mono ty b j hh⟩
end
end

theorem holdsFs_any {N : Scalar → List UInt8 → Prop} {F : Num → Prop} {T : List UInt8 → Prop} (fs : List (FieldOf RType))
    (bs : List UInt8) (ps : List (PropOf JVal)) (h : HoldsFs rt N F T fs bs ps) : Holds rt fs bs ps :=
  holdsFs_mono rt (fun _ _ _ _ => trivial) (fun _ _ => trivial) (fun _ _ => trivial) fs bs ps h

/-- As in `HoldsTidily`. -/
abbrev TidyNum (s : Scalar) (b : List UInt8) : Prop := rt.enc s (rt.dec s b) = b
abbrev TidyFlag (n : Num) : Prop := n = .int 1
abbrev TidyText (b : List UInt8) : Prop := rt.encS (rt.decS b) = b ∧ utf16Length (rt.decS b) = b.length

theorem holdsT_ne_undef {numOk : Scalar → List UInt8 → Prop} {flagOk : Num → Prop} {textOk : List UInt8 → Prop} (t : RType)
    {bs : List UInt8} (h : HoldsT rt numOk flagOk textOk t bs .undef) : False := by
  cases t with
  | builtin b =>
    simp only [HoldsT] at h
    cases hs : scalarOf b with
    | some sc => rw [hs] at h; obtain ⟨n, -, h⟩ := h; cases h
    | none => rw [hs] at h; obtain ⟨len, text, -, -, -, h⟩ := h; cases h
  | enum e => obtain ⟨i, -, -, -, h⟩ := h; cases h
  | struct fs => obtain ⟨ps, h, -⟩ := h; cases h

theorem encodeField_undef (n tn : Str) (t : RType) (a : Bool) :
    encodeField rt ⟨n, tn, t, a, true⟩ .undef = rt.enc .uint8 (.int 0) := by
  simp [encodeField]

/-- The bytes of a field after the flag. -/
def encodeB (t : RType) (a : Bool) (j : JVal) : List UInt8 :=
  if a then match j with
    | .arr js => rt.enc .uint32 (.int js.length) ++ (js.map fun x => encode rt t x).flatten
    | _ => []
  else encode rt t j

theorem encodeField_present (n tn : Str) (t : RType) (a o : Bool) {j : JVal} (hj : j ≠ .undef) :
    encodeField rt ⟨n, tn, t, a, o⟩ j = (if o then rt.enc .uint8 (.int 1) else []) ++ encodeB rt t a j := by
  cases j <;> first | exact absurd rfl hj | simp [encodeField, encodeB]

mutual
theorem tidy_T : (t : RType) → (bs : List UInt8) → (j : JVal) → HoldsT rt (TidyNum rt) TidyFlag (TidyText rt) t bs j →
    encode rt t j = bs
  | .builtin b, bs, j, h => by
    simp only [HoldsT] at h
    cases hs : scalarOf b with
    | some sc =>
      rw [hs] at h
      obtain ⟨n, h1, rfl⟩ := h
      simp only [encode, hs]
      rw [← h1.value]
      exact h1.ok
    | none =>
      rw [hs] at h
      obtain ⟨len, text, rfl, h1, ⟨h2, h3⟩, rfl⟩ := h
      simp only [encode, hs]
      rw [h2, h3, ← h1.value, h1.ok]
  | .enum e, bs, j, ⟨i, h1, _, _, h2⟩ => by
    subst h2
    simp only [encode]
    rw [← h1.value]
    exact h1.ok
  | .struct fs, bs, j, ⟨ps, h1, h2⟩ => by
    subst h1
    simp only [encode]
    exact tidy_Fs fs bs ps h2
theorem tidy_Fs : (fs : List (FieldOf RType)) → (bs : List UInt8) → (ps : List (PropOf JVal)) → HoldsTidily rt fs bs ps →
    encodeFields rt fs ps = bs
  | [], _, _, h => by
    obtain ⟨rfl, rfl⟩ := h
    rfl
  | f :: fs, bs, ps, ⟨b1, b2, p, qs, h1, h2, h3, h4⟩ => by
    subst h1 h2
    simp only [encodeFields]
    rw [tidy_F f b1 p h3, tidy_Fs fs b2 qs h4]
theorem tidy_F : (f : FieldOf RType) → (bs : List UInt8) → (p : PropOf JVal) →
    HoldsF rt (TidyNum rt) TidyFlag (TidyText rt) f bs p → encodeField rt f p.value = bs
  | ⟨name, tn, ty, array, optional⟩, bs, ⟨pn, j⟩, h => by
    obtain ⟨h0, ⟨h1, h2, h3⟩ | ⟨flag, body, h1, h2, h3⟩⟩ := h
    · simp only at h1 h2
      subst h1 h2
      rw [encodeField_undef, ← h3.value]
      exact h3.ok
    · simp only at h3 ⊢
      subst h1
      have hj : j ≠ .undef := by
        rintro rfl
        cases array with
        | false => exact holdsT_ne_undef rt ty h3
        | true =>
          obtain ⟨len, items, js, -, -, h, -⟩ := h3
          cases h
      rw [encodeField_present rt _ _ _ _ _ hj]
      congr 1
      · cases optional with
        | false => exact h2.symm
        | true =>
          obtain ⟨n, h4, -, rfl⟩ := h2
          simp only [if_true]
          rw [← h4.value]
          exact h4.ok
      · cases array with
        | false => exact tidy_T ty body j h3
        | true =>
          obtain ⟨len, items, js, rfl, h5, rfl, h7⟩ := h3
          simp only [encodeB, if_true]
          congr 1
          · rw [← h5.value]
            exact h5.ok
          · congr 1
            clear h5 hj h0
            induction h7 with
            | nil => rfl
            | cons hh _ ih => rw [List.map_cons, ih, tidy_T ty _ _ hh]
end

mutual
theorem relay_T : (t : RType) → (bs : List UInt8) → (j : JVal) → (x y : List UInt8) → HoldsTt rt t bs j →
    TypedT (FaithfulStr rt) (fun _ _ => True) t j → encode rt t j ++ x = bs ++ y →
    HoldsT rt (TidyNum rt) TidyFlag (TidyText rt) t bs j ∧ x = y
  | .builtin b, bs, j, x, y, h, ht, e => by
    simp only [HoldsTt, HoldsT, TypedT] at h ht ⊢
    cases hs : scalarOf b with
    | some sc =>
      rw [hs] at h
      simp only at h ⊢
      obtain ⟨n, h1, rfl⟩ := h
      simp only [encode, hs] at e
      obtain ⟨e1, e2⟩ := List.append_inj e (by rw [rt.enc_len, h1.width])
      exact ⟨⟨n, ⟨h1.width, by rw [TidyNum, h1.value, e1], h1.value⟩, rfl⟩, e2⟩
    | none =>
      rw [hs] at h ht
      simp only at h ht ⊢
      obtain ⟨len, text, rfl, h1, -, rfl⟩ := h
      obtain ⟨s, h2, h3, h4⟩ := ht
      cases h2
      simp only [encode, hs, List.append_assoc] at e
      obtain ⟨e1, e2⟩ := List.append_inj e (by rw [rt.enc_len, h1.width])
      have h5 : utf16Length (rt.decS text) = text.length := by
        have := h1.value
        rw [← e1, rt.dec_enc .uint32 (.int (utf16Length (rt.decS text))) ⟨by omega, by omega⟩] at this
        injection this with this
        omega
      obtain ⟨e3, e4⟩ := List.append_inj e2 (by rw [h4, h5])
      exact ⟨⟨len, text, rfl, ⟨h1.width, by rw [TidyNum, h1.value, ← h5, e1], h1.value⟩, ⟨e3, h5⟩, rfl⟩, e4⟩
  | .enum en, bs, j, x, y, ⟨i, h1, h2, h3, h4⟩, _, e => by
    subst h4
    simp only [encode] at e
    obtain ⟨e1, e2⟩ := List.append_inj e (by rw [rt.enc_len, h1.width])
    exact ⟨⟨i, ⟨h1.width, by rw [TidyNum, h1.value, e1], h1.value⟩, h2, h3, rfl⟩, e2⟩
  | .struct fs, bs, j, x, y, ⟨ps, h1, h2⟩, ⟨qs, h3, h4⟩, e => by
    subst h1
    cases h3
    simp only [encode] at e
    obtain ⟨e1, e2⟩ := relay_Fs fs bs ps x y h2 h4 e
    exact ⟨⟨ps, rfl, e1⟩, e2⟩
theorem relay_Fs : (fs : List (FieldOf RType)) → (bs : List UInt8) → (ps : List (PropOf JVal)) → (x y : List UInt8) →
    Holds rt fs bs ps → TypedFs (FaithfulStr rt) (fun _ _ => True) fs ps → encodeFields rt fs ps ++ x = bs ++ y →
    HoldsTidily rt fs bs ps ∧ x = y
  | [], _, _, x, y, h, _, e => by
    obtain ⟨rfl, rfl⟩ := h
    exact ⟨⟨rfl, rfl⟩, e⟩
  | f :: fs, bs, ps, x, y, ⟨b1, b2, p, qs, h1, h2, h3, h4⟩, ⟨p', qs', h5, h6, h7⟩, e => by
    subst h1 h2
    cases h5
    simp only [encodeFields, List.append_assoc] at e
    obtain ⟨e1, e2⟩ := relay_F f b1 p _ _ h3 h6 e
    obtain ⟨e3, e4⟩ := relay_Fs fs b2 qs _ _ h4 h7 e2
    exact ⟨⟨b1, b2, p, qs, rfl, rfl, e1, e3⟩, e4⟩
theorem relay_F : (f : FieldOf RType) → (bs : List UInt8) → (p : PropOf JVal) → (x y : List UInt8) → HoldsFt rt f bs p →
    TypedF (FaithfulStr rt) (fun _ _ => True) f p → encodeField rt f p.value ++ x = bs ++ y →
    HoldsF rt (TidyNum rt) TidyFlag (TidyText rt) f bs p ∧ x = y
  | ⟨name, tn, ty, array, optional⟩, bs, ⟨pn, j⟩, x, y, h, ht, e => by
    obtain ⟨h0, ⟨h1, h2, h3⟩ | ⟨flag, body, h1, h2, h3⟩⟩ := h
    · simp only at h0 h1 h2 e
      subst h1 h2
      rw [encodeField_undef] at e
      obtain ⟨e1, e2⟩ := List.append_inj e (by rw [rt.enc_len, h3.width])
      exact ⟨⟨h0, Or.inl ⟨rfl, rfl, ⟨h3.width, by rw [TidyNum, h3.value, e1], h3.value⟩⟩⟩, e2⟩
    · simp only at h3 e
      subst h1
      have hj : j ≠ .undef := by
        rintro rfl
        cases array with
        | false => exact holdsT_ne_undef rt ty h3
        | true =>
          obtain ⟨len, items, js, -, -, h, -⟩ := h3
          cases h
      obtain ⟨-, ⟨-, h8⟩ | ht⟩ := ht
      · exact absurd h8 hj
      rw [encodeField_present rt _ _ _ _ _ hj, List.append_assoc, List.append_assoc] at e
      have hflag : (if optional = true then ∃ n, HoldsNum rt (TidyNum rt) .uint8 flag n ∧ n ≠ .int 0 ∧ TidyFlag n else flag = []) ∧
          encodeB rt ty array j ++ x = body ++ y := by
        cases optional with
        | false =>
          simp only [Bool.false_eq_true, if_false] at h2 e ⊢
          subst h2
          exact ⟨rfl, e⟩
        | true =>
          simp only [if_true] at h2 e ⊢
          obtain ⟨n, h2, h4, -⟩ := h2
          obtain ⟨e1, e2⟩ := List.append_inj e (by rw [rt.enc_len, h2.width])
          obtain rfl : n = .int 1 := by rw [← h2.value, ← e1]; exact rt.dec_enc _ _ ⟨by decide, by decide⟩
          exact ⟨⟨_, ⟨h2.width, by rw [TidyNum, h2.value, e1], h2.value⟩, h4, rfl⟩, e2⟩
      have hbody : (if array = true then ∃ (len : List UInt8) (items : List (List UInt8)) (js : List JVal), body = len ++ items.flatten ∧
            HoldsNum rt (TidyNum rt) .uint32 len (.int js.length) ∧
            j = .arr js ∧ List.Forall₂ (fun b j => HoldsT rt (TidyNum rt) TidyFlag (TidyText rt) ty b j) items js
          else HoldsT rt (TidyNum rt) TidyFlag (TidyText rt) ty body j) ∧ x = y := by
        replace e := hflag.2
        cases array with
        | false => exact relay_T ty body j x y h3 ht e
        | true =>
          obtain ⟨len, items, js, rfl, h5, rfl, h7⟩ := h3
          obtain ⟨js', h8, -, h9⟩ := ht
          cases h8
          simp only [encodeB, if_true, List.append_assoc] at e ⊢
          obtain ⟨e1, e2⟩ := List.append_inj e (by rw [rt.enc_len, h5.width])
          have : List.Forall₂ (fun b j => HoldsT rt (TidyNum rt) TidyFlag (TidyText rt) ty b j) items js ∧ x = y := by
            clear h5 hj e hflag e1 h0
            induction h7 with
            | nil => exact ⟨.nil, e2⟩
            | cons hh ht ih =>
              simp only [List.map_cons, List.flatten_cons, List.append_assoc] at e2
              obtain ⟨e3, e4⟩ := relay_T ty _ _ _ _ hh (h9 _ List.mem_cons_self) e2
              obtain ⟨e5, e6⟩ := ih (fun j hj => h9 j (List.mem_cons_of_mem _ hj)) e4
              exact ⟨.cons e3 e5, e6⟩
          exact ⟨⟨len, items, js, rfl, ⟨h5.width, by rw [TidyNum, h5.value, e1], h5.value⟩, rfl, this.1⟩, this.2⟩
      exact ⟨⟨h0, Or.inr ⟨flag, body, rfl, hflag.1, hbody.1⟩⟩, hbody.2⟩
end

theorem tidy_num {s : Scalar} {n : Num} {bs : List UInt8} (h : HoldsN rt s bs n) : HoldsNum rt (TidyNum rt) s (rt.enc s n) n := by
  have h1 : rt.dec s (rt.enc s n) = n := rt.dec_enc s n (by rw [← h.value]; exact rt.dec_ok s bs)
  exact ⟨rt.enc_len s n, by rw [TidyNum, h1], h1⟩

mutual
theorem renew_T : (t : RType) → (bs : List UInt8) → (j : JVal) → HoldsTt rt t bs j →
    TypedT (FaithfulStr rt) (fun _ _ => True) t j → HoldsT rt (TidyNum rt) TidyFlag (TidyText rt) t (encode rt t j) j
  | .builtin b, bs, j, h, ht => by
    simp only [HoldsTt, HoldsT, TypedT] at h ht ⊢
    cases hs : scalarOf b with
    | some sc =>
      rw [hs] at h
      simp only at h ⊢
      obtain ⟨n, h1, rfl⟩ := h
      simp only [encode, hs]
      exact ⟨n, tidy_num rt h1, rfl⟩
    | none =>
      rw [hs] at h ht
      simp only at h ht ⊢
      obtain ⟨len, text, rfl, h1, -, rfl⟩ := h
      obtain ⟨s, h2, h3, h4⟩ := ht
      cases h2
      simp only [encode, hs]
      have h5 : rt.dec .uint32 (rt.enc .uint32 (.int (utf16Length (rt.decS text)))) = .int (utf16Length (rt.decS text)) :=
        rt.dec_enc .uint32 (.int (utf16Length (rt.decS text))) ⟨by omega, by omega⟩
      refine ⟨_, _, rfl, ⟨rt.enc_len _ _, by rw [TidyNum, h5], by rw [h4, h5]⟩, ⟨by rw [rt.decS_encS], by rw [rt.decS_encS, h4]⟩,
        by rw [rt.decS_encS]⟩
  | .enum en, bs, j, ⟨i, h1, h2, h3, h4⟩, _ => by
    subst h4
    simp only [encode]
    exact ⟨i, tidy_num rt h1, h2, h3, rfl⟩
  | .struct fs, bs, j, ⟨ps, h1, h2⟩, ⟨qs, h3, h4⟩ => by
    subst h1
    cases h3
    simp only [encode]
    exact ⟨ps, rfl, renew_Fs fs bs ps h2 h4⟩
theorem renew_Fs : (fs : List (FieldOf RType)) → (bs : List UInt8) → (ps : List (PropOf JVal)) →
    Holds rt fs bs ps → TypedFs (FaithfulStr rt) (fun _ _ => True) fs ps → HoldsTidily rt fs (encodeFields rt fs ps) ps
  | [], _, _, h, _ => by
    obtain ⟨rfl, rfl⟩ := h
    exact ⟨rfl, rfl⟩
  | f :: fs, bs, ps, ⟨b1, b2, p, qs, h1, h2, h3, h4⟩, ⟨p', qs', h5, h6, h7⟩ => by
    subst h1 h2
    cases h5
    simp only [encodeFields]
    exact ⟨_, _, p, qs, rfl, rfl, renew_F f b1 p h3 h6, renew_Fs fs b2 qs h4 h7⟩
theorem renew_F : (f : FieldOf RType) → (bs : List UInt8) → (p : PropOf JVal) → HoldsFt rt f bs p →
    TypedF (FaithfulStr rt) (fun _ _ => True) f p →
    HoldsF rt (TidyNum rt) TidyFlag (TidyText rt) f (encodeField rt f p.value) p
  | ⟨name, tn, ty, array, optional⟩, bs, ⟨pn, j⟩, h, ht => by
    obtain ⟨h0, ⟨h1, h2, h3⟩ | ⟨flag, body, h1, h2, h3⟩⟩ := h
    · simp only at h0 h1 h2
      subst h1 h2
      rw [encodeField_undef]
      exact ⟨h0, Or.inl ⟨rfl, rfl, tidy_num rt h3⟩⟩
    · simp only at h3
      have hj : j ≠ .undef := by
        rintro rfl
        cases array with
        | false => exact holdsT_ne_undef rt ty h3
        | true =>
          obtain ⟨len, items, js, -, -, h, -⟩ := h3
          cases h
      obtain ⟨-, ⟨-, h8⟩ | ht⟩ := ht
      · exact absurd h8 hj
      rw [encodeField_present rt _ _ _ _ _ hj]
      refine ⟨h0, Or.inr ⟨_, _, rfl, ?_, ?_⟩⟩
      · cases optional with
        | false => rfl
        | true =>
          have h1 : rt.dec .uint8 (rt.enc .uint8 (.int 1)) = .int 1 := rt.dec_enc _ _ ⟨by decide, by decide⟩
          exact ⟨.int 1, ⟨rt.enc_len _ _, by rw [TidyNum]; simp only [if_true]; rw [h1], h1⟩, by decide, rfl⟩
      · cases array with
        | false => exact renew_T ty body j h3 ht
        | true =>
          obtain ⟨len, items, js, rfl, h5, rfl, h7⟩ := h3
          obtain ⟨js', h8, -, h9⟩ := ht
          cases h8
          simp only [encodeB, if_true]
          refine ⟨_, js.map fun x => encode rt ty x, js, rfl, tidy_num rt h5, rfl, ?_⟩
          clear h5 hj h0 h1
          induction h7 with
          | nil => exact .nil
          | cons hh ht ih =>
            exact .cons (renew_T ty _ _ hh (h9 _ List.mem_cons_self)) (ih fun j hj => h9 j (List.mem_cons_of_mem _ hj))
end

end Packetc.Js
