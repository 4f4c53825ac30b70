import Verif.Proof.JsBase
/-!
# What the generated `read` computes, as a function on reader states
-/

namespace Packetc.Js
open Check Gen

/-- An integer read from the wire, as a count. -/
def Num.toNat : Num → Nat
  | .int i => i.toNat
  | .f32 _ => 0

/-- The range check of `read` for enums. -/
def inBounds (e : REnum) (n : Num) : Bool :=
  match n with
  | .int i =>
    decide (((enumBounds e.variants).getD (0, 0)).1 ≤ i) && decide (i ≤ ((enumBounds e.variants).getD (0, 0)).2)
  | .f32 _ => false

/-- Read `n` items; an item that was rejected is `undefined`. -/
def rdMany (f : RState → Option JVal × RState) : Nat → RState → List JVal × RState
  | 0, r => ([], r)
  | n + 1, r => ((f r).1.getD .undef :: (rdMany f n (f r).2).1, (rdMany f n (f r).2).2)

variable (rt : Runtime)

mutual
/-- Read a value; `none` if an enum is out of range. -/
def rdType : RType → RState → Option JVal × RState
  | .builtin b, r =>
    match scalarOf b with
    | some s => (some (.num (rt.readNum s r).1), (rt.readNum s r).2)
    | none =>
      (some (.str (rt.readStr (rt.readNum .uint32 r).1.toNat (rt.readNum .uint32 r).2).1),
       (rt.readStr (rt.readNum .uint32 r).1.toNat (rt.readNum .uint32 r).2).2)
  | .enum e, r =>
    if inBounds e (rt.readNum (reprScalar e.repr) r).1 then
      (some (.num (rt.readNum (reprScalar e.repr) r).1), (rt.readNum (reprScalar e.repr) r).2)
    else (none, { (rt.readNum (reprScalar e.repr) r).2 with failed := true })
  | .struct fs, r => (some (.obj (rdFields fs r).1), (rdFields fs r).2)
/-- Read the fields of a struct: the components that were assigned, in order. -/
def rdFields : List (FieldOf RType) → RState → List (PropOf JVal) × RState
  | [], r => ([], r)
  | f :: fs, r => ((rdField f r).1 ++ (rdFields fs (rdField f r).2).1, (rdFields fs (rdField f r).2).2)
/-- Read one field. -/
def rdField : FieldOf RType → RState → List (PropOf JVal) × RState
  | ⟨name, _, ty, array, optional⟩, r =>
    let body (r : RState) : Option JVal × RState :=
      if array then
        (some (.arr (rdMany (fun r => rdType ty r) (rt.readNum .uint32 r).1.toNat (rt.readNum .uint32 r).2).1),
         (rdMany (fun r => rdType ty r) (rt.readNum .uint32 r).1.toNat (rt.readNum .uint32 r).2).2)
      else rdType ty r
    let res : Option JVal × RState :=
      if optional then
        if 0 < (rt.readNum .uint8 r).1.toNat then body (rt.readNum .uint8 r).2
        else (some .undef, (rt.readNum .uint8 r).2)
      else body r
    (match res.1 with | some j => [⟨name, j⟩] | none => [], res.2)
end

theorem readNum_ok (s : Scalar) (r : RState) : s.Ok (rt.readNum s r).1 := by
  unfold Runtime.readNum
  split
  · exact rt.dec_ok _ _
  · exact rt.stuckNum_ok _ _

theorem readNum_uint32 (r : RState) : ∃ k : Nat, k < 2 ^ 32 ∧ (rt.readNum .uint32 r).1 = .int k := by
  have := readNum_ok rt .uint32 r
  cases h : (rt.readNum .uint32 r).1 with
  | f32 b => rw [h] at this; exact absurd this (by simp [Scalar.Ok])
  | int i =>
    rw [h] at this
    obtain ⟨h1, h2⟩ := this
    exact ⟨i.toNat, by omega, by rw [Int.toNat_of_nonneg h1]⟩

theorem readNum_uint8 (r : RState) : ∃ k : Nat, k < 2 ^ 8 ∧ (rt.readNum .uint8 r).1 = .int k := by
  have := readNum_ok rt .uint8 r
  cases h : (rt.readNum .uint8 r).1 with
  | f32 b => rw [h] at this; exact absurd this (by simp [Scalar.Ok])
  | int i =>
    rw [h] at this
    obtain ⟨h1, h2⟩ := this
    exact ⟨i.toNat, by omega, by rw [Int.toNat_of_nonneg h1]⟩

theorem readNum_repr (e : EnumRepr) (r : RState) :
    ∃ k : Nat, k < 2 ^ 32 ∧ (rt.readNum (reprScalar e) r).1 = .int k := by
  have := readNum_ok rt (reprScalar e) r
  cases h : (rt.readNum (reprScalar e) r).1 with
  | f32 b => rw [h] at this; cases e <;> exact absurd this (by simp [Scalar.Ok, reprScalar])
  | int i =>
    rw [h] at this
    cases e <;>
    · obtain ⟨h1, h2⟩ := this
      exact ⟨i.toNat, by omega, by rw [Int.toNat_of_nonneg h1]⟩

theorem rdMany_snoc (f : RState → Option JVal × RState) (n : Nat) (r : RState) :
    rdMany f (n + 1) r =
      ((rdMany f n r).1 ++ [(f (rdMany f n r).2).1.getD .undef], (f (rdMany f n r).2).2) := by
  induction n generalizing r with
  | zero => simp [rdMany]
  | succ n ih =>
    rw [rdMany, ih (f r).2]
    simp only [rdMany, List.cons_append]

theorem rdMany_length (f : RState → Option JVal × RState) (n : Nat) (r : RState) :
    (rdMany f n r).1.length = n := by
  induction n generalizing r with
  | zero => rfl
  | succ n ih => simp [rdMany, ih]

/-- The field without the optional. -/
def rdB (t : RType) (a : Bool) (r : RState) : Option JVal × RState :=
  if a then
    (some (.arr (rdMany (rdType rt t) (rt.readNum .uint32 r).1.toNat (rt.readNum .uint32 r).2).1),
     (rdMany (rdType rt t) (rt.readNum .uint32 r).1.toNat (rt.readNum .uint32 r).2).2)
  else rdType rt t r

/-- The component assigned. -/
def component (n : Str) (o : Option JVal) : List (PropOf JVal) := match o with | some j => [⟨n, j⟩] | none => []

theorem rdField_eq (f : FieldOf RType) (r : RState) :
    rdField rt f r =
      if f.optional then
        if 0 < (rt.readNum .uint8 r).1.toNat then
          (component f.name (rdB rt f.ty f.array (rt.readNum .uint8 r).2).1, (rdB rt f.ty f.array (rt.readNum .uint8 r).2).2)
        else ([⟨f.name, .undef⟩], (rt.readNum .uint8 r).2)
      else (component f.name (rdB rt f.ty f.array r).1, (rdB rt f.ty f.array r).2) := by
  obtain ⟨n, tn, t, a, o⟩ := f
  cases o with
  | false => rfl
  | true =>
    simp only [rdField, if_true]
    by_cases h : 0 < (rt.readNum .uint8 r).1.toNat
    · simp only [if_pos h]; rfl
    · simp only [if_neg h]

end Packetc.Js
