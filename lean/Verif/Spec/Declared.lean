import Verif.Spec.Wire
/-!
# Values of the declared TypeScript types (specification for C118)

The generated declarations say `number`, `string`, `E` for an enum, `T[]`, and members of an interface. TypeScript does not know
how large a number may be.
-/

namespace Packetc.Js
open Check

section
variable (strOk : Str → Prop) (numOk : Scalar → Num → Prop) (enumOk : REnum → Num → Prop)

mutual
/-- The values of a declared type, when strings satisfy `strOk`, numbers `numOk` and enums `enumOk`. -/
def DeclaredT : RType → JVal → Prop
  | .builtin b, j =>
    match scalarOf b with
    | none => ∃ s, j = .str s ∧ strOk s
    | some sc => ∃ n, j = .num n ∧ numOk sc n
  | .enum e, j => ∃ n, j = .num n ∧ enumOk e n
  | .struct fs, j => ∃ ps, j = .obj ps ∧ DeclaredFs fs ps
/-- One component per field, in order. -/
def DeclaredFs : List (FieldOf RType) → List (PropOf JVal) → Prop
  | [], ps => ps = []
  | f :: fs, ps => ∃ p qs, ps = p :: qs ∧ DeclaredF f p ∧ DeclaredFs fs qs
/-- The component for a field. -/
def DeclaredF : FieldOf RType → PropOf JVal → Prop
  | ⟨name, _, ty, array, optional⟩, p =>
    p.name = name ∧
    ((optional = true ∧ p.value = .undef) ∨
      if array then ∃ js, p.value = .arr js ∧ js.length < 2 ^ 32 ∧ ∀ j ∈ js, DeclaredT ty j
      else DeclaredT ty p.value)
end
end

/-- Any integer, however large, for the integer types; a single-precision number for `float`. -/
def SameKind : Scalar → Num → Prop
  | .float, n => Scalar.float.Ok n
  | _, n => ∃ i, n = .int i

/-- Any integer. -/
def AnyInt (_ : REnum) (n : Num) : Prop := ∃ i, n = .int i

/-- The numbers that an enum lets through. -/
def Surviving (e : REnum) (n : Num) : Prop := BetweenVariants e n ∧ e.variants.length ≤ 31

/-! ### numbers that do not fit -/

/-- The number of the type that has the same lowest bits. -/
def wrapInt : Scalar → Int → Int
  | .uint8, i => i % 2 ^ 8
  | .uint16, i => i % 2 ^ 16
  | .uint32, i => i % 2 ^ 32
  | .int8, i => (i + 2 ^ 7) % 2 ^ 8 - 2 ^ 7
  | .int16, i => (i + 2 ^ 15) % 2 ^ 16 - 2 ^ 15
  | .int32, i => (i + 2 ^ 31) % 2 ^ 32 - 2 ^ 31
  | .float, i => i

def wrapNum (sc : Scalar) : Num → Num
  | .int i => .int (wrapInt sc i)
  | .f32 b => .f32 b

mutual
/-- A value with every number wrapped. -/
def wrapT : RType → JVal → JVal
  | .builtin b, j =>
    match scalarOf b, j with
    | some sc, .num n => .num (wrapNum sc n)
    | _, j => j
  | .enum e, j => match j with | .num n => .num (wrapNum (reprScalar e.repr) n) | j => j
  | .struct fs, j => match j with | .obj ps => .obj (wrapFs fs ps) | j => j
/-- Field by field. -/
def wrapFs : List (FieldOf RType) → List (PropOf JVal) → List (PropOf JVal)
  | [], ps => ps
  | f :: fs, ps => match ps with | [] => [] | p :: ps => ⟨p.name, wrapF f p.value⟩ :: wrapFs fs ps
/-- Item by item. -/
def wrapF : FieldOf RType → JVal → JVal
  | ⟨_, _, ty, array, _⟩, j =>
    if array then match j with | .arr js => .arr (js.map fun x => wrapT ty x) | j => j else wrapT ty j
end

/-- The library writes the lowest bits of an integer, as `DataView` does. -/
def WritesLowBits (rt : Runtime) : Prop := ∀ sc i, sc ≠ .float → rt.enc sc (.int i) = rt.enc sc (.int (wrapInt sc i))

end Packetc.Js
