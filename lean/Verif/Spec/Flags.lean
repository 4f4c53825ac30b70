import Verif.Spec.Wire
/-!
# Enums used as sets of flags (specification for C90)

The variants of an enum are different bits, so JavaScript can combine them: `E.A | E.B`.
-/

namespace Packetc.Js
open Check

/-- The 32-bit integer that `A | B | ...` is in JavaScript, for the given variants (0 if there are none). -/
def orBits (vs : List EnumVariant) : BitVec 32 := vs.foldr (fun v m => (1#32 <<< v.value) ||| m) 0#32

/-- `n` is the combination of the variants `vs` of the enum. -/
structure Combines (e : REnum) (vs : List EnumVariant) (n : Num) : Prop where
  variants : vs ⊆ e.variants
  value : n = .int (orBits vs).toInt

/-- `n` is a combination of variants of the enum, possibly of none. -/
def Combination (e : REnum) (n : Num) : Prop := ∃ vs, Combines e vs n

/-- A combination that the generated `read` lets through: it is not empty, the last variant of the enum is combined with no
other one, and the enum has at most 31 variants. -/
def PassingCombination (e : REnum) (n : Num) : Prop := ∃ vs, Combines e vs n ∧ vs ≠ [] ∧
  (∀ last, e.variants.getLast? = some last → last ∈ vs → ∀ v ∈ vs, v = last) ∧ e.variants.length ≤ 31

end Packetc.Js
