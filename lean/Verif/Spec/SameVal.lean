import Verif.Rust.Sem
import Mathlib.Data.List.Forall2
/-!
# Specification of Rust values that are equal up to the bits of NaN (C131)
-/

namespace Packetc.Rs

/-- The bits of a 32-bit float are those of a NaN: the exponent is all ones and the mantissa is not zero. -/
def IsNan (b : BitVec 32) : Prop := b.extractLsb' 23 8 = 0xff#8 ∧ b.extractLsb' 0 23 ≠ 0#23

/-- The values are equal, except that a NaN can be another NaN. -/
inductive SameVal : Val → Val → Prop
  | refl (v) : SameVal v v
  | nan {a b} : IsNan a → IsNan b → SameVal (.num (.f32 a)) (.num (.f32 b))
  | some {v w} : SameVal v w → SameVal (.some v) (.some w)
  | vec {vs ws} : List.Forall₂ SameVal vs ws → SameVal (.vec vs) (.vec ws)
  | struct {ps qs : List (Str × Val)} : ps.map Prod.fst = qs.map Prod.fst → List.Forall₂ SameVal (ps.map Prod.snd) (qs.map Prod.snd) →
      SameVal (.struct ps) (.struct qs)

end Packetc.Rs
