import Verif.Spec.Wire
/-!
# Values that can be written and read back (specification for C31)
-/

namespace Packetc.Js
open Check

/-- Decoding the wrong number of bytes does not give the string back, for strings in `P`. -/
def Honest (rt : Runtime) (P : Str → Prop) : Prop := ∀ s tail, P s → (rt.encS s).length ≠ utf16Length s →
  utf16Length s ≤ (rt.encS s ++ tail).length → rt.decS ((rt.encS s ++ tail).take (utf16Length s)) ≠ s

/-- A variant of an enum that the range check lets through. -/
def SmallVariant (e : REnum) (n : Num) : Prop := IsVariant e n ∧ e.variants.length ≤ 31

/-- Only ASCII characters. -/
def Ascii (s : Str) : Prop := ∀ c ∈ s, c.toNat < 128

end Packetc.Js
