import Verif.Spec.Wire
/-!
# Types with strings (specification for C33)
-/

namespace Packetc.Js
open Check

mutual
/-- No string occurs in the type, at any depth. -/
def TextFreeT : RType → Prop
  | .builtin b => b ≠ .string
  | .enum _ => True
  | .struct fs => TextFreeFs fs
def TextFreeFs : List (FieldOf RType) → Prop
  | [] => True
  | f :: fs => TextFreeF f ∧ TextFreeFs fs
def TextFreeF : FieldOf RType → Prop
  | ⟨_, _, ty, _, _⟩ => TextFreeT ty
end

end Packetc.Js
