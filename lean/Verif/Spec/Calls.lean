import Verif.Spec.Behaviour
/-!
# Types without loops over reads (specification for C43)
-/

namespace Packetc.Js
open Check

mutual
/-- At any depth, the items of arrays have no parts that are read. -/
def CalmT : RType → Prop
  | .builtin _ => True
  | .enum _ => True
  | .struct fs => CalmFs fs
def CalmFs : List (FieldOf RType) → Prop
  | [] => True
  | f :: fs => CalmF f ∧ CalmFs fs
def CalmF : FieldOf RType → Prop
  | ⟨_, _, ty, array, _⟩ => (array = true → slotsT ty = 0) ∧ CalmT ty
end

end Packetc.Js
