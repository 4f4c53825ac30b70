import Verif.Model.Check
/-!
# Counting fields that are no structs (specification for C124)
-/

namespace Packetc.Check

mutual
/-- The number of fields that are no structs, those in structs included; a type used in several places counts at each of them. -/
def leavesFs : List (FieldOf RType) → Nat
  | [] => 0
  | f :: fs => leavesF f + leavesFs fs
def leavesF : FieldOf RType → Nat
  | ⟨_, _, t, _, _⟩ => leavesT t
def leavesT : RType → Nat
  | .builtin _ => 1
  | .enum _ => 1
  | .struct fs => leavesFs fs
end

end Packetc.Check
