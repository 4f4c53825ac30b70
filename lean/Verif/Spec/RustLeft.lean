import Verif.Spec.Behaviour
/-!
# Which types can be left half read
-/

namespace Packetc.Rs
open Check
open Js (slotsT slotsFs slotsF)

mutual
/-- A place of the type may hold something else after it was read into: there is something in it with more than one value. -/
def ChangesT : RType → Prop
  | .builtin _ => True
  | .enum e => 2 ≤ e.variants.length
  | .struct fs => ChangesFs fs
def ChangesFs : List (FieldOf RType) → Prop
  | [] => False
  | f :: fs => ChangesF f ∨ ChangesFs fs
def ChangesF : FieldOf RType → Prop
  | ⟨_, _, ty, array, optional⟩ => array = true ∨ optional = true ∨ ChangesT ty
end

mutual
/-- Something may have been stored in a place of the type when reading it fails: it is an array of items that take space, or something that
may change comes before something that takes space. Nothing is stored in an optional place before all of it was read. -/
def LeavesT : RType → Prop
  | .builtin _ => False
  | .enum _ => False
  | .struct fs => LeavesFs fs
def LeavesFs : List (FieldOf RType) → Prop
  | [] => False
  | f :: fs => LeavesF f ∨ (ChangesF f ∧ slotsFs fs ≠ 0) ∨ LeavesFs fs
def LeavesF : FieldOf RType → Prop
  | ⟨_, _, ty, array, optional⟩ => optional = false ∧ if array then slotsT ty ≠ 0 else LeavesT ty
end

end Packetc.Rs
