import Verif.Model.Check
/-!
# Fields that are not transmitted (specification for C126)

A field is hollow if its type is a struct without fields, or one all of whose fields are hollow, and it is neither an array nor optional. No byte is written for it.
-/

namespace Packetc.Check

mutual
/-- All the fields are hollow. -/
def hollowFs : List (FieldOf RType) → Bool
  | [] => true
  | f :: fs => hollowF f && hollowFs fs
/-- The field is hollow. -/
def hollowF : FieldOf RType → Bool
  | ⟨_, _, t, a, o⟩ => !a && !o && hollowT t
/-- A struct with hollow fields only. -/
def hollowT : RType → Bool
  | .builtin _ => false
  | .enum _ => false
  | .struct fs => hollowFs fs
end

mutual
/-- The names of the hollow fields, those in structs included, with one character more for each; a type used in several places counts at each of them. -/
def idleFs : List (FieldOf RType) → Nat
  | [] => 0
  | f :: fs => idleF f + idleFs fs
def idleF : FieldOf RType → Nat
  | ⟨n, _, t, a, o⟩ => (if (!a && !o && hollowT t) = true then n.length + 1 else 0) + idleT t
def idleT : RType → Nat
  | .builtin _ => 0
  | .enum _ => 0
  | .struct fs => idleFs fs
end

end Packetc.Check
