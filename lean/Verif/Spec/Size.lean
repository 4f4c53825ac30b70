import Verif.Model.Check
import Verif.Spec.WellFormed
import Mathlib.Data.List.Chain
/-!
# Counting fields (specification for C78, C79)
-/

namespace Packetc.Check

mutual
/-- The number of fields of a struct, those of the structs in it included; a type used in several places counts at each of them. -/
def fieldsAll : List (FieldOf RType) → Nat
  | [] => 0
  | f :: fs => fieldAll f + fieldsAll fs
/-- A field and all fields inside of it. -/
def fieldAll : FieldOf RType → Nat
  | ⟨_, _, t, _, _⟩ => 1 + typeAll t
/-- The fields inside of a value of the type. -/
def typeAll : RType → Nat
  | .builtin _ => 0
  | .enum _ => 0
  | .struct fs => fieldsAll fs
end

mutual
/-- How deep structs are nested in each other: 0 for no fields, 1 for fields of builtin and enum types only. -/
def fieldsDepth : List (FieldOf RType) → Nat
  | [] => 0
  | f :: fs => max (fieldDepth f) (fieldsDepth fs)
def fieldDepth : FieldOf RType → Nat
  | ⟨_, _, t, _, _⟩ => 1 + typeDepth t
def typeDepth : RType → Nat
  | .builtin _ => 0
  | .enum _ => 0
  | .struct fs => fieldsDepth fs
end

mutual
/-- The number of structs around each other in a value of the type, itself included: how deep recursion over the type goes. -/
def typeNest : RType → Nat
  | .builtin _ => 0
  | .enum _ => 0
  | .struct fs => 1 + fieldsNest fs
def fieldsNest : List (FieldOf RType) → Nat
  | [] => 0
  | f :: fs => max (fieldNest f) (fieldsNest fs)
def fieldNest : FieldOf RType → Nat
  | ⟨_, _, t, _, _⟩ => typeNest t
end

end Packetc.Check

namespace Packetc.WellFormed
open Ast

/-- The fields of a struct that have the type `T`. -/
def usesIn (T : Str) : Ty → List (Str × Unresolved)
  | .struct fs => fs.filter fun f => f.2.name = T
  | .enum _ => []

/-- All fields of the schema that have the type `T`. -/
def usesOf (ast : AST) (T : Str) : List (Str × Unresolved) := (decls ast).flatMap fun d => usesIn T d.2

/-- Every struct is the type of at most one field. -/
def UsedOnce (ast : AST) : Prop := ∀ T fs, (T, .struct fs) ∈ decls ast → (usesOf ast T).length ≤ 1

/-- Structs, the first of them `n`, each having a field of the next one's type. -/
structure StructChain (ast : AST) (n : Str) (l : List Str) : Prop where
  first : l.head? = some n
  chain : List.IsChain (Refers ast) l
  struct : ∀ m ∈ l, ∃ fs, (m, .struct fs) ∈ decls ast

end Packetc.WellFormed
