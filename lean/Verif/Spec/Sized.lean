import Verif.Spec.WellFormed
/-!
# Sizes of packets, said of the schema (specification for C85 and C86)
-/

namespace Packetc.WellFormed
open Ast

/-- Bytes of the smallest value of each builtin type (an empty string has its length prefix only). -/
def builtinSizes : List (Str × Nat) :=
  [("uint8".toList, 1), ("uint16".toList, 2), ("uint32".toList, 4), ("int8".toList, 1), ("int16".toList, 2),
   ("int32".toList, 4), ("float".toList, 4), ("string".toList, 4)]

mutual
/-- The smallest value of the type `n` of the schema has `k` bytes. -/
inductive Least (ast : AST) : Str → Nat → Prop
  | builtin {n k} : (n, k) ∈ builtinSizes → Least ast n k
  | enum8 {n vs} : .decl n (.enum vs) ∈ ast → vs.length ≤ 8 → Least ast n 1
  | enum16 {n vs} : .decl n (.enum vs) ∈ ast → 8 < vs.length → vs.length ≤ 16 → Least ast n 2
  | enum32 {n vs} : .decl n (.enum vs) ∈ ast → 16 < vs.length → Least ast n 4
  | struct {n fs k} : .decl n (.struct fs) ∈ ast → LeastFields ast fs k → Least ast n k
/-- The smallest values of the fields have `k` bytes together: absent optionals, empty arrays. -/
inductive LeastFields (ast : AST) : List (Str × Unresolved) → Nat → Prop
  | nil : LeastFields ast [] 0
  | optional {f fs k} : f.2.optional = true → LeastFields ast fs k → LeastFields ast (f :: fs) (1 + k)
  | array {f fs k} : f.2.array = true → LeastFields ast fs k → LeastFields ast (f :: fs) (4 + k)
  | plain {f fs l k} : f.2.optional = false → f.2.array = false → Least ast f.2.name l → LeastFields ast fs k →
      LeastFields ast (f :: fs) (l + k)
end

/-- The type has no unsized members: no strings, and no optionals or arrays except of types without any bytes. -/
inductive Sized (ast : AST) : Str → Prop
  | builtin {n} : n ∈ builtinNames → n ≠ "string".toList → Sized ast n
  | enum {n vs} : .decl n (.enum vs) ∈ ast → Sized ast n
  | struct {n fs} : .decl n (.struct fs) ∈ ast →
      (∀ f ∈ fs, f.2.optional = true ∨ f.2.array = true → Least ast f.2.name 0) →
      (∀ f ∈ fs, f.2.optional = false → f.2.array = false → Sized ast f.2.name) → Sized ast n

end Packetc.WellFormed
