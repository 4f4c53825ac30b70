import Verif.Spec.WellFormed
/-!
# Sizes of schemas (specification for C82)
-/

namespace Packetc.WellFormed
open Ast

/-- The number of fields of a struct. -/
def structSize : Ty → Nat
  | .struct fs => fs.length
  | .enum _ => 0

/-- The number of fields of the struct `n`, as declared (0 if there is no such struct). -/
def declFields (ast : AST) (n : Str) : Nat := ((decls ast).map fun d => if d.1 = n then structSize d.2 else 0).sum

/-- The sum of `g` over the types of the fields of a struct. -/
def fieldSum (g : Str → Nat) : Ty → Nat
  | .struct fs => (fs.map fun f => g f.2.name).sum
  | .enum _ => 0

/-- For each field of the exported struct, the number of fields that its type has. -/
def nestedFields (ast : AST) : Nat :=
  ((decls ast).map fun d => if d.1 ∈ exports ast then fieldSum (declFields ast) d.2 else 0).sum

end Packetc.WellFormed
