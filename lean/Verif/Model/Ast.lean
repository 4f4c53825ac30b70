import Verif.Model.Basic
/-!
# `src/lib/ast.rs`: the unresolved AST
-/

namespace Packetc.Ast

/-- src/lib/ast.rs:9 `Unresolved(identifier, is_array, is_optional)`. -/
structure Unresolved where
  name : Str
  array : Bool
  optional : Bool
deriving DecidableEq, Repr

/-- src/lib/ast.rs:17-20 `Type`; `Enum` (l.12) is its list of variants, `Struct` (l.15) its list of
`(field name, field type)` pairs. -/
inductive Ty where
  | enum (variants : List Str)
  | struct (fields : List (Str × Unresolved))
deriving DecidableEq, Repr

/-- src/lib/ast.rs:23-26 `Node`. -/
inductive Node where
  | decl (name : Str) (ty : Ty)
  | export (name : Str)
deriving DecidableEq, Repr

/-- src/lib/ast.rs:28 `AST`. -/
abbrev AST := List Node

end Packetc.Ast
