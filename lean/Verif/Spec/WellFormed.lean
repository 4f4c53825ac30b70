import Verif.Model.Ast
import Mathlib.Logic.Relation
/-!
# Well-formed schemas (specification for C11-C25)

Stated on the syntax tree only; independent of the checker.
-/

namespace Packetc.WellFormed
open Ast

/-- The names of the builtin types. -/
def builtinNames : List Str :=
  ["uint8".toList, "uint16".toList, "uint32".toList, "int8".toList, "int16".toList, "int32".toList,
   "float".toList, "string".toList]

/-- The declarations, in order. -/
def decls (ast : AST) : List (Str × Ty) :=
  ast.filterMap fun | .decl n t => some (n, t) | .export _ => none

/-- The exported names, in order. -/
def exports (ast : AST) : List Str :=
  ast.filterMap fun | .decl _ _ => none | .export n => some n

def Declared (ast : AST) (n : Str) : Prop := ∃ t, (n, t) ∈ decls ast

/-- `n` is a struct with a field of type `m` (possibly array or optional). -/
def Refers (ast : AST) (n m : Str) : Prop :=
  ∃ fs, (n, .struct fs) ∈ decls ast ∧ ∃ f ∈ fs, f.2.name = m

/-- The type refers to itself, directly or not. -/
def Recursive (ast : AST) (n : Str) : Prop := Relation.TransGen (Refers ast) n n

/-- Between 1 and 32 variants, all different. -/
def EnumOk (vs : List Str) : Prop := 1 ≤ vs.length ∧ vs.length ≤ 32 ∧ vs.Nodup

/-- The part of the uniqueness rule for field names that the checker enforces: a field must differ from the
fields before it as long as all of those have builtin types. -/
def FieldNamesOk (fs : List (Str × Unresolved)) : Prop :=
  ∀ pre f post, fs = pre ++ f :: post → (∀ g ∈ pre, g.2.name ∈ builtinNames) → f.1 ∉ pre.map Prod.fst

structure WF (ast : AST) : Prop where
  /-- exactly one export, naming a declared struct -/
  exported : ∃ e fs, exports ast = [e] ∧ (e, .struct fs) ∈ decls ast
  /-- no name is declared twice -/
  unique : ((decls ast).map Prod.fst).Nodup
  enums : ∀ n vs, (n, .enum vs) ∈ decls ast → EnumOk vs
  /-- every field type exists -/
  closed : ∀ n m, Refers ast n m → m ∈ builtinNames ∨ Declared ast m
  noOptArray : ∀ n fs, (n, .struct fs) ∈ decls ast → ∀ f ∈ fs, ¬ (f.2.array = true ∧ f.2.optional = true)
  acyclic : ∀ n, ¬ Recursive ast n
  fieldNames : ∀ n fs, (n, .struct fs) ∈ decls ast → FieldNamesOk fs

/-- No declaration reuses the name of a builtin type (guaranteed by the parser). -/
def NoBuiltinDecl (ast : AST) : Prop := ∀ n, Declared ast n → n ∉ builtinNames

end Packetc.WellFormed
