import Verif.Spec.Text
import Verif.Spec.Plain
/-!
# The variables of the generated functions, in terms of the schema (specification for C60, C44, C38)

Fields that are neither optional nor arrays are handled in the block of the struct they belong to, and so are the fields
of their types. Everything else gets a block of its own.
-/

namespace Packetc.WellFormed
open Ast Js

/-- `p` leads from struct `n` to a field of type `u`, through fields that are neither optional nor arrays. -/
inductive Inline (ast : AST) : Str → List Str → Unresolved → Prop
  | field {n : Str} {fs : List (Str × Unresolved)} {f : Str} {u : Unresolved} : .decl n (.struct fs) ∈ ast → (f, u) ∈ fs → Inline ast n [f] u
  | inside {n : Str} {fs : List (Str × Unresolved)} {f : Str} {u : Unresolved} {p : List Str} {v : Unresolved} :
      .decl n (.struct fs) ∈ ast → (f, u) ∈ fs → u.array = false → u.optional = false →
      Inline ast u.name p v → Inline ast n (f :: p) v

/-- What `read` needs a variable for, and how its name ends: the length of an array or string, the number of an enum, the
object of a struct. -/
inductive ReadTemp (ast : AST) (u : Unresolved) : Str → Prop
  | array : u.optional = false → u.array = true → ReadTemp ast u "_len".toList
  | string : u.optional = false → u.array = false → u.name = "string".toList → ReadTemp ast u "_len".toList
  | enum (vs : List Str) : u.optional = false → u.array = false → .decl u.name (.enum vs) ∈ ast → ReadTemp ast u "_temp".toList
  | struct (fs : List (Str × Unresolved)) : u.optional = false → u.array = false → .decl u.name (.struct fs) ∈ ast → ReadTemp ast u []

/-- In the block of a struct `n`, `read` declares the variable `x` (after the name of the struct) for the field at `p`. -/
def ReadVar (ast : AST) (n : Str) (p : List Str) (x : Str) : Prop :=
  ∃ u s, Inline ast n p u ∧ ReadTemp ast u s ∧ x = List.intercalate "_".toList p ++ s

/-- The same for `write`, which needs variables for optional fields. -/
def WriteVar (ast : AST) (n : Str) (p : List Str) (x : Str) : Prop :=
  ∃ u, Inline ast n p u ∧ u.optional = true ∧ x = List.intercalate "_".toList p

/-- Different fields have different variables. -/
structure VarsApart (ast : AST) : Prop where
  read : ∀ n p q x, Used ast n → ReadVar ast n p x → ReadVar ast n q x → p = q
  write : ∀ n p q x, Used ast n → WriteVar ast n p x → WriteVar ast n q x → p = q

/-- The name of the export means nothing else where the generated functions use it, and hides nothing they refer to
(specification for C67). -/
structure ExportNameOk (ast : AST) (c : Str) : Prop where
  /-- `Object.create(...)` makes the result of `read` -/
  object : c ≠ "Object".toList
  /-- the type of the parameters -/
  buffer : c ≠ "ArrayBuffer".toList
  /-- `new Array(...)` is only used where there are arrays -/
  array : c = "Array".toList → ∀ n fs, Used ast n → .decl n (.struct fs) ∈ ast → ∀ f ∈ fs, f.2.array = false
  /-- the variable for the result -/
  result : c ≠ "output".toList
  /-- the other variables of `read`, outside of inner blocks -/
  vars : ∀ p x, ReadVar ast c p x → c ≠ "output_".toList ++ x

/-- All that TypeScript demands of the names in a schema. -/
structure NamesOk (ast : AST) : Prop where
  loadable : Loadable ast
  /-- the export is not called like an import -/
  imports : ∀ n, .export n ∈ ast → n ≠ "Reader".toList ∧ n ≠ "Writer".toList
  /-- the fields of the export are parameters of a function, so they are no keywords -/
  params : ∀ n fs, .export n ∈ ast → .decl n (.struct fs) ∈ ast → ∀ f ∈ fs, f.1 ∉ reservedWords
  vars : VarsApart ast

/-- All that is needed for a class that can be used: TypeScript accepts it, and no name means something special to JavaScript. -/
structure UsableSchema (ast : AST) : Prop where
  names : NamesOk ast
  /-- the class hides nothing that the code refers to -/
  className : ∀ n, .export n ∈ ast → ClassNameOk n
  /-- no property changes the prototype of its object -/
  proto : ∀ n fs, Used ast n → .decl n (.struct fs) ∈ ast → "__proto__".toList ∉ fs.map Prod.fst
  /-- the fields of the export are not special for constructors -/
  top : ∀ n fs, .export n ∈ ast → .decl n (.struct fs) ∈ ast → ∀ f ∈ fs, f.1 ∉ readOnlyNames ∧ f.1 ∉ poisonedNames

end Packetc.WellFormed
