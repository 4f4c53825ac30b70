import Verif.Spec.Wire
/-!
# Schemas with unproblematic names (hypothesis of several theorems about generated code)
-/

namespace Packetc.Js
open Ast

/-- Every name in the schema can be used in the generated code without clashing with anything. -/
structure PlainSchema (ast : AST) : Prop where
  /-- in each struct, names are different, none is another one continued with an underscore, none is `__proto__` -/
  fields : ∀ n fs, .decl n (.struct fs) ∈ ast → PlainNames (fs.map Prod.fst)
  /-- the exported name is no JavaScript keyword and nothing that the generated code refers to -/
  className : ∀ n, .export n ∈ ast → ClassNameOk n ∧ n ∉ reservedWords ∧ n ∉ reservedTypeNames
  /-- the fields of the exported struct are not called like a JavaScript keyword or a property of functions -/
  top : ∀ n fs, .export n ∈ ast → .decl n (.struct fs) ∈ ast → ∀ f ∈ fs,
    f.1 ∉ reservedWords ∧ f.1 ∉ readOnlyNames ∧ f.1 ∉ poisonedNames
  /-- no type is called like a keyword or a predefined type of TypeScript -/
  typeNames : ∀ n t, .decl n t ∈ ast → n ∉ reservedWords ∧ n ∉ reservedTypeNames
  /-- the exported struct has no field with the name of the generated method -/
  noWrite : ∀ n fs, .export n ∈ ast → .decl n (.struct fs) ∈ ast → "write".toList ∉ fs.map Prod.fst

/-- No enum has more than `k` variants. -/
def EnumsAtMost (k : Nat) (ast : AST) : Prop := ∀ n vs, .decl n (.enum vs) ∈ ast → vs.length ≤ k

/-- No enum has 32 variants. -/
abbrev SmallEnums (ast : AST) : Prop := EnumsAtMost 31 ast

end Packetc.Js
