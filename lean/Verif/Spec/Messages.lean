import Verif.Spec.Resolved
/-!
# The wording of type errors (specification for C57, C58)

Stated on the text of the message and the syntax tree only.
-/

namespace Packetc.WellFormed
open Ast

/-- A name in quotes. -/
def quoted (n : Str) : Str := "'".toList ++ n ++ "'".toList

/-- The sentence saying that a declaration is missing. -/
def missingSentence (n : Str) : Str := "Declaration for type ".toList ++ quoted n ++ " does not exist".toList

/-- The sentence saying that a type is recursive. -/
def cycleSentence (n : Str) : Str :=
  "Found a cycle between two or more top level definitions in type ".toList ++ quoted n

/-- The message is one of the sentences below, and what it says is true of the schema. -/
inductive Says (ast : AST) : Str → Prop
  | noExport : exports ast = [] → Says ast "Schema has no export".toList
  | moreThanOneExport : 2 ≤ (exports ast).length → Says ast "Schema has more than one export".toList
  | duplicateDecl (n) : 2 ≤ ((decls ast).map Prod.fst).count n →
      Says ast ("Schema has duplicate declaration: ".toList ++ n)
  | optionalArray (f u n fs) : (n, .struct fs) ∈ decls ast → (f, u) ∈ fs → u.array = true → u.optional = true →
      Says ast ("Field ".toList ++ quoted f ++ " in struct ".toList ++ quoted n ++
        " cannot be optional and array at once".toList)
  | emptyEnum (n) : (n, .enum []) ∈ decls ast →
      Says ast ("Enum ".toList ++ quoted n ++ " must have at least one variant".toList)
  | tooManyVariants (n vs) : (n, .enum vs) ∈ decls ast → 32 < vs.length →
      Says ast ("Enum ".toList ++ quoted n ++ " has too many variants (".toList ++ (toString vs.length).toList ++
        "/32)".toList)
  | duplicateVariant (v n vs) : (n, .enum vs) ∈ decls ast → 2 ≤ vs.count v →
      Says ast ("Duplicate variant ".toList ++ quoted v ++ " on enum ".toList ++ quoted n)
  | duplicateField (f n fs) : (n, .struct fs) ∈ decls ast → 2 ≤ (fs.map Prod.fst).count f →
      Says ast ("Duplicate field ".toList ++ quoted f ++ " on struct ".toList ++ quoted n)
  | cycle (n) : Recursive ast n → Says ast (cycleSentence n)
  | missing (k n) : Refers ast k n → n ∉ builtinNames → ¬ Declared ast n → Says ast (missingSentence n)
  | notAStruct (n) : exports ast = [n] → (n ∈ builtinNames ∨ ∃ vs, (n, .enum vs) ∈ decls ast) →
      Says ast ("Attempted to export ".toList ++ quoted n ++ ", which is not a struct".toList)
  | exportUnresolved (n) : exports ast = [n] → n ∉ builtinNames → ¬ Declared ast n →
      Says ast ("Export ".toList ++ quoted n ++ " could not be resolved".toList)

/-- Recursion is the only defect of the schema: it has every property of a well-formed schema but `acyclic`. -/
structure OnlyRecursive (ast : AST) : Prop where
  exported : ∃ e fs, exports ast = [e] ∧ (e, .struct fs) ∈ decls ast
  unique : ((decls ast).map Prod.fst).Nodup
  enums : ∀ n vs, (n, .enum vs) ∈ decls ast → EnumOk vs
  closed : ∀ n m, Refers ast n m → m ∈ builtinNames ∨ Declared ast m
  noOptArray : ∀ n fs, (n, .struct fs) ∈ decls ast → ∀ f ∈ fs, ¬ (f.2.array = true ∧ f.2.optional = true)
  fieldNames : ∀ n fs, (n, .struct fs) ∈ decls ast → (fs.map Prod.fst).Nodup
  recursive : ∃ n, Recursive ast n

/-- `n` refers to `m`, and neither of them is `r`. -/
def RefersAvoiding (ast : AST) (r n m : Str) : Prop := Refers ast n m ∧ n ≠ r ∧ m ≠ r

/-- Every type from which recursion can be reached lies on every cycle (as when the recursive types form a ring). -/
def Ring (ast : AST) : Prop := ∀ r m, Relation.ReflTransGen (Refers ast) r m → Recursive ast m →
  ∀ n, ¬ Relation.TransGen (RefersAvoiding ast r) n n

end Packetc.WellFormed
