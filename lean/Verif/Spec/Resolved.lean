import Verif.Model.Check
import Verif.Spec.WellFormed
/-!
# What resolution must produce, and what the error messages claim (specification for C11-C25, C54)
-/

namespace Packetc.WellFormed
open Ast Check

/-- `n` is the first name that repeats an earlier one. -/
def FirstRepeat (names : List Str) (n : Str) : Prop :=
  ∃ pre post, names = pre ++ n :: post ∧ pre.Nodup ∧ n ∈ pre

/-- The builtin types by name. -/
def builtinTable : List (Str × Builtin) :=
  [("uint8".toList, .uint8), ("uint16".toList, .uint16), ("uint32".toList, .uint32), ("int8".toList, .int8),
   ("int16".toList, .int16), ("int32".toList, .int32), ("float".toList, .float), ("string".toList, .string)]

/-- Number of bits of a representation. -/
def reprBits : EnumRepr → Nat
  | .u8 => 8
  | .u16 => 16
  | .u32 => 32

/-- `e` is the right resolution of the variants `vs`: same names in the same order, values 0, 1, 2, ..., and the
smallest representation with a bit for each variant. -/
structure EnumResolved (vs : List Str) (e : REnum) : Prop where
  names : e.variants.map EnumVariant.name = vs
  values : e.variants.map EnumVariant.value = List.range vs.length
  fits : vs.length ≤ reprBits e.repr
  smallest : ∀ r, vs.length ≤ reprBits r → reprBits e.repr ≤ reprBits r

/-- `rf` is the resolution of the declared field `f`: same name and flags, and its type is what the type map says
the declared type name means. -/
structure FieldResolved (types : TypeMap) (f : Str × Unresolved) (rf : RField) : Prop where
  name : rf.name = f.1
  tyName : rf.tyName = f.2.name
  array : rf.array = f.2.array
  optional : rf.optional = f.2.optional
  ty : types.get f.2.name = some (f.2.name, rf.ty)

/-- Types that need no other struct to be resolved first: builtins, enums, and structs of builtins. -/
def Simple (ast : AST) (n : Str) : Prop :=
  n ∈ builtinNames ∨ (∃ vs, (n, .enum vs) ∈ decls ast) ∨
    ∃ fs, (n, .struct fs) ∈ decls ast ∧ ∀ f ∈ fs, f.2.name ∈ builtinNames

/-- No field can be overtaken by a later one: its type is simple, or the later field's type is the same or contains it. -/
def InOrder (ast : AST) (fs : List (Str × Unresolved)) : Prop :=
  fs.Pairwise fun f g => Simple ast f.2.name ∨ Relation.ReflTransGen (Refers ast) g.2.name f.2.name

/-- `n` is the exported type or (transitively) the type of one of its fields. -/
def Used (ast : AST) (n : Str) : Prop := ∃ e, exports ast = [e] ∧ Relation.ReflTransGen (Refers ast) e n

/-- In no struct that is used can a field be overtaken by a later one. -/
def AllInOrder (ast : AST) : Prop := ∀ n fs, Used ast n → (n, .struct fs) ∈ decls ast → InOrder ast fs

/-- The two schemas export the same type, and what it uses is declared alike. Order of declarations, and declarations that are
not used, may differ. -/
structure SameUsed (a b : AST) : Prop where
  exported : exports a = exports b
  decl : ∀ n, Used a n → ∀ t, .decl n t ∈ a ↔ .decl n t ∈ b

/-- What an error message says about the schema. -/
inductive Truthful (ast : AST) : CheckErr → Prop
  | noExport : exports ast = [] → Truthful ast .noExport
  | moreThanOneExport : 2 ≤ (exports ast).length → Truthful ast .moreThanOneExport
  | duplicateDecl (n) : FirstRepeat ((decls ast).map Prod.fst) n → Truthful ast (.duplicateDecl n)
  | optionalArray (f u n fs) : (n, .struct fs) ∈ decls ast → (f, u) ∈ fs → u.array = true → u.optional = true →
      Truthful ast (.optionalArray f n)
  | emptyEnum (n) : (n, .enum []) ∈ decls ast → Truthful ast (.emptyEnum n)
  | tooManyVariants (n vs) : (n, .enum vs) ∈ decls ast → 32 < vs.length → Truthful ast (.tooManyVariants n vs.length)
  | duplicateVariant (v n vs) : (n, .enum vs) ∈ decls ast → 2 ≤ vs.count v → Truthful ast (.duplicateVariant v n)
  | duplicateField (f n fs) : (n, .struct fs) ∈ decls ast → 2 ≤ (fs.map Prod.fst).count f →
      Truthful ast (.duplicateField f n)
  | cycle (n) : Recursive ast n → Truthful ast (.cycle n)
  /-- also said of a type which does exist but is recursive -/
  | missingType (k n) : Refers ast k n → n ∉ builtinNames → ¬ Declared ast n ∨ Recursive ast n →
      Truthful ast (.missingType n)
  | notAStruct (n) : exports ast = [n] → (n ∈ builtinNames ∨ ∃ vs, (n, .enum vs) ∈ decls ast) →
      Truthful ast (.notAStruct n)
  | exportUnresolved (n) : exports ast = [n] → n ∉ builtinNames → ¬ Declared ast n →
      Truthful ast (.exportUnresolved n)

end Packetc.WellFormed
