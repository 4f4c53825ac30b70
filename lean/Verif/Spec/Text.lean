import Verif.Js.Parse
import Verif.Model.Compile
import Verif.Spec.Module
/-!
# When a generated module text is valid TypeScript
-/

namespace Packetc.Js
open Ast WellFormed Module

/-- Nothing in the first line ends that line. -/
def OneLine (env : Env) : Prop :=
  (∀ c ∈ env.version, isLineEnd c = false) ∧ (∀ c ∈ env.now, isLineEnd c = false)

/-- The names that TypeScript restricts, in the part of the schema that is used. -/
structure Loadable (ast : AST) : Prop where
  /-- members of an interface are different -/
  members : ∀ n fs, Used ast n → .decl n (.struct fs) ∈ ast → (fs.map Prod.fst).Nodup
  /-- no type is called like a keyword or a predefined type of TypeScript -/
  typeNames : ∀ n t, Used ast n → .decl n t ∈ ast → n ∉ reservedWords ∧ n ∉ reservedTypeNames
  /-- the exported struct has no field with the name of the generated method -/
  noWrite : ∀ n fs, .export n ∈ ast → .decl n (.struct fs) ∈ ast → "write".toList ∉ fs.map Prod.fst

/-- The name of the class does not hide what the types and functions of the class refer to. -/
def TypeNameOk (c : Str) : Prop := c ∉ ["Object".toList, "Array".toList, "ArrayBuffer".toList] ∧ ¬ "output".toList <+: c

/-- The member of an interface for a field. -/
def memberOf (f : Str × Unresolved) : TsMember := ⟨f.1, f.2.optional, [⟨[tsType f.2.name], f.2.array⟩]⟩

/-- The type of a field, seen from the class: declared types are in the namespace. -/
def qualPath (exp n : Str) : List Str := if n ∈ builtinNames then [tsType n] else [exp, n]

/-- The parameter of the constructor for a field. -/
def paramOf (exp : Str) (f : Str × Unresolved) : TsMember :=
  ⟨f.1, false, ⟨qualPath exp f.2.name, f.2.array⟩ :: (if f.2.optional then [⟨["undefined".toList], false⟩] else [])⟩

def arrayBuffer : TsType := [⟨["ArrayBuffer".toList], false⟩]

/-- The module has the types of the schema, and a class for the export. -/
structure Describes (ast : AST) (m : TsModule) : Prop where
  imports : m.imports = ["Reader".toList, "Writer".toList] ∧ m.source = "packet".toList
  names : exports ast = [m.className] ∧ m.space = m.className
  /-- every type that is used is declared once, apart from the export -/
  once : (m.decls.map TsDecl.name).Nodup
  used : ∀ n, n ∈ m.decls.map TsDecl.name ↔ Used ast n ∧ n ∉ builtinNames ∧ n ≠ m.className
  enums : ∀ n vs, .enum n vs ∈ m.decls → ∃ us, .decl n (.enum us) ∈ ast ∧ vs = us.zipIdx
  structs : ∀ n ms, .interface n ms ∈ m.decls → ∃ fs, .decl n (.struct fs) ∈ ast ∧ ms.Perm (fs.map memberOf)
  params : ∃ fs, .decl m.className (.struct fs) ∈ ast ∧ m.params.Perm (fs.map (paramOf m.className))
  /-- `static read(data: ArrayBuffer): C | null` and `write(buffer?: ArrayBuffer): ArrayBuffer` -/
  methods : ∃ rb wb, m.methods =
    [⟨true, "read".toList, ⟨"data".toList, false, arrayBuffer⟩, [⟨[m.className], false⟩, ⟨["null".toList], false⟩], rb⟩,
     ⟨false, "write".toList, ⟨"buffer".toList, true, arrayBuffer⟩, arrayBuffer, wb⟩]

end Packetc.Js
