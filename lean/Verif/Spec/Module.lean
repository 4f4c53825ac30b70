import Verif.Spec.Resolved
/-!
# What a generated module must look like (specification for C25-C29, C45, C46)

Stated on the syntax tree of the schema only, line by line.
-/

namespace Packetc.Module
open Ast WellFormed

/-- The TypeScript type that a schema type name becomes inside the namespace. -/
def tsType (n : Str) : Str :=
  if n = "string".toList then "string".toList else if n ∈ builtinNames then "number".toList else n

/-- The same from outside the namespace: declared types are qualified with the name of the export. -/
def qualified (exp n : Str) : Str := if n ∈ builtinNames then tsType n else exp ++ ".".toList ++ n

/-- A member of an interface: `name?: type[],`. -/
def memberLine (f : Str × Unresolved) : Str :=
  "        ".toList ++ f.1 ++ (if f.2.optional then "?".toList else []) ++ ": ".toList ++ tsType f.2.name ++
    (if f.2.array then "[]".toList else []) ++ ",\n".toList

/-- The interface for a struct. -/
def interfaceText (n : Str) (fs : List (Str × Unresolved)) : Str :=
  "    export interface ".toList ++ n ++ " {\n".toList ++ fs.flatMap memberLine ++ "    }\n".toList

/-- A member of an enum: variant number `i` is bit `i`. -/
def variantLine (v : Str × Nat) : Str :=
  "        ".toList ++ v.1 ++ " = 1 << ".toList ++ (toString v.2).toList ++ ",\n".toList

/-- The const enum for an enum. -/
def enumText (n : Str) (vs : List Str) : Str :=
  "    export const enum ".toList ++ n ++ " {\n".toList ++ vs.zipIdx.flatMap variantLine ++ "    }\n".toList

/-- `text` declares the schema type `n`. The members of an interface may come in any order. -/
def DeclText (ast : AST) (n text : Str) : Prop :=
  (∃ vs, .decl n (.enum vs) ∈ ast ∧ text = enumText n vs) ∨
  (∃ fs fs', .decl n (.struct fs) ∈ ast ∧ fs'.Perm fs ∧ text = interfaceText n fs')

/-- A namespace holding the declarations `ds` (pairs of name and text). -/
def namespaceText (exp : Str) (ds : List (Str × Str)) : Str :=
  "export namespace ".toList ++ exp ++ " {\n".toList ++ ds.flatMap Prod.snd ++ "}\n".toList

/-- The declarations needed: every declared type reachable from the export, once, but not the export itself. -/
structure Complete (ast : AST) (exp : Str) (ds : List (Str × Str)) : Prop where
  once : (ds.map Prod.fst).Nodup
  exact : ∀ n, n ∈ ds.map Prod.fst ↔ Used ast n ∧ n ∉ builtinNames ∧ n ≠ exp
  right : ∀ d ∈ ds, DeclText ast d.1 d.2

/-- A parameter of the constructor: `public name: type[] | undefined,`. -/
def paramLine (exp : Str) (f : Str × Unresolved) : Str :=
  "        public ".toList ++ f.1 ++ ": ".toList ++ qualified exp f.2.name ++
    (if f.2.array then "[]".toList else []) ++ (if f.2.optional then " | undefined".toList else []) ++ ",\n".toList

/-- The beginning of the class: its name and constructor. -/
def classHead (exp : Str) (fs : List (Str × Unresolved)) : Str :=
  "export class ".toList ++ exp ++ " {\n".toList ++ "    constructor(\n".toList ++ fs.flatMap (paramLine exp) ++
    "    ) {}\n".toList

/-- The class: constructor, `read` and `write` with some bodies. -/
def classText (exp : Str) (fs : List (Str × Unresolved)) (readBody writeBody : Str) : Str :=
  classHead exp fs ++
  "    static read(data: ArrayBuffer): ".toList ++ exp ++ " | null {\n".toList ++ readBody ++ "    }\n".toList ++
  "    write(buffer?: ArrayBuffer): ArrayBuffer {\n".toList ++ writeBody ++ "    }\n".toList ++ "}\n".toList

/-- The first line. -/
def header (version now : Str) : Str :=
  "// Generated by packetc v".toList ++ version ++ " at ".toList ++ now ++ "\n".toList

/-- The second line. -/
def importLine : Str := "import { Reader, Writer } from \"packet\";\n".toList

/-- Read a text, keeping the closing brackets still expected on a stack; `none` at a wrong closing bracket. -/
def scan : List Char → Str → Option (List Char)
  | st, [] => some st
  | st, c :: cs =>
    if c = '(' then scan (')' :: st) cs
    else if c = '[' then scan (']' :: st) cs
    else if c = '{' then scan ('}' :: st) cs
    else if c = ')' ∨ c = ']' ∨ c = '}' then
      match st with
      | [] => none
      | d :: st => if c = d then scan st cs else none
    else scan st cs

/-- Brackets match. -/
def Balanced (text : Str) : Prop := scan [] text = some []

end Packetc.Module
