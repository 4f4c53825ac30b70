import Verif.Model.Peg
import Verif.Model.Ast
/-!
# `src/lib/parser.rs`: the grammar `pkt`
-/

namespace Packetc.Parser
open Peg Ast

/-- Character class of src/lib/parser.rs:7. -/
def isBlank (c : Char) : Bool := c == ' ' || c == '\t'
/-- Character class of src/lib/parser.rs:9. -/
def isNl (c : Char) : Bool := c == '\n' || c == '\r'
/-- Character class of src/lib/parser.rs:11. -/
def isLayout (c : Char) : Bool := c == ' ' || c == '\t' || c == '\n' || c == '\r'
/-- Character class of src/lib/parser.rs:33. -/
def isStart (c : Char) : Bool :=
  ('a' ≤ c && c ≤ 'z') || ('A' ≤ c && c ≤ 'Z') || c == '_'
/-- Character class of src/lib/parser.rs:18 and 35. -/
def isWord (c : Char) : Bool :=
  ('a' ≤ c && c ≤ 'z') || ('A' ≤ c && c ≤ 'Z') || ('0' ≤ c && c ≤ '9') || c == '_'

/-- src/lib/parser.rs:7 `rule _()`. -/
def blanks : P (List Char) := star (elem isBlank)
/-- src/lib/parser.rs:9 `rule __()`. -/
def newlines : P (List Char) := star (elem isNl)
/-- src/lib/parser.rs:11 `rule ___()`. -/
def layout : P (List Char) := star (elem isLayout)

/-- src/lib/parser.rs:14-15 `rule comment()`. -/
def comment : P Unit := do
  lit "#".toList
  let _ ← star (elem (fun ch => ch != '\n'))
  let _ ← newlines
  return ()

/-- src/lib/parser.rs:17-18 `rule string()`. -/
def string : P Str := slice (star (elem isWord))

/-- src/lib/parser.rs:21-31 `rule reserved()`. -/
def reserved : P Unit :=
  orElse (lit "uint8".toList) <| orElse (lit "uint16".toList) <| orElse (lit "uint32".toList) <|
  orElse (lit "int8".toList) <| orElse (lit "int16".toList) <| orElse (lit "int32".toList) <|
  orElse (lit "float".toList) <| orElse (lit "string".toList) <| orElse (lit "enum".toList) <|
  lit "struct".toList

/-- src/lib/parser.rs:33 `rule ident_start()`. -/
def identStart : P Str := slice (elem isStart)
/-- src/lib/parser.rs:35 `rule ident_chars()`. -/
def identChars : P Str := slice (elem isWord)
/-- src/lib/parser.rs:37-38 `rule ident()`. -/
def ident : P Str := quiet (slice (do
  notP reserved
  let _ ← identStart
  let _ ← star identChars
  return ()))

/-- src/lib/parser.rs:40-41 `rule enum_variant()`. -/
def enumVariant : P Str := do
  let s ← ident
  let _ ← layout
  let _ ← opt (lit ",".toList)
  let _ ← layout
  return s

/-- src/lib/parser.rs:43-44 `rule enum_type()`. -/
def enumType : P (List Str) := do
  let _ ← blanks
  lit "enum".toList
  let _ ← blanks
  lit "{".toList
  let _ ← layout
  let variants ← star enumVariant
  let _ ← layout
  lit "}".toList
  return variants

/-- src/lib/parser.rs:46-47 `rule is_optional()`. -/
def isOptional : P Bool := do
  let o ← opt (lit "?".toList)
  return o.isSome

/-- src/lib/parser.rs:50, first alternative of `rule struct_field()`. -/
def structFieldComment : P (Option (Str × Unresolved)) := do
  comment
  let _ ← layout
  return none

/-- src/lib/parser.rs:51, second alternative of `rule struct_field()`. -/
def structFieldDecl : P (Option (Str × Unresolved)) := do
  let i ← ident
  let _ ← blanks
  let o ← isOptional
  lit ":".toList
  let _ ← blanks
  let t ← string
  let a ← opt (lit "[]".toList)
  let _ ← layout
  let _ ← opt (lit ",".toList)
  let _ ← layout
  return some (i, ⟨t, a.isSome, o⟩)

/-- src/lib/parser.rs:49-51 `rule struct_field()`. -/
def structField : P (Option (Str × Unresolved)) := orElse structFieldComment structFieldDecl

/-- src/lib/parser.rs:54-59 `rule struct_type()`. -/
def structType : P (List (Str × Unresolved)) := do
  let _ ← blanks
  lit "struct".toList
  let _ ← blanks
  lit "{".toList
  let _ ← layout
  let fields ← star structField
  let _ ← layout
  lit "}".toList
  return fields.filterMap id

/-- src/lib/parser.rs:62-64 `rule r#type()`. -/
def type : P Ty :=
  orElse (do let e ← enumType; return .enum e) (do let s ← structType; return .struct s)

/-- src/lib/parser.rs:67-70 `rule decl()`. -/
def decl : P Node := do
  let _ ← blanks
  let i ← ident
  let _ ← blanks
  lit ":".toList
  let _ ← blanks
  let t ← type
  let _ ← layout
  return .decl i t

/-- src/lib/parser.rs:72-75 `rule export()`. -/
def exportRule : P Node := do
  lit "export".toList
  let _ ← blanks
  let s ← string
  return .export s

/-- src/lib/parser.rs:78, first alternative of `rule line()`. -/
def lineComment : P (Option Node) := do
  let _ ← blanks
  comment
  let _ ← newlines
  return none

/-- src/lib/parser.rs:79, second alternative of `rule line()`. -/
def lineExport : P (Option Node) := do
  let _ ← blanks
  let e ← exportRule
  let _ ← newlines
  return some e

/-- src/lib/parser.rs:80, third alternative of `rule line()`. -/
def lineDecl : P (Option Node) := do
  let _ ← blanks
  let s ← decl
  let _ ← newlines
  return some s

/-- src/lib/parser.rs:77-80 `rule line()`. -/
def line : P (Option Node) := orElse lineComment (orElse lineExport lineDecl)

/-- src/lib/parser.rs:83-88 `pub rule schema()`. -/
def schemaRule : P AST := do
  let _ ← opt newlines
  let lines ← star line
  return lines.filterMap id

/-- `parser::pkt::schema(text)`. (lib.rs:47; parser.rs:83.) -/
def schema (text : Str) : ParseOutcome AST := parseAll schemaRule text

end Packetc.Parser
