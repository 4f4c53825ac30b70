import Verif.Model.Parser
/-!
# The work done by the parser

`peg` 0.6 parsers backtrack and keep no table of earlier results, so how long one runs is not obvious. Here every rule of
src/lib/parser.rs is paired with the number of steps that it takes from a position. A step is the evaluation of one
expression of the grammar (a character class, a literal, a choice, a repetition or one round of it, a lookahead, a slice,
an action); a literal counts one more for each of its characters. The `run` parts are put together by the combinators of
`Model/Peg` in the same way as in `Model/Parser`, so they are the same parsers (`C81_same_parser`).
Simplification: an action counts as one step; those that go through the items of a repetition (parser.rs:55-57, 84-86) take one
more step for each item, and each item has been counted as a round before.
-/

namespace Packetc.ParserW
open Peg Ast Parser

/-- A rule and the number of steps it takes. (parser.rs:5-89.) -/
structure PW (α : Type) where
  run : P α
  work : Inp → Nat

/-- An action. (e.g. parser.rs:38.) -/
def PW.pure {α : Type} (v : α) : PW α := ⟨P.pure v, fun _ => 1⟩

/-- Sequencing: if the first expression fails, the second one is not tried. (e.g. parser.rs:15.) -/
def PW.bind {α β : Type} (p : PW α) (f : α → PW β) : PW β where
  run := P.bind p.run fun v => (f v).run
  work i := match (p.run i).res with
    | .matched i' v => p.work i + (f v).work i'
    | _ => p.work i

instance : Monad PW where
  pure := PW.pure
  bind := PW.bind

/-- `[pattern]`. (parser.rs:7-11, 15, 18, 33-35.) -/
def elem (f : Char → Bool) : PW Char := ⟨Peg.elem f, fun _ => 1⟩

/-- `"literal"`. (e.g. parser.rs:15, 22-31.) -/
def lit (s : Str) : PW Unit := ⟨Peg.lit s, fun _ => s.length + 1⟩

/-- `p / q`: `q` starts again where `p` started. (parser.rs:22-31, 50-51, 63-64, 78-80.) -/
def orElse {α : Type} (p q : PW α) : PW α where
  run := Peg.orElse p.run q.run
  work i := match (p.run i).res with
    | .failed => p.work i + q.work i + 1
    | _ => p.work i + 1

/-- `p?`. (parser.rs:41, 47, 51, 84.) -/
def opt {α : Type} (p : PW α) : PW (Option α) := ⟨Peg.opt p.run, fun i => p.work i + 1⟩

/-- The rounds of `p*`. (e.g. parser.rs:7.) -/
def starWork {α : Type} (p : PW α) : Nat → Inp → Nat
  | 0, _ => 0
  | fuel + 1, i => match (p.run i).res with
    | .matched i' _ => p.work i + 1 + starWork p fuel i'
    | _ => p.work i + 1

/-- `p*`. (e.g. parser.rs:7, 38, 44, 55, 84.) -/
def star {α : Type} (p : PW α) : PW (List α) := ⟨Peg.star p.run, fun i => starWork p (i.rest.length + 1) i + 1⟩

/-- `!p`. (parser.rs:38.) -/
def notP {α : Type} (p : PW α) : PW Unit := ⟨Peg.notP p.run, fun i => p.work i + 1⟩

/-- `quiet!{ p }`. (parser.rs:38.) -/
def quiet {α : Type} (p : PW α) : PW α := ⟨Peg.quiet p.run, fun i => p.work i + 1⟩

/-- `$(p)`. (parser.rs:18, 33, 35, 38.) -/
def slice {α : Type} (p : PW α) : PW Str := ⟨Peg.slice p.run, fun i => p.work i + 1⟩

/-- src/lib/parser.rs:7 `rule _()`. -/
def blanks : PW (List Char) := star (elem isBlank)
/-- src/lib/parser.rs:9 `rule __()`. -/
def newlines : PW (List Char) := star (elem isNl)
/-- src/lib/parser.rs:11 `rule ___()`. -/
def layout : PW (List Char) := star (elem isLayout)

/-- src/lib/parser.rs:14-15 `rule comment()`. -/
def comment : PW Unit := do
  lit "#".toList
  let _ ← star (elem (fun ch => ch != '\n'))
  let _ ← newlines
  return ()

/-- src/lib/parser.rs:17-18 `rule string()`. -/
def string : PW Str := slice (star (elem isWord))

/-- src/lib/parser.rs:21-31 `rule reserved()`. -/
def reserved : PW Unit :=
  orElse (lit "uint8".toList) <| orElse (lit "uint16".toList) <| orElse (lit "uint32".toList) <|
  orElse (lit "int8".toList) <| orElse (lit "int16".toList) <| orElse (lit "int32".toList) <|
  orElse (lit "float".toList) <| orElse (lit "string".toList) <| orElse (lit "enum".toList) <|
  lit "struct".toList

/-- src/lib/parser.rs:33 `rule ident_start()`. -/
def identStart : PW Str := slice (elem isStart)
/-- src/lib/parser.rs:35 `rule ident_chars()`. -/
def identChars : PW Str := slice (elem isWord)
/-- src/lib/parser.rs:37-38 `rule ident()`. -/
def ident : PW Str := quiet (slice (do
  notP reserved
  let _ ← identStart
  let _ ← star identChars
  return ()))

/-- src/lib/parser.rs:40-41 `rule enum_variant()`. -/
def enumVariant : PW Str := do
  let s ← ident
  let _ ← layout
  let _ ← opt (lit ",".toList)
  let _ ← layout
  return s

/-- src/lib/parser.rs:43-44 `rule enum_type()`. -/
def enumType : PW (List Str) := do
  let _ ← blanks
  lit "enum".toList
  let _ ← blanks
  lit "{".toList
  let _ ← layout
  let variants ← star enumVariant
  let _ ← layout
  lit "}".toList
  return variants

/-- src/lib/parser.rs:46-47 `rule is_optional()`. -/
def isOptional : PW Bool := do
  let o ← opt (lit "?".toList)
  return o.isSome

/-- src/lib/parser.rs:50, first alternative of `rule struct_field()`. -/
def structFieldComment : PW (Option (Str × Unresolved)) := do
  comment
  let _ ← layout
  return none

/-- src/lib/parser.rs:51, second alternative of `rule struct_field()`. -/
def structFieldDecl : PW (Option (Str × Unresolved)) := do
  let i ← ident
  let _ ← blanks
  let o ← isOptional
  lit ":".toList
  let _ ← blanks
  let t ← string
  let a ← opt (lit "[]".toList)
  let _ ← layout
  let _ ← opt (lit ",".toList)
  let _ ← layout
  return some (i, ⟨t, a.isSome, o⟩)

/-- src/lib/parser.rs:49-51 `rule struct_field()`. -/
def structField : PW (Option (Str × Unresolved)) := orElse structFieldComment structFieldDecl

/-- src/lib/parser.rs:54-59 `rule struct_type()`. -/
def structType : PW (List (Str × Unresolved)) := do
  let _ ← blanks
  lit "struct".toList
  let _ ← blanks
  lit "{".toList
  let _ ← layout
  let fields ← star structField
  let _ ← layout
  lit "}".toList
  return fields.filterMap id

/-- src/lib/parser.rs:62-64 `rule r#type()`. -/
def type : PW Ty :=
  orElse (do let e ← enumType; return .enum e) (do let s ← structType; return .struct s)

/-- src/lib/parser.rs:67-70 `rule decl()`. -/
def decl : PW Node := do
  let _ ← blanks
  let i ← ident
  let _ ← blanks
  lit ":".toList
  let _ ← blanks
  let t ← type
  let _ ← layout
  return .decl i t

/-- src/lib/parser.rs:72-75 `rule export()`. -/
def exportRule : PW Node := do
  lit "export".toList
  let _ ← blanks
  let s ← string
  return .export s

/-- src/lib/parser.rs:78, first alternative of `rule line()`. -/
def lineComment : PW (Option Node) := do
  let _ ← blanks
  comment
  let _ ← newlines
  return none

/-- src/lib/parser.rs:79, second alternative of `rule line()`. -/
def lineExport : PW (Option Node) := do
  let _ ← blanks
  let e ← exportRule
  let _ ← newlines
  return some e

/-- src/lib/parser.rs:80, third alternative of `rule line()`. -/
def lineDecl : PW (Option Node) := do
  let _ ← blanks
  let s ← decl
  let _ ← newlines
  return some s

/-- src/lib/parser.rs:77-80 `rule line()`. -/
def line : PW (Option Node) := orElse lineComment (orElse lineExport lineDecl)

/-- src/lib/parser.rs:83-88 `pub rule schema()`. -/
def schemaRule : PW AST := do
  let _ ← opt newlines
  let lines ← star line
  return lines.filterMap id

/-- The steps of `parser::pkt::schema(text)`: one run of the rule and the test for the end of the text. If the text is not a
schema, `peg` runs the rule a second time, to collect what it expected at the position of the error. -/
def schemaWork (text : Str) : Nat :=
  match parseAll schemaRule.run text with
  | .ok _ => schemaRule.work ⟨0, text⟩ + 1
  | _ => 2 * (schemaRule.work ⟨0, text⟩ + 1)

end Packetc.ParserW
