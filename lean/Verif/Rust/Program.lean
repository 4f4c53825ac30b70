import Verif.Rust.Syntax
import Verif.Model.Rust
/-!
# The programs emitted by rust.rs, as syntax trees

`Proof/RustPrint.lean` proves that the text emitted by the model of rust.rs is the print of these trees.
-/

namespace Packetc.Rs
open Check RustGen

/-- The expression `s₀.s₁.….sₙ` for a name stack. -/
def path : List Str → Expr
  | [] => .var []
  | x :: xs => xs.foldl Expr.field (.var x)

mutual
/-- Statements writing the fields of the struct at `path stack`. -/
def writeStruct (stack : List Str) : List (FieldOf RType) → List Stmt
  | [] => []
  | f :: fs => writeField stack f ++ writeStruct stack fs
/-- Statements writing one field. -/
def writeField (stack : List Str) : FieldOf RType → List Stmt
  | ⟨name, tyName, ty, array, optional⟩ =>
    let arr (st : List Str) : List Stmt :=
      if array then
        let item := Gen.varname st "item".toList
        [.write "uint32".toList (.cast (.len (path st)) "u32".toList), .forIter item (path st) (writeType [item] tyName ty)]
      else writeType st tyName ty
    let st := stack ++ [name]
    if optional then
      let b := Gen.bindname st
      [.matchOpt (match ty with | .struct _ => true | _ => false) (path st) "uint8".toList (.u8 0) b
        (.write "uint8".toList (.u8 1) :: arr [b])]
    else arr st
/-- Statements writing the value at `path stack`. -/
def writeType (stack : List Str) (tyName : Str) : RType → List Stmt
  | .builtin .string =>
    [.write "uint32".toList (.cast (.len (path stack)) "u32".toList), .write "string".toList (.addr (path stack))]
  | .builtin _ => [.write tyName (path stack)]
  | .enum e => [.write (Gen.reprName e.repr) (.cast (path stack) (reprType e.repr))]
  | .struct fs => writeStruct stack fs
end

/-- The name of a type in Rust. -/
def rustName (tyName : Str) : Str := (resolveTypename tyName).getD tyName

mutual
/-- Statements reading the fields of the struct at `path stack`. -/
def readStruct (stack : List Str) : List (FieldOf RType) → List Stmt
  | [] => []
  | f :: fs => readField stack f ++ readStruct stack fs
/-- Statements reading one field. -/
def readField (stack : List Str) : FieldOf RType → List Stmt
  | ⟨name, tyName, ty, array, optional⟩ =>
    let arr (st : List Str) : List Stmt :=
      if array then
        let len := Gen.varname st "len".toList
        let item := Gen.varname st "item".toList
        [.letS false len (.cast (.read "uint32".toList) "usize".toList), .reserve (path st) (.var len),
         .forRange (.var len)
          ([.letS true item (.dflt (rustName tyName))] ++ readType [item] tyName ty ++ [.push (path st) (.var item)])]
      else readType st tyName ty
    let st := stack ++ [name]
    if optional then
      let b := Gen.bindname st
      [.ifGt (.read "uint8".toList) 0
        ([.letS true b (.dflt (rustName tyName))] ++ arr [b] ++ [.assign (path st) (.some (.var b))])]
    else arr st
/-- Statements reading the value at `path stack`. -/
def readType (stack : List Str) (tyName : Str) : RType → List Stmt
  | .builtin .string =>
    let len := Gen.varname stack "len".toList
    [.letS false len (.cast (.read "uint32".toList) "usize".toList), .assign (path stack) (.readString (.var len))]
  | .builtin _ => [.assign (path stack) (.read tyName)]
  | .enum e => [.assign (path stack) (.tryFrom tyName (.read (Gen.reprName e.repr)))]
  | .struct fs => readStruct stack fs
end

/-- The body of `write`. -/
def writeBody (e : Export) : List Stmt := writeStruct ["input".toList] e.fields
/-- The body of `read`, without the final `Ok(())`. -/
def readBody (e : Export) : List Stmt := readStruct ["output".toList] e.fields

/-- The definition of a struct. -/
def structItem (name : Str) (fs : List (FieldOf RType)) : Item :=
  .struct name (fs.map fun f => (f.name, ⟨fieldTypename f.tyName f.ty, f.array, f.optional⟩))

/-- The definition of an enum (the generator panics on an enum without variants or with more than 32). -/
def enumItem (name : Str) (e : REnum) : Item :=
  .enum name (reprType e.repr) (e.variants.map fun v => (v.name, v.value)) ((e.variants.head?.map EnumVariant.name).getD [])
    (e.variants.map fun v => ((Gen.i32Shl1 v.value).getD 0, v.name))

end Packetc.Rs
