import Verif.Js.Syntax
import Verif.Model.Ts
/-!
# The programs inside the generated class

The bodies of `read` and `write` of the generated class (ts.rs:254-292), as syntax trees. Theorem C26 proves
that the text emitted by the model of ts.rs is the print of these trees.
-/

namespace Packetc.Js
open Check

/-- The expression `s₀.s₁.….sₙ` for a name stack. -/
def path : List Str → Expr
  | [] => .var []
  | x :: xs => xs.foldl Expr.prop (.var x)

abbrev reader : Expr := .var "reader".toList
abbrev writer : Expr := .var "writer".toList

/-- `reader.read_T()` -/
def readCall (t : Str) : Expr := .call0 reader ("read_".toList ++ t)
/-- `writer.write_T(e)` -/
def writeCall (t : Str) (e : Expr) : Expr := .call1 writer ("write_".toList ++ t) e

mutual
/-- Statements writing the fields of a struct found at `path stack`. -/
def writeStruct (stack : List Str) : List (FieldOf RType) → List Stmt
  | [] => []
  | f :: fs => writeField stack f ++ writeStruct stack fs
/-- Statements writing one field. -/
def writeField (stack : List Str) : FieldOf RType → List Stmt
  | ⟨name, tyName, ty, array, optional⟩ =>
    let arr (st : List Str) : List Stmt :=
      if array then
        let item := Gen.varname st "item".toList
        let index := Gen.varname st "index".toList
        [.expr (writeCall "uint32".toList (.prop (path st) "length".toList)),
         .forS index (.prop (path st) "length".toList)
           (.letS item false (.index (path st) (.var index)) :: writeType [item] tyName ty)]
      else writeType st tyName ty
    let st := stack ++ [name]
    if optional then
      let b := Gen.bindname st
      [.letS b false (path st),
       .switchNullish (.var b) (writeCall "uint8".toList (.num 0))
         (.expr (writeCall "uint8".toList (.num 1)) :: arr [b])]
    else arr st
/-- Statements writing the value found at `path stack`. -/
def writeType (stack : List Str) (tyName : Str) : RType → List Stmt
  | .builtin .string =>
    [.expr (writeCall "uint32".toList (.prop (path stack) "length".toList)),
     .expr (writeCall "string".toList (path stack))]
  | .builtin _ => [.expr (writeCall tyName (path stack))]
  | .enum e => [.expr (writeCall (Gen.reprName e.repr) (.asNumber (path stack)))]
  | .struct fs => writeStruct stack fs
end

mutual
/-- Statements reading the fields of a struct into the object at `path stack`. -/
def readFields (stack : List Str) : List (FieldOf RType) → List Stmt
  | [] => []
  | f :: fs => readField (stack) f ++ readFields stack fs
/-- Statements reading one field. -/
def readField (stack : List Str) : FieldOf RType → List Stmt
  | ⟨name, tyName, ty, array, optional⟩ =>
    let st := stack ++ [name]
    let body : List Stmt :=
      if array then
        let len := Gen.varname st "len".toList
        let index := Gen.varname st "index".toList
        let item := Gen.varname st "item".toList
        let init : Expr := match ty with | .struct _ => .obj | _ => .undef
        [.letS len false (readCall "uint32".toList),
         .assign (path st) (.new1 "Array".toList (.var len)),
         .forS index (.var len)
           ([.letS item true init] ++ readType false [item] tyName ty ++
            [.assign (.index (path st) (.var index)) (.var item)])]
      else readType true st tyName ty
    if optional then [.ifElse (.gt (readCall "uint8".toList) (.num 0)) body [.assign (path st) .undef]]
    else body
/-- Statements reading a value into `path stack`; `init` says whether a struct must be created first. -/
def readType (init : Bool) (stack : List Str) (tyName : Str) : RType → List Stmt
  | .builtin .string =>
    [.letS (Gen.varname stack "len".toList) false (readCall "uint32".toList),
     .assign (path stack) (.call1 reader "read_string".toList (.var (Gen.varname stack "len".toList)))]
  | .builtin _ => [.assign (path stack) (readCall tyName)]
  | .enum e =>
    let b := (Gen.enumBounds e.variants).getD (0, 0)
    let temp := Gen.varname stack "temp".toList
    [.letS temp false (readCall (Gen.reprName e.repr)),
     .ifAssign (.and (.le (.num b.1) (.var temp)) (.le (.var temp) (.num b.2))) (path stack) (.var temp)
       (.prop reader "failed".toList) .tru]
  | .struct fs =>
    if init then
      let b := Gen.bindname stack
      [.letS b true .obj] ++ readFields [b] fs ++ [.assign (path stack) (.var b)]
    else readFields stack fs
end

/-- The body of `static read(data)`. -/
def readBody (e : Export) : List Stmt :=
  [.letS "reader".toList false (.new1 "Reader".toList (.var "data".toList)),
   .letS "output".toList false (.call1 (.var "Object".toList) "create".toList (.var e.name))] ++
  readFields ["output".toList] e.fields ++
  [.ifRet (.prop reader "failed".toList) .null, .ret (.var "output".toList)]

/-- The body of `write(buffer)`. -/
def writeBody (e : Export) : List Stmt :=
  [.letS "writer".toList false
    (.cond (.var "buffer".toList) (.new1 "Writer".toList (.var "buffer".toList)) (.new0 "Writer".toList))] ++
  writeStruct ["this".toList] e.fields ++
  [.ret (.call0 writer "finish".toList)]

/-- The constructor's parameter lines. -/
def printCtorFields (ind exp : Str) : List RField → Str
  | [] => []
  | f :: fs =>
    ind ++ ("public ".toList ++ f.name ++ ": ".toList ++
      Gen.fieldCtorType f.tyName f.ty exp f.array f.optional ++ ",\n".toList) ++ printCtorFields ind exp fs

/-- The whole class. -/
def printClass (e : Export) : Str :=
  let i1 := deeper []
  let i2 := deeper i1
  "export class ".toList ++ e.name ++ " {\n".toList ++
  (i1 ++ "constructor(\n".toList) ++ printCtorFields i2 e.name e.fields ++ (i1 ++ ") {}\n".toList) ++
  (i1 ++ ("static read(data: ArrayBuffer): ".toList ++ e.name ++ " | null {\n".toList)) ++
  printStmts i2 (readBody e) ++ (i1 ++ "}\n".toList) ++
  (i1 ++ "write(buffer?: ArrayBuffer): ArrayBuffer {\n".toList) ++
  printStmts i2 (writeBody e) ++ (i1 ++ "}\n".toList) ++
  "}\n".toList

end Packetc.Js
