import Verif.Model.Compile
import Verif.Model.ParserWork
import Verif.Model.CheckWork
/-!
# The work done by the TypeScript generator

The functions of ts.rs once more, with a counter beside the context. A step is the copying of one character, one operation on the stack of names or on the
indentation, the making of one closure, one round of a loop, or the comparison of one character. The definitions follow `Model/Ts` line by line; `Proof/GenWork`
shows that the contexts are those of `Model/Ts`. Simplified: appending a character to a `String` or an entry to a `Vec` counts as one step, which is right on average over
all appends to the same buffer (the buffer doubles when it is full), and freeing a value counts for nothing.
-/

namespace Packetc.GenW
open Check Gen

/-- A context, and the steps that have been taken. (gen/gen_ctx.rs:1-5; the counter is ours.) -/
structure Run where
  ctx : GenCtx
  steps : Nat

namespace Run

/-- Take `n` steps. (For the parts of gen/ts.rs that do not touch the context.) -/
def spend (w : Run) (n : Nat) : Run := { w with steps := w.steps + n }

/-- gen_ctx.rs:17 `push_indent`: four characters. -/
def pushIndent (w : Run) : Run := ⟨w.ctx.pushIndent, w.steps + 4⟩
/-- gen_ctx.rs:20-26 `pop_indent`: truncates. -/
def popIndent (w : Run) : Run := ⟨w.ctx.popIndent, w.steps + 1⟩
/-- gen_ctx.rs:29 `push_fname`: the name is copied into a `String`. -/
def pushFname (w : Run) (n : Str) : Run := ⟨w.ctx.pushFname n, w.steps + (1 + n.length)⟩
/-- gen_ctx.rs:32 `pop_fname`. -/
def popFname (w : Run) : Run := ⟨w.ctx.popFname, w.steps + 1⟩
/-- gen_ctx.rs:35 `swap_stack`. -/
def setStack (w : Run) (s : List Str) : Run := ⟨w.ctx.setStack s, w.steps + 1⟩
/-- gen/mod.rs:34-42 `cat!`: the text is formatted into a `String`, and then written after the indentation. -/
def cat (w : Run) (s : Str) : Run := ⟨w.ctx.cat s, w.steps + (1 + s.length + (w.ctx.indentation.length + s.length))⟩
/-- A Rust panic. (gen/ts.rs:178-179.) -/
def panic (w : Run) : Run := ⟨w.ctx.panic, w.steps + 1⟩

end Run

/-- ts.rs:21-22 `bindname`, `fname`: `join` goes through the stack and copies every part, with a separator before all but the first. -/
def joinSteps (stack : List Str) : Nat := 1 + stack.length + (bindname stack).length

/-- ts.rs:20 `varname`: joins the stack, and copies the result and the name into another string. -/
def varSteps (stack : List Str) (name : Str) : Nat := joinSteps stack + (varname stack name).length

/-- ts.rs:24-47 `gen_write_impl_optional`; `bind_var` is copied once more (ts.rs:29). -/
def writeOptional (body : Run → Run) (w : Run) : Run :=
  let fname := fname w.ctx.stack
  let bindVar := bindname w.ctx.stack
  let w := w.spend (2 * joinSteps w.ctx.stack)
  let old := w.ctx.stack
  let w := (w.setStack []).pushFname bindVar
  let w := w.cat ("let ".toList ++ bindVar ++ " = ".toList ++ fname ++ ";\n".toList)
  let w := w.cat ("switch (".toList ++ bindVar ++ ") {\n".toList)
  let w := w.pushIndent
  let w := w.cat "case undefined: case null: writer.write_uint8(0); break;\n".toList
  let w := w.cat "default: {\n".toList
  let w := w.pushIndent
  let w := w.cat "writer.write_uint8(1);\n".toList
  let w := body w
  let w := w.popIndent
  let w := w.cat "}\n".toList
  let w := w.popIndent
  let w := w.cat "}\n".toList
  w.setStack old

/-- ts.rs:49-69 `gen_write_impl_array`. -/
def writeArray (body : Run → Run) (w : Run) : Run :=
  let fname := fname w.ctx.stack
  let item := varname w.ctx.stack "item".toList
  let index := varname w.ctx.stack "index".toList
  let w := w.spend (joinSteps w.ctx.stack + varSteps w.ctx.stack "item".toList + varSteps w.ctx.stack "index".toList)
  let old := w.ctx.stack
  let w := (w.setStack []).pushFname item
  let w := w.cat ("writer.write_uint32(".toList ++ fname ++ ".length);\n".toList)
  let w := w.cat ("for (let ".toList ++ index ++ " = 0; ".toList ++ index ++ " < ".toList ++ fname ++
    ".length; ++".toList ++ index ++ ") {\n".toList)
  let w := w.pushIndent
  let w := w.cat ("let ".toList ++ item ++ " = ".toList ++ fname ++ "[".toList ++ index ++ "];\n".toList)
  let w := body w
  let w := w.popIndent
  let w := w.cat "}\n".toList
  w.setStack old

/-- ts.rs:71-80 `gen_write_impl_builtin`. -/
def writeBuiltin (ty : Builtin) (name : Str) (w : Run) : Run :=
  let fname := fname w.ctx.stack
  let w := w.spend (1 + joinSteps w.ctx.stack)
  match ty with
  | .string =>
    let w := w.cat ("writer.write_uint32(".toList ++ fname ++ ".length);\n".toList)
    w.cat ("writer.write_string(".toList ++ fname ++ ");\n".toList)
  | _ => w.cat ("writer.write_".toList ++ name ++ "(".toList ++ fname ++ ");\n".toList)

/-- ts.rs:82-91 `gen_write_impl_enum`. -/
def writeEnum (e : REnum) (w : Run) : Run :=
  let fname := fname w.ctx.stack
  let w := w.spend (1 + joinSteps w.ctx.stack)
  w.cat ("writer.write_".toList ++ reprName e.repr ++ "(".toList ++ fname ++ " as number);\n".toList)

mutual
/-- ts.rs:93-114 `gen_write_impl_struct`: the loop over the fields. -/
def writeStruct : List (FieldOf RType) → Run → Run
  | [], w => w.spend 1
  | f :: fs, w => writeStruct fs (writeField f w)
/-- ts.rs:95-112, the body of the loop; up to three closures are made. -/
def writeField : FieldOf RType → Run → Run
  | ⟨name, tyName, ty, array, optional⟩, w =>
    let w := w.spend 1
    let w := w.pushFname name
    let w := w.spend (1 + (if array then 1 else 0) + (if optional then 1 else 0))
    let gen := writeType tyName ty
    let gen := if array then writeArray gen else gen
    let gen := if optional then writeOptional gen else gen
    (gen w).popFname
/-- ts.rs:99-103, the match on the field's type. -/
def writeType (tyName : Str) : RType → Run → Run
  | .builtin b, w => writeBuiltin b tyName w
  | .enum e, w => writeEnum e w
  | .struct fs, w => writeStruct fs w
end

/-- ts.rs:116-128 `gen_read_impl_optional`. -/
def readOptional (body : Run → Run) (w : Run) : Run :=
  let fname := fname w.ctx.stack
  let w := w.spend (joinSteps w.ctx.stack)
  let w := w.cat "if (reader.read_uint8() > 0) {\n".toList
  let w := w.pushIndent
  let w := body w
  let w := w.popIndent
  let w := w.cat "} else {\n".toList
  let w := w.pushIndent
  let w := w.cat (fname ++ " = undefined;\n".toList)
  let w := w.popIndent
  w.cat "}\n".toList

/-- ts.rs:130-154 `gen_read_impl_array`. -/
def readArray (initStruct : Bool) (body : Run → Run) (w : Run) : Run :=
  let lenVar := varname w.ctx.stack "len".toList
  let fname := fname w.ctx.stack
  let idxVar := varname w.ctx.stack "index".toList
  let itemVar := varname w.ctx.stack "item".toList
  let w := w.spend (varSteps w.ctx.stack "len".toList + joinSteps w.ctx.stack + varSteps w.ctx.stack "index".toList +
    varSteps w.ctx.stack "item".toList)
  let old := w.ctx.stack
  let w := (w.setStack []).pushFname itemVar
  let w := w.cat ("let ".toList ++ lenVar ++ " = reader.read_uint32();\n".toList)
  let w := w.cat (fname ++ " = new Array(".toList ++ lenVar ++ ");\n".toList)
  let w := w.cat ("for (let ".toList ++ idxVar ++ " = 0; ".toList ++ idxVar ++ " < ".toList ++ lenVar ++
    "; ++".toList ++ idxVar ++ ") {\n".toList)
  let w := w.pushIndent
  let w := w.cat ("let ".toList ++ itemVar ++ ": any = ".toList ++
    (if initStruct then "{}".toList else "undefined".toList) ++ ";\n".toList)
  let w := body w
  let w := w.cat (fname ++ "[".toList ++ idxVar ++ "] = ".toList ++ itemVar ++ ";\n".toList)
  let w := w.popIndent
  let w := w.cat "}\n".toList
  w.setStack old

/-- ts.rs:156-169 `gen_read_impl_builtin`. -/
def readBuiltin (ty : Builtin) (typeName : Str) (w : Run) : Run :=
  let fname := fname w.ctx.stack
  let w := w.spend (1 + joinSteps w.ctx.stack)
  match ty with
  | .string =>
    let lenVar := varname w.ctx.stack "len".toList
    let w := w.spend (varSteps w.ctx.stack "len".toList)
    let w := w.cat ("let ".toList ++ lenVar ++ " = reader.read_uint32();\n".toList)
    w.cat (fname ++ " = reader.read_string(".toList ++ lenVar ++ ");\n".toList)
  | _ => w.cat (fname ++ " = reader.read_".toList ++ typeName ++ "();\n".toList)

/-- ts.rs:171-186 `gen_read_impl_enum`. -/
def readEnum (e : REnum) (w : Run) : Run :=
  match enumBounds e.variants with
  | none => w.panic
  | some (lo, hi) =>
    let fname := fname w.ctx.stack
    let temp := varname w.ctx.stack "temp".toList
    let w := w.spend (3 + joinSteps w.ctx.stack + varSteps w.ctx.stack "temp".toList)
    let w := w.cat ("let ".toList ++ temp ++ " = reader.read_".toList ++ reprName e.repr ++ "();\n".toList)
    let w := w.cat ("if (".toList ++ showInt lo ++ " <= ".toList ++ temp ++ " && ".toList ++ temp ++
      " <= ".toList ++ showInt hi ++ ") ".toList ++ fname ++ " = ".toList ++ temp ++ ";\n".toList)
    w.cat "else reader.failed = true;\n".toList

/-- ts.rs:188-202 and 229-233: the part of `gen_read_impl_struct` around its loop. The names are made whether they are used or not. -/
def readStructWith (init : Bool) (loop : Run → Run) (w : Run) : Run :=
  let fname := fname w.ctx.stack
  let bindVar := bindname w.ctx.stack
  let w := w.spend (2 * joinSteps w.ctx.stack)
  if init then
    let old := w.ctx.stack
    let w := (w.setStack []).pushFname bindVar
    let w := w.cat ("let ".toList ++ bindVar ++ ": any = {};\n".toList)
    let w := loop w
    let w := w.cat (fname ++ " = ".toList ++ bindVar ++ ";\n".toList)
    w.setStack old
  else loop w

mutual
/-- ts.rs:203-227, the loop over the fields. -/
def readFields : List (FieldOf RType) → Run → Run
  | [], w => w.spend 1
  | f :: fs, w => readFields fs (readField f w)
/-- ts.rs:204-226, the body of the loop; up to three closures are made. -/
def readField : FieldOf RType → Run → Run
  | ⟨name, tyName, ty, array, optional⟩, w =>
    let w := w.spend 1
    let w := w.pushFname name
    let w := w.spend (1 + (if array then 2 else 0) + (if optional then 2 else 0))
    let initStruct := match ty with | .struct _ => true | _ => false
    let gen := readType (!array) tyName ty
    let gen := if array then readArray initStruct gen else gen
    let gen := if optional then readOptional gen else gen
    (gen w).popFname
/-- ts.rs:209-216, the match on the field's type; `init` is `!f.array`. -/
def readType (init : Bool) (tyName : Str) : RType → Run → Run
  | .builtin b, w => readBuiltin b tyName w
  | .enum e, w => readEnum e w
  | .struct fs, w => readStructWith init (readFields fs) w
end

/-- ts.rs:188-234 `gen_read_impl_struct`. -/
def readStruct (init : Bool) (fs : List (FieldOf RType)) : Run → Run := readStructWith init (readFields fs)

/-- ts.rs:261-264, the constructor parameters; `field_ctor_type` makes a string. -/
def ctorFields (exp : Str) : List RField → Run → Run
  | [], w => w.spend 1
  | f :: fs, w =>
    let w := w.spend (2 + (fieldCtorType f.tyName f.ty exp f.array f.optional).length)
    ctorFields exp fs
      (w.cat ("public ".toList ++ f.name ++ ": ".toList ++
        fieldCtorType f.tyName f.ty exp f.array f.optional ++ ",\n".toList))

/-- ts.rs:254-292 `gen_impl`. -/
def implRun (e : Export) (w : Run) : Run :=
  let w := w.cat ("export class ".toList ++ e.name ++ " {\n".toList)
  let w := w.pushIndent
  let w := w.cat "constructor(\n".toList
  let w := w.pushIndent
  let w := ctorFields e.name e.fields w
  let w := w.popIndent
  let w := w.cat ") {}\n".toList
  let w := w.pushFname "output".toList
  let w := w.cat ("static read(data: ArrayBuffer): ".toList ++ e.name ++ " | null {\n".toList)
  let w := w.pushIndent
  let w := w.cat "let reader = new Reader(data);\n".toList
  let w := w.cat ("let output = Object.create(".toList ++ e.name ++ ");\n".toList)
  let w := readStruct false e.fields w
  let w := w.cat "if (reader.failed) return null;\n".toList
  let w := w.cat "return output;\n".toList
  let w := w.popIndent
  let w := w.cat "}\n".toList
  let w := w.popFname
  let w := w.pushFname "this".toList
  let w := w.cat "write(buffer?: ArrayBuffer): ArrayBuffer {\n".toList
  let w := w.pushIndent
  let w := w.cat "let writer = buffer ? new Writer(buffer) : new Writer();\n".toList
  let w := writeStruct e.fields w
  let w := w.cat "return writer.finish();\n".toList
  let w := w.popIndent
  let w := w.cat "}\n".toList
  let w := w.popFname
  let w := w.popIndent
  w.cat "}\n".toList

/-- ts.rs:298-311, the loop of `gen_struct_decl`. -/
def structDeclFields : List RField → Run → Run
  | [], w => w.spend 1
  | f :: fs, w =>
    let w := w.spend 4
    structDeclFields fs
      (w.cat (f.name ++ (if f.optional then "?".toList else []) ++ ": ".toList ++
        declTypeName f.tyName f.ty ++ (if f.array then "[]".toList else []) ++ ",\n".toList))

/-- ts.rs:295-314 `gen_struct_decl`. -/
def structDecl (fs : List RField) (name : Str) (w : Run) : Run :=
  let w := w.cat ("export interface ".toList ++ name ++ " {\n".toList)
  let w := w.pushIndent
  let w := structDeclFields fs w
  let w := w.popIndent
  w.cat "}\n".toList

/-- ts.rs:319-321, the loop of `gen_enum_decl`. -/
def enumDeclVariants : List EnumVariant → Run → Run
  | [], w => w.spend 1
  | v :: vs, w =>
    let w := w.spend 1
    enumDeclVariants vs
      (w.cat (v.name ++ " = 1 << ".toList ++ (toString v.value).toList ++ ",\n".toList))

/-- ts.rs:316-324 `gen_enum_decl`. -/
def enumDecl (e : REnum) (name : Str) (w : Run) : Run :=
  let w := w.cat ("export const enum ".toList ++ name ++ " {\n".toList)
  let w := w.pushIndent
  let w := enumDeclVariants e.variants w
  let w := w.popIndent
  w.cat "}\n".toList

/-- ts.rs:332-342, the loop of `gen_decls`: a round of the loop, and the comparison of the two names. -/
def declsLoop (exp : Str) : List (Str × (Str × RType)) → Run → Run
  | [], w => w.spend 1
  | (name, ty) :: types, w =>
    let w := w.spend (2 + min name.length exp.length)
    if name = exp then declsLoop exp types w
    else
      match ty.2 with
      | .builtin _ => declsLoop exp types w
      | .enum e => declsLoop exp types (enumDecl e name w)
      | .struct fs => declsLoop exp types (structDecl fs name w)

/-- ts.rs:327-345 `gen_decls`. -/
def declsRun (types : List (Str × (Str × RType))) (exp : Str) (w : Run) : Run :=
  let w := w.cat ("export namespace ".toList ++ exp ++ " {\n".toList)
  let w := w.pushIndent
  let w := declsLoop exp types w
  let w := w.popIndent
  w.cat "}\n".toList

/-- gen/mod.rs:14-24 `generate::<TypeScript>`: the text that is generated (`none` is a panic), and the steps. The two lines at the top are formatted
and copied. -/
def generateRun (version now : Str) (ord : TypeMap → TypeMap) (r : Resolved) : Option Str × Nat :=
  let out := genMeta version now ++ genCommon
  let w := declsRun (ord r.types) r.export.name ⟨GenCtx.new out, 2 * out.length⟩
  let w' := implRun r.export ⟨GenCtx.new w.ctx.out, w.steps⟩
  (if w.ctx.panicked || w'.ctx.panicked then none else some w'.ctx.out, w'.steps)

/-- lib.rs:43-56 `compile::<TypeScript>`: the steps of the parser, of the checker, and of the generator. Simplified: the rendering of an error message is not counted. -/
def compileSteps (env : Env) (text : Str) : Nat :=
  match Parser.schema text with
  | .ok ast =>
    match typeCheck env.ordTypes ast with
    | .ok r => ParserW.schemaWork text + CheckW.typeCheckWork env.ordTypes ast + (generateRun env.version env.now env.ordDecls r).2
    | .error _ => ParserW.schemaWork text + CheckW.typeCheckWork env.ordTypes ast
  | _ => ParserW.schemaWork text

end Packetc.GenW
