import Verif.Model.Check
/-!
# `src/lib/gen/gen_ctx.rs`, `src/lib/gen/mod.rs`, `src/lib/gen/ts.rs`: the TypeScript generator

Functions that write through `&mut GenCtx` become functions `GenCtx → GenCtx`. The closures
`impl Fn(&mut GenCtx)` become functions of the same type. A panic inside the generator (indexing an empty
variant list, oversized shift) sets the sticky flag `panicked`, which `generate` turns into a panic outcome.
-/

namespace Packetc.Gen
open Check

/-- gen_ctx.rs:1-5 `GenCtx` (`panicked` is ours, see above). -/
structure GenCtx where
  indentation : Str
  out : Str
  stack : List Str
  panicked : Bool
deriving DecidableEq, Repr

namespace GenCtx

/-- gen_ctx.rs:8-14 `GenCtx::new`, on a buffer already containing `out`. -/
def new (out : Str) : GenCtx := ⟨[], out, [], false⟩

/-- gen_ctx.rs:17 `push_indent`. -/
def pushIndent (c : GenCtx) : GenCtx := { c with indentation := c.indentation ++ "    ".toList }

/-- gen_ctx.rs:20-26 `pop_indent`. -/
def popIndent (c : GenCtx) : GenCtx :=
  { c with indentation :=
      c.indentation.take (if c.indentation.length < 4 then 0 else c.indentation.length - 4) }

/-- gen_ctx.rs:29 `push_fname`. -/
def pushFname (c : GenCtx) (n : Str) : GenCtx := { c with stack := c.stack ++ [n] }

/-- gen_ctx.rs:32 `pop_fname`. -/
def popFname (c : GenCtx) : GenCtx := { c with stack := c.stack.dropLast }

/-- gen_ctx.rs:35 `swap_stack` (the old stack is kept by the caller). -/
def setStack (c : GenCtx) (s : List Str) : GenCtx := { c with stack := s }

/-- gen/mod.rs:34-42 `cat!(ctx, ...)`: indentation, then the formatted text. -/
def cat (c : GenCtx) (s : Str) : GenCtx := { c with out := c.out ++ (c.indentation ++ s) }

/-- A Rust panic. (gen/ts.rs:178-179: indexing, subtraction and shift can.) -/
def panic (c : GenCtx) : GenCtx := { c with panicked := true }

end GenCtx

/-- ts.rs:20 `varname`. -/
def varname (stack : List Str) (name : Str) : Str :=
  joinWith "_".toList stack ++ "_".toList ++ name
/-- ts.rs:21 `bindname`. -/
def bindname (stack : List Str) : Str := joinWith "_".toList stack
/-- ts.rs:22 `fname`. -/
def fname (stack : List Str) : Str := joinWith ".".toList stack

/-- ts.rs:14-18 `gen_common`. -/
def genCommon : Str := "import { Reader, Writer } from \"packet\";\n".toList

/-- ts.rs:24-47 `gen_write_impl_optional`. -/
def genWriteOptional (body : GenCtx → GenCtx) (ctx : GenCtx) : GenCtx :=
  let fname := fname ctx.stack
  let bindVar := bindname ctx.stack
  let old := ctx.stack
  let ctx := (ctx.setStack []).pushFname bindVar
  let ctx := ctx.cat ("let ".toList ++ bindVar ++ " = ".toList ++ fname ++ ";\n".toList)
  let ctx := ctx.cat ("switch (".toList ++ bindVar ++ ") {\n".toList)
  let ctx := ctx.pushIndent
  let ctx := ctx.cat "case undefined: case null: writer.write_uint8(0); break;\n".toList
  let ctx := ctx.cat "default: {\n".toList
  let ctx := ctx.pushIndent
  let ctx := ctx.cat "writer.write_uint8(1);\n".toList
  let ctx := body ctx
  let ctx := ctx.popIndent
  let ctx := ctx.cat "}\n".toList
  let ctx := ctx.popIndent
  let ctx := ctx.cat "}\n".toList
  ctx.setStack old

/-- ts.rs:49-69 `gen_write_impl_array`. -/
def genWriteArray (body : GenCtx → GenCtx) (ctx : GenCtx) : GenCtx :=
  let fname := fname ctx.stack
  let item := varname ctx.stack "item".toList
  let index := varname ctx.stack "index".toList
  let old := ctx.stack
  let ctx := (ctx.setStack []).pushFname item
  let ctx := ctx.cat ("writer.write_uint32(".toList ++ fname ++ ".length);\n".toList)
  let ctx := ctx.cat ("for (let ".toList ++ index ++ " = 0; ".toList ++ index ++ " < ".toList ++ fname ++
    ".length; ++".toList ++ index ++ ") {\n".toList)
  let ctx := ctx.pushIndent
  let ctx := ctx.cat ("let ".toList ++ item ++ " = ".toList ++ fname ++ "[".toList ++ index ++ "];\n".toList)
  let ctx := body ctx
  let ctx := ctx.popIndent
  let ctx := ctx.cat "}\n".toList
  ctx.setStack old

/-- ts.rs:71-80 `gen_write_impl_builtin`. -/
def genWriteBuiltin (ty : Builtin) (name : Str) (ctx : GenCtx) : GenCtx :=
  let fname := fname ctx.stack
  match ty with
  | .string =>
    let ctx := ctx.cat ("writer.write_uint32(".toList ++ fname ++ ".length);\n".toList)
    ctx.cat ("writer.write_string(".toList ++ fname ++ ");\n".toList)
  | _ => ctx.cat ("writer.write_".toList ++ name ++ "(".toList ++ fname ++ ");\n".toList)

/-- ts.rs:84-88 and 172-176: `repr_name`. -/
def reprName : EnumRepr → Str
  | .u8 => "uint8".toList
  | .u16 => "uint16".toList
  | .u32 => "uint32".toList

/-- ts.rs:82-91 `gen_write_impl_enum`. -/
def genWriteEnum (e : REnum) (ctx : GenCtx) : GenCtx :=
  let fname := fname ctx.stack
  ctx.cat ("writer.write_".toList ++ reprName e.repr ++ "(".toList ++ fname ++ " as number);\n".toList)

mutual
/-- ts.rs:93-114 `gen_write_impl_struct`: the loop over the fields. -/
def genWriteStruct : List (FieldOf RType) → GenCtx → GenCtx
  | [], ctx => ctx
  | f :: fs, ctx => genWriteStruct fs (genWriteField f ctx)
/-- ts.rs:95-112, the body of the loop. -/
def genWriteField : FieldOf RType → GenCtx → GenCtx
  | ⟨name, tyName, ty, array, optional⟩, ctx =>
    let ctx := ctx.pushFname name
    let gen := genWriteType tyName ty
    let gen := if array then genWriteArray gen else gen
    let gen := if optional then genWriteOptional gen else gen
    (gen ctx).popFname
/-- ts.rs:99-103, the match on the field's type. -/
def genWriteType (tyName : Str) : RType → GenCtx → GenCtx
  | .builtin b, ctx => genWriteBuiltin b tyName ctx
  | .enum e, ctx => genWriteEnum e ctx
  | .struct fs, ctx => genWriteStruct fs ctx
end

/-- ts.rs:116-128 `gen_read_impl_optional`. -/
def genReadOptional (body : GenCtx → GenCtx) (ctx : GenCtx) : GenCtx :=
  let fname := fname ctx.stack
  let ctx := ctx.cat "if (reader.read_uint8() > 0) {\n".toList
  let ctx := ctx.pushIndent
  let ctx := body ctx
  let ctx := ctx.popIndent
  let ctx := ctx.cat "} else {\n".toList
  let ctx := ctx.pushIndent
  let ctx := ctx.cat (fname ++ " = undefined;\n".toList)
  let ctx := ctx.popIndent
  ctx.cat "}\n".toList

/-- ts.rs:130-154 `gen_read_impl_array`. -/
def genReadArray (initStruct : Bool) (body : GenCtx → GenCtx) (ctx : GenCtx) : GenCtx :=
  let lenVar := varname ctx.stack "len".toList
  let fname := fname ctx.stack
  let idxVar := varname ctx.stack "index".toList
  let itemVar := varname ctx.stack "item".toList
  let old := ctx.stack
  let ctx := (ctx.setStack []).pushFname itemVar
  let ctx := ctx.cat ("let ".toList ++ lenVar ++ " = reader.read_uint32();\n".toList)
  let ctx := ctx.cat (fname ++ " = new Array(".toList ++ lenVar ++ ");\n".toList)
  let ctx := ctx.cat ("for (let ".toList ++ idxVar ++ " = 0; ".toList ++ idxVar ++ " < ".toList ++ lenVar ++
    "; ++".toList ++ idxVar ++ ") {\n".toList)
  let ctx := ctx.pushIndent
  let ctx := ctx.cat ("let ".toList ++ itemVar ++ ": any = ".toList ++
    (if initStruct then "{}".toList else "undefined".toList) ++ ";\n".toList)
  let ctx := body ctx
  let ctx := ctx.cat (fname ++ "[".toList ++ idxVar ++ "] = ".toList ++ itemVar ++ ";\n".toList)
  let ctx := ctx.popIndent
  let ctx := ctx.cat "}\n".toList
  ctx.setStack old

/-- ts.rs:156-169 `gen_read_impl_builtin`. -/
def genReadBuiltin (ty : Builtin) (typeName : Str) (ctx : GenCtx) : GenCtx :=
  let fname := fname ctx.stack
  match ty with
  | .string =>
    let lenVar := varname ctx.stack "len".toList
    let ctx := ctx.cat ("let ".toList ++ lenVar ++ " = reader.read_uint32();\n".toList)
    ctx.cat (fname ++ " = reader.read_string(".toList ++ lenVar ++ ");\n".toList)
  | _ => ctx.cat (fname ++ " = reader.read_".toList ++ typeName ++ "();\n".toList)

/-- `1 << v` as evaluated at ts.rs:178-179. The literal's type falls back to `i32` (it is only formatted), so
this is a 32-bit signed shift; a shift by 32 or more overflows (panics in debug builds): `none`. -/
def i32Shl1 (v : Nat) : Option Int := if v < 32 then some ((1#32 <<< v).toInt) else none

/-- ts.rs:177-180 `(min, max)`; `none` when an index or a shift panics. -/
def enumBounds (vs : List EnumVariant) : Option (Int × Int) :=
  match vs.head?, vs.getLast? with
  | some lo, some hi =>
    match i32Shl1 lo.value, i32Shl1 hi.value with
    | some a, some b => some (a, b)
    | _, _ => none
  | _, _ => none

/-- Rust's `Display` for an `i32`. (gen/ts.rs:178-179.) -/
def showInt (i : Int) : Str := (toString i).toList

/-- ts.rs:171-186 `gen_read_impl_enum`. -/
def genReadEnum (e : REnum) (ctx : GenCtx) : GenCtx :=
  match enumBounds e.variants with
  | none => ctx.panic
  | some (lo, hi) =>
    let fname := fname ctx.stack
    let temp := varname ctx.stack "temp".toList
    let ctx := ctx.cat ("let ".toList ++ temp ++ " = reader.read_".toList ++ reprName e.repr ++ "();\n".toList)
    let ctx := ctx.cat ("if (".toList ++ showInt lo ++ " <= ".toList ++ temp ++ " && ".toList ++ temp ++
      " <= ".toList ++ showInt hi ++ ") ".toList ++ fname ++ " = ".toList ++ temp ++ ";\n".toList)
    ctx.cat "else reader.failed = true;\n".toList

/-- ts.rs:188-202 and 229-233: the part of `gen_read_impl_struct` around its loop (`loop`). -/
def genReadStructWith (init : Bool) (loop : GenCtx → GenCtx) (ctx : GenCtx) : GenCtx :=
  let fname := fname ctx.stack
  let bindVar := bindname ctx.stack
  if init then
    let old := ctx.stack
    let ctx := (ctx.setStack []).pushFname bindVar
    let ctx := ctx.cat ("let ".toList ++ bindVar ++ ": any = {};\n".toList)
    let ctx := loop ctx
    let ctx := ctx.cat (fname ++ " = ".toList ++ bindVar ++ ";\n".toList)
    ctx.setStack old
  else loop ctx

mutual
/-- ts.rs:203-227, the loop over the fields. -/
def genReadFields : List (FieldOf RType) → GenCtx → GenCtx
  | [], ctx => ctx
  | f :: fs, ctx => genReadFields fs (genReadField f ctx)
/-- ts.rs:204-226, the body of the loop. -/
def genReadField : FieldOf RType → GenCtx → GenCtx
  | ⟨name, tyName, ty, array, optional⟩, ctx =>
    let ctx := ctx.pushFname name
    let initStruct := match ty with | .struct _ => true | _ => false
    let gen := genReadType (!array) tyName ty
    let gen := if array then genReadArray initStruct gen else gen
    let gen := if optional then genReadOptional gen else gen
    (gen ctx).popFname
/-- ts.rs:209-216, the match on the field's type; `init` is `!f.array`. -/
def genReadType (init : Bool) (tyName : Str) : RType → GenCtx → GenCtx
  | .builtin b, ctx => genReadBuiltin b tyName ctx
  | .enum e, ctx => genReadEnum e ctx
  | .struct fs, ctx => genReadStructWith init (genReadFields fs) ctx
end

/-- ts.rs:188-234 `gen_read_impl_struct`. -/
def genReadStruct (init : Bool) (fs : List (FieldOf RType)) : GenCtx → GenCtx :=
  genReadStructWith init (genReadFields fs)

/-- ts.rs:236-251 `field_ctor_type`. -/
def fieldCtorType (tyName : Str) (rty : RType) (exp : Str) (array optional : Bool) : Str :=
  let (name, prefixed) : Str × Bool := match rty with
    | .builtin .string => ("string".toList, false)
    | .builtin _ => ("number".toList, false)
    | _ => (tyName, true)
  (if prefixed then exp else []) ++ (if prefixed then ".".toList else []) ++ name ++
    (if array then "[]".toList else []) ++ (if optional then " | undefined".toList else [])

/-- ts.rs:261-264, the constructor parameters. -/
def genCtorFields (exp : Str) : List RField → GenCtx → GenCtx
  | [], ctx => ctx
  | f :: fs, ctx =>
    genCtorFields exp fs
      (ctx.cat ("public ".toList ++ f.name ++ ": ".toList ++
        fieldCtorType f.tyName f.ty exp f.array f.optional ++ ",\n".toList))

/-- ts.rs:254-292 `gen_impl`, on a context created by `GenCtx::new(out)`. -/
def genImplCtx (e : Export) (ctx : GenCtx) : GenCtx :=
  let ctx := ctx.cat ("export class ".toList ++ e.name ++ " {\n".toList)
  let ctx := ctx.pushIndent
  let ctx := ctx.cat "constructor(\n".toList
  let ctx := ctx.pushIndent
  let ctx := genCtorFields e.name e.fields ctx
  let ctx := ctx.popIndent
  let ctx := ctx.cat ") {}\n".toList
  let ctx := ctx.pushFname "output".toList
  let ctx := ctx.cat ("static read(data: ArrayBuffer): ".toList ++ e.name ++ " | null {\n".toList)
  let ctx := ctx.pushIndent
  let ctx := ctx.cat "let reader = new Reader(data);\n".toList
  let ctx := ctx.cat ("let output = Object.create(".toList ++ e.name ++ ");\n".toList)
  let ctx := genReadStruct false e.fields ctx
  let ctx := ctx.cat "if (reader.failed) return null;\n".toList
  let ctx := ctx.cat "return output;\n".toList
  let ctx := ctx.popIndent
  let ctx := ctx.cat "}\n".toList
  let ctx := ctx.popFname
  let ctx := ctx.pushFname "this".toList
  let ctx := ctx.cat "write(buffer?: ArrayBuffer): ArrayBuffer {\n".toList
  let ctx := ctx.pushIndent
  let ctx := ctx.cat "let writer = buffer ? new Writer(buffer) : new Writer();\n".toList
  let ctx := genWriteStruct e.fields ctx
  let ctx := ctx.cat "return writer.finish();\n".toList
  let ctx := ctx.popIndent
  let ctx := ctx.cat "}\n".toList
  let ctx := ctx.popFname
  let ctx := ctx.popIndent
  ctx.cat "}\n".toList

/-- ts.rs:300-306, the TypeScript type of a field. -/
def declTypeName (tyName : Str) : RType → Str
  | .builtin .string => "string".toList
  | .builtin _ => "number".toList
  | _ => tyName

/-- ts.rs:298-311, the loop of `gen_struct_decl`. -/
def genStructDeclFields : List RField → GenCtx → GenCtx
  | [], ctx => ctx
  | f :: fs, ctx =>
    genStructDeclFields fs
      (ctx.cat (f.name ++ (if f.optional then "?".toList else []) ++ ": ".toList ++
        declTypeName f.tyName f.ty ++ (if f.array then "[]".toList else []) ++ ",\n".toList))

/-- ts.rs:295-314 `gen_struct_decl`. -/
def genStructDecl (fs : List RField) (name : Str) (ctx : GenCtx) : GenCtx :=
  let ctx := ctx.cat ("export interface ".toList ++ name ++ " {\n".toList)
  let ctx := ctx.pushIndent
  let ctx := genStructDeclFields fs ctx
  let ctx := ctx.popIndent
  ctx.cat "}\n".toList

/-- ts.rs:319-321, the loop of `gen_enum_decl`. -/
def genEnumDeclVariants : List EnumVariant → GenCtx → GenCtx
  | [], ctx => ctx
  | v :: vs, ctx =>
    genEnumDeclVariants vs
      (ctx.cat (v.name ++ " = 1 << ".toList ++ (toString v.value).toList ++ ",\n".toList))

/-- ts.rs:316-324 `gen_enum_decl`. -/
def genEnumDecl (e : REnum) (name : Str) (ctx : GenCtx) : GenCtx :=
  let ctx := ctx.cat ("export const enum ".toList ++ name ++ " {\n".toList)
  let ctx := ctx.pushIndent
  let ctx := genEnumDeclVariants e.variants ctx
  let ctx := ctx.popIndent
  ctx.cat "}\n".toList

/-- ts.rs:332-342, the loop of `gen_decls`. -/
def genDeclsLoop (exp : Str) : List (Str × (Str × RType)) → GenCtx → GenCtx
  | [], ctx => ctx
  | (name, ty) :: types, ctx =>
    if name = exp then genDeclsLoop exp types ctx
    else
      match ty.2 with
      | .builtin _ => genDeclsLoop exp types ctx
      | .enum e => genDeclsLoop exp types (genEnumDecl e name ctx)
      | .struct fs => genDeclsLoop exp types (genStructDecl fs name ctx)

/-- ts.rs:327-345 `gen_decls`; `types` is in the iteration order of the hash map. -/
def genDeclsCtx (types : List (Str × (Str × RType))) (exp : Str) (ctx : GenCtx) : GenCtx :=
  let ctx := ctx.cat ("export namespace ".toList ++ exp ++ " {\n".toList)
  let ctx := ctx.pushIndent
  let ctx := genDeclsLoop exp types ctx
  let ctx := ctx.popIndent
  ctx.cat "}\n".toList

/-- gen/mod.rs:66-73 `push_meta`; `version` is `CARGO_PKG_VERSION`, `now` the formatted clock. -/
def genMeta (version now : Str) : Str :=
  "// Generated by packetc v".toList ++ version ++ " at ".toList ++ now ++ "\n".toList

/-- gen/mod.rs:14-24 `generate::<TypeScript>`; `none` is a panic. `ord` is the iteration order of the
type map. -/
def generate (version now : Str) (ord : TypeMap → TypeMap) (r : Resolved) : Option Str :=
  let out := genMeta version now ++ genCommon
  let ctx := genDeclsCtx (ord r.types) r.export.name (GenCtx.new out)
  let ctx' := genImplCtx r.export (GenCtx.new ctx.out)
  if ctx.panicked || ctx'.panicked then none else some ctx'.out

end Packetc.Gen
