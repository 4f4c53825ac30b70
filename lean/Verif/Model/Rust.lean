import Verif.Model.Ts
/-!
# `src/lib/gen/rust.rs`: the Rust generator

At this commit the module is not compiled: `pub mod rust;` is commented out in gen/mod.rs:2 and `Lang::Rust` in
main.rs:23, and the traits `WriteImpl`, `ReadImpl`, `Definition` which it implements were replaced in gen/mod.rs. Its functions
only use `GenCtx`, `cat!` and the types of check.rs, which are the same, and are modelled here one by one, like those of ts.rs
(`Model/Ts.lean`). There is no function that puts the parts of a file together.
-/

namespace Packetc.RustGen
open Check Gen

/-- check.rs:66-74 `impl Display for EnumRepr`. -/
def reprType : EnumRepr → Str
  | .u8 => "u8".toList
  | .u16 => "u16".toList
  | .u32 => "u32".toList

/-- rust.rs:14-22 `gen_common`. -/
def genCommon : Str :=
  ("#![allow(dead_code, non_camel_case_types, unused_imports, unused_assignments, " ++
    "clippy::field_reassign_with_default)]\n").toList ++ "use std::convert::TryFrom;\n".toList

/-- rust.rs:28-51 `gen_write_impl_optional`. -/
def genWriteOptional (byRef : Bool) (body : GenCtx → GenCtx) (ctx : GenCtx) : GenCtx :=
  let fname := fname ctx.stack
  let bindVar := bindname ctx.stack
  let old := ctx.stack
  let ctx := (ctx.setStack []).pushFname bindVar
  let refPrefix := if byRef then "&".toList else []
  let ctx := ctx.cat ("match ".toList ++ refPrefix ++ fname ++ " {\n".toList)
  let ctx := ctx.pushIndent
  let ctx := ctx.cat "None => writer.write_uint8(0u8),\n".toList
  let ctx := ctx.cat ("Some(".toList ++ bindVar ++ ") => {\n".toList)
  let ctx := ctx.pushIndent
  let ctx := ctx.cat "writer.write_uint8(1u8);\n".toList
  let ctx := body ctx
  let ctx := ctx.popIndent
  let ctx := ctx.cat "}\n".toList
  let ctx := ctx.popIndent
  let ctx := ctx.cat "}\n".toList
  ctx.setStack old

/-- rust.rs:53-70 `gen_write_impl_array`. -/
def genWriteArray (body : GenCtx → GenCtx) (ctx : GenCtx) : GenCtx :=
  let fname := fname ctx.stack
  let item := varname ctx.stack "item".toList
  let old := ctx.stack
  let ctx := (ctx.setStack []).pushFname item
  let ctx := ctx.cat ("writer.write_uint32(".toList ++ fname ++ ".len() as u32);\n".toList)
  let ctx := ctx.cat ("for ".toList ++ item ++ " in ".toList ++ fname ++ ".iter() {\n".toList)
  let ctx := ctx.pushIndent
  let ctx := body ctx
  let ctx := ctx.popIndent
  let ctx := ctx.cat "}\n".toList
  ctx.setStack old

/-- rust.rs:72-81 `gen_write_impl_builtin`. -/
def genWriteBuiltin (ty : Builtin) (name : Str) (ctx : GenCtx) : GenCtx :=
  let fname := fname ctx.stack
  match ty with
  | .string =>
    let ctx := ctx.cat ("writer.write_uint32(".toList ++ fname ++ ".len() as u32);\n".toList)
    ctx.cat ("writer.write_string(&".toList ++ fname ++ ");\n".toList)
  | _ => ctx.cat ("writer.write_".toList ++ name ++ "(".toList ++ fname ++ ");\n".toList)

/-- rust.rs:83-91 `gen_write_impl_enum` (`repr_name`, rust.rs:84-88, is as in ts.rs). -/
def genWriteEnum (e : REnum) (ctx : GenCtx) : GenCtx :=
  let fname := fname ctx.stack
  ctx.cat ("writer.write_".toList ++ reprName e.repr ++ "(".toList ++ fname ++ " as ".toList ++ reprType e.repr ++ ");\n".toList)

mutual
/-- rust.rs:93-118 `gen_write_impl_struct`: the loop over the fields. -/
def genWriteStruct : List (FieldOf RType) → GenCtx → GenCtx
  | [], ctx => ctx
  | f :: fs, ctx => genWriteStruct fs (genWriteField f ctx)
/-- rust.rs:95-116, the body of the loop. -/
def genWriteField : FieldOf RType → GenCtx → GenCtx
  | ⟨name, tyName, ty, array, optional⟩, ctx =>
    let ctx := ctx.pushFname name
    let byRef := match ty with | .struct _ => true | _ => false
    let gen := genWriteType tyName ty
    let gen := if array then genWriteArray gen else gen
    let gen := if optional then genWriteOptional byRef gen else gen
    (gen ctx).popFname
/-- rust.rs:100-107, the match on the field's type. -/
def genWriteType (tyName : Str) : RType → GenCtx → GenCtx
  | .builtin b, ctx => genWriteBuiltin b tyName ctx
  | .enum e, ctx => genWriteEnum e ctx
  | .struct fs, ctx => genWriteStruct fs ctx
end

/-- rust.rs:121-132 `gen_write_impl`, on a context created by `GenCtx::new(out)`. -/
def genWriteImpl (e : Export) (name : Str) (ctx : GenCtx) : GenCtx :=
  let ctx := ctx.pushFname "input".toList
  let ctx := ctx.cat ("pub fn write(writer: &mut packet::writer::Writer, input: &".toList ++ name ++ ") {\n".toList)
  let ctx := ctx.pushIndent
  let ctx := genWriteStruct e.fields ctx
  let ctx := ctx.popIndent
  ctx.cat "}\n".toList

/-- rust.rs:135-153 `gen_read_impl_optional`. -/
def genReadOptional (typeName : Str) (body : GenCtx → GenCtx) (ctx : GenCtx) : GenCtx :=
  let fname := fname ctx.stack
  let bindVar := bindname ctx.stack
  let old := ctx.stack
  let ctx := (ctx.setStack []).pushFname bindVar
  let ctx := ctx.cat "if reader.read_uint8()? > 0 {\n".toList
  let ctx := ctx.pushIndent
  let ctx := ctx.cat ("let mut ".toList ++ bindVar ++ " = ".toList ++ typeName ++ "::default();\n".toList)
  let ctx := body ctx
  let ctx := ctx.cat (fname ++ " = Some(".toList ++ bindVar ++ ");\n".toList)
  let ctx := ctx.popIndent
  let ctx := ctx.cat "}\n".toList
  ctx.setStack old

/-- rust.rs:155-176 `gen_read_impl_array`. -/
def genReadArray (typeName : Str) (body : GenCtx → GenCtx) (ctx : GenCtx) : GenCtx :=
  let lenVar := varname ctx.stack "len".toList
  let fname := fname ctx.stack
  let itemVar := varname ctx.stack "item".toList
  let old := ctx.stack
  let ctx := (ctx.setStack []).pushFname itemVar
  let ctx := ctx.cat ("let ".toList ++ lenVar ++ " = reader.read_uint32()? as usize;\n".toList)
  let ctx := ctx.cat (fname ++ ".reserve(".toList ++ lenVar ++ ");\n".toList)
  let ctx := ctx.cat ("for _ in 0..".toList ++ lenVar ++ " {\n".toList)
  let ctx := ctx.pushIndent
  let ctx := ctx.cat ("let mut ".toList ++ itemVar ++ " = ".toList ++ typeName ++ "::default();\n".toList)
  let ctx := body ctx
  let ctx := ctx.cat (fname ++ ".push(".toList ++ itemVar ++ ");\n".toList)
  let ctx := ctx.popIndent
  let ctx := ctx.cat "}\n".toList
  ctx.setStack old

/-- rust.rs:178-190 `gen_read_impl_builtin`. -/
def genReadBuiltin (ty : Builtin) (typeName : Str) (ctx : GenCtx) : GenCtx :=
  let fname := fname ctx.stack
  match ty with
  | .string =>
    let lenVar := varname ctx.stack "len".toList
    let ctx := ctx.cat ("let ".toList ++ lenVar ++ " = reader.read_uint32()? as usize;\n".toList)
    ctx.cat (fname ++ " = reader.read_string(".toList ++ lenVar ++ ")?;\n".toList)
  | _ => ctx.cat (fname ++ " = reader.read_".toList ++ typeName ++ "()?;\n".toList)

/-- rust.rs:192-200 `gen_read_impl_enum`. -/
def genReadEnum (e : REnum) (typeName : Str) (ctx : GenCtx) : GenCtx :=
  let fname := fname ctx.stack
  ctx.cat (fname ++ " = ".toList ++ typeName ++ "::try_from(reader.read_".toList ++ reprName e.repr ++ "()?)?;\n".toList)

/-- rust.rs:202-214 `resolve_typename`. -/
def resolveTypename (typeName : Str) : Option Str :=
  if typeName = "uint8".toList then some "u8".toList
  else if typeName = "uint16".toList then some "u16".toList
  else if typeName = "uint32".toList then some "u32".toList
  else if typeName = "int8".toList then some "i8".toList
  else if typeName = "int16".toList then some "i16".toList
  else if typeName = "int32".toList then some "i32".toList
  else if typeName = "float".toList then some "f32".toList
  else if typeName = "string".toList then some "String".toList
  else none

mutual
/-- rust.rs:216-237 `gen_read_impl_struct`: the loop over the fields. -/
def genReadStruct : List (FieldOf RType) → GenCtx → GenCtx
  | [], ctx => ctx
  | f :: fs, ctx => genReadStruct fs (genReadField f ctx)
/-- rust.rs:218-235, the body of the loop. -/
def genReadField : FieldOf RType → GenCtx → GenCtx
  | ⟨name, tyName, ty, array, optional⟩, ctx =>
    let ctx := ctx.pushFname name
    let rustName := (resolveTypename tyName).getD tyName
    let gen := genReadType tyName ty
    let gen := if array then genReadArray rustName gen else gen
    let gen := if optional then genReadOptional rustName gen else gen
    (gen ctx).popFname
/-- rust.rs:223-227, the match on the field's type. -/
def genReadType (tyName : Str) : RType → GenCtx → GenCtx
  | .builtin b, ctx => genReadBuiltin b tyName ctx
  | .enum e, ctx => genReadEnum e tyName ctx
  | .struct fs, ctx => genReadStruct fs ctx
end

/-- rust.rs:240-252 `gen_read_impl`, on a context created by `GenCtx::new(out)`. -/
def genReadImpl (e : Export) (name : Str) (ctx : GenCtx) : GenCtx :=
  let ctx := ctx.pushFname "output".toList
  let ctx := ctx.cat ("pub fn read(reader: &mut packet::reader::Reader, output: &mut ".toList ++ name ++
    ") -> Result<(), packet::Error> {\n".toList)
  let ctx := ctx.pushIndent
  let ctx := genReadStruct e.fields ctx
  let ctx := ctx.cat "Ok(())\n".toList
  let ctx := ctx.popIndent
  ctx.cat "}\n".toList

/-- rust.rs:255-263 `struct_field_typename`. -/
def structFieldTypename (base : Str) (array optional : Bool) : Str :=
  (if optional then "Option<".toList else []) ++ (if array then "Vec<".toList else []) ++ base ++
    (if array then ">".toList else []) ++ (if optional then ">".toList else [])

/-- rust.rs:274-286, the type name in a field declaration. -/
def fieldTypename (tyName : Str) : RType → Str
  | .builtin .uint8 => "u8".toList
  | .builtin .uint16 => "u16".toList
  | .builtin .uint32 => "u32".toList
  | .builtin .int8 => "i8".toList
  | .builtin .int16 => "i16".toList
  | .builtin .int32 => "i32".toList
  | .builtin .float => "f32".toList
  | .builtin .string => "String".toList
  | _ => tyName

/-- rust.rs:272-289, the loop of `gen_def`. -/
def genDefFields : List (FieldOf RType) → GenCtx → GenCtx
  | [], ctx => ctx
  | f :: fs, ctx =>
    genDefFields fs (ctx.cat ("pub ".toList ++ f.name ++ ": ".toList ++
      structFieldTypename (fieldTypename f.tyName f.ty) f.array f.optional ++ ",\n".toList))

/-- rust.rs:266-292 `gen_def` of structs, on a context created by `GenCtx::new(out)`. -/
def genDefStruct (fs : List (FieldOf RType)) (name : Str) (ctx : GenCtx) : GenCtx :=
  let ctx := ctx.cat "#[derive(Clone, PartialEq, Debug, Default)]\n".toList
  let ctx := ctx.cat ("pub struct ".toList ++ name ++ " {\n".toList)
  let ctx := ctx.pushIndent
  let ctx := genDefFields fs ctx
  let ctx := ctx.popIndent
  ctx.cat "}\n".toList

/-- rust.rs:295-307 `gen_def_enum_default_impl`; `first().unwrap()` panics without variants. -/
def genEnumDefault (name : Str) (e : REnum) (ctx : GenCtx) : GenCtx :=
  match e.variants.head? with
  | none => ctx.panic
  | some first =>
    let ctx := ctx.cat ("impl Default for ".toList ++ name ++ " {\n".toList)
    let ctx := ctx.pushIndent
    let ctx := ctx.cat "fn default() -> Self {\n".toList
    let ctx := ctx.pushIndent
    let ctx := ctx.cat (name ++ "::".toList ++ first.name ++ "\n".toList)
    let ctx := ctx.popIndent
    let ctx := ctx.cat "}\n".toList
    let ctx := ctx.popIndent
    ctx.cat "}\n".toList

/-- rust.rs:317-320, the loop over the arms. As in ts.rs, `1 << variant.value` is an `i32`. -/
def genArms (name : Str) : List EnumVariant → GenCtx → GenCtx
  | [], ctx => ctx
  | v :: vs, ctx =>
    match i32Shl1 v.value with
    | none => ctx.panic
    | some value =>
      genArms name vs (ctx.cat (showInt value ++ " => Ok(".toList ++ name ++ "::".toList ++ v.name ++ "),\n".toList))

/-- rust.rs:309-331 `gen_def_enum_tryfrom_impl`. -/
def genEnumTryFrom (name : Str) (e : REnum) (ctx : GenCtx) : GenCtx :=
  let ctx := ctx.cat ("impl std::convert::TryFrom<".toList ++ reprType e.repr ++ "> for ".toList ++ name ++ " {\n".toList)
  let ctx := ctx.pushIndent
  let ctx := ctx.cat "type Error = packet::Error;\n".toList
  let ctx := ctx.cat ("fn try_from(value: ".toList ++ reprType e.repr ++ ") -> Result<Self, Self::Error> {\n".toList)
  let ctx := ctx.pushIndent
  let ctx := ctx.cat "match value {\n".toList
  let ctx := ctx.pushIndent
  let ctx := genArms name e.variants ctx
  let ctx := ctx.cat ("_ => Err(packet::Error::InvalidEnumValue(value as usize, \"".toList ++ name ++ "\"))\n".toList)
  let ctx := ctx.popIndent
  let ctx := ctx.cat "}\n".toList
  let ctx := ctx.popIndent
  let ctx := ctx.cat "}\n".toList
  let ctx := ctx.popIndent
  ctx.cat "}\n".toList

/-- rust.rs:343-345, the loop over the variants. -/
def genDefVariants : List EnumVariant → GenCtx → GenCtx
  | [], ctx => ctx
  | v :: vs, ctx => genDefVariants vs (ctx.cat (v.name ++ " = 1 << ".toList ++ (toString v.value).toList ++ ",\n".toList))

/-- rust.rs:334-350 `gen_def` of enums, on a context created by `GenCtx::new(out)`. -/
def genDefEnum (e : REnum) (name : Str) (ctx : GenCtx) : GenCtx :=
  let ctx := ctx.cat "#[derive(Clone, Copy, PartialEq, Debug)]\n".toList
  let ctx := ctx.cat ("#[repr(".toList ++ reprType e.repr ++ ")]\n".toList)
  let ctx := ctx.cat ("pub enum ".toList ++ name ++ " {\n".toList)
  let ctx := ctx.pushIndent
  let ctx := genDefVariants e.variants ctx
  let ctx := ctx.popIndent
  let ctx := ctx.cat "}\n".toList
  let ctx := genEnumDefault name e ctx
  genEnumTryFrom name e ctx

end Packetc.RustGen
