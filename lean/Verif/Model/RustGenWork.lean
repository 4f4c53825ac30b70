import Verif.Model.GenWork
import Verif.Rust.File
/-!
# The work done by the Rust generator

The functions of rust.rs once more, with a counter beside the context, as `Model/GenWork` has those of ts.rs; steps are counted in the same way. The definitions
follow `Model/Rust` line by line; `Proof/RustGenWork` shows that the contexts are the same.
-/

namespace Packetc.RustGenW
open Check
open Gen (GenCtx varname fname bindname showInt i32Shl1 reprName)
open GenW (Run joinSteps varSteps)
open RustGen (reprType resolveTypename structFieldTypename fieldTypename)

/-- rust.rs:28-51 `gen_write_impl_optional`; `bind_var` is copied once more (rust.rs:33). -/
def writeOptional (byRef : Bool) (body : Run → Run) (w : Run) : Run :=
  let fname := fname w.ctx.stack
  let bindVar := bindname w.ctx.stack
  let w := w.spend (2 * joinSteps w.ctx.stack)
  let old := w.ctx.stack
  let w := (w.setStack []).pushFname bindVar
  let refPrefix := if byRef then "&".toList else []
  let w := w.cat ("match ".toList ++ refPrefix ++ fname ++ " {\n".toList)
  let w := w.pushIndent
  let w := w.cat "None => writer.write_uint8(0u8),\n".toList
  let w := w.cat ("Some(".toList ++ bindVar ++ ") => {\n".toList)
  let w := w.pushIndent
  let w := w.cat "writer.write_uint8(1u8);\n".toList
  let w := body w
  let w := w.popIndent
  let w := w.cat "}\n".toList
  let w := w.popIndent
  let w := w.cat "}\n".toList
  w.setStack old

/-- rust.rs:53-70 `gen_write_impl_array`. -/
def writeArray (body : Run → Run) (w : Run) : Run :=
  let fname := fname w.ctx.stack
  let item := varname w.ctx.stack "item".toList
  let w := w.spend (joinSteps w.ctx.stack + varSteps w.ctx.stack "item".toList)
  let old := w.ctx.stack
  let w := (w.setStack []).pushFname item
  let w := w.cat ("writer.write_uint32(".toList ++ fname ++ ".len() as u32);\n".toList)
  let w := w.cat ("for ".toList ++ item ++ " in ".toList ++ fname ++ ".iter() {\n".toList)
  let w := w.pushIndent
  let w := body w
  let w := w.popIndent
  let w := w.cat "}\n".toList
  w.setStack old

/-- rust.rs:72-81 `gen_write_impl_builtin`. -/
def writeBuiltin (ty : Builtin) (name : Str) (w : Run) : Run :=
  let fname := fname w.ctx.stack
  let w := w.spend (1 + joinSteps w.ctx.stack)
  match ty with
  | .string =>
    let w := w.cat ("writer.write_uint32(".toList ++ fname ++ ".len() as u32);\n".toList)
    w.cat ("writer.write_string(&".toList ++ fname ++ ");\n".toList)
  | _ => w.cat ("writer.write_".toList ++ name ++ "(".toList ++ fname ++ ");\n".toList)

/-- rust.rs:83-91 `gen_write_impl_enum`. -/
def writeEnum (e : REnum) (w : Run) : Run :=
  let fname := fname w.ctx.stack
  let w := w.spend (1 + joinSteps w.ctx.stack)
  w.cat ("writer.write_".toList ++ reprName e.repr ++ "(".toList ++ fname ++ " as ".toList ++ reprType e.repr ++ ");\n".toList)

mutual
/-- rust.rs:93-118 `gen_write_impl_struct`: the loop over the fields. -/
def writeStruct : List (FieldOf RType) → Run → Run
  | [], w => w.spend 1
  | f :: fs, w => writeStruct fs (writeField f w)
/-- rust.rs:95-116, the body of the loop; up to three closures are made. -/
def writeField : FieldOf RType → Run → Run
  | ⟨name, tyName, ty, array, optional⟩, w =>
    let w := w.spend 1
    let w := w.pushFname name
    let w := w.spend (1 + (if array then 1 else 0) + (if optional then 1 else 0))
    let byRef := match ty with | .struct _ => true | _ => false
    let gen := writeType tyName ty
    let gen := if array then writeArray gen else gen
    let gen := if optional then writeOptional byRef gen else gen
    (gen w).popFname
/-- rust.rs:100-107, the match on the field's type. -/
def writeType (tyName : Str) : RType → Run → Run
  | .builtin b, w => writeBuiltin b tyName w
  | .enum e, w => writeEnum e w
  | .struct fs, w => writeStruct fs w
end

/-- rust.rs:121-132 `gen_write_impl`. -/
def writeImpl (e : Export) (name : Str) (w : Run) : Run :=
  let w := w.pushFname "input".toList
  let w := w.cat ("pub fn write(writer: &mut packet::writer::Writer, input: &".toList ++ name ++ ") {\n".toList)
  let w := w.pushIndent
  let w := writeStruct e.fields w
  let w := w.popIndent
  w.cat "}\n".toList

/-- rust.rs:135-153 `gen_read_impl_optional`. -/
def readOptional (typeName : Str) (body : Run → Run) (w : Run) : Run :=
  let fname := fname w.ctx.stack
  let bindVar := bindname w.ctx.stack
  let w := w.spend (2 * joinSteps w.ctx.stack)
  let old := w.ctx.stack
  let w := (w.setStack []).pushFname bindVar
  let w := w.cat "if reader.read_uint8()? > 0 {\n".toList
  let w := w.pushIndent
  let w := w.cat ("let mut ".toList ++ bindVar ++ " = ".toList ++ typeName ++ "::default();\n".toList)
  let w := body w
  let w := w.cat (fname ++ " = Some(".toList ++ bindVar ++ ");\n".toList)
  let w := w.popIndent
  let w := w.cat "}\n".toList
  w.setStack old

/-- rust.rs:155-176 `gen_read_impl_array`. -/
def readArray (typeName : Str) (body : Run → Run) (w : Run) : Run :=
  let lenVar := varname w.ctx.stack "len".toList
  let fname := fname w.ctx.stack
  let itemVar := varname w.ctx.stack "item".toList
  let w := w.spend (varSteps w.ctx.stack "len".toList + joinSteps w.ctx.stack + varSteps w.ctx.stack "item".toList)
  let old := w.ctx.stack
  let w := (w.setStack []).pushFname itemVar
  let w := w.cat ("let ".toList ++ lenVar ++ " = reader.read_uint32()? as usize;\n".toList)
  let w := w.cat (fname ++ ".reserve(".toList ++ lenVar ++ ");\n".toList)
  let w := w.cat ("for _ in 0..".toList ++ lenVar ++ " {\n".toList)
  let w := w.pushIndent
  let w := w.cat ("let mut ".toList ++ itemVar ++ " = ".toList ++ typeName ++ "::default();\n".toList)
  let w := body w
  let w := w.cat (fname ++ ".push(".toList ++ itemVar ++ ");\n".toList)
  let w := w.popIndent
  let w := w.cat "}\n".toList
  w.setStack old

/-- rust.rs:178-190 `gen_read_impl_builtin`. -/
def readBuiltin (ty : Builtin) (typeName : Str) (w : Run) : Run :=
  let fname := fname w.ctx.stack
  let w := w.spend (1 + joinSteps w.ctx.stack)
  match ty with
  | .string =>
    let lenVar := varname w.ctx.stack "len".toList
    let w := w.spend (varSteps w.ctx.stack "len".toList)
    let w := w.cat ("let ".toList ++ lenVar ++ " = reader.read_uint32()? as usize;\n".toList)
    w.cat (fname ++ " = reader.read_string(".toList ++ lenVar ++ ")?;\n".toList)
  | _ => w.cat (fname ++ " = reader.read_".toList ++ typeName ++ "()?;\n".toList)

/-- rust.rs:192-200 `gen_read_impl_enum`. -/
def readEnum (e : REnum) (typeName : Str) (w : Run) : Run :=
  let fname := fname w.ctx.stack
  let w := w.spend (1 + joinSteps w.ctx.stack)
  w.cat (fname ++ " = ".toList ++ typeName ++ "::try_from(reader.read_".toList ++ reprName e.repr ++ "()?)?;\n".toList)

mutual
/-- rust.rs:216-237 `gen_read_impl_struct`: the loop over the fields. -/
def readStruct : List (FieldOf RType) → Run → Run
  | [], w => w.spend 1
  | f :: fs, w => readStruct fs (readField f w)
/-- rust.rs:218-235, the body of the loop; `resolve_typename` compares with eight names, a step each, and up to three closures are made. -/
def readField : FieldOf RType → Run → Run
  | ⟨name, tyName, ty, array, optional⟩, w =>
    let w := w.spend 1
    let w := w.pushFname name
    let w := w.spend (9 + (if array then 1 else 0) + (if optional then 1 else 0))
    let rustName := (resolveTypename tyName).getD tyName
    let gen := readType tyName ty
    let gen := if array then readArray rustName gen else gen
    let gen := if optional then readOptional rustName gen else gen
    (gen w).popFname
/-- rust.rs:223-227, the match on the field's type. -/
def readType (tyName : Str) : RType → Run → Run
  | .builtin b, w => readBuiltin b tyName w
  | .enum e, w => readEnum e tyName w
  | .struct fs, w => readStruct fs w
end

/-- rust.rs:240-252 `gen_read_impl`. -/
def readImpl (e : Export) (name : Str) (w : Run) : Run :=
  let w := w.pushFname "output".toList
  let w := w.cat ("pub fn read(reader: &mut packet::reader::Reader, output: &mut ".toList ++ name ++
    ") -> Result<(), packet::Error> {\n".toList)
  let w := w.pushIndent
  let w := readStruct e.fields w
  let w := w.cat "Ok(())\n".toList
  let w := w.popIndent
  w.cat "}\n".toList

/-- rust.rs:272-289, the loop of `gen_def`; `struct_field_typename` makes a string. -/
def defFields : List (FieldOf RType) → Run → Run
  | [], w => w.spend 1
  | f :: fs, w =>
    let w := w.spend (3 + (structFieldTypename (fieldTypename f.tyName f.ty) f.array f.optional).length)
    defFields fs (w.cat ("pub ".toList ++ f.name ++ ": ".toList ++
      structFieldTypename (fieldTypename f.tyName f.ty) f.array f.optional ++ ",\n".toList))

/-- rust.rs:266-292 `gen_def` of structs. -/
def defStruct (fs : List (FieldOf RType)) (name : Str) (w : Run) : Run :=
  let w := w.cat "#[derive(Clone, PartialEq, Debug, Default)]\n".toList
  let w := w.cat ("pub struct ".toList ++ name ++ " {\n".toList)
  let w := w.pushIndent
  let w := defFields fs w
  let w := w.popIndent
  w.cat "}\n".toList

/-- rust.rs:295-307 `gen_def_enum_default_impl`. -/
def enumDefault (name : Str) (e : REnum) (w : Run) : Run :=
  match e.variants.head? with
  | none => w.panic
  | some first =>
    let w := w.cat ("impl Default for ".toList ++ name ++ " {\n".toList)
    let w := w.pushIndent
    let w := w.cat "fn default() -> Self {\n".toList
    let w := w.pushIndent
    let w := w.cat (name ++ "::".toList ++ first.name ++ "\n".toList)
    let w := w.popIndent
    let w := w.cat "}\n".toList
    let w := w.popIndent
    w.cat "}\n".toList

/-- rust.rs:317-320, the loop over the arms. -/
def arms (name : Str) : List EnumVariant → Run → Run
  | [], w => w.spend 1
  | v :: vs, w =>
    match i32Shl1 v.value with
    | none => w.panic
    | some value =>
      arms name vs ((w.spend 2).cat (showInt value ++ " => Ok(".toList ++ name ++ "::".toList ++ v.name ++ "),\n".toList))

/-- rust.rs:309-331 `gen_def_enum_tryfrom_impl`. -/
def enumTryFrom (name : Str) (e : REnum) (w : Run) : Run :=
  let w := w.cat ("impl std::convert::TryFrom<".toList ++ reprType e.repr ++ "> for ".toList ++ name ++ " {\n".toList)
  let w := w.pushIndent
  let w := w.cat "type Error = packet::Error;\n".toList
  let w := w.cat ("fn try_from(value: ".toList ++ reprType e.repr ++ ") -> Result<Self, Self::Error> {\n".toList)
  let w := w.pushIndent
  let w := w.cat "match value {\n".toList
  let w := w.pushIndent
  let w := arms name e.variants w
  let w := w.cat ("_ => Err(packet::Error::InvalidEnumValue(value as usize, \"".toList ++ name ++ "\"))\n".toList)
  let w := w.popIndent
  let w := w.cat "}\n".toList
  let w := w.popIndent
  let w := w.cat "}\n".toList
  let w := w.popIndent
  w.cat "}\n".toList

/-- rust.rs:343-345, the loop over the variants. -/
def defVariants : List EnumVariant → Run → Run
  | [], w => w.spend 1
  | v :: vs, w => defVariants vs ((w.spend 1).cat (v.name ++ " = 1 << ".toList ++ (toString v.value).toList ++ ",\n".toList))

/-- rust.rs:334-350 `gen_def` of enums. -/
def defEnum (e : REnum) (name : Str) (w : Run) : Run :=
  let w := w.cat "#[derive(Clone, Copy, PartialEq, Debug)]\n".toList
  let w := w.cat ("#[repr(".toList ++ reprType e.repr ++ ")]\n".toList)
  let w := w.cat ("pub enum ".toList ++ name ++ " {\n".toList)
  let w := w.pushIndent
  let w := defVariants e.variants w
  let w := w.popIndent
  let w := w.cat "}\n".toList
  let w := enumDefault name e w
  enumTryFrom name e w

/-- A part of a file and its steps, on an empty buffer (rust.rs:123, 242, 268, 336 `GenCtx::new(out)`). -/
def partRun (g : Run → Run) : Option Str × Nat :=
  let w := g ⟨GenCtx.new [], 0⟩
  (if w.ctx.panicked then none else some w.ctx.out, w.steps)

/-- The definition of a type (rust.rs:266-292, 334-350): nothing for a type that is built in. -/
def defRun : Str × (Str × RType) → Option Str × Nat
  | (n, _, .struct fs) => partRun (defStruct fs n)
  | (n, _, .enum e) => partRun (defEnum e n)
  | (_, _, .builtin _) => (some [], 0)

/-- The definitions; two steps for each round of the loop. (rust.rs has no such loop, see `Rust/File`.) -/
def defsRun : TypeMap → Option Str × Nat
  | [] => (some [], 1)
  | d :: ds => ((defRun d).1.bind fun a => (defsRun ds).1.map fun b => a ++ b, 2 + (defRun d).2 + (defsRun ds).2)

/-- The file for a checked schema, and the steps that are taken. (rust.rs:14-22, 121-132, 240-252; the parts are put together as in `Rust/File`.) -/
def fileRun (r : Resolved) : Option Str × Nat :=
  ((defsRun r.types).1.bind fun defs =>
    (partRun (writeImpl r.export r.export.name)).1.bind fun w =>
      (partRun (readImpl r.export r.export.name)).1.map fun rd => RustGen.genCommon ++ defs ++ w ++ rd,
    RustGen.genCommon.length + (defsRun r.types).2 + (partRun (writeImpl r.export r.export.name)).2 + (partRun (readImpl r.export r.export.name)).2)

end Packetc.RustGenW
