import Verif.Model.Rust
/-!
# The unit tests of rust.rs, run on the model

All tests of `src/lib/gen/rust.rs` (not compiled at this commit). Tests of the transcription, not proofs.
-/

namespace Packetc.Tests
open Ast Check Gen RustGen

/-- `push_line`, then the function. -/
def onNewLine (f : GenCtx → GenCtx) : String := String.ofList (f (GenCtx.new "\n".toList)).out

-- gen/rust.rs:359 `commmon_gen`
#guard
    "\n" ++ String.ofList RustGen.genCommon =
    "\n#![allow(dead_code, non_camel_case_types, unused_imports, unused_assignments, clippy::field_reassign_with_default)]\nuse std::convert::TryFrom;\n"

-- gen/rust.rs:374 `simple_struct_gen`
#guard
    onNewLine (genDefStruct [⟨"x".toList, "float".toList, .builtin .float, false, false⟩, ⟨"y".toList,
    "float".toList, .builtin .float, false, false⟩] "Position".toList) =
    "\n#[derive(Clone, PartialEq, Debug, Default)]\npub struct Position {\n    pub x: f32,\n    pub y: f32,\n}\n"

-- gen/rust.rs:409 `struct_with_optional_gen`
#guard
    onNewLine (genDefStruct [⟨"a".toList, "float".toList, .builtin .float, false, true⟩, ⟨"b".toList,
    "float".toList, .builtin .float, true, true⟩, ⟨"c".toList, "float".toList, .builtin .float, false, false⟩]
    "Test".toList) =
    "\n#[derive(Clone, PartialEq, Debug, Default)]\npub struct Test {\n    pub a: Option<f32>,\n    pub b: Option<Vec<f32>>,\n    pub c: f32,\n}\n"

-- gen/rust.rs:451 `enum_gen`
#guard
    onNewLine (genDefEnum ⟨.u8, [⟨"A".toList, 0⟩, ⟨"B".toList, 1⟩]⟩ "Flag".toList) =
    "\n#[derive(Clone, Copy, PartialEq, Debug)]\n#[repr(u8)]\npub enum Flag {\n    A = 1 << 0,\n    B = 1 << 1,\n}\nimpl Default for Flag {\n    fn default() -> Self {\n        Flag::A\n    }\n}\nimpl std::convert::TryFrom<u8> for Flag {\n    type Error = packet::Error;\n    fn try_from(value: u8) -> Result<Self, Self::Error> {\n        match value {\n            1 => Ok(Flag::A),\n            2 => Ok(Flag::B),\n            _ => Err(packet::Error::InvalidEnumValue(value as usize, \"Flag\"))\n        }\n    }\n}\n"

-- gen/rust.rs:490 `complex_struct_gen`
#guard
    onNewLine (genDefStruct [⟨"builtin_scalar".toList, "uint8".toList, .builtin .uint8, false, false⟩,
    ⟨"builtin_array".toList, "uint8".toList, .builtin .uint8, true, false⟩, ⟨"string_scalar".toList,
    "string".toList, .builtin .string, false, false⟩, ⟨"string_array".toList, "string".toList, .builtin .string,
    true, false⟩, ⟨"enum_scalar".toList, "Flag".toList, .enum ⟨.u8, []⟩, false, false⟩, ⟨"enum_array".toList,
    "Flag".toList, .enum ⟨.u8, []⟩, true, false⟩, ⟨"struct_scalar".toList, "Position".toList, .struct [], false,
    false⟩, ⟨"struct_array".toList, "Position".toList, .struct [], true, false⟩] "Test".toList) =
    "\n#[derive(Clone, PartialEq, Debug, Default)]\npub struct Test {\n    pub builtin_scalar: u8,\n    pub builtin_array: Vec<u8>,\n    pub string_scalar: String,\n    pub string_array: Vec<String>,\n    pub enum_scalar: Flag,\n    pub enum_array: Vec<Flag>,\n    pub struct_scalar: Position,\n    pub struct_array: Vec<Position>,\n}\n"

-- gen/rust.rs:582 `optional_write_gen`
#guard
    onNewLine (genWriteImpl ⟨"Test".toList, [⟨"a".toList, "uint8".toList, .builtin .uint8, false, true⟩,
    ⟨"b".toList, "uint8".toList, .builtin .uint8, true, true⟩, ⟨"c".toList, "uint8".toList, .builtin .uint8, false,
    false⟩]⟩ "Test".toList) =
    "\npub fn write(writer: &mut packet::writer::Writer, input: &Test) {\n    match input.a {\n        None => writer.write_uint8(0u8),\n        Some(input_a) => {\n            writer.write_uint8(1u8);\n            writer.write_uint8(input_a);\n        }\n    }\n    match input.b {\n        None => writer.write_uint8(0u8),\n        Some(input_b) => {\n            writer.write_uint8(1u8);\n            writer.write_uint32(input_b.len() as u32);\n            for input_b_item in input_b.iter() {\n                writer.write_uint8(input_b_item);\n            }\n        }\n    }\n    writer.write_uint8(input.c);\n}\n"

-- gen/rust.rs:641 `optional_read_gen`
#guard
    onNewLine (genReadImpl ⟨"Test".toList, [⟨"a".toList, "uint8".toList, .builtin .uint8, false, true⟩, ⟨"b".toList,
    "uint8".toList, .builtin .uint8, false, false⟩]⟩ "Test".toList) =
    "\npub fn read(reader: &mut packet::reader::Reader, output: &mut Test) -> Result<(), packet::Error> {\n    if reader.read_uint8()? > 0 {\n        let mut output_a = u8::default();\n        output_a = reader.read_uint8()?;\n        output.a = Some(output_a);\n    }\n    output.b = reader.read_uint8()?;\n    Ok(())\n}\n"

-- gen/rust.rs:683 `nested_soa_write_gen`
#guard
    onNewLine (genWriteImpl ⟨"TestB".toList, [⟨"test_a".toList, "TestA".toList, .struct [⟨"first".toList,
    "uint8".toList, .builtin .uint8, true, false⟩, ⟨"second".toList, "uint8".toList, .builtin .uint8, true, false⟩],
    true, false⟩]⟩ "TestB".toList) =
    "\npub fn write(writer: &mut packet::writer::Writer, input: &TestB) {\n    writer.write_uint32(input.test_a.len() as u32);\n    for input_test_a_item in input.test_a.iter() {\n        writer.write_uint32(input_test_a_item.first.len() as u32);\n        for input_test_a_item_first_item in input_test_a_item.first.iter() {\n            writer.write_uint8(input_test_a_item_first_item);\n        }\n        writer.write_uint32(input_test_a_item.second.len() as u32);\n        for input_test_a_item_second_item in input_test_a_item.second.iter() {\n            writer.write_uint8(input_test_a_item_second_item);\n        }\n    }\n}\n"

-- gen/rust.rs:737 `nested_soa_read_gen`
#guard
    onNewLine (genReadImpl ⟨"TestB".toList, [⟨"test_a".toList, "TestA".toList, .struct [⟨"first".toList,
    "uint8".toList, .builtin .uint8, true, false⟩, ⟨"second".toList, "uint8".toList, .builtin .uint8, true, false⟩],
    true, false⟩]⟩ "TestB".toList) =
    "\npub fn read(reader: &mut packet::reader::Reader, output: &mut TestB) -> Result<(), packet::Error> {\n    let output_test_a_len = reader.read_uint32()? as usize;\n    output.test_a.reserve(output_test_a_len);\n    for _ in 0..output_test_a_len {\n        let mut output_test_a_item = TestA::default();\n        let output_test_a_item_first_len = reader.read_uint32()? as usize;\n        output_test_a_item.first.reserve(output_test_a_item_first_len);\n        for _ in 0..output_test_a_item_first_len {\n            let mut output_test_a_item_first_item = u8::default();\n            output_test_a_item_first_item = reader.read_uint8()?;\n            output_test_a_item.first.push(output_test_a_item_first_item);\n        }\n        let output_test_a_item_second_len = reader.read_uint32()? as usize;\n        output_test_a_item.second.reserve(output_test_a_item_second_len);\n        for _ in 0..output_test_a_item_second_len {\n            let mut output_test_a_item_second_item = u8::default();\n            output_test_a_item_second_item = reader.read_uint8()?;\n            output_test_a_item.second.push(output_test_a_item_second_item);\n        }\n        output.test_a.push(output_test_a_item);\n    }\n    Ok(())\n}\n"

-- gen/rust.rs:801 `complex_struct_write_gen`
#guard
    onNewLine (genWriteImpl ⟨"Test".toList, [⟨"builtin_scalar".toList, "uint8".toList, .builtin .uint8, false,
    false⟩, ⟨"builtin_array".toList, "uint8".toList, .builtin .uint8, true, false⟩, ⟨"string_scalar".toList,
    "string".toList, .builtin .string, false, false⟩, ⟨"string_array".toList, "string".toList, .builtin .string,
    true, false⟩, ⟨"enum_scalar".toList, "Flag".toList, .enum ⟨.u8, [⟨"A".toList, 0⟩, ⟨"B".toList, 1⟩]⟩, false,
    false⟩, ⟨"enum_array".toList, "Flag".toList, .enum ⟨.u8, [⟨"A".toList, 0⟩, ⟨"B".toList, 1⟩]⟩, true, false⟩,
    ⟨"struct_scalar".toList, "Position".toList, .struct [⟨"x".toList, "float".toList, .builtin .float, false,
    false⟩, ⟨"y".toList, "float".toList, .builtin .float, false, false⟩], false, false⟩, ⟨"struct_array".toList,
    "Position".toList, .struct [⟨"x".toList, "float".toList, .builtin .float, false, false⟩, ⟨"y".toList,
    "float".toList, .builtin .float, false, false⟩], true, false⟩, ⟨"opt_scalar".toList, "uint8".toList, .builtin
    .uint8, false, true⟩, ⟨"opt_enum".toList, "Flag".toList, .enum ⟨.u8, [⟨"A".toList, 0⟩, ⟨"B".toList, 1⟩]⟩, false,
    true⟩, ⟨"opt_struct".toList, "Position".toList, .struct [⟨"x".toList, "float".toList, .builtin .float, false,
    false⟩, ⟨"y".toList, "float".toList, .builtin .float, false, false⟩], false, true⟩]⟩ "Test".toList) =
    "\npub fn write(writer: &mut packet::writer::Writer, input: &Test) {\n    writer.write_uint8(input.builtin_scalar);\n    writer.write_uint32(input.builtin_array.len() as u32);\n    for input_builtin_array_item in input.builtin_array.iter() {\n        writer.write_uint8(input_builtin_array_item);\n    }\n    writer.write_uint32(input.string_scalar.len() as u32);\n    writer.write_string(&input.string_scalar);\n    writer.write_uint32(input.string_array.len() as u32);\n    for input_string_array_item in input.string_array.iter() {\n        writer.write_uint32(input_string_array_item.len() as u32);\n        writer.write_string(&input_string_array_item);\n    }\n    writer.write_uint8(input.enum_scalar as u8);\n    writer.write_uint32(input.enum_array.len() as u32);\n    for input_enum_array_item in input.enum_array.iter() {\n        writer.write_uint8(input_enum_array_item as u8);\n    }\n    writer.write_float(input.struct_scalar.x);\n    writer.write_float(input.struct_scalar.y);\n    writer.write_uint32(input.struct_array.len() as u32);\n    for input_struct_array_item in input.struct_array.iter() {\n        writer.write_float(input_struct_array_item.x);\n        writer.write_float(input_struct_array_item.y);\n    }\n    match input.opt_scalar {\n        None => writer.write_uint8(0u8),\n        Some(input_opt_scalar) => {\n            writer.write_uint8(1u8);\n            writer.write_uint8(input_opt_scalar);\n        }\n    }\n    match input.opt_enum {\n        None => writer.write_uint8(0u8),\n        Some(input_opt_enum) => {\n            writer.write_uint8(1u8);\n            writer.write_uint8(input_opt_enum as u8);\n        }\n    }\n    match &input.opt_struct {\n        None => writer.write_uint8(0u8),\n        Some(input_opt_struct) => {\n            writer.write_uint8(1u8);\n            writer.write_float(input_opt_struct.x);\n            writer.write_float(input_opt_struct.y);\n        }\n    }\n}\n"

-- gen/rust.rs:956 `complex_struct_read_gen`
#guard
    onNewLine (genReadImpl ⟨"Test".toList, [⟨"builtin_scalar".toList, "uint8".toList, .builtin .uint8, false,
    false⟩, ⟨"builtin_array".toList, "uint8".toList, .builtin .uint8, true, false⟩, ⟨"string_scalar".toList,
    "string".toList, .builtin .string, false, false⟩, ⟨"string_array".toList, "string".toList, .builtin .string,
    true, false⟩, ⟨"enum_scalar".toList, "Flag".toList, .enum ⟨.u8, [⟨"A".toList, 0⟩, ⟨"B".toList, 1⟩]⟩, false,
    false⟩, ⟨"enum_array".toList, "Flag".toList, .enum ⟨.u8, [⟨"A".toList, 0⟩, ⟨"B".toList, 1⟩]⟩, true, false⟩,
    ⟨"struct_scalar".toList, "Position".toList, .struct [⟨"x".toList, "float".toList, .builtin .float, false,
    false⟩, ⟨"y".toList, "float".toList, .builtin .float, false, false⟩], false, false⟩, ⟨"struct_array".toList,
    "Position".toList, .struct [⟨"x".toList, "float".toList, .builtin .float, false, false⟩, ⟨"y".toList,
    "float".toList, .builtin .float, false, false⟩], true, false⟩, ⟨"opt_scalar".toList, "uint8".toList, .builtin
    .uint8, false, true⟩, ⟨"opt_enum".toList, "Flag".toList, .enum ⟨.u8, [⟨"A".toList, 0⟩, ⟨"B".toList, 1⟩]⟩, false,
    true⟩, ⟨"opt_struct".toList, "Position".toList, .struct [⟨"x".toList, "float".toList, .builtin .float, false,
    false⟩, ⟨"y".toList, "float".toList, .builtin .float, false, false⟩], false, true⟩]⟩ "Test".toList) =
    "\npub fn read(reader: &mut packet::reader::Reader, output: &mut Test) -> Result<(), packet::Error> {\n    output.builtin_scalar = reader.read_uint8()?;\n    let output_builtin_array_len = reader.read_uint32()? as usize;\n    output.builtin_array.reserve(output_builtin_array_len);\n    for _ in 0..output_builtin_array_len {\n        let mut output_builtin_array_item = u8::default();\n        output_builtin_array_item = reader.read_uint8()?;\n        output.builtin_array.push(output_builtin_array_item);\n    }\n    let output_string_scalar_len = reader.read_uint32()? as usize;\n    output.string_scalar = reader.read_string(output_string_scalar_len)?;\n    let output_string_array_len = reader.read_uint32()? as usize;\n    output.string_array.reserve(output_string_array_len);\n    for _ in 0..output_string_array_len {\n        let mut output_string_array_item = String::default();\n        let output_string_array_item_len = reader.read_uint32()? as usize;\n        output_string_array_item = reader.read_string(output_string_array_item_len)?;\n        output.string_array.push(output_string_array_item);\n    }\n    output.enum_scalar = Flag::try_from(reader.read_uint8()?)?;\n    let output_enum_array_len = reader.read_uint32()? as usize;\n    output.enum_array.reserve(output_enum_array_len);\n    for _ in 0..output_enum_array_len {\n        let mut output_enum_array_item = Flag::default();\n        output_enum_array_item = Flag::try_from(reader.read_uint8()?)?;\n        output.enum_array.push(output_enum_array_item);\n    }\n    output.struct_scalar.x = reader.read_float()?;\n    output.struct_scalar.y = reader.read_float()?;\n    let output_struct_array_len = reader.read_uint32()? as usize;\n    output.struct_array.reserve(output_struct_array_len);\n    for _ in 0..output_struct_array_len {\n        let mut output_struct_array_item = Position::default();\n        output_struct_array_item.x = reader.read_float()?;\n        output_struct_array_item.y = reader.read_float()?;\n        output.struct_array.push(output_struct_array_item);\n    }\n    if reader.read_uint8()? > 0 {\n        let mut output_opt_scalar = u8::default();\n        output_opt_scalar = reader.read_uint8()?;\n        output.opt_scalar = Some(output_opt_scalar);\n    }\n    if reader.read_uint8()? > 0 {\n        let mut output_opt_enum = Flag::default();\n        output_opt_enum = Flag::try_from(reader.read_uint8()?)?;\n        output.opt_enum = Some(output_opt_enum);\n    }\n    if reader.read_uint8()? > 0 {\n        let mut output_opt_struct = Position::default();\n        output_opt_struct.x = reader.read_float()?;\n        output_opt_struct.y = reader.read_float()?;\n        output.opt_struct = Some(output_opt_struct);\n    }\n    Ok(())\n}\n"

-- gen/rust.rs:1118 `nested_write_opt_gen`
#guard
    onNewLine (genWriteImpl ⟨"State".toList, [⟨"id".toList, "uint32".toList, .builtin .uint32, false, false⟩,
    ⟨"entities".toList, "Entity".toList, .struct [⟨"uid".toList, "uint32".toList, .builtin .uint32, false, false⟩,
    ⟨"pos".toList, "Position".toList, .struct [⟨"x".toList, "float".toList, .builtin .float, false, false⟩,
    ⟨"y".toList, "float".toList, .builtin .float, false, false⟩], false, true⟩], true, false⟩]⟩ "State".toList) =
    "\npub fn write(writer: &mut packet::writer::Writer, input: &State) {\n    writer.write_uint32(input.id);\n    writer.write_uint32(input.entities.len() as u32);\n    for input_entities_item in input.entities.iter() {\n        writer.write_uint32(input_entities_item.uid);\n        match &input_entities_item.pos {\n            None => writer.write_uint8(0u8),\n            Some(input_entities_item_pos) => {\n                writer.write_uint8(1u8);\n                writer.write_float(input_entities_item_pos.x);\n                writer.write_float(input_entities_item_pos.y);\n            }\n        }\n    }\n}\n"

end Packetc.Tests
