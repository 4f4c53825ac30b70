import Verif.Model.Compile
/-!
# The unit tests of the crate, run on the model

These are tests, not proofs: they check on the inputs of the crate's own test suite that the model gives the
outputs the suite expects. All tests of `src/lib/parser.rs`, `src/lib/check.rs` and `src/lib/gen/ts.rs` are
here (41): the first two by the kernel, the third (long texts) by evaluation. The input of a parser test is the text after its `build()`.
-/

namespace Packetc.Tests
open Ast Check

/-- `pkt::schema(text).unwrap_err().location`. -/
def errorAt (text : String) : Option Peg.LineCol :=
  match Parser.schema text.toList with
  | .err off => Peg.positionRepr text.toList off
  | _ => none

/-- `type_check(ast)`: the error message, or the names of the types that are kept. -/
def checked (ast : AST) : String ⊕ List String :=
  match typeCheck id ast with
  | .error (.err e) => .inl (String.ofList e.render)
  | .error _ => .inl "no result"
  | .ok r => .inr (r.types.map (fun e => String.ofList e.1))

/-- The names of the types that are kept. -/
def checkedTypes (ast : AST) : Option (List String) := (checked ast).getRight?

/-- `push_decls` on an empty buffer. -/
def decls (types : TypeMap) (exp : String) : String :=
  String.ofList (Gen.genDeclsCtx types exp.toList (Gen.GenCtx.new [])).out

/-- `push_impl` on an empty buffer. -/
def impl (name : Str) (fields : List RField) : String :=
  String.ofList (Gen.genImplCtx ⟨name, fields⟩ (Gen.GenCtx.new [])).out

/-- parser.rs:111 `parse_whitespace_before_array_bracket`. -/
example :
    errorAt "\na: struct { v: uint8 [] }\n" = some ⟨2, 22, 22⟩ := by decide +kernel

/-- parser.rs:126 `parse_unclosed_struct_brackets`. -/
example :
    errorAt "\naaa: struct { x:float, y:float\n" = some ⟨3, 1, 32⟩ := by decide +kernel

/-- parser.rs:141 `parse_unclosed_enum_brackets`. -/
example :
    errorAt "\naaa: enum { A, B\n" = some ⟨3, 1, 18⟩ := by decide +kernel

/-- parser.rs:156 `parse_unclosed_array_brackets`. -/
example :
    errorAt "\na: struct { v: uint8[ }\n" = some ⟨2, 21, 21⟩ := by decide +kernel

/-- parser.rs:171 `parse_reserved_identifier`. -/
example :
    errorAt "\nuint8: uint8\n" = some ⟨2, 1, 1⟩ := by decide +kernel

/-- parser.rs:186 `parse_first_char_numeric_bad_identifier`. -/
example :
    errorAt "\n0aaa: uint8\n" = some ⟨2, 1, 1⟩ := by decide +kernel

/-- parser.rs:201 `parse_comment`. -/
example :
    Parser.schema "\n# this is a comment.\n".toList = .ok [] := by decide +kernel

/-- parser.rs:211 `parse_comment_right_of_line`. -/
example :
    Parser.schema "\na: struct { v: uint8 } # this is a comment placed to the right of a line.\n".toList = .ok
    [.decl "a".toList (.struct [("v".toList, ⟨"uint8".toList, false, false⟩)])] := by decide +kernel

/-- parser.rs:224 `parse_comment_inside_brackets`. -/
example :
    Parser.schema
    "\na: struct {\n# this is a comment placed infront of fields\na: uint8,\n# this is a comment placed inbetween fields\nb: uint8\n# this is a comment placed after of fields\n}\n".toList
    = .ok [.decl "a".toList (.struct [("a".toList, ⟨"uint8".toList, false, false⟩), ("b".toList, ⟨"uint8".toList,
    false, false⟩)])] := by decide +kernel

/-- parser.rs:246 `parse_enum`. -/
example :
    Parser.schema "\nasdf: enum { A, B }\n".toList = .ok [.decl "asdf".toList (.enum ["A".toList, "B".toList])] := by decide +kernel

/-- parser.rs:256 `parse_struct`. -/
example :
    Parser.schema "\nasdf: struct {\nx: float,\ny: float\n}".toList = .ok [.decl "asdf".toList (.struct
    [("x".toList, ⟨"float".toList, false, false⟩), ("y".toList, ⟨"float".toList, false, false⟩)])] := by decide +kernel

/-- parser.rs:274 `parse_struct_trailing_comma`. -/
example :
    Parser.schema "\nasdf: struct {\na: A,\nb: B,\n}\n".toList = .ok [.decl "asdf".toList (.struct [("a".toList,
    ⟨"A".toList, false, false⟩), ("b".toList, ⟨"B".toList, false, false⟩)])] := by decide +kernel

/-- parser.rs:293 `parse_struct_with_arrays`. -/
example :
    Parser.schema "\nasdf: struct {\na: A[],\nb: B[],\n}\n".toList = .ok [.decl "asdf".toList (.struct [("a".toList,
    ⟨"A".toList, true, false⟩), ("b".toList, ⟨"B".toList, true, false⟩)])] := by decide +kernel

/-- parser.rs:312 `parse_struct_with_optional`. -/
example :
    Parser.schema "\nasdf: struct {\na?: A[],\nb?: B,\nc: C\n}\n".toList = .ok [.decl "asdf".toList (.struct
    [("a".toList, ⟨"A".toList, true, true⟩), ("b".toList, ⟨"B".toList, false, true⟩), ("c".toList, ⟨"C".toList,
    false, false⟩)])] := by decide +kernel

/-- parser.rs:333 `parse_export`. -/
example :
    Parser.schema "\nexport Test\n".toList = .ok [.export "Test".toList] := by decide +kernel

/-- parser.rs:343 `parse_complex`. -/
example :
    Parser.schema
    "\n# This is a comment.\n# Below is what a fairly complex packet may look like\nFlag: enum { A, B }\nPosition: struct { x: float, y: float }\nValue: struct { \na: uint32, b: int32, c: uint8, d: uint8\n}\nComplexType: struct {\nflag: Flag,\npos: Position,\nnames: string[],\nvalues: Value[]\n}\nexport ComplexType\n".toList
    = .ok [.decl "Flag".toList (.enum ["A".toList, "B".toList]), .decl "Position".toList (.struct [("x".toList,
    ⟨"float".toList, false, false⟩), ("y".toList, ⟨"float".toList, false, false⟩)]), .decl "Value".toList (.struct
    [("a".toList, ⟨"uint32".toList, false, false⟩), ("b".toList, ⟨"int32".toList, false, false⟩), ("c".toList,
    ⟨"uint8".toList, false, false⟩), ("d".toList, ⟨"uint8".toList, false, false⟩)]), .decl "ComplexType".toList
    (.struct [("flag".toList, ⟨"Flag".toList, false, false⟩), ("pos".toList, ⟨"Position".toList, false, false⟩),
    ("names".toList, ⟨"string".toList, true, false⟩), ("values".toList, ⟨"Value".toList, true, false⟩)]), .export
    "ComplexType".toList] := by decide +kernel

/-- check.rs:439 `type_check_passes`. -/
example :
    (checked [.decl "Flag".toList (.enum ["A".toList, "B".toList]), .decl "Position".toList (.struct [("x".toList,
    ⟨"float".toList, false, false⟩), ("y".toList, ⟨"float".toList, false, false⟩)]), .decl "Value".toList (.struct
    [("a".toList, ⟨"uint32".toList, false, false⟩), ("b".toList, ⟨"int32".toList, false, false⟩), ("c".toList,
    ⟨"uint8".toList, false, false⟩), ("d".toList, ⟨"uint8".toList, false, false⟩)]), .decl "ComplexType".toList
    (.struct [("flag".toList, ⟨"Flag".toList, false, false⟩), ("pos".toList, ⟨"Position".toList, false, false⟩),
    ("names".toList, ⟨"string".toList, true, false⟩), ("values".toList, ⟨"Value".toList, true, false⟩)]), .export
    "ComplexType".toList]).isRight = true := by decide +kernel

/-- check.rs:477 `empty_enum`. -/
example :
    checked [.decl "Flag".toList (.enum []), .decl "Test".toList (.struct [("flag".toList, ⟨"Flag".toList, false,
    false⟩)]), .export "Test".toList] = .inl "Enum 'Flag' must have at least one variant" := by decide +kernel

/-- check.rs:495 `optional_and_array`. -/
example :
    checked [.decl "Test".toList (.struct [("a".toList, ⟨"uint8".toList, true, true⟩)]), .export "Test".toList] =
    .inl "Field 'a' in struct 'Test' cannot be optional and array at once" := by decide +kernel

/-- check.rs:512 `too_many_exports`. -/
example :
    checked [.decl "Position".toList (.struct [("x".toList, ⟨"float".toList, false, false⟩), ("y".toList,
    ⟨"float".toList, false, false⟩)]), .export "Position".toList, .export "Position".toList] = .inl
    "Schema has more than one export" := by decide +kernel

/-- check.rs:530 `no_export`. -/
example :
    checked [.decl "Position".toList (.struct [("x".toList, ⟨"float".toList, false, false⟩), ("y".toList,
    ⟨"float".toList, false, false⟩)])] = .inl "Schema has no export" := by decide +kernel

/-- check.rs:544 `duplicate_enum_variants`. -/
example :
    checked [.decl "Flag".toList (.enum ["A".toList, "A".toList]), .decl "Test".toList (.struct [("flag".toList,
    ⟨"Flag".toList, false, false⟩)]), .export "Test".toList] = .inl "Duplicate variant 'A' on enum 'Flag'" := by decide +kernel

/-- check.rs:558 `duplicate_field_name`. -/
example :
    checked [.decl "Position".toList (.struct [("x".toList, ⟨"float".toList, false, false⟩), ("x".toList,
    ⟨"float".toList, false, false⟩)]), .export "Position".toList] = .inl "Duplicate field 'x' on struct 'Position'" := by decide +kernel

/-- check.rs:578 `duplicate_declaration`. -/
example :
    checked [.decl "Position".toList (.struct [("x".toList, ⟨"float".toList, false, false⟩), ("y".toList,
    ⟨"float".toList, false, false⟩)]), .decl "Position".toList (.struct [("x".toList, ⟨"float".toList, false,
    false⟩), ("y".toList, ⟨"float".toList, false, false⟩)]), .export "Position".toList] = .inl
    "Schema has duplicate declaration: Position" := by decide +kernel

/-- check.rs:605 `too_many_enum_variants`. -/
example :
    checked [.decl "Flag".toList (.enum ["A0".toList, "A1".toList, "A2".toList, "A3".toList, "A4".toList,
    "A5".toList, "A6".toList, "A7".toList, "A8".toList, "A9".toList, "A10".toList, "A11".toList, "A12".toList,
    "A13".toList, "A14".toList, "A15".toList, "A16".toList, "A17".toList, "A18".toList, "A19".toList, "A20".toList,
    "A21".toList, "A22".toList, "A23".toList, "A24".toList, "A25".toList, "A26".toList, "A27".toList, "A28".toList,
    "A29".toList, "A30".toList, "A31".toList, "A32".toList]), .decl "Test".toList (.struct [("flag".toList,
    ⟨"Flag".toList, false, false⟩)]), .export "Test".toList] = .inl "Enum 'Flag' has too many variants (33/32)" := by decide +kernel

/-- check.rs:633 `could_not_resolve_unknown`. -/
example :
    checked [.decl "Test".toList (.struct [("flag".toList, ⟨"Flag".toList, false, false⟩)]), .export "Test".toList]
    = .inl "Declaration for type 'Flag' does not exist" := by decide +kernel

/-- check.rs:651 `duplicate_type_uses_are_resolved`. -/
example :
    (checked [.decl "A".toList (.struct [("b".toList, ⟨"int32".toList, false, false⟩)]), .decl "B".toList (.struct
    [("a".toList, ⟨"A".toList, false, false⟩)]), .decl "D".toList (.struct [("b1".toList, ⟨"B".toList, false,
    false⟩), ("b2".toList, ⟨"B".toList, false, false⟩)]), .export "D".toList]).isRight = true := by decide +kernel

/-- check.rs:672 `discards_unused`. -/
example :
    (checkedTypes [.decl "UnusedType".toList (.struct [("test".toList, ⟨"uint8".toList, false, false⟩)]), .decl
    "Flag".toList (.enum ["A".toList, "B".toList]), .decl "Test".toList (.struct [("flag".toList, ⟨"Flag".toList,
    false, false⟩)]), .export "Test".toList]).map (List.contains · "UnusedType") = some false := by decide +kernel

/-- check.rs:695 `resolve_nested`. -/
example :
    (checked [.decl "Flag".toList (.enum ["A".toList, "B".toList]), .decl "TestA".toList (.struct [("test".toList,
    ⟨"Flag".toList, false, false⟩)]), .decl "TestB".toList (.struct [("test".toList, ⟨"TestA".toList, false,
    false⟩)]), .decl "TestC".toList (.struct [("test".toList, ⟨"TestB".toList, false, false⟩)]), .export
    "TestC".toList]).isRight = true := by decide +kernel

/-- check.rs:718 `could_not_resolve_recursive`. -/
example :
    checked [.decl "Test".toList (.struct [("test".toList, ⟨"Test".toList, false, false⟩)]), .export "Test".toList]
    = .inl "Found a cycle between two or more top level definitions in type 'Test'" := by decide +kernel

/-- check.rs:736 `could_not_resolve_export`. -/
example :
    checked [.export "Test".toList] = .inl "Export 'Test' could not be resolved" := by decide +kernel

/-- check.rs:744 `export_only_struct`. -/
example :
    checked [.decl "Flag".toList (.enum ["A".toList, "B".toList]), .export "Flag".toList] = .inl
    "Attempted to export 'Flag', which is not a struct" := by decide +kernel

-- gen/ts.rs:354 `commmon_gen`
#guard
    String.ofList Gen.genCommon = "import { Reader, Writer } from \"packet\";\n"

-- gen/ts.rs:368 `simple_struct_gen`
#guard
    decls [("Position".toList, ("Position".toList, .struct [⟨"x".toList, "float".toList, .builtin .float, false,
    false⟩, ⟨"y".toList, "float".toList, .builtin .float, false, false⟩]))] "Test" =
    "export namespace Test {\n    export interface Position {\n        x: number,\n        y: number,\n    }\n}\n"

-- gen/ts.rs:411 `struct_with_optional_gen`
#guard
    decls [("A".toList, ("A".toList, .struct [⟨"a".toList, "float".toList, .builtin .float, false, true⟩,
    ⟨"b".toList, "float".toList, .builtin .float, true, true⟩, ⟨"c".toList, "float".toList, .builtin .float, false,
    false⟩]))] "Test" =
    "export namespace Test {\n    export interface A {\n        a?: number,\n        b?: number[],\n        c: number,\n    }\n}\n"

-- gen/ts.rs:461 `enum_gen`
#guard
    decls [("Flag".toList, ("Flag".toList, .enum ⟨.u8, [⟨"A".toList, 0⟩, ⟨"B".toList, 1⟩]⟩))] "Test" =
    "export namespace Test {\n    export const enum Flag {\n        A = 1 << 0,\n        B = 1 << 1,\n    }\n}\n"

-- gen/ts.rs:492 `complex_struct_gen`
#guard
    decls [("A".toList, ("A".toList, .struct [⟨"builtin_scalar".toList, "uint8".toList, .builtin .uint8, false,
    false⟩, ⟨"builtin_array".toList, "uint8".toList, .builtin .uint8, true, false⟩, ⟨"string_scalar".toList,
    "string".toList, .builtin .string, false, false⟩, ⟨"string_array".toList, "string".toList, .builtin .string,
    true, false⟩, ⟨"enum_scalar".toList, "Flag".toList, .enum ⟨.u8, []⟩, false, false⟩, ⟨"enum_array".toList,
    "Flag".toList, .enum ⟨.u8, []⟩, true, false⟩, ⟨"struct_scalar".toList, "Position".toList, .struct [], false,
    false⟩, ⟨"struct_array".toList, "Position".toList, .struct [], true, false⟩]))] "Test" =
    "export namespace Test {\n    export interface A {\n        builtin_scalar: number,\n        builtin_array: number[],\n        string_scalar: string,\n        string_array: string[],\n        enum_scalar: Flag,\n        enum_array: Flag[],\n        struct_scalar: Position,\n        struct_array: Position[],\n    }\n}\n"

-- gen/ts.rs:589 `optional_impl_gen`
#guard
    impl "Test".toList [⟨"a".toList, "uint8".toList, .builtin .uint8, false, true⟩, ⟨"b".toList, "uint8".toList,
    .builtin .uint8, true, true⟩, ⟨"c".toList, "uint8".toList, .builtin .uint8, false, false⟩] =
    "export class Test {\n    constructor(\n        public a: number | undefined,\n        public b: number[] | undefined,\n        public c: number,\n    ) {}\n    static read(data: ArrayBuffer): Test | null {\n        let reader = new Reader(data);\n        let output = Object.create(Test);\n        if (reader.read_uint8() > 0) {\n            output.a = reader.read_uint8();\n        } else {\n            output.a = undefined;\n        }\n        if (reader.read_uint8() > 0) {\n            let output_b_len = reader.read_uint32();\n            output.b = new Array(output_b_len);\n            for (let output_b_index = 0; output_b_index < output_b_len; ++output_b_index) {\n                let output_b_item: any = undefined;\n                output_b_item = reader.read_uint8();\n                output.b[output_b_index] = output_b_item;\n            }\n        } else {\n            output.b = undefined;\n        }\n        output.c = reader.read_uint8();\n        if (reader.failed) return null;\n        return output;\n    }\n    write(buffer?: ArrayBuffer): ArrayBuffer {\n        let writer = buffer ? new Writer(buffer) : new Writer();\n        let this_a = this.a;\n        switch (this_a) {\n            case undefined: case null: writer.write_uint8(0); break;\n            default: {\n                writer.write_uint8(1);\n                writer.write_uint8(this_a);\n            }\n        }\n        let this_b = this.b;\n        switch (this_b) {\n            case undefined: case null: writer.write_uint8(0); break;\n            default: {\n                writer.write_uint8(1);\n                writer.write_uint32(this_b.length);\n                for (let this_b_index = 0; this_b_index < this_b.length; ++this_b_index) {\n                    let this_b_item = this_b[this_b_index];\n                    writer.write_uint8(this_b_item);\n                }\n            }\n        }\n        writer.write_uint8(this.c);\n        return writer.finish();\n    }\n}\n"

-- gen/ts.rs:683 `nested_soa_impl_gen`
#guard
    impl "TestB".toList [⟨"test_a".toList, "TestA".toList, .struct [⟨"first".toList, "uint8".toList, .builtin
    .uint8, true, false⟩, ⟨"second".toList, "uint8".toList, .builtin .uint8, true, false⟩], true, false⟩] =
    "export class TestB {\n    constructor(\n        public test_a: TestB.TestA[],\n    ) {}\n    static read(data: ArrayBuffer): TestB | null {\n        let reader = new Reader(data);\n        let output = Object.create(TestB);\n        let output_test_a_len = reader.read_uint32();\n        output.test_a = new Array(output_test_a_len);\n        for (let output_test_a_index = 0; output_test_a_index < output_test_a_len; ++output_test_a_index) {\n            let output_test_a_item: any = {};\n            let output_test_a_item_first_len = reader.read_uint32();\n            output_test_a_item.first = new Array(output_test_a_item_first_len);\n            for (let output_test_a_item_first_index = 0; output_test_a_item_first_index < output_test_a_item_first_len; ++output_test_a_item_first_index) {\n                let output_test_a_item_first_item: any = undefined;\n                output_test_a_item_first_item = reader.read_uint8();\n                output_test_a_item.first[output_test_a_item_first_index] = output_test_a_item_first_item;\n            }\n            let output_test_a_item_second_len = reader.read_uint32();\n            output_test_a_item.second = new Array(output_test_a_item_second_len);\n            for (let output_test_a_item_second_index = 0; output_test_a_item_second_index < output_test_a_item_second_len; ++output_test_a_item_second_index) {\n                let output_test_a_item_second_item: any = undefined;\n                output_test_a_item_second_item = reader.read_uint8();\n                output_test_a_item.second[output_test_a_item_second_index] = output_test_a_item_second_item;\n            }\n            output.test_a[output_test_a_index] = output_test_a_item;\n        }\n        if (reader.failed) return null;\n        return output;\n    }\n    write(buffer?: ArrayBuffer): ArrayBuffer {\n        let writer = buffer ? new Writer(buffer) : new Writer();\n        writer.write_uint32(this.test_a.length);\n        for (let this_test_a_index = 0; this_test_a_index < this.test_a.length; ++this_test_a_index) {\n            let this_test_a_item = this.test_a[this_test_a_index];\n            writer.write_uint32(this_test_a_item.first.length);\n            for (let this_test_a_item_first_index = 0; this_test_a_item_first_index < this_test_a_item.first.length; ++this_test_a_item_first_index) {\n                let this_test_a_item_first_item = this_test_a_item.first[this_test_a_item_first_index];\n                writer.write_uint8(this_test_a_item_first_item);\n            }\n            writer.write_uint32(this_test_a_item.second.length);\n            for (let this_test_a_item_second_index = 0; this_test_a_item_second_index < this_test_a_item.second.length; ++this_test_a_item_second_index) {\n                let this_test_a_item_second_item = this_test_a_item.second[this_test_a_item_second_index];\n                writer.write_uint8(this_test_a_item_second_item);\n            }\n        }\n        return writer.finish();\n    }\n}\n"

-- gen/ts.rs:773 `complex_struct_impl_gen`
#guard
    impl "Test".toList [⟨"builtin_scalar".toList, "uint8".toList, .builtin .uint8, false, false⟩,
    ⟨"builtin_array".toList, "uint8".toList, .builtin .uint8, true, false⟩, ⟨"string_scalar".toList,
    "string".toList, .builtin .string, false, false⟩, ⟨"string_array".toList, "string".toList, .builtin .string,
    true, false⟩, ⟨"enum_scalar".toList, "Flag".toList, .enum ⟨.u8, [⟨"A".toList, 0⟩, ⟨"B".toList, 1⟩]⟩, false,
    false⟩, ⟨"enum_array".toList, "Flag".toList, .enum ⟨.u8, [⟨"A".toList, 0⟩, ⟨"B".toList, 1⟩]⟩, true, false⟩,
    ⟨"struct_scalar".toList, "Position".toList, .struct [⟨"x".toList, "float".toList, .builtin .float, false,
    false⟩, ⟨"y".toList, "float".toList, .builtin .float, false, false⟩], false, false⟩, ⟨"struct_array".toList,
    "Position".toList, .struct [⟨"x".toList, "float".toList, .builtin .float, false, false⟩, ⟨"y".toList,
    "float".toList, .builtin .float, false, false⟩], true, false⟩, ⟨"opt_scalar".toList, "uint8".toList, .builtin
    .uint8, false, true⟩, ⟨"opt_enum".toList, "Flag".toList, .enum ⟨.u8, [⟨"A".toList, 0⟩, ⟨"B".toList, 1⟩]⟩, false,
    true⟩, ⟨"opt_struct".toList, "Position".toList, .struct [⟨"x".toList, "float".toList, .builtin .float, false,
    false⟩, ⟨"y".toList, "float".toList, .builtin .float, false, false⟩], false, true⟩] =
    "export class Test {\n    constructor(\n        public builtin_scalar: number,\n        public builtin_array: number[],\n        public string_scalar: string,\n        public string_array: string[],\n        public enum_scalar: Test.Flag,\n        public enum_array: Test.Flag[],\n        public struct_scalar: Test.Position,\n        public struct_array: Test.Position[],\n        public opt_scalar: number | undefined,\n        public opt_enum: Test.Flag | undefined,\n        public opt_struct: Test.Position | undefined,\n    ) {}\n    static read(data: ArrayBuffer): Test | null {\n        let reader = new Reader(data);\n        let output = Object.create(Test);\n        output.builtin_scalar = reader.read_uint8();\n        let output_builtin_array_len = reader.read_uint32();\n        output.builtin_array = new Array(output_builtin_array_len);\n        for (let output_builtin_array_index = 0; output_builtin_array_index < output_builtin_array_len; ++output_builtin_array_index) {\n            let output_builtin_array_item: any = undefined;\n            output_builtin_array_item = reader.read_uint8();\n            output.builtin_array[output_builtin_array_index] = output_builtin_array_item;\n        }\n        let output_string_scalar_len = reader.read_uint32();\n        output.string_scalar = reader.read_string(output_string_scalar_len);\n        let output_string_array_len = reader.read_uint32();\n        output.string_array = new Array(output_string_array_len);\n        for (let output_string_array_index = 0; output_string_array_index < output_string_array_len; ++output_string_array_index) {\n            let output_string_array_item: any = undefined;\n            let output_string_array_item_len = reader.read_uint32();\n            output_string_array_item = reader.read_string(output_string_array_item_len);\n            output.string_array[output_string_array_index] = output_string_array_item;\n        }\n        let output_enum_scalar_temp = reader.read_uint8();\n        if (1 <= output_enum_scalar_temp && output_enum_scalar_temp <= 2) output.enum_scalar = output_enum_scalar_temp;\n        else reader.failed = true;\n        let output_enum_array_len = reader.read_uint32();\n        output.enum_array = new Array(output_enum_array_len);\n        for (let output_enum_array_index = 0; output_enum_array_index < output_enum_array_len; ++output_enum_array_index) {\n            let output_enum_array_item: any = undefined;\n            let output_enum_array_item_temp = reader.read_uint8();\n            if (1 <= output_enum_array_item_temp && output_enum_array_item_temp <= 2) output_enum_array_item = output_enum_array_item_temp;\n            else reader.failed = true;\n            output.enum_array[output_enum_array_index] = output_enum_array_item;\n        }\n        let output_struct_scalar: any = {};\n        output_struct_scalar.x = reader.read_float();\n        output_struct_scalar.y = reader.read_float();\n        output.struct_scalar = output_struct_scalar;\n        let output_struct_array_len = reader.read_uint32();\n        output.struct_array = new Array(output_struct_array_len);\n        for (let output_struct_array_index = 0; output_struct_array_index < output_struct_array_len; ++output_struct_array_index) {\n            let output_struct_array_item: any = {};\n            output_struct_array_item.x = reader.read_float();\n            output_struct_array_item.y = reader.read_float();\n            output.struct_array[output_struct_array_index] = output_struct_array_item;\n        }\n        if (reader.read_uint8() > 0) {\n            output.opt_scalar = reader.read_uint8();\n        } else {\n            output.opt_scalar = undefined;\n        }\n        if (reader.read_uint8() > 0) {\n            let output_opt_enum_temp = reader.read_uint8();\n            if (1 <= output_opt_enum_temp && output_opt_enum_temp <= 2) output.opt_enum = output_opt_enum_temp;\n            else reader.failed = true;\n        } else {\n            output.opt_enum = undefined;\n        }\n        if (reader.read_uint8() > 0) {\n            let output_opt_struct: any = {};\n            output_opt_struct.x = reader.read_float();\n            output_opt_struct.y = reader.read_float();\n            output.opt_struct = output_opt_struct;\n        } else {\n            output.opt_struct = undefined;\n        }\n        if (reader.failed) return null;\n        return output;\n    }\n    write(buffer?: ArrayBuffer): ArrayBuffer {\n        let writer = buffer ? new Writer(buffer) : new Writer();\n        writer.write_uint8(this.builtin_scalar);\n        writer.write_uint32(this.builtin_array.length);\n        for (let this_builtin_array_index = 0; this_builtin_array_index < this.builtin_array.length; ++this_builtin_array_index) {\n            let this_builtin_array_item = this.builtin_array[this_builtin_array_index];\n            writer.write_uint8(this_builtin_array_item);\n        }\n        writer.write_uint32(this.string_scalar.length);\n        writer.write_string(this.string_scalar);\n        writer.write_uint32(this.string_array.length);\n        for (let this_string_array_index = 0; this_string_array_index < this.string_array.length; ++this_string_array_index) {\n            let this_string_array_item = this.string_array[this_string_array_index];\n            writer.write_uint32(this_string_array_item.length);\n            writer.write_string(this_string_array_item);\n        }\n        writer.write_uint8(this.enum_scalar as number);\n        writer.write_uint32(this.enum_array.length);\n        for (let this_enum_array_index = 0; this_enum_array_index < this.enum_array.length; ++this_enum_array_index) {\n            let this_enum_array_item = this.enum_array[this_enum_array_index];\n            writer.write_uint8(this_enum_array_item as number);\n        }\n        writer.write_float(this.struct_scalar.x);\n        writer.write_float(this.struct_scalar.y);\n        writer.write_uint32(this.struct_array.length);\n        for (let this_struct_array_index = 0; this_struct_array_index < this.struct_array.length; ++this_struct_array_index) {\n            let this_struct_array_item = this.struct_array[this_struct_array_index];\n            writer.write_float(this_struct_array_item.x);\n            writer.write_float(this_struct_array_item.y);\n        }\n        let this_opt_scalar = this.opt_scalar;\n        switch (this_opt_scalar) {\n            case undefined: case null: writer.write_uint8(0); break;\n            default: {\n                writer.write_uint8(1);\n                writer.write_uint8(this_opt_scalar);\n            }\n        }\n        let this_opt_enum = this.opt_enum;\n        switch (this_opt_enum) {\n            case undefined: case null: writer.write_uint8(0); break;\n            default: {\n                writer.write_uint8(1);\n                writer.write_uint8(this_opt_enum as number);\n            }\n        }\n        let this_opt_struct = this.opt_struct;\n        switch (this_opt_struct) {\n            case undefined: case null: writer.write_uint8(0); break;\n            default: {\n                writer.write_uint8(1);\n                writer.write_float(this_opt_struct.x);\n                writer.write_float(this_opt_struct.y);\n            }\n        }\n        return writer.finish();\n    }\n}\n"

-- gen/ts.rs:1020 `nested_struct_with_opt_impl_gen`
#guard
    impl "State".toList [⟨"id".toList, "uint32".toList, .builtin .uint32, false, false⟩, ⟨"entities".toList,
    "Entity".toList, .struct [⟨"uid".toList, "uint32".toList, .builtin .uint32, false, false⟩, ⟨"pos".toList,
    "Position".toList, .struct [⟨"x".toList, "float".toList, .builtin .float, false, false⟩, ⟨"y".toList,
    "float".toList, .builtin .float, false, false⟩], false, true⟩], true, false⟩] =
    "export class State {\n    constructor(\n        public id: number,\n        public entities: State.Entity[],\n    ) {}\n    static read(data: ArrayBuffer): State | null {\n        let reader = new Reader(data);\n        let output = Object.create(State);\n        output.id = reader.read_uint32();\n        let output_entities_len = reader.read_uint32();\n        output.entities = new Array(output_entities_len);\n        for (let output_entities_index = 0; output_entities_index < output_entities_len; ++output_entities_index) {\n            let output_entities_item: any = {};\n            output_entities_item.uid = reader.read_uint32();\n            if (reader.read_uint8() > 0) {\n                let output_entities_item_pos: any = {};\n                output_entities_item_pos.x = reader.read_float();\n                output_entities_item_pos.y = reader.read_float();\n                output_entities_item.pos = output_entities_item_pos;\n            } else {\n                output_entities_item.pos = undefined;\n            }\n            output.entities[output_entities_index] = output_entities_item;\n        }\n        if (reader.failed) return null;\n        return output;\n    }\n    write(buffer?: ArrayBuffer): ArrayBuffer {\n        let writer = buffer ? new Writer(buffer) : new Writer();\n        writer.write_uint32(this.id);\n        writer.write_uint32(this.entities.length);\n        for (let this_entities_index = 0; this_entities_index < this.entities.length; ++this_entities_index) {\n            let this_entities_item = this.entities[this_entities_index];\n            writer.write_uint32(this_entities_item.uid);\n            let this_entities_item_pos = this_entities_item.pos;\n            switch (this_entities_item_pos) {\n                case undefined: case null: writer.write_uint8(0); break;\n                default: {\n                    writer.write_uint8(1);\n                    writer.write_float(this_entities_item_pos.x);\n                    writer.write_float(this_entities_item_pos.y);\n                }\n            }\n        }\n        return writer.finish();\n    }\n}\n"

end Packetc.Tests
