{"id": "C01", "title": "Schema text is accepted exactly when it follows the documented grammar", "statement": "pkt::schema(text) returns Ok(ast) if and only if text is derivable as ast in the declarative grammar (lines of comments, export lines, enum/struct declarations, longest-match words, optional commas, free layout where the grammar allows it). In particular the AST of an accepted text is unique.", "quantifier": "every Unicode text and every AST", "why_tests_cant": "The set of texts is infinite and PEG ordered choice / greedy repetition can silently shadow alternatives; tests only sample texts.", "anchors": ["src/lib/parser.rs: schema, line, decl, export, comment, struct_field, enum_variant"]}
{"id": "C02", "title": "Printing a schema and parsing it gives the schema back", "statement": "For every AST whose names are legal, writing it in canonical schema syntax and calling pkt::schema returns exactly that AST: nothing is dropped, merged or reordered by the parser.", "quantifier": "every AST with legal names, any number of declarations, fields, variants", "why_tests_cant": "Infinitely many ASTs; order/flag loss appears only for particular shapes.", "anchors": ["src/lib/parser.rs: schema"]}
{"id": "C03", "title": "Layout and comments do not change the meaning of a schema", "statement": "Two texts that are layouts of the same sequence of declarations (different spaces, newlines, trailing commas, comments in the allowed places) parse to the same AST, hence compile to the same result.", "quantifier": "every pair of layouts of every AST", "why_tests_cant": "Unbounded layout combinations.", "anchors": ["src/lib/parser.rs: _, __, ___, comment"]}
{"id": "C04", "title": "Names coming out of the parser are legal identifiers", "statement": "In every accepted AST each declared name, variant and field name matches [A-Za-z_][A-Za-z0-9_]*, does not begin with a reserved word (uint8 ... struct); declared type names also do not begin with `export`; type references and export names contain only [A-Za-z0-9_]. Hence no schema text can inject other characters into generated code.", "quantifier": "every accepted text", "why_tests_cant": "Injection needs an adversarial text; universal over inputs.", "anchors": ["src/lib/parser.rs: ident, reserved, string"]}
{"id": "C05", "title": "Only reserved words themselves are forbidden as names", "statement": "Every identifier that is not itself a reserved word may be used as a declaration, field or variant name.", "quantifier": "every identifier", "why_tests_cant": "Universal over identifiers; the code violates it for identifiers that merely start with a reserved word or with `export`.", "anchors": ["src/lib/parser.rs: reserved, ident, export, line"]}
{"id": "C06", "title": "The parser always terminates with a verdict", "statement": "pkt::schema terminates on every text and returns either an AST or an error; no repetition can loop without consuming input.", "quantifier": "every text", "why_tests_cant": "Non-termination depends on the input; cannot be observed by a finite test.", "anchors": ["src/lib/parser.rs: all starred rules"]}
{"id": "C07", "title": "Parse errors point inside the file and at a character boundary", "statement": "When parsing fails the reported byte offset lies between 0 and the length of the text and on a character boundary, the line is 1 + the number of newlines before it and the column is 1 + the characters since the last newline, so formatting the error cannot panic.", "quantifier": "every rejected text", "why_tests_cant": "A slicing panic needs a particular multi-byte text.", "anchors": ["src/lib/lib.rs: pretty_error", "src/lib/parser.rs: schema"]}
{"id": "C08", "title": "Everything before the reported error position is a viable prefix of what was consumed", "statement": "The reported position is never before the end of the longest sequence of complete lines the parser accepted.", "quantifier": "every rejected text", "why_tests_cant": "Universal over texts.", "anchors": ["src/lib/parser.rs: schema", "src/lib/lib.rs: pretty_error"]}
{"id": "C09", "title": "The error message shows the offending character", "statement": "The character quoted after `Unexpected token` is the character of the file at the reported position.", "quantifier": "every rejected text", "why_tests_cant": "Only wrong after multi-byte characters; universal over texts.", "anchors": ["src/lib/lib.rs: pretty_error"]}
{"id": "C10", "title": "The error marker is under the offending character", "statement": "The caret line of the error message has its `^` exactly below the character of the quoted source line at the reported column.", "quantifier": "every rejected text", "why_tests_cant": "Universal over texts and positions.", "anchors": ["src/lib/lib.rs: pretty_error"]}
{"id": "C11", "title": "Type checking never panics and always terminates", "statement": "type_check returns Ok or Err for every AST: the `panic!` and the `unwrap` inside it are unreachable and the recursion ends, whatever order the hash maps iterate in.", "quantifier": "every AST, every hash iteration order", "why_tests_cant": "Depends on unbounded inputs and on the per-process random hash seed.", "anchors": ["src/lib/check.rs: type_check, resolve_one_second_pass"]}
{"id": "C12", "title": "Acceptance is exactly schema well-formedness", "statement": "type_check succeeds if and only if: exactly one export; unique declaration names; every enum has 1..32 distinct variants; every field type is a builtin or a declared type; no field is both array and optional; no type contains itself directly or indirectly; the export names a declared struct; (and the checked part of the field-uniqueness rule, see C18).", "quantifier": "every AST whose declarations do not reuse builtin names, every hash order", "why_tests_cant": "Both directions are universally quantified over schemas.", "anchors": ["src/lib/check.rs: type_check"]}
{"id": "C13", "title": "Acceptance does not depend on hash order or on declaration order", "statement": "Whether a schema is accepted is the same for every hash iteration order and for every permutation of its top-level lines.", "quantifier": "every AST, every permutation of it, every pair of hash orders (declarations not reusing builtin names, which the parser guarantees)", "why_tests_cant": "Order dependence shows only under particular seeds.", "anchors": ["src/lib/check.rs: resolve_second_pass"]}
{"id": "C14", "title": "Recursive types are always rejected", "statement": "A schema in which some struct refers to itself through one or more fields (arrays and optionals included) is never accepted.", "quantifier": "every AST, every cycle length (declarations not reusing builtin names, which the parser guarantees)", "why_tests_cant": "Cycle length unbounded.", "anchors": ["src/lib/check.rs: resolve_one_second_pass"]}
{"id": "C15", "title": "The kind of error reported for a bad schema does not depend on hash order", "statement": "For a given schema type_check returns the same error message on every run.", "quantifier": "every rejected AST, every pair of hash orders", "why_tests_cant": "Needs all hash seeds; the code violates it.", "anchors": ["src/lib/check.rs: resolve_second_pass, resolve_one_second_pass"]}
{"id": "C16", "title": "References to undeclared types are always rejected", "statement": "A schema in which any struct (exported or not) mentions an undeclared non-builtin type is never accepted.", "quantifier": "every AST, every hash order (declarations not reusing builtin names, which the parser guarantees)", "why_tests_cant": "Universal over schemas.", "anchors": ["src/lib/check.rs: resolve_struct_field, resolve_one_second_pass"]}
{"id": "C17", "title": "A field is never both optional and an array", "statement": "No struct in an accepted schema has a field marked both optional and array.", "quantifier": "every accepted AST, every hash order (declarations not reusing builtin names, which the parser guarantees)", "why_tests_cant": "Universal over schemas.", "anchors": ["src/lib/check.rs: resolve_struct_field"]}
{"id": "C18", "title": "Struct field names are unique", "statement": "In an accepted schema no struct has two fields with the same name.", "quantifier": "every accepted AST (declarations not reusing builtin names, which the parser guarantees)", "why_tests_cant": "The code only checks up to the first field with a non-builtin type; a test with builtin fields passes.", "anchors": ["src/lib/check.rs: resolve_one_first_pass"]}
{"id": "C19", "title": "Enums get distinct bits and the smallest representation", "statement": "For an accepted enum with n variants the resolved enum lists the variants in declaration order with values 0..n-1 (one distinct bit each) and representation u8/u16/u32 being the smallest with at least n bits; n is between 1 and 32.", "quantifier": "every accepted enum", "why_tests_cant": "All sizes and names; boundaries 8/9, 16/17, 32/33.", "anchors": ["src/lib/check.rs: resolve_enum"]}
{"id": "C20", "title": "Export errors are reported first and precisely", "statement": "type_check fails with `no export` iff there is no export line and with `more than one export` iff there are at least two, regardless of anything else in the schema; a duplicate declaration is reported exactly when there is one export and some name is declared twice, naming the first repeated declaration.", "quantifier": "every AST", "why_tests_cant": "Priority of errors for arbitrary combinations.", "anchors": ["src/lib/check.rs: get_export, collect_types"]}
{"id": "C21", "title": "Only structs can be exported", "statement": "An accepted schema exports a declared struct; exporting an enum, a builtin or an unknown name is an error.", "quantifier": "every AST", "why_tests_cant": "Universal over schemas.", "anchors": ["src/lib/check.rs: resolve_export"]}
{"id": "C22", "title": "Unused types are dropped and used types are kept", "statement": "The resolved type map contains exactly the export and the types reachable from it through fields (builtins included), each under its own name.", "quantifier": "every accepted AST, every hash order (declarations not reusing builtin names, which the parser guarantees)", "why_tests_cant": "Reachability over unbounded type graphs.", "anchors": ["src/lib/check.rs: collect_used_types, remove_unused, resolve_export"]}
{"id": "C23", "title": "Resolution is faithful: same fields, same flags, right types", "statement": "Each resolved struct has exactly the declared fields (as a multiset), with the declared array/optional flags, and each field's resolved type is the resolution of the declared type name; every nested occurrence of a type name denotes the same resolved type.", "quantifier": "every accepted AST, every hash order (declarations not reusing builtin names, which the parser guarantees)", "why_tests_cant": "Universal over schemas.", "anchors": ["src/lib/check.rs: resolve_one_second_pass, resolve_one_first_pass"]}
{"id": "C24", "title": "Fields keep declaration order", "statement": "The resolved fields of a struct, and therefore its wire layout, are in declaration order.", "quantifier": "every accepted AST, every hash order (declarations not reusing builtin names, which the parser guarantees)", "why_tests_cant": "Violated only for particular nesting and hash orders; a passing test proves nothing about other seeds.", "anchors": ["src/lib/check.rs: resolve_one_second_pass (fields.chain(now_resolved))"]}
{"id": "C25", "title": "Compiling the same schema twice gives compatible packets", "statement": "Two runs of the compiler on the same schema produce the same reader/writer code.", "quantifier": "every accepted schema, every pair of hash orders", "why_tests_cant": "Quantifies over hash seeds of two processes.", "anchors": ["src/lib/check.rs: resolve_second_pass", "src/lib/gen/ts.rs: gen_impl"]}
{"id": "C26", "title": "Generated code is the print of a structured program", "statement": "For every resolved export, the text emitted for the class is exactly the pretty-printed form of a structured TypeScript program (methods read and write), and code generation restores its indentation and name stack, so the text is well bracketed for every schema.", "quantifier": "every resolved export, any nesting depth", "why_tests_cant": "Unbounded nesting; brace/indent imbalance appears only for some combinations.", "anchors": ["src/lib/gen/ts.rs: gen_impl, gen_*_impl_*", "src/lib/gen/gen_ctx.rs"]}
{"id": "C27", "title": "Code generation never panics on a checked schema", "statement": "Generating code for a schema accepted by type_check does not panic (no empty-enum indexing, no oversized shift).", "quantifier": "every accepted AST", "why_tests_cant": "Universal over schemas.", "anchors": ["src/lib/gen/ts.rs: gen_read_impl_enum", "src/lib/gen/mod.rs: generate"]}
{"id": "C28", "title": "The namespace declares each used type exactly once", "statement": "The generated namespace contains one declaration for each enum/struct reachable from the export other than the export itself, and nothing else; hash order only permutes the declarations.", "quantifier": "every accepted AST, every hash order", "why_tests_cant": "Universal over schemas and orders.", "anchors": ["src/lib/gen/ts.rs: gen_decls"]}
{"id": "C29", "title": "Declarations describe the fields faithfully", "statement": "Each generated interface lists the fields of the struct in resolved order with `?` iff optional, `[]` iff array, and the TypeScript type of the schema type; each const enum lists every variant with its bit; the class constructor lists the exported struct's fields likewise with qualified type names.", "quantifier": "every accepted AST", "why_tests_cant": "Universal over schemas.", "anchors": ["src/lib/gen/ts.rs: gen_struct_decl, gen_enum_decl, field_ctor_type"]}
{"id": "C30", "title": "write produces exactly the documented wire format", "statement": "Running the generated write on any object holding a value of the exported type appends exactly the concatenation of the fields' encodings: scalars fixed width, strings/arrays with a uint32 length, optionals with a one-byte presence flag, enums in their representation - and it neither throws nor loops.", "quantifier": "every accepted schema whose generated text TypeScript accepts, every value of the exported type, every runtime library meeting the stated contract", "why_tests_cant": "Infinite types and values.", "anchors": ["src/lib/gen/ts.rs: gen_write_impl_*"]}
{"id": "C31", "title": "read inverts write", "statement": "For every accepted schema and every value, running the generated read on the bytes produced by the generated write returns an object holding the same value.", "quantifier": "every accepted schema with plain names, every value, every runtime library meeting the contract", "why_tests_cant": "Infinite types and values; nested arrays/optionals combine.", "anchors": ["src/lib/gen/ts.rs: gen_read_impl_*, gen_write_impl_*"]}
{"id": "C32", "title": "read ignores trailing bytes", "statement": "Appending any bytes after a packet that read accepts does not change what read returns; in particular after a packet made by write.", "quantifier": "every accepted schema with usable names, every accepted packet, every suffix", "why_tests_cant": "Infinite.", "anchors": ["src/lib/gen/ts.rs: gen_impl (read)"]}
{"id": "C33", "title": "Truncated packets are rejected", "statement": "Every strict prefix of an encoded packet makes read return null.", "quantifier": "every accepted schema with plain names, every value, every cut point", "why_tests_cant": "All cut points of all packets.", "anchors": ["src/lib/gen/ts.rs: gen_impl (reader.failed)"]}
{"id": "C34", "title": "No packet can make read throw or hang", "statement": "On every byte string the generated read terminates and returns null or an object - it never throws - when the property names of the schema are ordinary.", "quantifier": "every accepted schema with usable names, every byte string, every heap", "why_tests_cant": "Adversarial inputs are unbounded.", "anchors": ["src/lib/gen/ts.rs: gen_read_impl_*"]}
{"id": "C35", "title": "Whatever read returns is a value of the exported type", "statement": "If read returns an object then every field holds a value of its declared type, enum fields lying between the smallest and the largest declared variant.", "quantifier": "every accepted schema with usable names, every byte string", "why_tests_cant": "Adversarial inputs.", "anchors": ["src/lib/gen/ts.rs: gen_read_impl_*"]}
{"id": "C36", "title": "read accepts only declared enum variants", "statement": "If read returns an object, each enum field equals one of the declared variants.", "quantifier": "every enum, every byte string", "why_tests_cant": "The range check lets other bit patterns through; only visible for particular bytes.", "anchors": ["src/lib/gen/ts.rs: gen_read_impl_enum"]}
{"id": "C37", "title": "Every declared enum variant can be transmitted", "statement": "Writing any declared variant of any accepted enum and reading it back returns it.", "quantifier": "every accepted enum and variant", "why_tests_cant": "Fails only at 32 variants because of a signed shift.", "anchors": ["src/lib/gen/ts.rs: gen_read_impl_enum", "src/lib/check.rs: resolve_enum"]}
{"id": "C38", "title": "Generated functions never declare a variable twice", "statement": "In the generated read and write no block declares the same variable twice and no variable is used before its declaration.", "quantifier": "every accepted schema", "why_tests_cant": "Depends on adversarial combinations of field names with underscores.", "anchors": ["src/lib/gen/ts.rs: varname, bindname"]}
{"id": "C39", "title": "Any legal field name can be used in an exported struct", "statement": "A packet whose exported struct has a field of any legal name can be read back.", "quantifier": "every legal field name", "why_tests_cant": "Only special JavaScript names (name, length, prototype, caller, arguments, __proto__) fail.", "anchors": ["src/lib/gen/ts.rs: gen_impl (Object.create)"]}
{"id": "C40", "title": "A packet that was read can be written again", "statement": "The object returned by read has the class's write method, and writing it gives an encoding of the packet again.", "quantifier": "every exported type", "why_tests_cant": "Property of the prototype chain of generated code.", "anchors": ["src/lib/gen/ts.rs: gen_impl (Object.create)"]}
{"id": "C41", "title": "Packets contain no padding", "statement": "The number of bytes written equals the sum of the widths of the scalars, 4 per string/array plus contents, 1 per optional plus contents, and the representation width of enums; equal values have equal encodings and different values of the same type have different encodings.", "quantifier": "every accepted schema with usable names, all pairs of values; injectivity for text encodings that are self-delimiting (such as UTF-8)", "why_tests_cant": "Infinite.", "anchors": ["src/lib/gen/ts.rs: gen_write_impl_*"]}
{"id": "C42", "title": "String length prefix matches the encoded length", "statement": "The uint32 written before a string is the number of bytes its encoding occupies, so read recovers every string.", "quantifier": "every string", "why_tests_cant": "Fails only for non-ASCII text.", "anchors": ["src/lib/gen/ts.rs: gen_write_impl_builtin, gen_read_impl_builtin"]}
{"id": "C43", "title": "Work done by read is bounded by the packet size", "statement": "Each read call in the generated code is executed at most once per byte received plus once, so that the number of reader calls is at most (number of reads in the code) * (number of bytes + 1).", "quantifier": "every packet", "why_tests_cant": "An adversarial 4-byte packet is needed.", "anchors": ["src/lib/gen/ts.rs: gen_read_impl_array"]}
{"id": "C44", "title": "Generated names do not capture the names the code relies on", "statement": "The generated module can be loaded: the class name is usable and differs from every global or imported name that the generated code uses (Reader, Writer, Object, Array), no constructor parameter is a JavaScript reserved word or repeated, and no variable clashes.", "quantifier": "every accepted schema", "why_tests_cant": "Universal over names; violated for particular names.", "anchors": ["src/lib/gen/ts.rs: gen_impl, gen_common"]}
{"id": "C45", "title": "Compilation is parse, then check, then generate, with errors classified accordingly", "statement": "compile returns Err(Parse) iff the text is not in the grammar, Err(Check) iff it parses but is not well-formed, and otherwise Ok(code) where code is header line, import line, namespace, class in this order.", "quantifier": "every text, every hash order, every clock value", "why_tests_cant": "Universal over texts.", "anchors": ["src/lib/lib.rs: compile", "src/lib/gen/mod.rs: generate"]}
{"id": "C46", "title": "Only the header depends on the time of compilation", "statement": "Compiling the same schema at two different times with the same hash order gives texts that differ only in the first line.", "quantifier": "every schema, every pair of clock values", "why_tests_cant": "Universal.", "anchors": ["src/lib/gen/mod.rs: push_meta"]}
{"id": "C47", "title": "A directory run writes nothing unless every schema compiles", "statement": "In directory mode, if any .pkt file under the input directory fails to read or compile, the command fails and no output file is written.", "quantifier": "every directory tree, every failure position", "why_tests_cant": "All failure points of all trees.", "anchors": ["src/main.rs: run_all, main"]}
{"id": "C48", "title": "A directory run compiles every .pkt file exactly once", "statement": "In directory mode the set of compiled schemas is exactly the set of files with extension pkt anywhere under the directory, each once, whatever order directories are listed in.", "quantifier": "every directory tree", "why_tests_cant": "Unbounded trees.", "anchors": ["src/main.rs: visit_files, run_all"]}
{"id": "C49", "title": "Outputs mirror the input tree and never collide", "statement": "In directory mode the schema at relative path d/x.pkt is written to out/d/x.ts, and distinct schemas have distinct outputs.", "quantifier": "every directory tree, every pair of schemas", "why_tests_cant": "Pairs of arbitrary file names.", "anchors": ["src/main.rs: format_path"]}
{"id": "C50", "title": "A single-file run names its output after the schema", "statement": "In single-file mode dir/x.pkt is written to out/x.ts, the same leaf name that directory mode would use.", "quantifier": "every file name", "why_tests_cant": "Fails for stems containing a dot.", "anchors": ["src/main.rs: format_path"]}
{"id": "C51", "title": "A missing input is reported", "statement": "If the input path does not exist the command fails.", "quantifier": "every path and file system", "why_tests_cant": "Universal; the code violates it.", "anchors": ["src/main.rs: main"]}
{"id": "C52", "title": "A failed write leaves exactly the earlier outputs", "statement": "In directory mode, if writing the k-th output fails, the outputs of the schemas before it are complete and no later output is touched.", "quantifier": "every tree, every crash point", "why_tests_cant": "All crash points.", "anchors": ["src/main.rs: main, save_one"]}
{"id": "C53", "title": "The language argument is matched case-insensitively and only `ts` is supported", "statement": "The lang argument is accepted iff its lower-case form is `ts`.", "quantifier": "every argument string", "why_tests_cant": "Universal.", "anchors": ["src/main.rs: Lang::from_str"]}
{"id": "C54", "title": "Checker errors are truthful", "statement": "Every error returned by type_check states a fact about the schema: the named field really is optional and array, the named enum is empty / has more than 32 variants / repeats the named variant, the named field occurs twice in the named struct, the type named in a cycle error is recursive, the type named as missing is referred to and is undeclared or recursive, the named export is not a struct or does not exist.", "quantifier": "every AST, every hash iteration order, every error", "why_tests_cant": "The error depends on the hash iteration order and on the interplay of two passes; tests see one order and a handful of schemas.", "anchors": ["src/lib/check.rs:141-193", "src/lib/check.rs:195-350", "src/lib/check.rs:370-390"]}
{"id": "C55", "title": "A parse error is reported where the text stops being a schema", "statement": "When the parser rejects a text at byte offset n, the first n bytes are the beginning of some accepted schema, and no accepted schema agrees with the text for n+6 bytes or more.", "quantifier": "every rejected text, every accepted text", "why_tests_cant": "It relates each rejected text to all accepted ones; the position comes from a maximum over all failures of a backtracking parser.", "anchors": ["src/lib/parser.rs:1-90 (pkt grammar)", "peg runtime: ErrorState::mark_failure"]}
{"id": "C56", "title": "The reported parse error does not depend on text further on", "statement": "If a text is rejected at byte offset n, every text that agrees with it for n+6 bytes is rejected at the same offset: editing the schema further down does not move the error.", "quantifier": "every rejected text, every continuation", "why_tests_cant": "Quantifies over all continuations of all rejected texts.", "anchors": ["src/lib/parser.rs:1-90 (pkt grammar)"]}
{"id": "C57", "title": "Type error messages are true sentences", "statement": "Whenever compile returns a type error, its text is one of twelve fixed sentences with the names of declarations, fields or variants filled in, and what the sentence says is true of the schema that was given.", "quantifier": "every text, every hash iteration order", "why_tests_cant": "Which error is hit depends on the hash iteration order; the code violates it for recursion that is entered from outside ('Declaration for type B does not exist' although it does).", "anchors": ["src/lib/check.rs: all Err(..) sites", "src/lib/lib.rs: compile"]}
{"id": "C58", "title": "A recursive schema is reported as a cycle", "statement": "If recursion is the only defect of a schema then compile fails with 'Found a cycle ... in type X' where X is a recursive type.", "quantifier": "every text, every hash iteration order", "why_tests_cant": "Needs all recursive type graphs and all hash orders; the code's own test has one type referring to itself, the code violates the claim for others.", "anchors": ["src/lib/check.rs: resolve_one_second_pass"]}
{"id": "C59", "title": "Programs generated in different runs understand each other", "statement": "If two runs of packetc compile the same schema, then a packet written by the code of one run is read back, with the same value in every field, by the code of the other run.", "quantifier": "every schema, every two hash seeds, every value of the exported type", "why_tests_cant": "Every run has a fresh random hash seed and a test sees one of them. The code violates the property: the order of fields on the wire depends on the seed when structs are nested.", "anchors": ["src/lib/check.rs: resolve_second_pass, resolve_one_second_pass", "src/lib/gen/ts.rs: gen_write_impl_struct, gen_read_impl_struct"]}
{"id": "C60", "title": "The generated file is a TypeScript module with working read and write", "statement": "If compile succeeds then the text it returns can be lexed, parsed and loaded as a TypeScript module (no keyword used as a name, no duplicate member, parameter, variable or method, every type name resolves). The module imports Reader and Writer, declares every type the export uses exactly once with the fields or variants of the schema, and has one class, named like the export, with its fields as constructor parameters and the methods read and write. (C30-C44 say what executing read and write of that text does.)", "quantifier": "every schema text, every hash iteration order, every packet and value", "why_tests_cant": "The generator concatenates strings; whether the result is valid source depends on all the names and nestings that a schema may contain. The code violates it for schemas whose names clash with TypeScript (a field called write, a type called class).", "anchors": ["src/lib/gen/ts.rs: all of gen_*", "src/lib/gen/mod.rs", "src/lib/lib.rs: compile"]}
{"id": "C61", "title": "Exactly when the order of fields is the declared one", "statement": "For an accepted schema, a used struct has its fields in declaration order in every run of the compiler exactly if no field can be overtaken by a later one: for every two fields, the type of the earlier one is simple (builtin, enum, or a struct of builtins) or is the same as, or contained in, the type of the later one. All runs resolve the schema to the same types exactly if this holds for every used struct. Some run always has all fields in declaration order.", "quantifier": "every schema the checker accepts, every used struct, every hash iteration order", "why_tests_cant": "It says for which of infinitely many schemas the result does not depend on the random hash seed; a test sees one schema and one seed.", "anchors": ["src/lib/check.rs: resolve_first_pass, resolve_second_pass, resolve_one_second_pass"]}
{"id": "C62", "title": "Calls of the generated code do not disturb each other", "statement": "Calling read changes no object the program already has, and the packet it returns consists of new objects only; so packets read earlier keep their contents when further packets are read, and no two packets share parts. write changes no object, and the bytes it returns depend on the contents of the packet only: not on the buffer argument, on which objects hold the packet, or on what else is in memory.", "quantifier": "every schema, every hash order, every sequence of two calls of read on any bytes, every packet in any two heaps", "why_tests_cant": "Absence of aliasing and side effects is about all heaps and all inputs, including those on which read gives up half-way.", "anchors": ["src/lib/gen/ts.rs: gen_read_impl*, gen_write_impl*"]}
{"id": "C63", "title": "Old programs read packets with appended fields", "statement": "If fields are appended to the exported struct, then a program generated from the old schema reads the packets written by a program generated from the new one, and gets the values of the old fields.", "quantifier": "every pair of schemas of which one appends fields to the other, every hash order of the two compiler runs, every packet whose strings have one byte per UTF-16 unit", "why_tests_cant": "Relates two generated programs for all pairs of schemas and all packets. The code violates it: a field whose type is resolved late is overtaken by the appended field, which is then sent first.", "anchors": ["src/lib/check.rs: resolve_struct_fields, resolve_second_pass", "src/lib/gen/ts.rs: gen_read_impl, gen_write_impl"]}
{"id": "C64", "title": "Renaming does not change the wire format", "statement": "If types, fields and variants are renamed (and the fields of no struct can overtake each other, see C61), then programs generated before and after write the same bytes for corresponding packets, accept the same bytes, and read corresponding packets from them.", "quantifier": "every pair of schemas of which one is a renaming of the other, every hash order of the two runs, every packet and every byte string", "why_tests_cant": "Two generated programs must agree on all inputs, for infinitely many schemas.", "anchors": ["src/lib/check.rs", "src/lib/gen/ts.rs: gen_read_impl, gen_write_impl"]}
{"id": "C65", "title": "Adding variants keeps old packets readable", "statement": "If variants are added at the end of enums, then programs generated from the new schema read the packets written by programs generated from the old one, and old programs read those packets of new ones that use old variants only and reject the others.", "quantifier": "every pair of schemas of which one adds variants, every hash order of the two runs, every packet as in C31", "why_tests_cant": "Relates two generated programs for all pairs of schemas and packets. The code violates it: enums change their width at the 9th and 17th variant.", "anchors": ["src/lib/check.rs: resolve_enum", "src/lib/gen/ts.rs: gen_read_impl_enum, gen_write_impl_enum"]}
{"id": "C66", "title": "New programs reject packets without the appended fields", "statement": "If fields are appended to the exported struct and one of them takes up space in every packet (all do except structs without content), then a program generated from the new schema returns null for packets written by a program generated from the old one; it never makes up values.", "quantifier": "every pair of schemas of which one appends fields to the other, every hash order of the two runs, every packet", "why_tests_cant": "Relates two generated programs for all pairs of schemas and packets. The code violates it: the tail of a string that is longer in bytes than in characters is taken for the appended field.", "anchors": ["src/lib/gen/ts.rs: gen_read_impl", "src/lib/check.rs"]}
{"id": "C67", "title": "Generated code has no type errors", "statement": "If the TypeScript compiler can read the generated module (C60), then its type checker, in strict mode, finds no error in it: all annotations name known types, variables are used after their declaration, the arguments of every call of the library have the declared types, optional fields are narrowed before use, and what is returned has the declared type.", "quantifier": "every compiled schema with a readable module", "why_tests_cant": "Compiling samples with tsc covers finitely many schemas; nesting, names and flags combine without bound. The code violates it for exports called Object, Array, ArrayBuffer or output.", "anchors": ["src/lib/gen/ts.rs: gen_impl, gen_decls, gen_read_impl_*, gen_write_impl_*"]}
{"id": "C68", "title": "Printed lines tell what was written", "statement": "After a successful run, the printed lines correspond one to one, in order, to the files written: each line names the text of the path of its file. Each line is printed before the directory is created and before the file is written.", "quantifier": "every input tree, output directory, disk behaviour, listing order and hash order", "why_tests_cant": "Needs the order of effects in all runs, including failing ones. The code violates it in single-file mode, where a leftover debugging line with the output directory comes first.", "anchors": ["src/main.rs: save_one, format_path, main, Lang::from_str"]}
{"id": "C69", "title": "All input is read before anything is printed or written", "statement": "While directories are being listed and files read, nothing has been printed, created or written yet; a run on a directory that gets as far as saving has read every schema below the directory exactly once, and no other file.", "quantifier": "every input tree, disk behaviour, listing order and hash order, successful or not", "why_tests_cant": "A statement about the order of effects in all runs.", "anchors": ["src/main.rs: run_all, visit_files, run_one, main"]}
{"id": "C70", "title": "No schema is overwritten", "statement": "Whatever the arguments, also if the output directory is the input directory and also if the run fails, every file that a run changes has a name that ends in .ts; in particular no .pkt file is changed.", "quantifier": "every pair of path arguments, input tree, disk behaviour and initial store", "why_tests_cant": "Depends on std::path semantics for all path texts (dots, slashes, several extensions).", "anchors": ["src/main.rs: format_path, save_one, main"]}
{"id": "C71", "title": "Outputs stay below the output directory", "statement": "Every file that a run attempts to write lies below the output directory: its path is that of the output directory followed by ordinary names.", "quantifier": "every pair of path arguments, input tree and disk behaviour", "why_tests_cant": "Depends on std::path semantics for all path texts. The code violates it for files called ..pkt and ...pkt in single-file mode.", "anchors": ["src/main.rs: format_path, save_one"]}
{"id": "C72", "title": "Only schemas matter", "statement": "If no file operation fails, whether a run on a directory succeeds and which files it leaves behind depends only on the .pkt files below the directory, not on other files, empty directories or listing order; in particular outputs of earlier runs do not matter.", "quantifier": "every two trees with the same schemas, every initial store, hash order", "why_tests_cant": "Relates two runs on arbitrary trees.", "anchors": ["src/main.rs: visit_files, run_all, main"]}
{"id": "C73", "title": "The error of a failing run tells which schema is bad", "statement": "When compiling a directory fails because of a schema, the error lets the user tell which file is bad: two failing runs with the same message failed because of a file at the same place.", "quantifier": "every pair of input trees, hash order and disk behaviour", "why_tests_cant": "Relates the message of a run to the whole input tree. The code violates it: the message has no path, and nothing was printed before (C69). What holds: the message is that of the first bad schema in listing order.", "anchors": ["src/main.rs: visit_files, run_one, run_all"]}
{"id": "C74", "title": "Only the declarations that are used matter", "statement": "If two well-formed schemas export the same type and declare alike everything that type (transitively) uses, then they compile to the same texts: every text a run of the compiler can produce for one can be produced for the other. Unused declarations and the order of declarations have no influence.", "quantifier": "every pair of such schemas, every run (hash order) of the compiler", "why_tests_cant": "The hash order in which types are visited interleaves used and unused types, so unused declarations do influence individual runs; that the set of possible outputs is the same needs a simulation argument over all orders.", "anchors": ["src/lib/check.rs: resolve_second_pass, resolve_one_second_pass, resolve_export, remove_unused"]}
{"id": "C75", "title": "read accepts exactly the data that begins with a packet", "statement": "The generated read returns a given packet exactly if the data begins with bytes that hold this packet (field after field; numbers of their width; a byte other than 0 before a present optional; the count before arrays and strings; enums between 1 and the last variant), and returns null exactly if the data begins with the bytes of no packet. There is at most one way to understand data as a packet.", "quantifier": "every schema, every byte string, every runtime library meeting the contract", "why_tests_cant": "Exact characterisation over all byte strings (also malformed and hostile ones) and all nested types.", "anchors": ["src/lib/gen/ts.rs: gen_read_impl, gen_read_impl_builtin, gen_read_impl_enum, gen_read_impl_struct, gen_read_impl_array, gen_read_impl_optional"]}
{"id": "C76", "title": "A packet that is read and written again has the same bytes", "statement": "A relay that reads a packet and writes it (applying the class's write method) sends the bytes that it received.", "quantifier": "every schema, every accepted byte string, every runtime library meeting the contract", "why_tests_cant": "Needs the set of all accepted byte strings. The code violates it: any presence flag other than 0 is accepted and 1 is written; what is preserved exactly is characterised.", "anchors": ["src/lib/gen/ts.rs: gen_read_impl_optional, gen_write_impl_optional, gen_read_impl_builtin"]}
{"id": "C77", "title": "A struct inside of a packet is laid out like a packet of its own", "statement": "If one schema exports a type T and another schema uses T (at any depth, also in arrays) with the same declarations, then the bytes of a T inside of a packet of the second schema are exactly what a program generated for T alone writes, and that program reads them.", "quantifier": "every pair of such schemas, every packet and every occurrence of T in it, every run of the compiler on both", "why_tests_cant": "Relates two compilations of different schemas over all types, values and hash orders. The code violates it because the order of fields is chosen per run; it holds for a suitable run, and for all runs if no field can be overtaken.", "anchors": ["src/lib/check.rs: resolve_one_second_pass", "src/lib/gen/ts.rs: gen_write_impl_struct, gen_read_impl_struct"]}
{"id": "C78", "title": "The generated code is not much longer than the schema", "statement": "The length of the generated code is bounded by a polynomial in the length of the schema text (and of version and time).", "quantifier": "every schema text that compiles, every hash order, version and time", "why_tests_cant": "An asymptotic statement over all schemas. The code violates it: every use of a struct is written out in full, so n structs with two fields of the previous one give code of at least 2^n characters. What holds: the code is as long as the written-out number of fields, up to a quadratic factor, and at most cubic if no struct is used twice.", "anchors": ["src/lib/gen/ts.rs: gen_write_impl_struct, gen_read_impl_struct, gen_impl, gen_decls"]}
{"id": "C79", "title": "Recursion is as deep as structs are nested", "statement": "For a schema that compiles, the recursion of the generator over the exported type is exactly as deep as the longest chain of structs each containing the next, and at most the number of structs declared.", "quantifier": "every schema that compiles, every hash order", "why_tests_cant": "Needs acyclicity of all accepted schemas and a longest-path argument over unbounded inputs.", "anchors": ["src/lib/gen/ts.rs: gen_write_impl_struct, gen_read_impl_struct", "src/lib/check.rs: resolve_one_second_pass"]}
{"id": "C80", "title": "Whether the generated class can be used is a matter of names", "statement": "The text generated for an accepted schema is a TypeScript module whose functions behave as described in C30-C44 (no name clashes, nothing hidden, no special property names) if and only if: used types are not called like keywords or predefined types; fields of each used struct differ; the export is not called like an import or something else the code refers to, and has no field called like a keyword, write, or a special property of constructors; no used struct has a field __proto__; and the variables derived from the field paths (joined by underscores) differ within each struct. So it depends neither on the run nor on anything else in the schema.", "quantifier": "every accepted schema, every run of the compiler", "why_tests_cant": "An exact characterisation over all schemas and names; a test can only exhibit single clashes.", "anchors": ["src/lib/gen/ts.rs: varname, bindname, gen_write_impl_optional, gen_read_impl_array, gen_read_impl_enum, gen_read_impl_struct, gen_impl"]}
{"id": "C81", "title": "Parsing takes time linear in the length of the schema", "statement": "For every text, schema or not, the parser takes a number of steps (characters compared, alternatives tried, rounds of repetitions; a second run after a failure included) that is at most a constant times the length of the text, although peg backtracks without memoization; every character of an accepted text is looked at.", "quantifier": "every text", "why_tests_cant": "Backtracking parsers can be exponential on rare inputs; timing some inputs says nothing about all others.", "anchors": ["src/lib/parser.rs: all rules"]}
{"id": "C82", "title": "Type checking takes at most quadratic time", "statement": "For every parsed schema, accepted or not, and every hash order, the checker takes a number of steps (hash operations, rounds of loops, copied fields) linear in the length of the text plus three for each field of a type of a field of the exported struct, hence at most quadratic; the second term is really taken (fields of the same struct type are passed through again and again), so no linear bound holds.", "quantifier": "every schema text, every hash order", "why_tests_cant": "An upper bound over all schemas and hash orders, and a lower bound over an unbounded family.", "anchors": ["src/lib/check.rs: collect_types, resolve_first_pass, resolve_second_pass, collect_used_types, resolve_export, type_check"]}
{"id": "C83", "title": "The random schema generator writes compilable files", "statement": "Every run of scripts/gen_random_pkt.py ends normally and leaves a schema file that compiles.", "quantifier": "every sequence of random choices the script can make, every hash order of the compiler", "why_tests_cant": "The choices are random; the unlucky ones (a variant beginning with a reserved word, a comment or enum containing the letters `struct`, repeated names, no struct at all) are rare in single runs.", "anchors": ["scripts/gen_random_pkt.py: identifier, generate_type, generate_definition, __main__"]}
{"id": "C84", "title": "Exactly which errors a schema can be rejected with", "statement": "The errors that the runs of the compiler on one schema report are exactly those that a specification on the syntax tree allows: the number of export statements is judged first, then repeated declaration names, then the first declaration with a defect of its own, then the types that cannot be resolved, each with the error that depends only on the set of types resolved before it; every allowed error is reported by some run. A schema has an allowed error if and only if it is not well-formed.", "quantifier": "every schema, every error, every hash order", "why_tests_cant": "Which error is shown depends on a hash order that tests cannot choose; that no other error can appear is a statement about all orders and all schemas.", "anchors": ["src/lib/check.rs: type_check, resolve_first_pass, resolve_second_pass, resolve_one"]}
{"id": "C85", "title": "Packets back to back can be told apart", "statement": "Packets are self-delimiting: no packet is a proper beginning of another one, and a sequence of packets sent back to back on a stream determines the sequence of values.", "quantifier": "every compiled schema, every library as in C41, all values, all sequences of values", "why_tests_cant": "Ambiguity would be a coincidence between two packets (or two sequences of different lengths) among infinitely many; it cannot be found by writing and reading back single packets.", "anchors": ["src/lib/gen/ts.rs: gen_write_impl_*", "README.md"]}
{"id": "C86", "title": "Packets without unsized members are sized", "statement": "All packets of a schema have the same number of bytes if and only if the exported struct has no unsized member at any depth: no string, and no optional or array except of types without any bytes. The size, and for other schemas the smallest size, is the sum given by the schema.", "quantifier": "every compiled schema, every library that writes empty text as no bytes, all values", "why_tests_cant": "That all of infinitely many values have the same size, and that every unsized member really makes a difference somewhere, are statements about all values and all schemas.", "anchors": ["src/lib/gen/ts.rs: gen_write_impl_*", "README.md: TODO (sized packets)"]}
{"id": "C87", "title": "Line ends of a schema do not matter", "statement": "Converting the line ends of a schema from LF to CR LF or back changes neither its syntax tree nor any result of compiling it; a text without other CRs is accepted in both forms or in neither.", "quantifier": "every text, every environment", "why_tests_cant": "A conversion touches every line end at once, inside comments, between fields, behind commas and at the end of the file; that no combination of them matters is a statement about all schemas.", "anchors": ["src/lib/parser.rs: rules _, __, ___, comment", "README.md"]}
{"id": "C88", "title": "Generated files are plain ASCII code", "statement": "Whatever characters the schema has in its comments and layout, the generated file consists of printable ASCII and LF (no CR, tab or control character), ends with a line end, and behind its first two lines has no character that begins a string, template or comment; the only parts taken from outside are the version and time in the first line.", "quantifier": "every text that compiles, every environment", "why_tests_cant": "Nothing of the schema but its names may reach the output; that no text leaks anything else is a statement about all schemas.", "anchors": ["src/lib/gen/ts.rs", "src/lib/gen/mod.rs, src/lib/gen/gen_ctx.rs"]}
{"id": "C89", "title": "Which schemas understand each other", "statement": "A program generated from one schema reads every packet that a program generated from another schema writes, and reads it as the same packet, if and only if the exported type of the one can take the place of that of the other: the same builtin types, enums of the same size with at least as many variants, integer types of the same size in place of enums (signed ones if the topmost bit is not used), and structs with fields of the same names, order, array and optional flags. Both understand each other if and only if the exported types are the same up to names of types and variants.", "quantifier": "every pair of compiled schemas without enums of 32 variants (for the condition on the schemas: in which no field can be overtaken by a later one), every library that writes the empty text as no bytes and agrees on signed and unsigned numbers, all values with strings as in C31", "why_tests_cant": "The condition is necessary as well as sufficient: it says of every pair of schemas that fails it that some packet is misunderstood, and of every other pair that none is.", "anchors": ["src/lib/gen/ts.rs: gen_write_impl_*, gen_read_impl_*", "src/lib/check.rs: resolve_enum"]}
{"id": "C90", "title": "Variants of an enum can be combined as flags", "statement": "The variants of an enum are different bits and the enum is given one bit per variant, so a packet may hold any combination of variants (A | B) in the place of an enum, and read returns the combination that write was given.", "quantifier": "every compiled schema with usable names, every runtime library, all packets with strings as in C31 and combinations in the place of enums, at any depth", "why_tests_cant": "There are 2^n combinations for each enum, at every place of every schema; the range check of the generated code is right for some and wrong for others.", "anchors": ["src/lib/gen/ts.rs:171-186 gen_read_impl_enum", "src/lib/check.rs: resolve_enum"]}
{"id": "C91", "title": "The Rust writer uses the same format as the TypeScript writer", "statement": "The Rust code that rust.rs emits for a schema can be parsed; it consists of a definition for each struct and enum that is used, with the declared fields or variants, and two functions; `write` never fails and writes exactly the bytes of the format: fixed-width numbers, counted arrays, strings as the number of their UTF-8 bytes and these bytes, enums as the bit of the variant, a flag byte before optionals, structs field by field.", "quantifier": "every accepted schema whose exported type has no name of a Rust primitive, every `packet` crate with fixed-width encodings, every value of the exported type whose strings and arrays are shorter than 2^32", "why_tests_cant": "The generated functions nest blocks and make up variable names to any depth; that the text is a program with this meaning for every schema and every value needs induction over both.", "anchors": ["src/lib/gen/rust.rs:23-88 gen_write_impl_*", "src/lib/gen/rust.rs:217-350 Def impls", "format.md"]}
{"id": "C92", "title": "The Rust reader inverts the Rust writer", "statement": "`read` into a default value, given what `write` wrote followed by anything, returns the value that was written and leaves what follows.", "quantifier": "every accepted schema, every crate, every value that fits in memory, any bytes behind", "why_tests_cant": "All schemas and all values; the arms of `try_from` are computed with a 32-bit shift that is wrong only for the largest enums.", "anchors": ["src/lib/gen/rust.rs:90-215 gen_read_impl_*", "src/lib/gen/rust.rs:283-327"]}
{"id": "C93", "title": "What the Rust reader accepts", "statement": "`read` succeeds exactly on data that begin with an encoding of a value (any nonzero flag byte, enum bytes that are one variant, valid UTF-8) and returns this value; on all other data, in particular on truncated packets, it returns an error.", "quantifier": "every accepted schema, every crate, all data; rejection: with memory for 2^32 - 1 items or schemas without arrays", "why_tests_cant": "The statement is about all byte strings, including those no writer makes.", "anchors": ["src/lib/gen/rust.rs:90-215 gen_read_impl_*"]}
{"id": "C94", "title": "No packet exhausts the memory of a Rust reader", "statement": "No data can make the Rust `read` run out of memory, since it does not reserve room for more items than the data can hold.", "quantifier": "every accepted schema, all data, every amount of memory below 2^32 - 1 items", "why_tests_cant": "An attacker chooses the data; the claim is about all of them, and where it is false the exact class of schemas is of interest.", "anchors": ["src/lib/gen/rust.rs: gen_read_impl_array (reserve)"]}
{"id": "C95", "title": "The Rust reader replaces what was in its output", "statement": "What `read` leaves in `output`, and what it returns, does not depend on what was in `output` before the call (so that a value can be reused for several packets).", "quantifier": "every accepted schema, all data, all earlier values", "why_tests_cant": "A comparison of runs over all pairs of earlier values and all data; tests read into a fresh value.", "anchors": ["src/lib/gen/rust.rs: gen_read_impl_optional, gen_read_impl_array"]}
{"id": "C96", "title": "Rust and TypeScript programs understand each other", "statement": "If a Rust and a TypeScript program are generated from the same schema, then each reads what the other writes as the same packet (`None` being `undefined`, a variant being its number, and arrays fitting in memory).", "quantifier": "every accepted schema, all packets, all libraries that agree on numbers and encode text as UTF-8", "why_tests_cant": "Two generated programs in different languages have to agree on every schema and every packet; the tests compare emitted text with a fixture, one generator at a time.", "anchors": ["src/lib/gen/rust.rs: gen_write_impl, gen_read_impl", "src/lib/gen/ts.rs: gen_write_impl, gen_read_impl"]}
{"id": "C97", "title": "The Rust compiler accepts the emitted text", "statement": "If no name of an accepted schema is a keyword of Rust or a name that the emitted text needs, and the fields of each struct have different names, then the definitions and the functions `write` and `read` emitted by the Rust generator compile.", "quantifier": "every accepted schema", "why_tests_cant": "The tests compare emitted text with fixtures and never compile it; whether it compiles depends on how types are nested in arrays and optionals.", "anchors": ["src/lib/gen/rust.rs: gen_write_impl, gen_read_impl, gen_def", "src/lib/gen/rust.rs: gen_write_impl_optional (by_ref), gen_write_impl_array"]}
{"id": "C98", "title": "Rust code that compiles is right", "statement": "If the Rust file emitted for an accepted schema compiles, then `write` writes exactly the bytes of the documented format, `read` gives back what `write` was given (as far as memory allows) and accepts exactly the data that begin with the bytes of a value, and the TypeScript program of the same run reads what the Rust program writes.", "quantifier": "every accepted schema whose Rust file compiles, every value, every byte string", "why_tests_cant": "It says that each schema for which the emitted functions would do the wrong thing is refused by the compiler; this is about all schemas at once.", "anchors": ["src/lib/gen/rust.rs: gen_write_impl, gen_read_impl, gen_def", "src/lib/gen/rust.rs: gen_read_impl_enum", "format.md"]}
{"id": "C99", "title": "Running time of the emitted Rust functions", "statement": "The `read` emitted for an accepted schema executes, whatever bytes it is given, at most as many statements as its text has, once for each byte of the data and once more; reading a packet and writing one take statements in proportion to the bytes of the packet.", "quantifier": "every accepted schema, every byte string, every value", "why_tests_cant": "It bounds the work for all data, including those made by an attacker; a test only measures the data it has.", "anchors": ["src/lib/gen/rust.rs: gen_read_impl_array, gen_read_impl_optional", "src/lib/gen/rust.rs: gen_write_impl_array", "README.md: Fast, Safe"]}
{"id": "C100", "title": "A failing Rust read leaves its output alone", "statement": "If the `read(reader, output)` emitted for an accepted schema returns an error, the value behind `output` is the one it was before the call.", "quantifier": "every accepted schema, every value in output, every byte string on which read fails", "why_tests_cant": "It is about the state after a failure at any point of the data, for every schema and every earlier value; which schemas have the property depends on the order of all their fields.", "anchors": ["src/lib/gen/rust.rs: gen_read_impl, gen_read_impl_struct", "src/lib/gen/rust.rs: gen_read_impl_optional, gen_read_impl_array"]}
{"id": "C101", "title": "The output argument names the output file", "statement": "`packetc <lang> <input> <output>` on one schema file that compiles puts the code into the file named `<output>`, as in the README: `packetc rust test.pkt test.rs`.", "quantifier": "every schema file name, every output argument, every text, every earlier content of the disk", "why_tests_cant": "It is about all pairs of paths; a test sees one, and the run that puts the code elsewhere still reports success.", "anchors": ["README.md: Usage", "src/main.rs: format_path", "src/main.rs: main, save_one"]}
{"id": "C102", "title": "Packets cannot be made smaller", "statement": "For an accepted schema, no other self-delimiting byte encoding of the same packets is never longer than what `write` emits and shorter for some packet (format.md: it would be impossible to shrink the packet any further).", "quantifier": "every accepted schema, every packet of its type, every competing encoding", "why_tests_cant": "It is a statement about all other encodings; none can be tried out.", "anchors": ["format.md: Small, meaning the packets will serialize into something that only contains the absolutely necessary information", "src/lib/gen/ts.rs: gen_write_impl", "src/lib/check.rs: smallest enum representation"]}
{"id": "C103", "title": "The generated file determines everything in the schema that is used", "statement": "If the compiler can write the same valid file for two schemas, then the two schemas export the same type and declare alike everything it uses: the same names, the same fields with the same types and flags in the same order, the same variants. (False: where a field can be overtaken by a later one, schemas that differ in the order of these fields can get the same file. What holds: everything else is determined; and if no field can be overtaken, the order is, too, so that two schemas have a file in common exactly if they agree in what is used.)", "quantifier": "for all pairs of schemas the compiler accepts, all pairs of runs of the compiler that write the same module (whatever version and time the first lines mention)", "why_tests_cant": "it says that a function on infinitely many schemas has no collisions; tests can only compare finitely many outputs, and collisions that need a particular hash order and a particular nesting do not show up in samples", "anchors": ["src/lib/gen/ts.rs: generate", "src/lib/check.rs: type_check (fields resolved later move to the end)", "src/lib/lib.rs: compile"]}
{"id": "C104", "title": "Rust programs of different versions of a schema understand each other", "statement": "Programs built from the files that gen/rust.rs makes for two versions of a schema understand each other: if fields were appended to the exported struct, the old program reads the old fields from packets of the new one and leaves the rest; if variants were added at the end of enums, the new program reads all packets of the old one as the same values, and the old one reads from any data what the new one does unless it has a new variant; if types, fields and variants were renamed, both read corresponding values from all data. (False: with a 9th or 17th variant an enum takes more bytes, and fields that can be overtaken by a later one may move. What holds: if no field can be overtaken, renaming and appending work; and added variants are compatible exactly if no enum outgrows its representation.)", "quantifier": "for all pairs of versions of a schema, all runs of the compiler for each, all values and all data, all encodings of numbers by the library, all bounds on memory", "why_tests_cant": "it relates all pairs of programs generated from infinitely many pairs of schemas on all byte strings; tests can only compare samples of both", "anchors": ["src/lib/gen/rust.rs: gen_write_impl, gen_read_impl, gen_enum", "src/lib/check.rs: resolve_enum (representation from the number of variants)"]}
{"id": "C105", "title": "A Rust program passes packets on unchanged", "statement": "If a program built from the file that gen/rust.rs makes reads a packet and writes what it has read, it writes the bytes that it read. (False: every flag of an optional field other than 0 is read like 1, and 1 is written. What holds: the value can always be written, and reading that gives the same value; the bytes are the same exactly if the flags among them are 0 or 1; and a schema has this property for all data exactly if no used struct has an optional field.)", "quantifier": "for all accepted schemas whose used enums have less than 32 variants, all runs of the compiler, all data, all libraries with one encoding for each number, all bounds on memory", "why_tests_cant": "it is about all byte strings that any generated program accepts; tests can try samples of them", "anchors": ["src/lib/gen/rust.rs: gen_read_impl, gen_write_impl (optional fields)"]}
{"id": "C106", "title": "Which Rust programs understand each other", "statement": "A program built from the file that gen/rust.rs makes for one schema reads all values that such a program of another schema writes, as the same values (same fields, same variants), exactly if the exported type of the other schema can be replaced by its own: builtin types by the same ones, enums by enums of the same name and size that begin with the same variants, structs by structs with fields of the same names, in the same order, whose types can be replaced. Both programs understand each other exactly if the exported types are the same up to the names of structs. Schemas that are compatible in this sense are compatible in TypeScript too, but not the other way round.", "quantifier": "for all pairs of accepted schemas in which no field can be overtaken by a later one and no used enum of the reading schema has 32 variants, all runs of the compiler for each, all values, all encodings of numbers by the library, all bounds on memory that allow for one item", "why_tests_cant": "it relates all pairs of generated programs in both directions; that no other pairs of schemas are compatible cannot be seen from samples", "anchors": ["src/lib/gen/rust.rs: gen_write_impl, gen_read_impl, gen_enum", "src/lib/check.rs: resolve_enum (representation from the number of variants)"]}
{"id": "C107", "title": "A run on compilable schemas succeeds", "statement": "On a disk where everything is permitted, a run on a directory all of whose schemas compile succeeds if nothing is in the way of its output: no file where a directory is needed, no directory where a file is to be written. (False: of a schema x.pkt beside a directory x.ts with a schema in it, one output is in the way of the other, and the run stops with an error half way. What holds: the run succeeds exactly if everything compiles, nothing is in the way, and there is no such pair; then each output is at its place, the directories of the outputs exist, and everything else is as before. Nothing is in the way if the output directory does not exist yet. A run on one file succeeds exactly if it compiles and nothing is in the way of its output.)", "quantifier": "for all states of the file system, working directories, input and output paths (absolute, or relative with any number of leading ./ and ../), all schemas, all runs of the compiler", "why_tests_cant": "which of the operations fail depends on the whole state of the file system and on all outputs together; tests can try some states", "anchors": ["src/main.rs: main, save_one, format_path, run_all", "std: fs::create_dir_all, fs::write"]}
{"id": "C108", "title": "A run can be repeated", "statement": "If a run has succeeded, then the same run succeeds again on the files that are there now, also if the output directory lies in the input directory (or is the same), and leaves every file and directory as it is (if version, time and iteration orders are the same). At another time or with another version, it leaves exactly what it would have left without the first run.", "quantifier": "for all states of the file system, working directories, input and output paths as in C107, all schemas, all runs of the compiler", "why_tests_cant": "outputs of the first run become part of what the second run walks over, for all directory trees and all positions of the output in the input", "anchors": ["src/main.rs: main, visit_files, run_all, save_one"]}
{"id": "C109", "title": "A run damages nothing", "statement": "Whatever a run does, also if it fails, and whatever its paths are (also with .. and where several paths denote the same place): nothing is removed, no directory becomes a file, no file a directory, and only files with names in .ts are changed. In particular every schema stays as it is.", "quantifier": "for all states of the file system, working directories, input and output paths, inputs, runs of the compiler", "why_tests_cant": "it is about all paths, in particular different texts for the same place, and all places where a run can stop", "anchors": ["src/main.rs: main, save_one, format_path", "std: fs::create_dir_all, fs::write"]}
{"id": "C110", "title": "Runs at the same time", "statement": "Several runs at the same time on one file system (on directories or on single files), whose outputs can be there together (nothing in the way, no output a directory of another, runs with the same output agree on the text): whatever the order of their operations - every mkdir, every test for a directory, every creation and every filling of a file - all runs end, all succeed, and the file system is then the one that the same runs leave one after the other, in any order. At no time is a schema changed or added.", "quantifier": "for all states of the file system, numbers of runs, arguments, working directories, schemas, and all interleavings of the operations", "why_tests_cant": "the number of interleavings is huge, and a race in the creation of shared directories shows only in a few of them", "anchors": ["src/main.rs: main, save_one", "std: fs::create_dir_all, fs::write"]}
{"id": "C111", "title": "Streams of packets in Rust", "statement": "A Rust program that reads packets one after the other from a stream into one variable, at first a default value, receives what was written, and what follows on the stream is left. (False of the code: the generated read appends to arrays and keeps optionals of the previous packet. It holds with a new default value for each packet if the used enums have at most 31 variants, and with one variable exactly if, further, no arrays or optionals are used. The bytes and the number of packets determine the packets.)", "quantifier": "for all schemas, sequences of packets, bytes that follow", "why_tests_cant": "it depends on all sequences of packets and on what earlier packets left in the variable", "anchors": ["src/lib/gen/rust.rs: gen_read_impl, gen_write_impl"]}
{"id": "C112", "title": "What failing runs leave", "statement": "Whatever the outcome of a run on a directory: if a schema does not compile, nothing has changed. Otherwise all that has changed are outputs, each whole and with the text for its schema, and new directories, each with a new output below it; all of it below the output directory or on the way to it. What a failed run has left makes no difference later: when what was in the way has been removed (and all schemas are still there), a run has the same result as if the failed run had not been.", "quantifier": "for all states of the file system, working directories, input and output paths, schemas, sets of removed files, runs of the compiler", "why_tests_cant": "it is about all obstacles at all places of the file system and all orders in which schemas are found", "anchors": ["src/main.rs: main, run_all, save_one", "std: fs::create_dir_all, fs::write"]}
{"id": "C113", "title": "From schemas in files to programs in files", "statement": "A schema is compiled on two machines, in directories or as a single file, anywhere in their file systems, with different versions, times, paths and hash orders. Then there are files at the places for the outputs, and what the program in one of them writes, the program in the other one reads. (False of the code, since the order of fields can differ, see C59. It holds if no field can be overtaken, the names can be used, the enums have at most 31 variants and the encoding of strings has the length JavaScript says; for the program of one machine alone also if fields can be overtaken.)", "quantifier": "for all file systems, directories, paths, schemas, runs, packets, libraries for reading and writing", "why_tests_cant": "it is about pairs of runs on all file systems and all packets", "anchors": ["src/main.rs: main", "src/lib/lib.rs: compile", "src/lib/gen/ts.rs: gen"]}
{"id": "C114", "title": "Sized packets are records", "statement": "A Rust program writes all packets with the same number of bytes if and only if the exported struct has no unsized member at any depth; the default value is the smallest packet. `read` never succeeds on less data than the smallest packet has, whatever its output holds, and without unsized members it takes just that number of bytes. So packets of such a schema that are written one after the other are an array of records: the i-th packet is read from position i times the size, by Rust and by TypeScript programs, and a packet that is written over that place replaces the i-th one and no other.", "quantifier": "every accepted schema (the parts about reading records: without enums of 32 variants, see C31 and C92), every library, all packets, all sequences of packets, all positions", "why_tests_cant": "It is about all schemas, all sequences of packets and all positions; that every unsized member makes a difference somewhere cannot be seen from examples.", "anchors": ["src/lib/gen/rust.rs: gen_write_impl, gen_read_impl", "src/lib/gen/ts.rs: gen_write_impl_*", "README.md: TODO (sized packets)"]}
{"id": "C115", "title": "Packets made with the constructor can be sent", "statement": "new C(a, b, ...) with values that hold the components of a packet (absent optional components may be left out at the end) makes one new object, an instance of C that holds the packet, and changes no other object. Calling write on it, with or without a buffer, returns the documented encoding of the packet, and read of any program compiled from the same run returns an object with the same contents (under the conditions of C31). The constructor works exactly if no field is called __proto__.", "quantifier": "every compiled schema with usable names, every packet, every state of the heap, every library", "why_tests_cant": "The constructor has as many parameters as the schema has fields, with arbitrary names; tests construct samples. The repository has no test that executes generated code.", "anchors": ["src/lib/gen/ts.rs: gen_impl (constructor), field_ctor_type"]}
{"id": "C116", "title": "Arguments of the constructor are in the order of the schema", "statement": "new C(a, b, ...) stores its arguments in the fields of the exported struct in the order in which the schema declares them. The code violates it: the parameters are in the order in which the fields were resolved, which depends on the hash seed of the run. The declared order is guaranteed exactly if no field of the exported struct can be overtaken by a later one.", "quantifier": "every compiled schema, every run of the compiler, all arguments", "why_tests_cant": "The hash seed differs in every process, and whether the order can change depends on the whole graph of types.", "anchors": ["src/lib/gen/ts.rs: gen_impl (constructor)", "src/lib/check.rs: resolve_second_pass"]}
{"id": "C117", "title": "Packets that were read are instances of the class", "statement": "What C.read returns, if not null, is an instance of C, as its declared type says, so that write can be called on it. The code violates it for every packet: Object.create(C) makes an object whose prototype is the class and not C.prototype; packet instanceof C is false and packet.write() throws a TypeError. What holds: new C(packet.a, packet.b, ...) is an instance that holds the same packet and can be sent.", "quantifier": "every compiled schema with usable names, every packet that is read", "why_tests_cant": "A property of the prototype chain for all packets; the repository has no test that executes generated code.", "anchors": ["src/lib/gen/ts.rs: gen_impl (Object.create)"]}
{"id": "C118", "title": "Values that the declared types allow arrive", "statement": "A packet that the declared TypeScript types accept (any integer for an integer type or an enum, any single-precision number for float) is read back by the receiver as it was written. The code violates it: write checks nothing. What holds: write returns bytes for every such packet and never throws; the packet is read back exactly if every number is in the range of its type, every enum holds a number between two of its at most 31 variants, and every string has as many bytes as UTF-16 units; with a library that writes the lowest bits of a number, the receiver gets the packet with every number wrapped to its type, or null exactly if an enum does not let its (wrapped) number through.", "quantifier": "every compiled schema with usable names, every packet with numbers of any size, every library", "why_tests_cant": "All combinations of numbers at all depths, in every schema; tests write values in range. The repository has no test that executes generated code.", "anchors": ["src/lib/gen/ts.rs: gen_write_impl_builtin, gen_write_impl_enum, gen_read_impl_enum", "src/lib/gen/ts.rs: field types (number)"]}
{"id": "C119", "title": "The declared types and the code of the class agree", "statement": "What C.read returns, if not null, has the fields that the generated class declares, at any depth, with values of the declared types, where an enum holds one of the constants of the generated const enum. The code violates the last part: an enum can hold any number between its constants (for one call: it holds constants exactly if the packet read does). What holds: with 'between two constants' for 'one of the constants' the statement is true for all data; a JavaScript value has the declared fields exactly if it holds a packet with numbers of any size and enum numbers that the declaration allows; write returns bytes, and does not throw, for every value of the declared type, however it was made.", "quantifier": "every compiled schema with usable names, all data, every heap, every value in it, every library, every reading of enum types", "why_tests_cant": "Relates two parts of the generated text, for all schemas and all values at run time; the repository has no test that executes generated code or runs the TypeScript checker.", "anchors": ["src/lib/gen/ts.rs: gen_struct_decl, gen_enum_decl, field_ctor_type", "src/lib/gen/ts.rs: gen_read_impl_enum, gen_write_impl_struct"]}
{"id": "C120", "title": "Rust and TypeScript programs of different schemas", "statement": "A TypeScript program of one schema reads all packets that a Rust program of another schema writes, as the same packets, if and only if the schemas are compatible as for two TypeScript programs (C89): the same fields in the same order, enums of the same size with at least as many variants or integers of that size in their place, whatever the types and variants are called. A Rust program reads all that a TypeScript program of another schema sends (ASCII strings, see C96) under the same condition, although two Rust programs also need the same names of enums and variants (C106). They understand each other both ways exactly if the exported types are the same up to names of types and variants.", "quantifier": "every pair of compiled schemas in which no field can be overtaken (for the resolved types: every pair), all values, both libraries", "why_tests_cant": "An equivalence over all pairs of schemas and all values, across the output of two generators; the Rust generator is not even compiled.", "anchors": ["src/lib/gen/ts.rs: gen_read_impl_enum, gen_write_impl_enum", "src/lib/gen/rust.rs: gen_read_impl_enum, gen_def_enum"]}
{"id": "C121", "title": "Compiling takes time linear in the generated code", "statement": "For every accepted schema the generator takes a number of steps (characters copied, names joined, operations on the stack of names, closures, rounds of loops) between one and eight times the number of characters of the code; a whole compilation takes steps quadratic in the length of the schema and linear in the length of the code, and one that fails steps quadratic in the length of the schema.", "quantifier": "every schema text, version, time, hash order", "why_tests_cant": "An upper bound over all schemas. The names that are joined grow with the nesting of the structs, and structs without fields generate no code for write, so that it is not clear that every step is paid for by a character. Because the code may be exponentially longer than the schema (C78), no polynomial in the schema bounds the time.", "anchors": ["src/lib/gen/ts.rs: all functions", "src/lib/gen/gen_ctx.rs: GenCtx", "src/lib/gen/mod.rs: cat!, generate", "src/lib/lib.rs: compile"]}
{"id": "C122", "title": "The Rust file determines what is used of the schema", "statement": "If the file that rust.rs emits for a schema is accepted by the Rust compiler, and the same file is emitted for another schema, then both schemas export the same type, use the same types, and declare these alike up to the order of fields; the order is the same, too, if no field can be overtaken (C24), and then the same program (definitions in any order) can be emitted for two schemas if and only if they agree in everything that is used.", "quantifier": "every pair of accepted schemas, hash orders", "why_tests_cant": "Over all pairs of schemas. Rust has names for the builtin types that a schema may use for its own types, and functions are emitted only for the exported type, with nothing for the types in it, so the definitions must tell everything.", "anchors": ["src/lib/gen/rust.rs: gen_def_struct, gen_def_enum, resolve_typename, gen_write_impl, gen_read_impl"]}
{"id": "C123", "title": "Generated code is indented by its brackets", "statement": "The TypeScript module after its header comment, and the file that rust.rs emits, consist of complete lines without empty ones; every line begins with exactly four blanks for each bracket open at that point (a closing bracket that begins the line counts as closed), so every block is indented by one level, and the generators' push_indent and pop_indent match on every path.", "quantifier": "every accepted schema, hash order, version and time", "why_tests_cant": "The indentation is state of the generator that is changed in dozens of places along recursive calls; a missing pop_indent shows only for the combination of optional, array and nested types that reaches it.", "anchors": ["src/lib/gen/gen_ctx.rs: push_indent, pop_indent","src/lib/gen/mod.rs: append!, cat!", "src/lib/gen/ts.rs: gen_write_impl, gen_read_impl, gen_def_struct, gen_def_enum", "src/lib/gen/rust.rs: gen_write_impl, gen_read_impl, gen_def_enum"]}
{"id": "C124", "title": "The Rust file is not much longer than the schema", "statement": "The file that rust.rs emits is at most polynomially longer than the schema.", "quantifier": "every accepted schema, hash order", "why_tests_cant": "A bound over all schemas. The functions contain the code of every struct once for each place where it is used, so schemas in which this explodes are needed to see it fail.", "anchors": ["src/lib/gen/rust.rs: gen_write_impl_struct, gen_read_impl_struct, gen_def_struct, gen_def_enum"]}
{"id": "C125", "title": "The Rust file is plain ASCII code", "statement": "The file that rust.rs emits consists of printable ASCII characters and LF, whatever characters the comments of the schema have; it contains no single quote, backquote, slash or backslash, so nothing in it is a comment, a character literal, a lifetime or an escape; its string literals are the names of the enums that are used, each once; and it ends with a line end.", "quantifier": "every accepted schema, hash order", "why_tests_cant": "Over all schemas and all names in them; a name with another character would let a schema put code of its own into the program.", "anchors": ["src/lib/gen/rust.rs: all", "src/lib/parser.rs: ident"]}
{"id": "C126", "title": "Emitting the Rust file takes time polynomial in the schema and the file", "statement": "The number of steps that rust.rs takes to emit the file (characters pushed, copied or formatted, fields and variants gone through, types looked at) is bounded by a polynomial in the lengths of the schema and of the emitted file.", "quantifier": "every accepted schema, hash order", "why_tests_cant": "An asymptotic bound over all schemas; a measurement covers some sizes of some schemas.", "anchors": ["src/lib/gen/rust.rs: all"]}
{"id": "C127", "title": "A struct inside of a Rust packet is laid out like a packet of its own", "statement": "If a packet holds a struct value (as a field, in an optional or in an array, at any depth), then the bytes that the emitted Rust `write` produces for the packet contain, as one piece, the bytes that the Rust program for the schema of this struct alone writes for the value; and what `read` accepts as the packet contains a piece from which the program for the struct alone reads the same value.", "quantifier": "every accepted schema with a struct in it, schema of this struct alone, hash orders of both runs, value, packet, byte library", "why_tests_cant": "Relates two programs over all schemas, values and bytes, and over the hash orders of two runs.", "anchors": ["src/lib/gen/rust.rs: gen_write_impl_struct, gen_read_impl_struct", "src/lib/check.rs: resolve_one_second_pass"]}
{"id": "C128", "title": "Variants combined in TypeScript arrive in Rust", "statement": "Variants of an enum are different bits, and TypeScript programs can send combinations of them (C90). Whatever combination TypeScript programs receive, the Rust program of the same schema receives too.", "quantifier": "every accepted schema, packet with combinations of variants, byte libraries that agree", "why_tests_cant": "Relates two generated programs over all schemas, values and combinations.", "anchors": ["src/lib/gen/rust.rs: gen_def_enum_tryfrom_impl, gen_read_impl_enum", "src/lib/gen/ts.rs: gen_write_impl_enum"]}
{"id": "C129", "title": "A Rust program receives a stream of packets of a TypeScript program", "statement": "When a TypeScript program writes any number of packets one after the other, the Rust program of the same schema that reads packet after packet receives the same packets in the same order and stops where the last one ends.", "quantifier": "every accepted schema, every list of packets, anything after them, byte libraries that agree", "why_tests_cant": "Relates two generated programs over all schemas and streams of any length; one lost byte shows only in a later packet.", "anchors": ["src/lib/gen/rust.rs: gen_read_impl, gen_read_impl_struct", "src/lib/gen/ts.rs: gen_write_impl, gen_write_impl_struct"]}
{"id": "C130", "title": "A TypeScript program takes packets of a Rust program from a stream", "statement": "read of the TypeScript program has no position in the data, but the packets that a Rust program has written one after the other can be taken from the front of the data: read a packet, skip as many bytes as write makes of it, and go on. This gives the same packets in the same order and stops where the last one ends, whatever text they contain.", "quantifier": "every accepted schema, every list of packets, anything after them, byte libraries that agree", "why_tests_cant": "Relates two generated programs over all schemas and streams of any length. The bytes that TypeScript writes differ from those skipped, and only their number has to be the same.", "anchors": ["src/lib/gen/ts.rs: gen_read_impl, gen_write_impl", "src/lib/gen/rust.rs: gen_write_impl, gen_write_impl_struct"]}
{"id": "C131", "title": "A TypeScript program can pass on packets between Rust programs", "statement": "When a TypeScript program reads a packet of a Rust program and writes what it has read, another Rust program reads the same packet (up to the bits of NaN).", "quantifier": "every accepted schema, every packet, anything after it, byte libraries that agree", "why_tests_cant": "Relates three generated functions in two languages over all schemas and packets.", "anchors": ["src/lib/gen/ts.rs: gen_read_impl, gen_write_impl", "src/lib/gen/rust.rs: gen_read_impl, gen_write_impl"]}
