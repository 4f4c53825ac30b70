# Formal model of packetc in Lean 4

packetc compiles a schema text to TypeScript: parse (PEG) → type-check (hash maps) → generate text → save.
The model is a set of total, computable Lean functions transcribing the Rust code function by function. To say
what the *generated* `read` and `write` do, there is also a lexer, a parser and an interpreter for the part of
TypeScript that the generator uses, so that the statements are about the text that `compile` returns.

## Layout

| directory | contents |
|---|---|
| `lean/Verif/Model/` | transcription of `/repo/src` (every definition cites file and lines); `Tests.lean` runs the unit tests of the crate, and more, on the model (`#guard`: tests of the transcription, not proofs) |
| `lean/Verif/Js/` | TypeScript: tokens and lexer, syntax, parser, loading of a module, interpreter; contract of the `packet` runtime library |
| `lean/Verif/Rust/` | Rust: syntax and print of the emitted subset, lexer and parser, checks of the compiler, interpreter; the file and the program emitted for a schema |
| `lean/Verif/Spec/` | small independent specifications (grammar, well-formedness, resolution, wire format, messages, files, ...) |
| `lean/Verif/Proof/` | helper lemmas |
| `lean/Verif/Props/` | the property theorems, each followed by an example that meets its hypotheses |
| `properties.jsonl`, `MANIFEST.json` | the properties, and the theorems that settle them |
| `seeded/LOG.jsonl` | wrong programs on which the theorems were tried |

How to read `seeded/LOG.jsonl`: after an edit of the model, the declarations whose proofs no longer compile are in `lemmas_failed`. `theorems_failed` are the theorems of the
broken claims that are among these or depend on one of them. This shows that the proofs notice the edit. It does not show that each of these theorems has become false: a
lemma can also fail because its proof followed the form of the old definition. In the entries whose note says so, the build was stopped as soon as every broken claim had such a
theorem; otherwise the failed proofs were skipped and the rest of the project was built, to find the claims that are still proved.

Naming: `Cnn_claim` is the full statement of a property that turned out false of the code, `Cnn_false` refutes it,
`Cnn_..._partial` is what holds instead; its comment says what is missing.

## What is modelled

| code | model | remarks |
|---|---|---|
| `src/lib/parser.rs` (grammar) | `Model/Peg`, `Model/Parser` | all rules; the `peg` 0.6 runtime is transcribed from its semantics: ordered choice, greedy repetition, furthest failure |
| `src/lib/ast.rs` | `Model/Ast` | all |
| `src/lib/check.rs` | `Model/Check` | all, including the wording of errors |
| the same files, gen/*.rs | `Model/ParserWork`, `Model/CheckWork`, `Model/GenWork`, `Model/RustGenWork` | the steps that parser, checker and the two generators take (what counts as a step is said there); for parser and checker, allocation, hashing and comparing strings count as one step each; for the generator, each copied or compared character |
| `scripts/gen_random_pkt.py` | `Model/Fuzz` | which choices are possible (not how probable they are); line ends as on Unix |
| `src/lib/gen/gen_ctx.rs`, `gen/mod.rs` | `Model/Ts` (`GenCtx`) | what `ts.rs` uses |
| `src/lib/gen/ts.rs` | `Model/Ts` | all |
| `src/lib/lib.rs` | `Model/Compile` | `compile`, `pretty_error` |
| `src/main.rs` | `Model/Cli` | language argument, walk, reading, compiling, output paths, order of file operations, errors |
| `src/main.rs` | `Model/CliEvents` | the same functions, recording listings, reads, printed lines, created directories and writes in order; shown to agree with `Model/Cli` (`main_recorded`) |
| `src/main.rs` | `Model/Folders` | `save_one`, the loop and `main` on a file system with directories, with `create_dir_all` and `write` as in the standard library; no links, no permissions, no shortage of space; shown to refine `Model/Cli` (`C107_refines`) |
| `src/main.rs` | `Model/Parallel` | the same functions as programs of single operations, so that runs can be interleaved; shown to agree with `Model/Folders` (`C110_alone`); all reading comes before the first operation |
| `src/lib/gen/rust.rs` | `Model/Rust` | all; the file is commented out at this commit (`gen/mod.rs:2`, `main.rs:23`) and the traits it implements are gone, so its functions are modelled one by one and not as a part of `compile` |
| unit tests of the crate | `Model/Tests`, `Model/RustTests` | run on the model |

Not modelled: `clap` parsing of the command line apart from
`Lang::from_str`, `benches/`, the expected-token sets of `peg` errors (the code
drops them), Rust stack overflow, memory exhaustion.

## Modelling decisions

* Text is `List Char` (`Str`). Byte offsets are computed from UTF-8 sizes.
* `peg`: `mark_failure` only ever raises a maximum, so the error state is a returned maximum instead of a mutable
  cell. Repetition has fuel `|input|+1`; running out of fuel is the explicit outcome `diverge` (C06: never happens).
* `HashMap`: association list with lookup/insert/remove; *iteration order* is an arbitrary function returning a
  permutation of the entries (`FairOrd`, `Env.Fair`); theorems quantify over every such function.
* `Rc<RefCell<..>>` in resolved types: never mutated after construction, modelled by value.
* `panic!`, `unwrap`, out-of-bounds indexing, arithmetic overflow: explicit `panic` outcomes (C11, C27: never happens).
  The recursion depth of the checker is a fuel; C11 shows that it does not matter.
* `1 << value` in `gen_read_impl_enum` is an `i32` shift (integer fallback), modelled on `BitVec 32`.
* `GenCtx` mutation: functions `GenCtx → GenCtx`.
* Clock and crate version are parameters (`Env`).
* CLI: the input is a finite tree that does not change; links are what they point to; a non-UTF-8 name is a flag;
  listing order is arbitrary; every file operation may fail (`Disk`); output paths are lists of components.

## TypeScript

* `Js/Lexer` and `Js/Parse` follow the grammars of ECMAScript and TypeScript for the constructs that occur and are
  stricter elsewhere (line ends only where no semicolon insertion can happen). They were written independently of the
  generator and of the printer; that the printed program parses back is a theorem (C60).
* `load` is the list of errors that make a module unusable: keywords as names, duplicate members, parameters,
  methods or variables, unknown type names, clash of field and method. Annotations have no effect at run time.
* `Js/Types` is a type checker with the rules of `strict` mode for the subset (inference of `let`, `any`, narrowing by
  `switch` and `? :`, optional members, enums and numbers). It is conservative: it knows fewer conversions than
  TypeScript. The declarations of `Reader` and `Writer` are assumed (`read_T(): number`, ...). Options beyond `strict`
  (`isolatedModules`, `noUncheckedIndexedAccess`) are not considered.
* `Js/Sem` is a definitional interpreter: heap of mutable objects with prototypes, block scopes with temporal dead
  zone, early errors, exceptions, strict mode. What the subset does not need stops with `Throw.unsupported`; the
  theorems show that this does not happen. Loops have fuel; results hold for every sufficient fuel.
* `Js/Construct` is what `new C(..)`, `x.write(..)` and `x instanceof C` do; parameter properties are assignments (targets before ES2022).
* `Spec/Conform` is TypeScript's structural typing of values: extra properties are allowed, `null` counts as `undefined`, and which numbers a const enum has is a parameter.
* The library `packet` (`Reader`, `Writer`) is not in the repository. `Js/Runtime` states its contract (fixed-width
  encodings that can be decoded, a text encoding, `failed` is set and stays set when the bytes do not suffice or are
  not a text). Every theorem holds for every `Runtime`; `leUtf8` is an instance (little endian, UTF-8).
* Numbers are integers or 32-bit floats; strings are sequences of code points (no lone surrogates).

## Rust

* `Rust/File` puts the parts that rust.rs emits together, in the order in which its tests push them; nothing in the repository does so.
* `Rust/Lexer` and `Rust/Parse` read text as a program of the emitted subset and reject everything else. C91 to C97 are about what they make
  of the emitted text. That the Rust compiler reads it in the same way is trusted.
* `Rust/Sem` is an interpreter for the subset: local variables, fields, `match` on options, loops, `?`. References are transparent (nothing
  is aliased in these programs), `usize` has 64 bits. Floats are bit patterns.
* The `packet` crate is not in the repository. `Lib` states what is assumed: fixed-width encodings that can be decoded, and how many items a
  `Vec` can hold before the process is stopped. `read_string` fails on what is not UTF-8.
* `Rust/Check` is what the compiler checks in the subset: types, moves out of borrowed places, places that may be assigned to, uses of
  moved locals, names of definitions, fields, variants and locals. `write_T` is assumed to take a number, `write_string` a `&str`. Lints are
  left out.
* `Rust/Left` gives the variables at the moment when a run ends, also if it fails (out of memory is not considered: the process is gone).
* `Rust/Steps` counts the statements that a run executes; the time inside of the `packet` crate and of `default()` is not counted.

## Proof approach per property

| ids | approach |
|---|---|
| C01-C06 | relational grammar in `Spec/Grammar`, equivalence with the PEG model by induction; canonical printer for C02; C05 is false: witness and exact rule |
| C07-C10 | bound on the furthest failure; `pretty_error` on `List Char`; C09 false for non-ASCII: witness and ASCII theorem |
| C11-C17, C20-C23 | invariants of both passes (`J`, `Coh`, `Final`) over arbitrary hash order; acyclicity by size of resolved types; C15 false: witness |
| C18, C24, C25 | false of the code: witnesses, and conditions under which they hold |
| C61 | the cache is closed under "contains": sufficiency of `InOrder`; necessity by the order that visits the overtaking type first; existence by visiting types in order of size; all possible orders by visiting a closed set of types first |
| C74 | the steps of a run on one schema are followed by a run on the other that visits the used types in the order in which the first one started them; invariant: both caches agree on used names |
| C75 | Hoare-style pairs for the reader functions (a run succeeds exactly if the data begins with bytes in a relation to the result), composed along the type; relation in `Spec/Accept.lean` |
| C76 | the relation of C75 with side conditions on numbers, flags and texts; `encode` gives back the bytes exactly under the conditions (alignment by widths, field after field) |
| C77 | simulation of C74 on the types used by T (both caches agree on them); induction over the occurrence for bytes |
| C78 | lengths of the printed program by induction over the types (lower and upper bound); refutation with a tower of structs each used twice; the cubic bound by showing that a struct used once is met once |
| C79 | longest chain in the acyclic reference relation, by induction over resolved types; pigeonhole |
| C80 | variables of each block of the program as a list of field paths; equal to the paths of the schema by induction over the resolved types; a block is in order iff different paths give different names |
| C81 | a copy of the grammar that also counts steps, equal to the parser by `rfl`; a constant cost for each rule and each character consumed, every failing alternative fails after a bounded prefix or after one run over what it consumed |
| C82 | step counts beside each function of the checker; the work of both recursive functions is paid for by a sum over the names not yet visited; family of schemas with two structs of 2^k fields for the lower bound |
| C83 | the random choices as data, the main loop as a relation on its variables; a run with good variants is a text of the grammar, one with a variant beginning with a reserved word stops the parser in that line; fields refer to earlier types only, so no cycles; exact condition |
| C84 | specification `Possible` (Spec/Possible.lean): an error is a function of the entry of the second pass and of the set of types known by then; both passes are followed exactly; every closed set of resolvable types is reached by some order. Exact versions of C15 and C58 follow |
| C85 | injectivity of the encoding with arbitrary bytes behind both values (as for C41), then induction over the sequences; false for a schema with empty packets, exact condition by the sizes of C86 |
| C86 | specification `Least` and `Sized` on the schema (Spec/Sized.lean); smallest size and a smallest value by induction over the resolved type, and a bigger value for each type that is not sized; transported to the schema by induction over the resolved types |
| C87 | specification `toDos`, `toUnix` (Spec/LineEnds.lean); both map derivations of the grammar to derivations with the same syntax tree, by induction over the derivation; then C01 |
| C88 | specification `Plain`, `Code` (Spec/Chars.lean); the generated text is the print of a program (C26), whose pieces are literals, numbers and legal names (C04), by induction over the program |
| C89 | specification `Understood`, `Compatible`, `SamePackets`, and `CompFs` for resolved types (Spec/Compat.lean); sufficient: what one type writes holds the same value for the other (C75), by induction over types; necessary: values of one type are values of the other, so the full value (all optionals present, one item per array) is no smaller for the other type, while the bytes written must suffice for it, so that all parts have the same size |
| C90 | `Combines` (bitwise or of 32-bit integers, Spec/Flags.lean); execution of `read` on what `write` makes of arbitrary numbers, by induction over types; bits of the number against the printed bounds; false in general: witness, and the exact condition on the combination |
| C91 | the emitted text is the print of a structured program (`Rust/Program`), by induction over the resolved type with the variable stack of `GenCtx`; lexer and parser (`Rust/Lexer`, `Rust/Parse`) invert the print, by induction over programs; the definitions are those declared (`DefinedAs`); the program is run by an interpreter (`Rust/Sem`); specification of the bytes `encFs` (Spec/Rust.lean); induction over types |
| C92 | `read` as a function on bytes (proved equal to the interpreter's run), inverse of `encFs` by induction; false for 32 variants: the value that has the last variant everywhere; exact condition |
| C93 | specification `HasFs` (bytes that hold a value); both directions by induction over types; every run ends in a value or an error |
| C94 | `reserve` in the interpreter stops the process above `maxItems`; a packet of default values up to the first array, then the largest length; exact condition by induction over types |
| C95 | `read` as a function of the earlier value; a value with one item in each array and all optionals present shows the difference; exact condition by induction over types |
| C96 | the bytes accepted by the Rust reader (C93) and by the TypeScript reader (C75) are compared by induction over types, given that the two libraries agree on numbers and that text is UTF-8; exact conditions in both directions |
| C97 | the checks of the compiler on the emitted subset (`Rust/Check`: types, moves out of borrowed places, assignable places, names) as a function on programs; its result on the emitted functions by induction over types, and the condition in terms of the schema |
| C98 | C97 gives the conditions on names and enums under which C91 to C93 and C96 hold |
| C99 | `Rust/Steps.lean` counts executed statements; whatever the program, if each round of each loop reads or writes a byte, their number is bounded by bytes times the size of the text (`Proof/RustSteps`); emitted loops do so unless the items have no content, and then data that keep it busy are built by induction over types (`Proof/RustWork`) |
| C100 | `Rust/Left.lean` follows a run to where it fails and gives the variables there; by induction over types these are computed by a function of the type, the old value and the data (`Proof/RustLeft`), which is compared with the old value; for the other schemas a value and data are built that show the difference |
| C101 | false: the argument is a directory (`Props/CliOut.lean`). Exact condition from the paths computed for C50: equal to the argument only for an input called `..pkt`; else nothing is written there. |
| C102 | competing encodings (`Better`: self-delimiting, nowhere longer, somewhere shorter) and the kind of a type (`KindOf`) in Spec/Shrink.lean; types whose values use all byte strings (dense) leave no room for another code, by counting values of each length; for the others shorter codes are built; composed over structs, arrays and optional fields by induction over types (`Proof/Shrink`), carried to the schema |
| C103 | `SameUsed` (Spec/Resolved) and `LikeUsed` (Spec/Inverse: up to the order of fields); from the module that is loaded: its declarations give names, flags and variants (`Describes`, C60), the statements of `read` can be parsed back into the fields they were made from (`Proof/Inverse`, by induction over types), which tells the number types apart; followed along the use of types from the export; the converse is C74 |
| C104 | the relations of schemas of C63-C65 (Spec/Evolution) and corresponding Rust values (`SameFs`, Spec/RustEvolution); the types resolved from both versions are similar (`SimFs`, Proof/Evolution, which relates names of types as well); induction over similar types that the bytes of a value of the one (`HasFs`, C93) are the bytes of a corresponding or the same value of the other (Proof/RustEvolution); for the converse, the value with everything in it takes more bytes in the new version |
| C105 | the bytes of a value whose flags are 0 or 1 (`NeatFs`, Spec/RustRelay); induction over the types that these are the bytes that are written (C91) and, without optional fields, all that are read (C93); for the converse, the value with everything in it, with the flags replaced by 2 (Proof/RustRelay) |
| C106 | relation of types of two schemas (`Stands`, Spec/RustCompat) and of resolved types (`TakesFs`); if all values of the one are values of the other and the value with everything in it takes no more bytes, then the types agree except for variants; then each value takes the same number of bytes in both, so that the bytes of each enum are known and variants agree; converse by induction over the types (Proof/RustCompat) |
| C107 | file system as a function from places to items, with `mkdir`, `create_dir_all`, `write` (Model/Folders); what `create_dir_all` does along names by induction from the end, one call of `save_one`, then all calls by induction over the schemas: each output must be free and not above or below another; refinement of Model/Cli (`C107_refines`) |
| C108 | the schemas after a run are those before (outputs do not end in `.pkt`, C107 says what else changes), so that the second run is a run of C107 on the new state; the result is determined (`after_unique`); trees exist in finite file systems (Proof/FolderTree) |
| C109 | invariant of all operations of Model/Folders for arbitrary paths: what is there stays, except for a file at the last name of the path that is written (Proof/FolderRun) |
| C110 | runs as programs of single operations on the file system (Model/Parallel), any interleaving (Spec/Parallel); rely and guarantee: directories stay, outputs stay free, each run keeps a list of what it has still to write; an operation that empties a file has it on its list (Proof/Parallel); termination by the depth of the programs; the order one after the other is one of the interleavings |
| C111 | sequences of calls of the Rust `write` and `read` (inductive relations in Props/RustStream); induction with C92 and C95; the converse with a filled packet followed by a default packet; a counterexample |
| C112 | the file system of C107-C109 (Model/Folders); save_one either writes its output or changes nothing (Proof/Folders), so by induction over the schemas each change comes with a whole output; for the later run: schemas and free places are the same after the removal, and C107 determines the result |
| C113 | puts together the file system (C107), the compiler (C01, C45), the text of the generated module (C60, C80) and its behaviour (C31, C59); `Produced` in Spec/EndToEnd says that a run has succeeded and where the output is |
| C114 | for the Rust reader, induction on the type that it takes at least the smallest size (`Takes`), for the writer that it writes it; records and updates by induction on the sequence; TypeScript from C86, C31, C32, since sized types have no strings |
| C115-C117 | `new C(..)`, method calls and `instanceof` in `Js/Construct`; induction over the parameters; the parameters are the fields of the run (C60); orders by C61; C117 false for every packet |
| C118 | the execution of `write` for values of the declared types (`DeclaredFs`), of which packets are a special case; wrapping keeps the bytes; decoding as in C31; false: 300 in a `uint8` |
| C119 | structural typing of heap values (`Conforms`, Spec/Conform.lean) by the parsed declarations of the emitted text; both directions by induction over resolved types, with C60 for the declarations; enums: false, witness 3 for constants 1, 2, 4 |
| C120 | C75/C93/C96 give the bytes that each program reads; bytes that hold a value of a type hold it also as a value of a type that takes its place (`cross_fields`), by induction over types; conversely the value with everything in it, as in C89 |
| C121 | The generator once more with a counter beside the context (`Model/GenWork`), line by line; erasure of the counter proved (`same_*`). By mutual induction over the types, every function pays eight steps with each character that it writes, with a credit for the names on the way so that `write` of structs without fields is paid for by the code of `read`. With C81 and C82, a bound for `compile`; with C78, no polynomial bound. |
| C122 | From C91: every definition in the file is that of a type that is used, and each such type has one. The names of types can be taken back to those of the schema (`schemaName_rust`), so definitions determine declarations (`definedAs_like`); induction over references for the types that are used. Converse by C74. |
| C123 | A reader of the text keeps the brackets that are open and the blanks of the line begun (Spec/Layout). Names and expressions leave the brackets as they were and begin with no blank or bracket; statements printed at 4n blanks below n brackets read back to the same brackets, by induction over the printed programs of C26 and C91. |
| C124 | As for C78: every statement is at most a constant times the length of path, indentation and names; definitions are paid for by the declarations (C91). The tower of structs of C78 for the counterexample. |
| C125 | By induction over the printed program (C91); names are identifiers (C04). |
| C126 | The generator with a step counter, which emits the same files (`C126_same_generator`); by induction over the types, steps are paid for by emitted characters or by hollow fields. False without the exception for hollow fields: a tower of structs over an empty one. |
| C127 | As C77, for Rust values: a value within a value is an infix of the bytes (`enc_within`, `has_within`), by induction over where it occurs; runs that agree on the fields from C77's `shares_run`. |
| C128 | From C90 (what TypeScript writes and reads of combinations) and C96 (Rust reads what TypeScript reads, with single variants); reading is a function, so nothing is mistaken for another packet. |
| C129 | Induction on the packets from C96 (one packet with anything after it). In the other direction, the bytes that Rust has read for a packet equal to the one sent are those that were written for it (align_Fs), so the rest of the stream is the same. |
| C130 | Induction on the value: the TypeScript value of a Rust value has the fields of the schema and its size is the number of bytes of the Rust value (jsFs_sized); with C41, C91 and C96 for one packet, then induction on the packets. |
| C131 | From C96 in both directions and C130_same_size; reading and writing are functions. Rust values with the same content in TypeScript are equal up to NaN (`Spec/SameVal`, by induction over the type). |
| C19 | arithmetic on `resolve_enum` |
| C26-C29 | structured program and printer; text generator = printer ∘ structured generator by induction over types |
| C30-C37, C39-C43 | text lexes and parses to the structured program (`Proof/JsLex`, `JsParse`, `Text`); its execution, by induction over types and values, for every `Runtime` |
| C38, C44 | static scope analysis of the structured program; false in general: witnesses; sufficient conditions, and the exact condition in terms of field paths of the schema (`VarsApart`, Spec/Vars.lean) |
| C45, C46 | composition |
| C47-C53 | file tree; induction over trees; paths as texts and lists of components |
| C54, C57, C58 | error cases of the invariants above; `Says` spells out what each sentence claims; C57, C58 false: witnesses |
| C18, C50, C71, C73 (exactly when they hold) | `Props/Always`: the partial theorems as iff; for C18 any later field can be renamed to repeat a name after a field of non-builtin type; C73 fails for every message |
| C33, C43 (exactly when they hold) | C43: `CalmFs` (Spec/Calls.lean), data that makes a loop run 2^32 times built by induction over types. C33: `TextFreeFs` (Spec/Truncate.lean), for each type with a string a packet whose prefix is accepted, by induction over types (the bytes of what follows the string are put into the string) |
| C09, C15, C25, C36, C37, C39, C57, C58 (exactly when they hold) | `Props/Parser`, `Props/Possible`, `Props/Exact`: the partial theorems as iff, with the witnesses of the `_false` theorems generalised to every excluded case |
| C55, C56 | every prefix up to the reported position can be completed to a schema; locality of the PEG run |
| C59 | from C61 and C31; false in general: two runs on one schema |
| C62 | `read` only allocates; results are represented above the old heap |
| C63-C66 | `Spec/Evolution` relates two versions of a schema; the resolved types are similar (`Proof/Evolution`, by size of types), and similar types encode and decode alike (by induction over types); C63, C65, C66 false in general: witnesses; exact condition for C65 from the size of a value with all optionals present and one item in each array (`Proof/Outgrow`) |
| C60 | lexer and parser run on the printed text, by induction over program and declarations; false for names TypeScript reserves |
| C67 | the static types of paths follow the declarations (`FitsT`, by size of types); checking the programs by induction over types; false for exports that hide a global name; exactly when (`C67_exact_partial`): success of the check implies that `new Array` is never checked if the class is called `Array`, by induction over types |
| C68, C69 | shape of the recorded events, by induction over tree and schemas |
| C70, C71 | `with_extension` on path texts; replaying the recorded events changes only the files that are written |
| C72 | composition of C48 and C49 |
| C73 | the walk is compilation of the list of schemas, one after the other; false: two empty files at different places |

A property marked `partial` in `MANIFEST.json` is, without exception, *false* of the code as it stands (`Cnn_false` is a
theorem); the `_partial` theorems give conditions under which it holds, exact ones where the note says so.

## Trusted base

* Lean's kernel. No axioms of our own, no `sorry`, `native_decide`, `bv_decide`, `implemented_by` or `unsafe`.
* Axioms: every theorem in `MANIFEST.json` depends on `propext`, `Classical.choice` and `Quot.sound` only
  (`C11_depth_irrelevant`: only `propext` and `Quot.sound`).
* That the transcription in `Model/` says what the Rust code does, including the semantics of `peg`, `HashMap`,
  `std::path`, `String` and integer arithmetic used there.
* That `Js/` says what TypeScript and JavaScript do with the generated text, and that the `packet` library fulfils
  the contract in `Js/Runtime`.

## What the proofs found in the code

Parser
* Names that begin with a reserved word (`structure`, `exported`) are rejected (C05).
* Blanks after `export X`, lines of blanks only, and comments inside enums are errors.
* Field types and export names may be empty or begin with a digit as far as the parser is concerned.
* `pretty_error` indexes characters with a byte offset, so it shows a wrong character after non-ASCII text (C09).

Checker
* The check for duplicate field names stops at the first field that is not a builtin (C18).
* Fields of struct types move behind later fields, depending on the hash seed (C24, C25, C59, C61): two programs
  generated from one schema may not understand each other.
* For the same reason a field appended to a struct may be sent first, which breaks old programs (C63).
* The 9th and the 17th variant change the width of an enum (C65).
* The type of every field of the exported struct is passed through again although it was visited, which makes
  the checker quadratic (C82).
* A cycle can be reported as a missing declaration, depending on the hash seed (C15, C57, C58). An optional array is
  noticed before or after a missing type, depending on whether its type is resolved already (C84).

Generator
* `1 << 31` is negative as `i32`, so enums with 32 variants are always rejected by `read` (C37).
* Only the range of an enum value is checked: non-variants are accepted (C36), so what `read` returns need not have the type that the class declares (C119).
* The parameters of the constructor are in an order that depends on the hash seed: after compiling again, `new C(a, b)` may mean something else (C116).
* `Object.create(C)` should be `Object.create(C.prototype)`: packets that were read are no instances and cannot be written again (C40, C117), and
  fields called `name`, `length`, ... fail (C39).
* The length prefix of strings is the number of UTF-16 units (C31, C33, C42). With UTF-8, a packet comes back from
  `read` exactly when all its strings are ASCII and no 32-variant enum occurs in it (`C31_utf8`).
* Any byte other than 0 is a presence flag, so a packet passed on can change (C76), in Rust too (C105).
* Every use of a struct is written out in full, so code can be exponentially longer than the schema: 30 short structs, each with two fields of the one before, give more than a gigabyte (C78); the same holds for rust.rs (C124).
* Loops do not stop when the reader has failed: a packet of 4 bytes can cause 2^32 iterations (C43).
* Packets are not as small as format.md says: an enum with one variant takes a byte, one with 9 variants takes two (C102).
* A ninth or 17th variant makes Rust programs of the old and the new schema misunderstand each other, as it does in TypeScript (C104, C65).
* The generated file does not tell the order in which fields are declared: schemas with two fields exchanged can get the same file (C103). It tells everything else.
* Field names with underscores can give two variables the same name (C38).
* Exports called `Reader`, types or fields called like keywords, a field `write`: the text is not valid TypeScript (C44, C60). An export
  called `Object`, `Array`, `ArrayBuffer` or `output` gives type errors (C67).
* Numbers that do not fit are written without an error, and arrive as other numbers (C118).

Command line
* A missing input is ignored, with success (C51).
* In single-file mode, `a.b.pkt` is written to `a.ts` (C50), `..pkt` beside the output directory, and for `...pkt` the
  output path is the parent of the output directory (C71).
* In single-file mode the output argument is a directory: the command in the README, `packetc rust test.pkt test.rs`, would write
  `test.rs/test.rs` (C101).
* A schema `x.pkt` beside a directory `x.ts` with schemas cannot be compiled in one run: the outputs are in each other's way, and the
  run stops half way (C107).
* In single-file mode, a leftover `println!` prints the output directory (C68).
* In directory mode the error of a bad schema does not say which file it is in (C73).
* In directory mode a directory whose name is not UTF-8 panics; a file called just `.pkt` is ignored.
* A failed write can leave the earlier outputs (C52). The README mentions Rust output, which is commented out (C53).

Rust generator (not compiled at this commit)
* The arm of the last of 32 variants is `-2147483648` (C92, C93).
* `reserve` is called with a length from the packet: 5 bytes can end the process (C94).
* `read` appends to arrays and leaves absent optionals as they were (C95).
* A Rust program does not understand text other than ASCII sent by a TypeScript program, whose prefix counts UTF-16 units; the other direction works (C96).
* The emitted Rust does not compile if the schema has an array of numbers or enums (`write_uint8(item)` is given a reference), an optional
  string (moved out of `&input`), an enum with 32 variants (negative pattern for `u32`), or a variant `Error` (C97).
* A loop over items without content runs as often as the packet says (C99). A failing `read` leaves a half-filled value (C100).
* Combinations of variants that TypeScript programs exchange are rejected by Rust programs (C128).
* A TypeScript program that passes on packets of Rust programs spoils text that is not ASCII, though it shows this text correctly (C131).
* Fields in which nothing is transmitted are gone through at each use, so a short Rust file can take exponential time to emit: structs with two fields of
  the one before, over an empty struct (C126).

Scripts
* `gen_random_pkt.py` tests `"struct" in line`: a comment or an enum that contains these letters becomes the export, which
  ends in a `TypeError` or in a schema that is rejected. Its variants may begin with reserved words (C83).
