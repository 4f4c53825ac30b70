{
 "claims": [
  {
   "property": "C01",
   "status": "proved",
   "theorems": [
    "Packetc.Props.C01_accepts_iff_grammar",
    "Packetc.Props.C01_grammar_unambiguous",
    "Packetc.Props.C01_rejects_iff"
   ],
   "note": "Grammar is the relation Packetc.Grammar.Schema."
  },
  {
   "property": "C02",
   "status": "proved",
   "theorems": [
    "Packetc.Props.C02_print_parse",
    "Packetc.Props.C02_range"
   ],
   "note": ""
  },
  {
   "property": "C03",
   "status": "proved",
   "theorems": [
    "Packetc.Props.C03_layout_insensitive",
    "Packetc.Props.C03_concat",
    "Packetc.Props.C03_insert_comment"
   ],
   "note": ""
  },
  {
   "property": "C04",
   "status": "proved",
   "theorems": [
    "Packetc.Props.C04_names_legal"
   ],
   "note": ""
  },
  {
   "property": "C05",
   "status": "partial",
   "theorems": [
    "Packetc.Props.C05_usable_names_partial",
    "Packetc.Props.C05_false"
   ],
   "note": "False of the code (names that begin with a reserved word are rejected); the exact rule is proved."
  },
  {
   "property": "C06",
   "status": "proved",
   "theorems": [
    "Packetc.Props.C06_parser_total"
   ],
   "note": ""
  },
  {
   "property": "C07",
   "status": "proved",
   "theorems": [
    "Packetc.Props.C07_error_position"
   ],
   "note": ""
  },
  {
   "property": "C08",
   "status": "proved",
   "theorems": [
    "Packetc.Props.C08_error_after_complete_lines"
   ],
   "note": ""
  },
  {
   "property": "C09",
   "status": "partial",
   "theorems": [
    "Packetc.Props.C09_quotes_offender_partial",
    "Packetc.Props.C09_exact_partial",
    "Packetc.Props.C09_false"
   ],
   "note": "False of the code after non-ASCII characters; proved when the text before the error is ASCII; C09_exact_partial is the exact condition."
  },
  {
   "property": "C10",
   "status": "proved",
   "theorems": [
    "Packetc.Props.C10_caret_under_offender"
   ],
   "note": ""
  },
  {
   "property": "C11",
   "status": "proved",
   "theorems": [
    "Packetc.Props.C11_no_panic",
    "Packetc.Props.C11_depth_irrelevant"
   ],
   "note": ""
  },
  {
   "property": "C12",
   "status": "proved",
   "theorems": [
    "Packetc.Props.C12_accepts_iff_wellformed",
    "Packetc.Props.C12_text"
   ],
   "note": ""
  },
  {
   "property": "C13",
   "status": "proved",
   "theorems": [
    "Packetc.Props.C13_order_independent"
   ],
   "note": ""
  },
  {
   "property": "C14",
   "status": "proved",
   "theorems": [
    "Packetc.Props.C14_recursion_rejected"
   ],
   "note": ""
  },
  {
   "property": "C15",
   "status": "partial",
   "theorems": [
    "Packetc.Props.C15_same_error_partial",
    "Packetc.Props.C15_exact_partial",
    "Packetc.Props.C15_false"
   ],
   "note": "False of the code (cycle reported as missing declaration depending on hash order); proved up to the three kinds of second-pass errors; exact condition: at most one possible error (C84)."
  },
  {
   "property": "C16",
   "status": "proved",
   "theorems": [
    "Packetc.Props.C16_undeclared_rejected"
   ],
   "note": ""
  },
  {
   "property": "C17",
   "status": "proved",
   "theorems": [
    "Packetc.Props.C17_no_optional_array"
   ],
   "note": ""
  },
  {
   "property": "C18",
   "status": "partial",
   "theorems": [
    "Packetc.Props.C18_field_names_partial",
    "Packetc.Props.C18_builtin_structs",
    "Packetc.Props.C18_exact_partial",
    "Packetc.Props.C18_false"
   ],
   "note": "False of the code (duplicate check stops at the first non-builtin field); the checked part is proved, and exactly for which structs (field types) uniqueness is guaranteed."
  },
  {
   "property": "C19",
   "status": "proved",
   "theorems": [
    "Packetc.Props.C19_enum_bits"
   ],
   "note": ""
  },
  {
   "property": "C20",
   "status": "proved",
   "theorems": [
    "Packetc.Props.C20_export_errors"
   ],
   "note": ""
  },
  {
   "property": "C21",
   "status": "proved",
   "theorems": [
    "Packetc.Props.C21_export_is_struct",
    "Packetc.Props.C21_other_exports_rejected"
   ],
   "note": ""
  },
  {
   "property": "C22",
   "status": "proved",
   "theorems": [
    "Packetc.Props.C22_types_are_used"
   ],
   "note": ""
  },
  {
   "property": "C23",
   "status": "proved",
   "theorems": [
    "Packetc.Props.C23_faithful"
   ],
   "note": ""
  },
  {
   "property": "C24",
   "status": "partial",
   "theorems": [
    "Packetc.Props.C24_field_order_partial",
    "Packetc.Props.C24_false"
   ],
   "note": "False of the code (late-resolved fields move to the end); the exact order is proved, and that it is the declared order if no field can be overtaken by a later one (its type is simple, or the later type is the same or contains it)."
  },
  {
   "property": "C54",
   "status": "proved",
   "theorems": [
    "Packetc.Props.C54_errors_truthful"
   ],
   "note": ""
  },
  {
   "property": "C30",
   "status": "proved",
   "theorems": [
    "Packetc.Props.C30_write_format",
    "Packetc.Props.C30_write_format_plain"
   ],
   "note": "About the generated text; TypeScript must accept it (load e.code is not none), for which PlainSchema is a sufficient condition on the schema."
  },
  {
   "property": "C31",
   "status": "partial",
   "theorems": [
    "Packetc.Props.C31_read_inverts_write_partial",
    "Packetc.Props.C31_exact",
    "Packetc.Props.C31_utf8",
    "Packetc.Props.C31_replacement",
    "Packetc.Props.C31_false"
   ],
   "note": "False of the code for strings whose UTF-16 length differs from their encoded length and for 32-variant enums; proved for all other values, and C31_exact shows that these are exactly the values that are read back (with UTF-8: all strings ASCII, no value of a 32-variant enum; strings containing U+FFFD aside, for which C31_replacement is an accidental success)."
  },
  {
   "property": "C32",
   "status": "proved",
   "theorems": [
    "Packetc.Props.C32_trailing_ignored",
    "Packetc.Props.C32_trailing_after_write"
   ],
   "note": ""
  },
  {
   "property": "C33",
   "status": "partial",
   "theorems": [
    "Packetc.Props.C33_truncated_rejected_partial",
    "Packetc.Props.C33_no_strings",
    "Packetc.Props.C33_exact_partial",
    "Packetc.Props.C33_false"
   ],
   "note": "False of the code for non-ASCII strings (with UTF-8); proved for values as in C31, and (C33_exact_partial) for all values exactly of those schemas that contain no string."
  },
  {
   "property": "C34",
   "status": "proved",
   "theorems": [
    "Packetc.Props.C34_read_total",
    "Packetc.Props.C34_read_total_plain"
   ],
   "note": ""
  },
  {
   "property": "C35",
   "status": "proved",
   "theorems": [
    "Packetc.Props.C35_read_typed",
    "Packetc.Props.C35_result_typed"
   ],
   "note": ""
  },
  {
   "property": "C36",
   "status": "partial",
   "theorems": [
    "Packetc.Props.C36_only_variants_partial",
    "Packetc.Props.C36_exact_partial",
    "Packetc.Props.C36_false",
    "Packetc.Props.C36_false_always"
   ],
   "note": "False of the code (range check only); proved for enums with at most two variants, and that these (below 32 variants) are exactly the ones for which it holds; see C35 for larger ones."
  },
  {
   "property": "C37",
   "status": "partial",
   "theorems": [
    "Packetc.Props.C37_variants_transmitted_partial",
    "Packetc.Props.C37_exact_partial",
    "Packetc.Props.C37_false",
    "Packetc.Props.C37_false_always"
   ],
   "note": "False of the code for 32-variant enums (1 << 31 overflows to a negative bound); proved up to 31 variants, and that it holds for no enum with 32."
  },
  {
   "property": "C38",
   "status": "partial",
   "theorems": [
    "Packetc.Props.C38_no_redeclaration_partial",
    "Packetc.Props.C38_exact",
    "Packetc.Props.C38_false"
   ],
   "note": "False of the code for names with underscores such as a and a_b; proved for plain names. C38_exact says exactly for which schemas it holds (given distinct fields)."
  },
  {
   "property": "C39",
   "status": "partial",
   "theorems": [
    "Packetc.Props.C39_field_names_partial",
    "Packetc.Props.C39_exact_partial",
    "Packetc.Props.C39_false",
    "Packetc.Props.C39_false_always"
   ],
   "note": "False of the code for name, length, prototype, caller, arguments, __proto__, write and keywords; proved for all other names; C39_exact_partial says that these are exactly the names that work."
  },
  {
   "property": "C40",
   "status": "partial",
   "theorems": [
    "Packetc.Props.C40_write_again_partial",
    "Packetc.Props.C40_same_bytes_partial",
    "Packetc.Props.C40_false",
    "Packetc.Props.C40_false_always"
   ],
   "note": "False of the code for every schema: Object.create(C) should be Object.create(C.prototype). write.call(packet) is proved to work."
  },
  {
   "property": "C41",
   "status": "proved",
   "theorems": [
    "Packetc.Props.C41_size",
    "Packetc.Props.C41_injective",
    "Packetc.Props.C41_injective_faithful"
   ],
   "note": ""
  },
  {
   "property": "C42",
   "status": "partial",
   "theorems": [
    "Packetc.Props.C42_length_prefix_partial",
    "Packetc.Props.C42_false"
   ],
   "note": "False of the code: the prefix is the UTF-16 length; with UTF-8 it is right exactly for ASCII strings."
  },
  {
   "property": "C43",
   "status": "partial",
   "theorems": [
    "Packetc.Props.C43_work_bounded_partial",
    "Packetc.Props.C43_exact_partial",
    "Packetc.Props.C43_false",
    "Packetc.Props.C43_false_always",
    "Packetc.Props.C43_false_memory"
   ],
   "note": "False of the code: loops do not stop when the reader has failed; proved for accepted packets. C43_exact_partial: bounded for all data by the number of reads in the code iff array items contain no reads; otherwise at most 4 bytes per read cause 2^32 reads."
  },
  {
   "property": "C44",
   "status": "partial",
   "theorems": [
    "Packetc.Props.C44_names_ok_partial",
    "Packetc.Props.C44_exact",
    "Packetc.Props.C44_false",
    "Packetc.Props.C44_false_keyword"
   ],
   "note": "False of the code, e.g. for an export called Reader; proved for plain names. C44_exact says exactly for which schemas it holds."
  },
  {
   "property": "C25",
   "status": "partial",
   "theorems": [
    "Packetc.Props.C25_deterministic_partial",
    "Packetc.Props.C25_exact_partial",
    "Packetc.Props.C25_false"
   ],
   "note": "False of the code: field order depends on the hash order when a field can be overtaken, and the order of declarations always; proved when no field can be overtaken, up to the order of declarations; for schemas whose names are in order, this is the exact condition (C25_exact_partial)."
  },
  {
   "property": "C26",
   "status": "proved",
   "theorems": [
    "Packetc.Props.C26_prints_program",
    "Packetc.Props.C26_balanced"
   ],
   "note": ""
  },
  {
   "property": "C27",
   "status": "proved",
   "theorems": [
    "Packetc.Props.C27_generator_total",
    "Packetc.Props.C27_compile_total"
   ],
   "note": ""
  },
  {
   "property": "C28",
   "status": "proved",
   "theorems": [
    "Packetc.Props.C28_namespace",
    "Packetc.Props.C28_order"
   ],
   "note": ""
  },
  {
   "property": "C29",
   "status": "proved",
   "theorems": [
    "Packetc.Props.C29_declarations"
   ],
   "note": "DeclText/classText spell out the declarations from the syntax tree."
  },
  {
   "property": "C45",
   "status": "proved",
   "theorems": [
    "Packetc.Props.C45_outcome",
    "Packetc.Props.C45_parts"
   ],
   "note": ""
  },
  {
   "property": "C46",
   "status": "proved",
   "theorems": [
    "Packetc.Props.C46_only_header"
   ],
   "note": ""
  },
  {
   "property": "C47",
   "status": "proved",
   "theorems": [
    "Packetc.Props.C47_all_or_nothing",
    "Packetc.Props.C47_returns"
   ],
   "note": ""
  },
  {
   "property": "C48",
   "status": "proved",
   "theorems": [
    "Packetc.Props.C48_exactly",
    "Packetc.Props.C48_once",
    "Packetc.Props.C48_succeeds",
    "Packetc.Props.C48_order"
   ],
   "note": ""
  },
  {
   "property": "C49",
   "status": "proved",
   "theorems": [
    "Packetc.Props.C49_mirror",
    "Packetc.Props.C49_no_collision",
    "Packetc.Props.C49_written",
    "Packetc.Props.C49_succeeds"
   ],
   "note": "Paths are compared as lists of components; links inside the output directory are not modelled."
  },
  {
   "property": "C50",
   "status": "partial",
   "theorems": [
    "Packetc.Props.C50_single_partial",
    "Packetc.Props.C50_exact_partial",
    "Packetc.Props.C50_truncated",
    "Packetc.Props.C50_dot",
    "Packetc.Props.C50_dots",
    "Packetc.Props.C50_false"
   ],
   "note": "False of the code for stems with a dot: a.b.pkt is written to a.ts (C50_truncated says where in general), ..pkt beside the output directory (C50_dot), and for ...pkt the output path is the parent of the output directory (C50_dots); proved for all other stems, exactly."
  },
  {
   "property": "C51",
   "status": "partial",
   "theorems": [
    "Packetc.Props.C51_missing_partial",
    "Packetc.Props.C51_false",
    "Packetc.Props.C51_false_always"
   ],
   "note": "False of the code: a missing input path is ignored; proved for unreadable files and directories."
  },
  {
   "property": "C52",
   "status": "proved",
   "theorems": [
    "Packetc.Props.C52_failed_write"
   ],
   "note": ""
  },
  {
   "property": "C53",
   "status": "proved",
   "theorems": [
    "Packetc.Props.C53_language"
   ],
   "note": "to_lowercase is a parameter with the stated law."
  },
  {
   "property": "C55",
   "status": "proved",
   "theorems": [
    "Packetc.Props.C55_prefix_viable",
    "Packetc.Props.C55_error_is_there"
   ],
   "note": ""
  },
  {
   "property": "C56",
   "status": "proved",
   "theorems": [
    "Packetc.Props.C56_error_stable"
   ],
   "note": ""
  },
  {
   "property": "C57",
   "status": "partial",
   "theorems": [
    "Packetc.Props.C57_messages_partial",
    "Packetc.Props.C57_exact_partial",
    "Packetc.Props.C57_false"
   ],
   "note": "False of the code: of a declared but recursive type the message can say that its declaration does not exist; otherwise proved, with the exact condition (Says spells out the twelve sentences and what they claim)."
  },
  {
   "property": "C58",
   "status": "partial",
   "theorems": [
    "Packetc.Props.C58_recursive_named_partial",
    "Packetc.Props.C58_ring_partial",
    "Packetc.Props.C58_some_run_partial",
    "Packetc.Props.C58_exact_partial",
    "Packetc.Props.C58_false"
   ],
   "note": "False of the code when recursion is entered from outside; proved: the message always names a recursive type, some run gives a cycle message, and the exact condition under which all runs do."
  },
  {
   "property": "C59",
   "status": "partial",
   "theorems": [
    "Packetc.Props.C59_runs_agree_partial",
    "Packetc.Props.C59_false"
   ],
   "note": "False of the code for nested structs (field order depends on the hash seed); proved when no field can be overtaken by a later one. Stated about the generated texts."
  },
  {
   "property": "C60",
   "status": "partial",
   "theorems": [
    "Packetc.Props.C60_text_partial",
    "Packetc.Props.C60_exact",
    "Packetc.Props.C60_describes_iff",
    "Packetc.Props.C60_every_run",
    "Packetc.Props.C60_describes",
    "Packetc.Props.C60_needs",
    "Packetc.Props.C60_false"
   ],
   "note": "False for names that TypeScript does not allow in their place (witness: exported struct with a field write); proved for all schemas with plain names: the text lexes, parses and loads, and declares exactly the types of the schema. C60_exact says exactly which schemas give a text that TypeScript accepts, and that this does not depend on the run. That its read and write behave as described is C30-C44, which are statements about the text. JavaScript/TypeScript lexing, parsing and loading are modelled in Js/Lexer and Js/Parse for the constructs the generator uses."
  },
  {
   "property": "C61",
   "status": "proved",
   "theorems": [
    "Packetc.Props.C61_order_exact",
    "Packetc.Props.C61_order_possible",
    "Packetc.Props.C61_runs_agree_iff",
    "Packetc.Props.C61_orders_exact"
   ],
   "note": "For all accepted schemas and all hash orders."
  },
  {
   "property": "C62",
   "status": "proved",
   "theorems": [
    "Packetc.Props.C62_reads_independent",
    "Packetc.Props.C62_write_pure"
   ],
   "note": "For all usable schemas (see C30), all heaps and all inputs; a statement about the generated text."
  },
  {
   "property": "C63",
   "status": "partial",
   "theorems": [
    "Packetc.Props.C63_old_reads_new_partial",
    "Packetc.Props.C63_false"
   ],
   "note": "False of the code: witness C63_false, an appended field that is sent first. Proved for all schemas in which no field can be overtaken by a later one, for packets as in C31."
  },
  {
   "property": "C64",
   "status": "proved",
   "theorems": [
    "Packetc.Props.C64_rename_bytes",
    "Packetc.Props.C64_rename_values",
    "Packetc.Props.C64_rename_reads"
   ],
   "note": "For all renamings and all inputs; AllInOrder (C61) of the old schema is part of the statement, that of the new one follows."
  },
  {
   "property": "C65",
   "status": "partial",
   "theorems": [
    "Packetc.Props.C65_new_reads_old_partial",
    "Packetc.Props.C65_old_reads_new_partial",
    "Packetc.Props.C65_exact_partial",
    "Packetc.Props.C65_false"
   ],
   "note": "False of the code when an enum outgrows its representation (witness: 8 to 9 variants). Proved in both directions when no enum does and no field can be overtaken, for packets as in C31; given that no field can be overtaken, this is the exact condition (C65_exact_partial)."
  },
  {
   "property": "C66",
   "status": "partial",
   "theorems": [
    "Packetc.Props.C66_new_rejects_old_partial",
    "Packetc.Props.C66_false"
   ],
   "note": "False of the code for strings that are longer in bytes than in characters. Proved, as an equivalence (rejected iff an appended field takes up space), for packets as in C31 when no field can be overtaken."
  },
  {
   "property": "C67",
   "status": "partial",
   "theorems": [
    "Packetc.Props.C67_exact_partial",
    "Packetc.Props.C67_typechecks_partial",
    "Packetc.Props.C67_plain",
    "Packetc.Props.C67_needs",
    "Packetc.Props.C67_false"
   ],
   "note": "False of the code as described: an export called Object hides the global object (C67_false); C67_exact_partial gives the exact condition on the name of the export"
  },
  {
   "property": "C68",
   "status": "partial",
   "theorems": [
    "Packetc.Props.C68_announced_partial",
    "Packetc.Props.C68_blocks_partial",
    "Packetc.Props.C68_single",
    "Packetc.Props.C68_language",
    "Packetc.Props.C68_false_always",
    "Packetc.Props.C68_false"
   ],
   "note": "False of every successful run on a single file (C68_false_always): an additional line comes first; proved for runs on a directory. C68_blocks_partial is about runs that fail, too."
  },
  {
   "property": "C69",
   "status": "proved",
   "theorems": [
    "Packetc.Props.C69_input_first",
    "Packetc.Props.C69_read_once"
   ],
   "note": ""
  },
  {
   "property": "C70",
   "status": "proved",
   "theorems": [
    "Packetc.Props.C70_only_ts",
    "Packetc.Props.C70_schemas_kept"
   ],
   "note": "For all path texts and trees, without hypotheses; paths are compared lexically, as lists of components."
  },
  {
   "property": "C71",
   "status": "partial",
   "theorems": [
    "Packetc.Props.C71_below_partial",
    "Packetc.Props.C71_exact_partial",
    "Packetc.Props.C71_false"
   ],
   "note": "False of the code for ..pkt and ...pkt in single-file mode; proved for all other inputs, exactly."
  },
  {
   "property": "C72",
   "status": "proved",
   "theorems": [
    "Packetc.Props.C72_only_schemas"
   ],
   "note": ""
  },
  {
   "property": "C73",
   "status": "partial",
   "theorems": [
    "Packetc.Props.C73_first_bad_partial",
    "Packetc.Props.C73_false",
    "Packetc.Props.C73_false_always"
   ],
   "note": "False of the code: the message does not contain the path. The error is that of the first bad schema in listing order."
  },
  {
   "property": "C74",
   "status": "proved",
   "theorems": [
    "Packetc.Props.C74_resolved",
    "Packetc.Props.C74_same_texts",
    "Packetc.Props.C74_order",
    "Packetc.Props.C74_same_export"
   ],
   "note": "Every output for one schema is a possible output for the other; if no field can be overtaken (C61), the exported class is the same in all runs on both."
  },
  {
   "property": "C75",
   "status": "proved",
   "theorems": [
    "Packetc.Props.C75_reads",
    "Packetc.Props.C75_shaped",
    "Packetc.Props.C75_rejects",
    "Packetc.Props.C75_unique"
   ],
   "note": ""
  },
  {
   "property": "C76",
   "status": "partial",
   "theorems": [
    "Packetc.Props.C76_relay_partial",
    "Packetc.Props.C76_exact",
    "Packetc.Props.C76_settles",
    "Packetc.Props.C76_utf8",
    "Packetc.Props.C76_false"
   ],
   "note": "False of the code: presence flags other than 0 and 1, strings that are not ASCII and unusual NaNs change. Exact for packets whose strings have as many bytes as UTF-16 units."
  },
  {
   "property": "C77",
   "status": "partial",
   "theorems": [
    "Packetc.Props.C77_nested_partial",
    "Packetc.Props.C77_inOrder",
    "Packetc.Props.C77_false"
   ],
   "note": "False of the code: the field order of T is that of the run. For each program there is one for T alone that agrees with it; if no field of T can be overtaken, all do."
  },
  {
   "property": "C78",
   "status": "partial",
   "theorems": [
    "Packetc.Props.C78_size_partial",
    "Packetc.Props.C78_false"
   ],
   "note": "False of the code: exponential when structs are used twice. Lower and upper bound in terms of the written-out fields, cubic bound when no struct is used twice."
  },
  {
   "property": "C79",
   "status": "proved",
   "theorems": [
    "Packetc.Props.C79_nesting"
   ],
   "note": ""
  },
  {
   "property": "C80",
   "status": "proved",
   "theorems": [
    "Packetc.Props.C80_usable_iff",
    "Packetc.Props.C80_every_run"
   ],
   "note": ""
  },
  {
   "property": "C81",
   "status": "proved",
   "theorems": [
    "Packetc.Props.C81_same_parser",
    "Packetc.Props.C81_linear",
    "Packetc.Props.C81_reads_all"
   ],
   "note": ""
  },
  {
   "property": "C82",
   "status": "proved",
   "theorems": [
    "Packetc.Props.C82_cost",
    "Packetc.Props.C82_quadratic",
    "Packetc.Props.C82_at_least",
    "Packetc.Props.C82_not_linear"
   ],
   "note": ""
  },
  {
   "property": "C83",
   "status": "partial",
   "theorems": [
    "Packetc.Props.C83_false",
    "Packetc.Props.C83_exact_partial"
   ],
   "note": "Exact condition on the choices of a run."
  },
  {
   "property": "C84",
   "status": "proved",
   "theorems": [
    "Packetc.Props.C84_exact",
    "Packetc.Props.C84_messages",
    "Packetc.Props.C84_some_iff"
   ],
   "note": ""
  },
  {
   "property": "C85",
   "status": "partial",
   "theorems": [
    "Packetc.Props.C85_false",
    "Packetc.Props.C85_split",
    "Packetc.Props.C85_split_faithful",
    "Packetc.Props.C85_sequence",
    "Packetc.Props.C85_exact_partial"
   ],
   "note": "False for schemas with empty packets; exact condition."
  },
  {
   "property": "C86",
   "status": "proved",
   "theorems": [
    "Packetc.Props.C86_sized",
    "Packetc.Props.C86_size",
    "Packetc.Props.C86_smallest",
    "Packetc.Props.C86_determined"
   ],
   "note": ""
  },
  {
   "property": "C87",
   "status": "proved",
   "theorems": [
    "Packetc.Props.C87_to_dos",
    "Packetc.Props.C87_to_unix",
    "Packetc.Props.C87_iff",
    "Packetc.Props.C87_compile",
    "Packetc.Props.C87_code"
   ],
   "note": ""
  },
  {
   "property": "C88",
   "status": "proved",
   "theorems": [
    "Packetc.Props.C88_code",
    "Packetc.Props.C88_plain",
    "Packetc.Props.C88_last_line"
   ],
   "note": ""
  },
  {
   "property": "C89",
   "status": "proved",
   "theorems": [
    "Packetc.Props.C89_programs",
    "Packetc.Props.C89_compatible",
    "Packetc.Props.C89_mutual"
   ],
   "note": "C89_programs holds for any order of fields; the conditions on the schemas are for schemas in which no field can be overtaken by a later one (see C24)"
  },
  {
   "property": "C90",
   "status": "partial",
   "theorems": [
    "Packetc.Props.C90_exact_partial",
    "Packetc.Props.C90_schema_partial",
    "Packetc.Props.C90_writes",
    "Packetc.Props.C90_false",
    "Packetc.Props.C90_false_always"
   ],
   "note": "False of the code: the range check rejects the last variant combined with any other one. C90_exact_partial: exactly the other (non-empty) combinations are read back, the rest is rejected."
  },
  {
   "property": "C91",
   "status": "proved",
   "theorems": [
    "Packetc.Props.C91_file",
    "Packetc.Props.C91_definitions",
    "Packetc.Props.C91_write",
    "Packetc.Props.C91_program"
   ],
   "note": "rust.rs is not compiled at this commit; the model is of its text"
  },
  {
   "property": "C92",
   "status": "partial",
   "theorems": [
    "Packetc.Props.C92_round_trip_partial",
    "Packetc.Props.C92_exact",
    "Packetc.Props.C92_false"
   ],
   "note": "False of the code for enums with 32 variants only: the arm for the last variant is printed as -2147483648. C92_exact: true of a schema iff it uses no such enum."
  },
  {
   "property": "C93",
   "status": "partial",
   "theorems": [
    "Packetc.Props.C93_reads_partial",
    "Packetc.Props.C93_exact",
    "Packetc.Props.C93_rejects",
    "Packetc.Props.C93_truncated",
    "Packetc.Props.C93_false"
   ],
   "note": "False of the code for enums with 32 variants only (see C92)"
  },
  {
   "property": "C94",
   "status": "partial",
   "theorems": [
    "Packetc.Props.C94_exact_partial",
    "Packetc.Props.C94_false"
   ],
   "note": "False of the code: 4 bytes make read reserve 2^32 - 1 items. C94_exact_partial: exactly the schemas with arrays are affected (without empty structs)."
  },
  {
   "property": "C95",
   "status": "partial",
   "theorems": [
    "Packetc.Props.C95_exact_partial",
    "Packetc.Props.C95_false"
   ],
   "note": "False of the code: items are appended to the earlier ones and an absent optional leaves the earlier one. C95_exact_partial: exactly the schemas that use arrays or optionals are affected."
  },
  {
   "property": "C96",
   "status": "partial",
   "theorems": [
    "Packetc.Props.C96_rust_to_ts_partial",
    "Packetc.Props.C96_ts_to_rust_partial",
    "Packetc.Props.C96_rust_reads",
    "Packetc.Props.C96_ts_follows",
    "Packetc.Props.C96_runs",
    "Packetc.Props.C96_false"
   ],
   "note": "False of the code: the TypeScript program counts a string in UTF-16 units, the Rust program in bytes. Exactly: TypeScript reads all that Rust writes iff no used enum has 32 variants; Rust reads a packet of TypeScript iff its strings are ASCII and its arrays fit in memory (no 32-variant enums)."
  },
  {
   "property": "C97",
   "status": "partial",
   "theorems": [
    "Packetc.Props.C97_exact_partial",
    "Packetc.Props.C97_functions",
    "Packetc.Props.C97_false"
   ],
   "note": "False of the code: arrays of numbers or enums, optional strings and enums with 32 variants give text that does not compile. C97_exact_partial: with names that Rust allows, exactly these are refused. Relative to the model of the checks of the compiler in Verif/Rust/Check.lean."
  },
  {
   "property": "C98",
   "status": "proved",
   "theorems": [
    "Packetc.Props.C98_names",
    "Packetc.Props.C98_write",
    "Packetc.Props.C98_round_trip",
    "Packetc.Props.C98_reads",
    "Packetc.Props.C98_outcomes",
    "Packetc.Props.C98_typescript",
    "Packetc.Props.C98_program"
   ],
   "note": "Relative to the model of the checks of the compiler in Verif/Rust/Check.lean. C98_typescript assumes that the runtime and the packet crate encode numbers alike (Agree) and that the schema has no name that breaks the TypeScript program (Usable)."
  },
  {
   "property": "C99",
   "status": "partial",
   "theorems": [
    "Packetc.Props.C99_read_partial",
    "Packetc.Props.C99_packet_partial",
    "Packetc.Props.C99_write_partial",
    "Packetc.Props.C99_flood",
    "Packetc.Props.C99_exact",
    "Packetc.Props.C99_false"
   ],
   "note": "False of the code: in an array of structs without content, four bytes make the loop run 2^32 - 1 times. Proved for all other schemas; C99_exact: for files of up to 40000 statements exactly these. Statements are counted, not what happens inside of the packet crate and of default()."
  },
  {
   "property": "C100",
   "status": "partial",
   "theorems": [
    "Packetc.Props.C100_same_partial",
    "Packetc.Props.C100_exact",
    "Packetc.Props.C100_success",
    "Packetc.Props.C100_false"
   ],
   "note": "False of the code: fields are assigned and items pushed one by one. C100_exact: it holds exactly for schemas where nothing that can change is read before something that can fail (fields in the order of the resolved struct, structs inlined, optional fields taken as one) and no array outside of an optional field has items that take space."
  },
  {
   "property": "C101",
   "status": "partial",
   "theorems": [
    "Packetc.Props.C101_names_partial",
    "Packetc.Props.C101_exact",
    "Packetc.Props.C101_untouched",
    "Packetc.Props.C101_false"
   ],
   "note": "False of the code: the argument is taken as a directory, test.pkt goes to test.rs/test.<ext>. C101_exact: the file written is the one named only if the input is called ..pkt and the output ends in .ts; C101_untouched: in all other cases the file named by the argument is left as it was. Stated for inputs called *.pkt and TypeScript, the one language there is."
  },
  {
   "property": "C102",
   "status": "partial",
   "theorems": [
    "Packetc.Props.C102_integers_partial",
    "Packetc.Props.C102_exact",
    "Packetc.Props.C102_false"
   ],
   "note": "False of the code: an enum with one variant takes a byte though nothing has to be sent. C102_exact: a better encoding exists exactly if the exported type is loose in the sense of Spec/Shrink.lean, computed from the schema: integers are dense and combine to dense types under structs and arrays (C102_integers_partial); one choice (enum of 2 to 8 variants, or a flag of an optional field without content) alone is as small as possible too; everything else leaves room. format.md excepts bit-packing and compression, and some of the better encodings are such; those for enums with one variant or with 9 and more are not. For libraries where text is self-delimiting and some byte begins no text, such as UTF-8."
  },
  {
   "property": "C103",
   "status": "partial",
   "theorems": [
    "Packetc.Props.C103_module_partial",
    "Packetc.Props.C103_ordered_partial",
    "Packetc.Props.C103_exact",
    "Packetc.Props.C103_false"
   ],
   "note": "the order of fields is not determined where the compiler may change it (C103_false); everything else is, for every pair of schemas whose files TypeScript accepts; with no field that can be overtaken, having a file in common is equivalent to agreeing in what is used (C103_exact, with C74)"
  },
  {
   "property": "C104",
   "status": "partial",
   "theorems": [
    "Packetc.Props.C104_rename",
    "Packetc.Props.C104_variants_reads",
    "Packetc.Props.C104_variants_exact_partial",
    "Packetc.Props.C104_append_partial",
    "Packetc.Props.C104_false"
   ],
   "note": "false of the code where an enum outgrows its representation (C104_false) or a field can be overtaken by a later one; with no such field, renaming (C104_rename) and appending (C104_append_partial) are compatible, and adding variants is exactly if no enum outgrows its representation (C104_variants_exact_partial). The Rust counterpart of C63-C65, without their conditions on strings; enums of 32 variants are excepted (C92)."
  },
  {
   "property": "C105",
   "status": "partial",
   "theorems": [
    "Packetc.Props.C105_again",
    "Packetc.Props.C105_same_iff",
    "Packetc.Props.C105_same_partial",
    "Packetc.Props.C105_exact",
    "Packetc.Props.C105_false"
   ],
   "note": "false of the code with optional fields (C105_false): what is read can be written and read again (C105_again), as the same bytes exactly if the flags are 0 or 1 (C105_same_iff), which all data are exactly if no used struct has an optional field (C105_exact). The Rust counterpart of C76; enums of 32 variants are excepted (C92)."
  },
  {
   "property": "C106",
   "status": "proved",
   "theorems": [
    "Packetc.Props.C106_programs",
    "Packetc.Props.C106_schemas",
    "Packetc.Props.C106_mutual",
    "Packetc.Props.C106_ts"
   ],
   "note": "C106_programs is about the resolved types, without a condition on the order of fields; the Rust counterpart of C89. Enums of 32 variants are excepted (C92)."
  },
  {
   "property": "C107",
   "status": "partial",
   "theorems": [
    "Packetc.Props.C107_false",
    "Packetc.Props.C107_files_partial",
    "Packetc.Props.C107_exact",
    "Packetc.Props.C107_fresh",
    "Packetc.Props.C107_single",
    "Packetc.Props.C107_refines"
   ],
   "note": "False because outputs can be in each other's way (x.pkt beside x.ts/y.pkt); C107_exact says when a run succeeds. C107_refines relates this model of the file system to the one with arbitrary failures in C47-C53."
  },
  {
   "property": "C108",
   "status": "proved",
   "theorems": [
    "Packetc.Props.C108_again",
    "Packetc.Props.C108_later",
    "Packetc.Props.C108_found",
    "Packetc.Props.C108_single"
   ],
   "note": "C108_found: there is a tree for the second run (in a finite file system). C108_single is for files called something other than . or .. and .pkt."
  },
  {
   "property": "C109",
   "status": "proved",
   "theorems": [
    "Packetc.Props.C109_kept",
    "Packetc.Props.C109_schemas"
   ],
   "note": "For arbitrary paths and inputs; strengthens C70, which is about paths as texts."
  },
  {
   "property": "C110",
   "status": "proved",
   "theorems": [
    "Packetc.Props.C110_runs",
    "Packetc.Props.C110_in_turn",
    "Packetc.Props.C110_schemas",
    "Packetc.Props.C110_alone"
   ],
   "note": "C110_alone relates the model to that of C107-C109. A run begins when it has compiled its schemas; write_all fills a file at once; single files have plain names."
  },
  {
   "property": "C111",
   "status": "partial",
   "theorems": [
    "Packetc.Props.C111_false",
    "Packetc.Props.C111_fresh_partial",
    "Packetc.Props.C111_exact",
    "Packetc.Props.C111_split"
   ],
   "note": "False of the code (arrays are appended to, optionals kept). C111_fresh_partial: with a new default value each time; C111_exact: when one variable is enough."
  },
  {
   "property": "C112",
   "status": "proved",
   "theorems": [
    "Packetc.Props.C112_left",
    "Packetc.Props.C112_below",
    "Packetc.Props.C112_compile",
    "Packetc.Props.C112_retry",
    "Packetc.Props.C112_found"
   ],
   "note": "On the file system of C107-C109. C112_found: there is a tree for the later run (in a finite file system)."
  },
  {
   "property": "C113",
   "status": "partial",
   "theorems": [
    "Packetc.Props.C113_false",
    "Packetc.Props.C113_machines_partial",
    "Packetc.Props.C113_one_partial",
    "Packetc.Props.C113_program"
   ],
   "note": "False of the code, by C59. C113_machines_partial: if no field can be overtaken; C113_one_partial: one machine, any order; C113_program: what is in the output files in any case."
  },
  {
   "property": "C114",
   "status": "proved",
   "theorems": [
    "Packetc.Props.C114_smallest",
    "Packetc.Props.C114_sized",
    "Packetc.Props.C114_size",
    "Packetc.Props.C114_consumes",
    "Packetc.Props.C114_record",
    "Packetc.Props.C114_update",
    "Packetc.Props.C114_ts_record"
   ],
   "note": "Reading records (C114_record, C114_ts_record) is for schemas without enums of 32 variants, as the statement says; the rest is for all accepted schemas."
  },
  {
   "property": "C115",
   "status": "proved",
   "theorems": [
    "Packetc.Props.C115_constructs_iff",
    "Packetc.Props.C115_new_write",
    "Packetc.Props.C115_delivered",
    "Packetc.Props.C115_proto"
   ],
   "note": "Exact condition for the constructor; C115_proto is the case of a field called __proto__. That a program of another run reads the packet is C59."
  },
  {
   "property": "C116",
   "status": "partial",
   "theorems": [
    "Packetc.Props.C116_false",
    "Packetc.Props.C116_order_partial",
    "Packetc.Props.C116_exact"
   ],
   "note": "False of the code; C116_exact is the exact condition on the schema."
  },
  {
   "property": "C117",
   "status": "partial",
   "theorems": [
    "Packetc.Props.C117_false_always",
    "Packetc.Props.C117_false",
    "Packetc.Props.C117_copy_partial"
   ],
   "note": "False of the code for every packet; copying with the constructor works."
  },
  {
   "property": "C118",
   "status": "partial",
   "theorems": [
    "Packetc.Props.C118_write",
    "Packetc.Props.C118_false",
    "Packetc.Props.C118_exact",
    "Packetc.Props.C118_received_partial"
   ],
   "note": "False of the code; C118_exact is the exact condition, C118_received_partial what arrives otherwise. JavaScript numbers are modelled as integers and single-precision floats, so fractions in integer fields are not covered."
  },
  {
   "property": "C119",
   "status": "partial",
   "theorems": [
    "Packetc.Props.C119_declared_iff",
    "Packetc.Props.C119_write",
    "Packetc.Props.C119_read_partial",
    "Packetc.Props.C119_false",
    "Packetc.Props.C119_exact"
   ],
   "note": "False of the code for enums with numbers between their constants; C119_exact is the exact condition per call, C119_declared_iff the exact meaning of the declared types. null counts as undefined."
  },
  {
   "property": "C120",
   "status": "proved",
   "theorems": [
    "Packetc.Props.C120_rust_to_ts",
    "Packetc.Props.C120_ts_to_rust",
    "Packetc.Props.C120_understood",
    "Packetc.Props.C120_from_rust",
    "Packetc.Props.C120_from_ts",
    "Packetc.Props.C120_mutual"
   ],
   "note": "C120_from_ts needs a Rust process that can hold 2^32 - 1 items; C120_understood is the direction that does not. Enums of at most 31 variants."
  },
  {
   "property": "C121",
   "status": "proved",
   "theorems": [
    "Packetc.Props.C121_same_generator",
    "Packetc.Props.C121_generator",
    "Packetc.Props.C121_compile",
    "Packetc.Props.C121_rejected",
    "Packetc.Props.C121_not_polynomial"
   ],
   "note": "Steps are counted by a copy of the generator with a counter, proved to generate the same text. Appending to a buffer counts one step for each character (amortized); the rendering of error messages is not counted."
  },
  {
   "property": "C122",
   "status": "proved",
   "theorems": [
    "Packetc.Props.C122_program",
    "Packetc.Props.C122_file",
    "Packetc.Props.C122_ordered",
    "Packetc.Props.C122_exact"
   ],
   "note": "For schemas none of whose types is named like one of Rust's own (implied by acceptance of the file, C97). Files are put together from the parts that rust.rs emits, as in C91."
  },
  {
   "property": "C123",
   "status": "proved",
   "theorems": [
    "Packetc.Props.C123_typescript",
    "Packetc.Props.C123_rust",
    "Packetc.Props.C123_lines",
    "Packetc.Props.C123_meaning"
   ],
   "note": "LaidOut reads the text by character; C123_meaning says what that implies for every line. The header comment of the module is left out, since version and time are arbitrary there. The Rust file is put together from the parts that rust.rs emits, as in C91."
  },
  {
   "property": "C124",
   "status": "partial",
   "theorems": [
    "Packetc.Props.C124_false",
    "Packetc.Props.C124_size_partial"
   ],
   "note": "False of the code (C124_false): n structs, each with two fields of the one before, give a file of 2^n characters or more. C124_size_partial: at least as long as the number of non-struct fields written out, at most the number of all fields written out times a quadratic term in the length of the schema; cubic if no struct is the type of two fields. The file is put together from the parts that rust.rs emits, as in C91."
  },
  {
   "property": "C125",
   "status": "proved",
   "theorems": [
    "Packetc.Props.C125_code",
    "Packetc.Props.C125_chars",
    "Packetc.Props.C125_last_line"
   ],
   "note": "The file is put together from the parts that rust.rs emits, as in C91."
  },
  {
   "property": "C126",
   "status": "partial",
   "theorems": [
    "Packetc.Props.C126_steps_partial",
    "Packetc.Props.C126_false",
    "Packetc.Props.C126_same_generator"
   ],
   "note": "False of the code: structs over an empty struct are gone through at each use although nothing is emitted for them, which takes exponential time for a short file (C126_false). Proved: steps are between the length of the file and 24 times it plus 32 times the total length of the names of the fields in which nothing is transmitted; so linear in the file for schemas without empty structs."
  },
  {
   "property": "C127",
   "status": "partial",
   "theorems": [
    "Packetc.Props.C127_nested_partial",
    "Packetc.Props.C127_inOrder",
    "Packetc.Props.C127_false"
   ],
   "note": "False of the code, because two runs may order the fields of the struct differently (C127_false). Proved: for every program there is a run for the struct alone with this property (C127_nested_partial), and every run for the struct alone has it if no field in it can be overtaken (C127_inOrder); with less than 32 variants in each used enum."
  },
  {
   "property": "C128",
   "status": "partial",
   "theorems": [
    "Packetc.Props.C128_exact_partial",
    "Packetc.Props.C128_false"
   ],
   "note": "False of the code: try_from knows single variants only, so A | B of an enum A, B, C arrives in TypeScript and not in Rust (C128_false). Proved exactly: of such packets (ASCII strings, arrays that fit in memory, less than 32 variants), the Rust program reads those in which every combination is a single variant, as the same packet, and rejects all others."
  },
  {
   "property": "C129",
   "status": "partial",
   "theorems": [
    "Packetc.Props.C129_exact_partial",
    "Packetc.Props.C129_false"
   ],
   "note": "False of the code: lengths of strings are counted in characters in TypeScript and in bytes in Rust (C129_false, see C96). Proved exactly, for less than 32 variants: the stream arrives as the same packets if and only if all strings in it are ASCII and the arrays fit in memory, and then reading stops at the end of the packets."
  },
  {
   "property": "C130",
   "status": "partial",
   "theorems": [
    "Packetc.Props.C130_exact_partial",
    "Packetc.Props.C130_same_size",
    "Packetc.Props.C130_unique",
    "Packetc.Props.C130_false"
   ],
   "note": "False of the code with enums of 32 variants, which TypeScript never reads (C130_false). Proved exactly: it holds if and only if no used enum has 32 variants. For every packet, both programs write the same number of bytes (C130_same_size), and what is taken is determined by the data and the number of packets (C130_unique)."
  },
  {
   "property": "C131",
   "status": "partial",
   "theorems": [
    "Packetc.Props.C131_exact_partial",
    "Packetc.Props.C131_same",
    "Packetc.Props.C131_false"
   ],
   "note": "False of the code: strings that are not ASCII are passed on with the wrong length (C131_false). Proved exactly, for less than 32 variants: every packet is passed on, in one way and with as many bytes, and it arrives as the same packet if and only if its strings are ASCII and its arrays fit in memory. The same packet: equal, except that a NaN can be another NaN (C131_same)."
  }
 ]
}