import Verif.Proof.LineEnds
import Verif.Proof.Chars
import Verif.Props.Gen
/-!
# C87, C88: line ends and characters, of schemas and of generated files
-/

namespace Packetc.Props
open Ast Check Gen WellFormed Js Module LineEnds Chars

/-! ## C87 -/

/-- C87: an accepted schema keeps its syntax tree when its line ends become CR LF. -/
theorem C87_to_dos {text : Str} {ast : AST} (h : Parser.schema text = .ok ast) :
    Parser.schema (toDos text) = .ok ast :=
  (C01_accepts_iff_grammar _ _).2 (dos_schema ((C01_accepts_iff_grammar _ _).1 h))

/-- C87: an accepted schema keeps its syntax tree when its CR LF become LF. -/
theorem C87_to_unix {text : Str} {ast : AST} (h : Parser.schema text = .ok ast) :
    Parser.schema (toUnix text) = .ok ast :=
  (C01_accepts_iff_grammar _ _).2 (unix_schema ((C01_accepts_iff_grammar _ _).1 h))

/-- C87: without other CRs, both forms of a schema are accepted or both are rejected, with the same syntax tree. -/
theorem C87_iff {text : Str} (hr : '\r' ∉ text) (ast : AST) :
    Parser.schema (toDos text) = .ok ast ↔ Parser.schema text = .ok ast :=
  ⟨fun h => toUnix_toDos hr ▸ C87_to_unix h, C87_to_dos⟩

/-- C87: all runs of the compiler on the two forms of an accepted schema have the same result. -/
theorem C87_compile {text : Str} {ast : AST} (h : Parser.schema text = .ok ast) (env : Env) :
    compile env (toDos text) = compile env text ∧ compile env (toUnix text) = compile env text := by
  have h0 := (C01_accepts_iff_grammar _ _).1 h
  exact ⟨(C03_layout_insensitive (dos_schema h0) h0).2 env, (C03_layout_insensitive (unix_schema h0) h0).2 env⟩

/-- C87: the generated code is the same, whether or not the text is accepted. -/
theorem C87_code {text : Str} (hr : '\r' ∉ text) {env : Env} (hf : env.Fair) (code : Str) :
    compile env (toDos text) = .ok code ↔ compile env text = .ok code := by
  constructor
  · intro h
    obtain ⟨ast, r, hp, -⟩ := compile_ok hf h
    rw [← (C87_compile ((C87_iff hr ast).1 hp) env).1]
    exact h
  · intro h
    obtain ⟨ast, r, hp, -⟩ := compile_ok hf h
    rw [(C87_compile hp env).1]
    exact h

/-- The hypotheses are met by a schema of several lines, with comments. -/
example : ∃ text ast, '\r' ∉ text ∧ Parser.schema text = .ok ast ∧ ast.length = 2 ∧ toDos text ≠ text ∧
    toDos text = "# a\r\nS: struct {\r\n x: uint8 # b\r\n y: string\r\n}\r\n\r\nexport S\r\n".toList :=
  ⟨"# a\nS: struct {\n x: uint8 # b\n y: string\n}\n\nexport S\n".toList,
   [.decl "S".toList (.struct [("x".toList, ⟨"uint8".toList, false, false⟩), ("y".toList, ⟨"string".toList, false, false⟩)]),
    .export "S".toList], by decide, by decide +kernel, rfl, by decide, by decide⟩

/-- It is different with lone CRs as line ends: a comment then swallows the next line. -/
example : Parser.schema "# c\nexport A".toList = .ok [.export "A".toList] ∧
    Parser.schema "# c\rexport A".toList = .ok [] := by
  refine ⟨by decide +kernel, by decide +kernel⟩

/-! ## C88 -/

/-- C88: behind the first two lines, the generated file has only printable ASCII and LF, and no character that begins a
string, a template or a comment. -/
theorem C88_code {env : Env} (hf : env.Fair) {text code : Str} (h : compile env text = .ok code) :
    ∃ rest, code = header env.version env.now ++ importLine ++ rest ∧ Code rest := by
  obtain ⟨ast, r, hp, ht, rfl⟩ := compile_ok hf h
  refine ⟨_, ?_, module_code hp hf.1 ht (hf.2 _)⟩
  simp only [List.append_assoc]

theorem plain_of_append {s t : Str} (hs : Plain s) (ht : Plain t) : Plain (s ++ t) := fun c hc =>
  (List.mem_append.1 hc).elim (hs c) (ht c)

/-- C88: the whole file is printable ASCII and LF, if the version and the time in the first line are. -/
theorem C88_plain {env : Env} (hf : env.Fair) {text code : Str} (h : compile env text = .ok code)
    (hv : Plain env.version) (hn : Plain env.now) : Plain code := by
  obtain ⟨rest, rfl, hr⟩ := C88_code hf h
  have h1 : Plain "// Generated by packetc v".toList := by decide
  have h2 : Plain " at ".toList := by decide
  have h3 : Plain "\n".toList := by decide
  have h4 : Plain importLine := by decide
  have h5 : Plain rest := fun c hc => (hr c hc).1
  exact plain_of_append (plain_of_append (plain_of_append (plain_of_append (plain_of_append (plain_of_append h1 hv) h2) hn)
    h3) h4) h5

/-- C88: the file ends with a line end. -/
theorem C88_last_line {env : Env} (hf : env.Fair) {text code : Str} (h : compile env text = .ok code) :
    ∃ s, code = s ++ "\n".toList := by
  obtain ⟨ast, r, hp, ht, rfl⟩ := compile_ok hf h
  obtain ⟨fs, fs', -, -, -, h4⟩ := class_eq hf.1 (parsed_noBuiltinDecl hp) ht
  rw [h4]
  unfold classText
  rw [← List.append_assoc, show "}\n".toList = "}".toList ++ "\n".toList by decide, ← List.append_assoc]
  exact ⟨_, rfl⟩

/-- The example schema compiles, and so does a schema with any characters in a comment. -/
example : (∃ env code, Env.Fair env ∧ compile env exampleText = .ok code ∧ Plain env.version ∧ Plain env.now) ∧
    ∃ ast, Parser.schema "# \t\r */ `\" é →\nS: struct {\tx: uint8 }\nexport S".toList = .ok ast ∧ ast.length = 2 :=
  ⟨⟨_, _, fair_id _ _, example_compiles.choose_spec, by decide, by decide⟩,
   [.decl "S".toList (.struct [("x".toList, ⟨"uint8".toList, false, false⟩)]), .export "S".toList], by decide +kernel, rfl⟩

end Packetc.Props
