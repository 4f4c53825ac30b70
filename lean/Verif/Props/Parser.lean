import Verif.Proof.ErrPos
import Verif.Proof.Print
/-!
# C01-C10: the parser and its error messages
-/

namespace Packetc.Props
open Ast Peg

/-! ## C01 -/

/-- C01: a text is accepted, with a given syntax tree, exactly when the grammar derives it. -/
theorem C01_accepts_iff_grammar (text : Str) (ast : AST) :
    Parser.schema text = .ok ast ↔ Grammar.Schema ast text := Parser.schema_iff text ast

/-- C01: the grammar is unambiguous. -/
theorem C01_grammar_unambiguous {text : Str} {a b : AST} (ha : Grammar.Schema a text)
    (hb : Grammar.Schema b text) : a = b := by
  rw [← Parser.schema_iff] at ha hb
  rw [ha] at hb; injection hb

/-- C01: a text outside the grammar is rejected with an error. -/
theorem C01_rejects_iff (text : Str) :
    (∃ off, Parser.schema text = .err off) ↔ ¬ ∃ ast, Grammar.Schema ast text := by
  simp only [← Parser.schema_iff]
  cases h : Parser.schema text with
  | ok v => simp
  | err off => simp
  | diverge => exact absurd h (Parser.schema_total text)

/-- Non-trivial instance: a schema using every construct. -/
example : Grammar.Schema
    [.decl "E".toList (.enum ["A".toList, "B".toList]),
     .decl "S".toList (.struct [("a".toList, ⟨"E".toList, true, false⟩), ("b".toList, ⟨"float".toList, false, true⟩)]),
     .export "S".toList]
    "\n# c\nE : enum { A B, }\n S: struct { # x\n a: E[]\n\tb?:float }\nexport S\n".toList := by
  rw [← C01_accepts_iff_grammar]; decide +kernel

/-! ## C02 -/

/-- C02: printing then parsing is the identity on syntax trees with legal names. -/
theorem C02_print_parse (ast : AST) (h : Print.Legal ast) : Parser.schema (Print.schema ast) = .ok ast :=
  (Parser.schema_iff _ _).mpr (Parser.schema_print ast h)

/-- C02: so the parser reaches every legal syntax tree, and only those. -/
theorem C02_range (ast : AST) : (∃ text, Parser.schema text = .ok ast) ↔ Print.Legal ast :=
  ⟨fun ⟨_, h⟩ => Parser.schema_legal ((Parser.schema_iff _ _).mp h), fun h => ⟨_, C02_print_parse ast h⟩⟩

example : Print.Legal [.decl "E".toList (.enum ["A".toList]),
    .decl "S".toList (.struct [("x".toList, ⟨"E".toList, true, false⟩), ("y".toList, ⟨"uint8".toList, false, true⟩)]),
    .export "S".toList] :=
  Parser.schema_legal ((Parser.schema_iff
    "E: enum { A } S: struct { x: E[], y?: uint8 } export S".toList _).mp (by decide +kernel))

/-! ## C03 -/

/-- C03: all layouts of a syntax tree compile to the same result. -/
theorem C03_layout_insensitive {ast : AST} {t₁ t₂ : Str} (h₁ : Grammar.Schema ast t₁)
    (h₂ : Grammar.Schema ast t₂) :
    Parser.schema t₁ = Parser.schema t₂ ∧ ∀ env, compile env t₁ = compile env t₂ := by
  rw [← Parser.schema_iff] at h₁ h₂
  refine ⟨by rw [h₁, h₂], fun env => ?_⟩
  unfold compile
  rw [h₁, h₂]

/-- C03: schema files can be concatenated. -/
theorem C03_concat {a b : AST} {t u : Str} (ht : Parser.schema t = .ok a) (hu : Parser.schema u = .ok b) :
    Parser.schema (t ++ "\n".toList ++ u) = .ok (a ++ b) := by
  rw [Parser.schema_iff] at *
  exact Parser.schema_append ht hu

/-- C03: a comment line may be inserted between any two parts of a schema. -/
theorem C03_insert_comment {a b : AST} {t u body : Str} (ht : Parser.schema t = .ok a)
    (hu : Parser.schema u = .ok b) (hb : '\n' ∉ body) :
    Parser.schema (t ++ "\n".toList ++ ('#' :: body) ++ "\n".toList ++ u) = .ok (a ++ b) := by
  rw [Parser.schema_iff] at *
  have := Parser.schema_append (Parser.schema_append ht (Parser.schema_comment hb)) hu
  rwa [List.append_nil] at this

/-- Two different layouts of one syntax tree. -/
example : ∃ ast t₁ t₂, t₁ ≠ t₂ ∧ ast ≠ [] ∧ Grammar.Schema ast t₁ ∧ Grammar.Schema ast t₂ :=
  ⟨[.decl "A".toList (.struct [("x".toList, ⟨"uint8".toList, false, false⟩)]), .export "A".toList],
   "A: struct { x: uint8 }\nexport A".toList,
   "# first\n\tA\t:struct{\n# second\nx:uint8\n,\n}\n\n  export\tA\n".toList, by decide, by decide,
   (Parser.schema_iff _ _).mp (by decide +kernel), (Parser.schema_iff _ _).mp (by decide +kernel)⟩

/-! ## C04 -/

/-- `[A-Za-z0-9_]` -/
def NameChar (c : Char) : Prop :=
  ('a' ≤ c ∧ c ≤ 'z') ∨ ('A' ≤ c ∧ c ≤ 'Z') ∨ ('0' ≤ c ∧ c ≤ '9') ∨ c = '_'

/-- `[A-Za-z_][A-Za-z0-9_]*` -/
def PlainIdent (n : Str) : Prop :=
  ∃ c cs, n = c :: cs ∧ (('a' ≤ c ∧ c ≤ 'z') ∨ ('A' ≤ c ∧ c ≤ 'Z') ∨ c = '_') ∧ ∀ d ∈ cs, NameChar d

/-- The words that may not begin a name. -/
def keywords : List Str :=
  ["uint8".toList, "uint16".toList, "uint32".toList, "int8".toList, "int16".toList, "int32".toList,
   "float".toList, "string".toList, "enum".toList, "struct".toList]

def LegalName (n : Str) : Prop := PlainIdent n ∧ ∀ k ∈ keywords, ¬ k <+: n

theorem word_nameChar {s : Str} (h : Grammar.Word s) : ∀ c ∈ s, NameChar c := by
  intro c hc
  have := h c hc
  unfold Grammar.WordChar Grammar.Letter Grammar.Digit at this
  unfold NameChar
  tauto

theorem ident_legalName {n : Str} : Grammar.Ident n ↔ LegalName n := by
  unfold Grammar.Ident LegalName PlainIdent
  refine and_congr ?_ Iff.rfl
  constructor
  · rintro ⟨c, cs, rfl, hc, hw⟩
    refine ⟨c, cs, rfl, ?_, word_nameChar hw⟩
    unfold Grammar.Letter at hc; tauto
  · rintro ⟨c, cs, rfl, hc, hw⟩
    refine ⟨c, cs, rfl, ?_, ?_⟩
    · unfold Grammar.Letter; tauto
    · intro d hd
      have := hw d hd
      unfold NameChar at this
      unfold Grammar.WordChar Grammar.Letter Grammar.Digit; tauto

/-- C04: every name in an accepted syntax tree is legal. -/
theorem C04_names_legal {text : Str} {ast : AST} (h : Parser.schema text = .ok ast) :
    (∀ n ty, .decl n ty ∈ ast → LegalName n ∧ ¬ "export".toList <+: n) ∧
    (∀ n vs, .decl n (.enum vs) ∈ ast → ∀ v ∈ vs, LegalName v) ∧
    (∀ n fs, .decl n (.struct fs) ∈ ast → ∀ f ∈ fs, LegalName f.1 ∧ ∀ c ∈ f.2.name, NameChar c) ∧
    (∀ n, .export n ∈ ast → ∀ c ∈ n, NameChar c) := by
  have hl := Parser.schema_legal ((Parser.schema_iff _ _).mp h)
  refine ⟨?_, ?_, ?_, ?_⟩
  · intro n ty hn
    have := hl _ hn
    exact ⟨ident_legalName.mp this.1, this.2.1⟩
  · intro n vs hn v hv
    exact ident_legalName.mp ((hl _ hn).2.2 v hv)
  · intro n fs hn f hf
    have := (hl _ hn).2.2 f hf
    exact ⟨ident_legalName.mp this.1, word_nameChar this.2⟩
  · intro n hn
    exact word_nameChar (hl _ hn)

example : ∃ ast, Parser.schema "A: struct { x: uint8 }\nE: enum { V }\nexport A".toList = .ok ast ∧ ast.length = 3 :=
  ⟨[.decl "A".toList (.struct [("x".toList, ⟨"uint8".toList, false, false⟩)]),
    .decl "E".toList (.enum ["V".toList]), .export "A".toList], by decide +kernel, rfl⟩

/-! ## C05 -/

/-- C05, full statement: an identifier that is not a reserved word can be declared. -/
def C05_claim : Prop := ∀ n, PlainIdent n → n ∉ keywords → n ≠ "export".toList →
  ∃ text ast ty, Parser.schema text = .ok ast ∧ .decl n ty ∈ ast

/-- C05, exact rule: the names that can be declared, used as a field and used as a variant. What is missing
from the full statement: identifiers that merely *begin* with a reserved word (or `export`). -/
theorem C05_usable_names_partial (n : Str) :
    ((∃ text ast ty, Parser.schema text = .ok ast ∧ .decl n ty ∈ ast) ↔
      PlainIdent n ∧ (∀ k ∈ keywords, ¬ k <+: n) ∧ ¬ "export".toList <+: n) ∧
    ((∃ text ast s fs u, Parser.schema text = .ok ast ∧ .decl s (.struct fs) ∈ ast ∧ (n, u) ∈ fs) ↔
      PlainIdent n ∧ (∀ k ∈ keywords, ¬ k <+: n)) ∧
    ((∃ text ast e vs, Parser.schema text = .ok ast ∧ .decl e (.enum vs) ∈ ast ∧ n ∈ vs) ↔
      PlainIdent n ∧ (∀ k ∈ keywords, ¬ k <+: n)) := by
  have hE : Grammar.Ident "E".toList := by
    refine ⟨⟨'E', [], rfl, ?_, by simp [Grammar.Word]⟩, by decide⟩
    exact Or.inl (Or.inr (by decide))
  refine ⟨⟨?_, ?_⟩, ⟨?_, ?_⟩, ⟨?_, ?_⟩⟩
  · rintro ⟨text, ast, ty, h, hm⟩
    have := (C04_names_legal h).1 n ty hm
    exact ⟨this.1.1, this.1.2, this.2⟩
  · rintro ⟨h1, h2, h3⟩
    refine ⟨_, [.decl n (.struct [])], .struct [], C02_print_parse _ ?_, by simp⟩
    intro m hm
    simp only [List.mem_singleton] at hm; subst hm
    exact ⟨ident_legalName.mpr ⟨h1, h2⟩, h3, by simp [Print.LegalTy]⟩
  · rintro ⟨text, ast, s, fs, u, h, hm, hf⟩
    exact ((C04_names_legal h).2.2.1 s fs hm _ hf).1
  · intro h
    refine ⟨_, [.decl "E".toList (.struct [(n, ⟨[], false, false⟩)])], "E".toList, _, ⟨[], false, false⟩,
      C02_print_parse _ ?_, List.mem_singleton.mpr rfl, List.mem_singleton.mpr rfl⟩
    intro m hm
    simp only [List.mem_singleton] at hm; subst hm
    refine ⟨hE, by decide, ?_⟩
    intro f hf
    simp only [List.mem_singleton] at hf; subst hf
    exact ⟨ident_legalName.mpr h, by intro c hc; cases hc⟩
  · rintro ⟨text, ast, e, vs, h, hm, hv⟩
    exact (C04_names_legal h).2.1 e vs hm n hv
  · intro h
    refine ⟨_, [.decl "E".toList (.enum [n])], "E".toList, [n],
      C02_print_parse _ ?_, List.mem_singleton.mpr rfl, List.mem_singleton.mpr rfl⟩
    intro m hm
    simp only [List.mem_singleton] at hm; subst hm
    refine ⟨hE, by decide, ?_⟩
    intro f hf
    simp only [List.mem_singleton] at hf; subst hf
    exact ident_legalName.mpr h

/-- C05 is false of the code: `strings` is no reserved word, but cannot be declared. -/
theorem C05_false : ¬ C05_claim := by
  intro h
  have hp : PlainIdent "strings".toList := by
    refine ⟨'s', "trings".toList, by decide, Or.inl (by decide), ?_⟩
    intro d hd
    have : d ∈ ['t', 'r', 'i', 'n', 'g', 's'] := hd
    unfold NameChar
    simp only [List.mem_cons, List.not_mem_nil, or_false] at this
    rcases this with rfl | rfl | rfl | rfl | rfl | rfl <;> exact Or.inl (by decide)
  have := h "strings".toList hp (by decide) (by decide)
  have := ((C05_usable_names_partial _).1.mp this).2.1 "string".toList (by decide)
  exact this (by decide)

/-! ## C06 -/

/-- C06: the parser terminates on every text, with a syntax tree or an error. -/
theorem C06_parser_total (text : Str) :
    (∃ ast, Parser.schema text = .ok ast) ∨ ∃ off, Parser.schema text = .err off := by
  cases h : Parser.schema text with
  | ok v => exact Or.inl ⟨v, rfl⟩
  | err off => exact Or.inr ⟨off, rfl⟩
  | diverge => exact absurd h (Parser.schema_total text)

/-! ## C07 -/

/-- C07: a parse error is reported at a character boundary of the text, with its line and column, and turned
into a message without panicking. -/
theorem C07_error_position {text : Str} {off : Nat} (h : Parser.schema text = .err off) :
    ∃ pre post, text = pre ++ post ∧ off = bytes pre ∧
      positionRepr text off = some ⟨Position.line pre, Position.column pre, off⟩ ∧
      ∀ env, ∃ msg, compile env text = .parseError msg := by
  obtain ⟨pre, post, rfl, rfl⟩ := Parser.schema_err_bd h
  refine ⟨pre, post, rfl, rfl, positionRepr_eq pre post, fun env => ?_⟩
  unfold compile
  rw [h]
  simp only
  rw [positionRepr_eq]
  simp only
  rw [prettyError_eq]
  exact ⟨_, rfl⟩

example : Parser.schema "A: struct {\n x uint8 }".toList = .err 15 := by decide +kernel

/-! ## C08 -/

/-- C08: the reported position is not before the end of any initial part of the text that is a schema on its
own. -/
theorem C08_error_after_complete_lines {pre post : Str} {ast : AST} {off : Nat}
    (hpre : Parser.schema pre = .ok ast) (herr : Parser.schema (pre ++ post) = .err off) :
    bytes pre ≤ off :=
  Parser.schema_err_prefix ((Parser.schema_iff _ _).mp hpre) herr

example : (∃ ast, Parser.schema "A: enum { V }\n".toList = .ok ast) ∧
    Parser.schema "A: enum { V }\nexport A B".toList = .err 24 :=
  ⟨⟨[.decl "A".toList (.enum ["V".toList])], by decide +kernel⟩, by decide +kernel⟩

/-! ## C09 -/

/-- The message quotes character `c`. -/
def Quotes (msg : Str) (c : Char) : Prop := "\nUnexpected token '".toList ++ [c] ++ "'".toList <+: msg

/-- C09, full statement: the message quotes the character at the reported position (NUL at the end). -/
def C09_claim : Prop := ∀ env text msg pre post, compile env text = .parseError msg → text = pre ++ post →
  Parser.schema text = .err (bytes pre) → Quotes msg (post.head?.getD '\x00')

theorem bytes_ascii {s : Str} (h : ∀ c ∈ s, c.val < 128) : bytes s = s.length := by
  induction s with
  | nil => rfl
  | cons c cs ih =>
    have h1 : c.utf8Size = 1 := by
      have := h c (by simp)
      unfold Char.utf8Size
      rw [if_pos]
      have : c.val.toNat < 128 := this
      show c.val.toNat ≤ 127
      omega
    rw [bytes, h1, ih (fun c hc => h c (by simp [hc]))]
    simp; omega

/-- The message quotes character number `bytes pre` of the text (the byte offset is used as a character index). -/
theorem quotes_iff {env : Env} {pre post msg : Str} (h : compile env (pre ++ post) = .parseError msg)
    (herr : Parser.schema (pre ++ post) = .err (bytes pre)) (c : Char) :
    Quotes msg c ↔ ((pre ++ post)[bytes pre]?).getD '\x00' = c := by
  unfold compile at h
  rw [herr] at h
  simp only at h
  rw [positionRepr_eq] at h
  simp only at h
  rw [prettyError_eq] at h
  simp only [CompileOutcome.parseError.injEq] at h
  have e : "' at line ".toList = "'".toList ++ " at line ".toList := by decide
  rw [← h, e]
  unfold Quotes
  constructor
  · rintro ⟨rest, hr⟩
    simp only [List.append_assoc, List.append_cancel_left_eq, List.cons_append, List.nil_append, List.cons.injEq] at hr
    exact hr.1.symm
  · rintro rfl
    simp only [List.append_assoc]
    exact List.prefix_append_right_inj _ |>.2 (List.prefix_append_right_inj _ |>.2 (List.prefix_append _ _))

theorem length_le_bytes (s : Str) : s.length ≤ bytes s := by
  induction s with
  | nil => exact Nat.le_refl _
  | cons c cs ih =>
    have := Char.utf8Size_pos c
    rw [bytes, List.length_cons]
    omega

/-- C09, exactly: the message quotes the offending character if and only if the same character (or the end of the text)
comes so many characters later as there are bytes more than characters before it. Missing from the full statement: texts for
which this is not so. -/
theorem C09_exact_partial {env : Env} {text msg pre post : Str}
    (h : compile env text = .parseError msg) (ht : text = pre ++ post)
    (herr : Parser.schema text = .err (bytes pre)) :
    Quotes msg (post.head?.getD '\x00') ↔
      (post[bytes pre - pre.length]?).getD '\x00' = post.head?.getD '\x00' := by
  subst ht
  rw [quotes_iff h herr, List.getElem?_append_right (length_le_bytes pre)]

/-- After `é` the right character is quoted by luck. -/
example : ∃ msg pre post, compile ⟨[], [], id, id⟩ "#é\n!!".toList = .parseError msg ∧ "#é\n!!".toList = pre ++ post ∧
    Parser.schema "#é\n!!".toList = .err (bytes pre) ∧ bytes pre ≠ pre.length ∧
    (post[bytes pre - pre.length]?).getD '\x00' = post.head?.getD '\x00' :=
  ⟨"\nUnexpected token '!' at line 2, column 1\n|\n|  !!\n|~~^\n".toList, "#é\n".toList, "!!".toList,
    by decide +kernel, by decide, by decide +kernel, by decide, by decide⟩

/-- C09 holds when the text before the reported position is ASCII. Missing from the full statement: texts with
other characters before the error (the byte offset is used as a character index). -/
theorem C09_quotes_offender_partial {env : Env} {text msg pre post : Str}
    (h : compile env text = .parseError msg) (ht : text = pre ++ post)
    (herr : Parser.schema text = .err (bytes pre)) (hascii : ∀ c ∈ pre, c.val < 128) :
    Quotes msg (post.head?.getD '\x00') := by
  rw [C09_exact_partial h ht herr, bytes_ascii hascii, Nat.sub_self, List.head?_eq_getElem?]

/-- C09 is false of the code: after `é` (two bytes) the wrong character is quoted. -/
theorem C09_false : ¬ C09_claim := by
  intro h
  have := h ⟨[], [], id, id⟩ "#é\n!?".toList "\nUnexpected token '?' at line 2, column 1\n|\n|  !?\n|~~^\n".toList
    "#é\n".toList "!?".toList (by decide +kernel) (by decide) (by decide +kernel)
  revert this
  unfold Quotes
  decide

/-! ## C10 -/

/-- C10: the message ends with the quoted source line and, below it, a `^` in the column of the reported
position. -/
theorem C10_caret_under_offender {env : Env} {text msg : Str} (h : compile env text = .parseError msg) :
    ∃ pre post, text = pre ++ post ∧ Parser.schema text = .err (bytes pre) ∧
      '\n' ∉ Position.lineBefore pre ++ Position.lineAfter post ∧
      ∃ top, msg = top ++ "\n|  ".toList ++ (Position.lineBefore pre ++ Position.lineAfter post) ++
        "\n|~~".toList ++ List.replicate (Position.lineBefore pre).length '~' ++ "^\n".toList := by
  cases hs : Parser.schema text with
  | diverge => exact absurd hs (Parser.schema_total text)
  | ok ast =>
    unfold compile at h
    rw [hs] at h
    simp only at h
    cases hc : Check.typeCheck env.ordTypes ast with
    | error e => rw [hc] at h; cases e <;> simp at h
    | ok r =>
      rw [hc] at h
      simp only at h
      cases hg : Gen.generate env.version env.now env.ordDecls r with
      | none => rw [hg] at h; simp at h
      | some c => rw [hg] at h; simp at h
  | err off =>
    obtain ⟨pre, post, rfl, rfl⟩ := Parser.schema_err_bd hs
    refine ⟨pre, post, rfl, rfl, ?_, ?_⟩
    · intro hm
      rcases List.mem_append.mp hm with hm | hm
      · unfold Position.lineBefore at hm
        rw [List.mem_reverse] at hm
        simpa using Parser.takeWhile_mem _ hm
      · simpa using Parser.takeWhile_mem _ hm
    · unfold compile at h
      rw [hs] at h
      simp only at h
      rw [positionRepr_eq] at h
      simp only at h
      rw [prettyError_eq] at h
      simp only [CompileOutcome.parseError.injEq] at h
      refine ⟨"\nUnexpected token '".toList ++ [((pre ++ post)[bytes pre]?).getD '\x00'] ++
        "' at line ".toList ++ (toString (Position.line pre)).toList ++
        ", column ".toList ++ (toString (Position.column pre)).toList ++ "\n|".toList, ?_⟩
      rw [← h]
      have e : "\n|\n|  ".toList = "\n|".toList ++ "\n|  ".toList := by decide
      have e2 : "\n|~~".toList = "\n".toList ++ "|~~".toList := by decide
      rw [e, e2]
      simp only [List.append_assoc]

example : compile ⟨[], [], id, id⟩ "A: struct {\n x uint8 }".toList = .parseError
    "\nUnexpected token 'u' at line 2, column 4\n|\n|   x uint8 }\n|~~~~~^\n".toList := by decide +kernel

end Packetc.Props
