import Verif.Model.Ast
/-!
# Declarative grammar of schema texts (specification for C01-C05)

Independent of the parser: relations between abstract syntax and text. A relation `X v t rest` reads
"`t`, when followed by `rest`, is a way of writing `v`"; `rest` is mentioned only to say that words, comments and the spaces
before a word extend as far as possible (longest match), everything else is an ordinary context-free grammar.
-/

namespace Packetc.Grammar
open Ast

/-- Spaces and tabs. -/
def Blank (s : Str) : Prop := ∀ c ∈ s, c = ' ' ∨ c = '\t'
/-- Line ends. -/
def Newlines (s : Str) : Prop := ∀ c ∈ s, c = '\n' ∨ c = '\r'
/-- Spaces, tabs and line ends. -/
def Layout (s : Str) : Prop := ∀ c ∈ s, c = ' ' ∨ c = '\t' ∨ c = '\n' ∨ c = '\r'

def Letter (c : Char) : Prop := ('a' ≤ c ∧ c ≤ 'z') ∨ ('A' ≤ c ∧ c ≤ 'Z')
def Digit (c : Char) : Prop := '0' ≤ c ∧ c ≤ '9'
/-- Characters of words. -/
def WordChar (c : Char) : Prop := Letter c ∨ Digit c ∨ c = '_'

/-- Words: used for type references and export names. May be empty, may start with a digit. -/
def Word (s : Str) : Prop := ∀ c ∈ s, WordChar c

/-- The reserved words. -/
def reservedWords : List Str :=
  ["uint8".toList, "uint16".toList, "uint32".toList, "int8".toList, "int16".toList, "int32".toList,
   "float".toList, "string".toList, "enum".toList, "struct".toList]

/-- Identifiers: a word not starting with a digit, and not *beginning with* a reserved word. -/
def Ident (s : Str) : Prop :=
  (∃ c cs, s = c :: cs ∧ (Letter c ∨ c = '_') ∧ Word cs) ∧ ∀ r ∈ reservedWords, ¬ r <+: s

/-- A word ends here: the text that follows does not start with a word character. -/
def WordEnd (rest : Str) : Prop := ∀ c cs, rest = c :: cs → ¬ WordChar c
/-- A run of spaces and tabs ends here. -/
def BlankEnd (rest : Str) : Prop := ∀ c cs, rest = c :: cs → c ≠ ' ' ∧ c ≠ '\t'
/-- A line ends here. -/
def LineEnd (rest : Str) : Prop := rest = [] ∨ ∃ cs, rest = '\n' :: cs

/-- An optional separator. -/
def OptComma (s : Str) : Prop := s = [] ∨ s = ",".toList

/-- A comment, from `#` to the end of the line (the line end itself not included). -/
def Comment (t rest : Str) : Prop :=
  ∃ body, t = '#' :: body ∧ '\n' ∉ body ∧ LineEnd rest

/-- One enum variant, with its optional comma. -/
def Variant (v t rest : Str) : Prop :=
  ∃ l₁ comma l₂, t = v ++ l₁ ++ comma ++ l₂ ∧ Ident v ∧ Layout l₁ ∧ OptComma comma ∧ Layout l₂ ∧
    WordEnd (l₁ ++ comma ++ l₂ ++ rest)

inductive Variants : List Str → Str → Str → Prop
  | nil (rest) : Variants [] [] rest
  | cons {v vs t ts rest} : Variant v t (ts ++ rest) → Variants vs ts rest → Variants (v :: vs) (t ++ ts) rest

/-- `name?: type[],` -/
def FieldDecl (name : Str) (u : Unresolved) (t rest : Str) : Prop :=
  ∃ b₁ q b₂ a l₁ comma l₂,
    t = name ++ b₁ ++ q ++ ":".toList ++ b₂ ++ u.name ++ a ++ l₁ ++ comma ++ l₂ ∧
    Ident name ∧ Blank b₁ ∧ q = (if u.optional then "?".toList else []) ∧
    Blank b₂ ∧ Word u.name ∧ a = (if u.array then "[]".toList else []) ∧
    Layout l₁ ∧ OptComma comma ∧ Layout l₂ ∧
    BlankEnd (u.name ++ a ++ l₁ ++ comma ++ l₂ ++ rest) ∧
    WordEnd (a ++ l₁ ++ comma ++ l₂ ++ rest)

/-- The body of a struct: field declarations and comments. -/
inductive Fields : List (Str × Unresolved) → Str → Str → Prop
  | nil (rest) : Fields [] [] rest
  | field {n u fs t ts rest} : FieldDecl n u t (ts ++ rest) → Fields fs ts rest →
      Fields ((n, u) :: fs) (t ++ ts) rest
  | comment {fs t l ts rest} : Comment t (l ++ ts ++ rest) → Layout l → Fields fs ts rest →
      Fields fs (t ++ l ++ ts) rest

/-- `enum { .. }` or `struct { .. }`. -/
inductive Type' : Ty → Str → Prop
  | enum {vs b₂ l₁ body l₂} : Blank b₂ → Layout l₁ → Layout l₂ → Variants vs body (l₂ ++ "}".toList) →
      Type' (.enum vs) ("enum".toList ++ b₂ ++ "{".toList ++ l₁ ++ body ++ l₂ ++ "}".toList)
  | struct {fs b₂ l₁ body l₂} : Blank b₂ → Layout l₁ → Layout l₂ → Fields fs body (l₂ ++ "}".toList) →
      Type' (.struct fs) ("struct".toList ++ b₂ ++ "{".toList ++ l₁ ++ body ++ l₂ ++ "}".toList)

/-- Sequences of lines making up a schema. Declarations may be followed by any layout, comments and exports
only by line ends. A declared name does not begin with `export` (that would be read as an export line). -/
inductive Lines : AST → Str → Prop
  | nil : Lines [] []
  | comment {ns b t l ts} : Blank b → Comment t (l ++ ts) → Newlines l → Lines ns ts →
      Lines ns (b ++ t ++ l ++ ts)
  | export {ns b₁ b₂ name l ts} : Blank b₁ → Blank b₂ → Word name → Newlines l →
      BlankEnd (name ++ l ++ ts) → WordEnd (l ++ ts) → Lines ns ts →
      Lines (.export name :: ns) (b₁ ++ "export".toList ++ b₂ ++ name ++ l ++ ts)
  | decl {ns b₁ name b₂ b₃ ty t l ts} : Blank b₁ → Ident name → ¬ "export".toList <+: name →
      Blank b₂ → Blank b₃ → Type' ty t → Layout l → Lines ns ts →
      Lines (.decl name ty :: ns) (b₁ ++ name ++ b₂ ++ ":".toList ++ b₃ ++ t ++ l ++ ts)

/-- `t` is a schema text for `ast`: lines, possibly after some line ends. -/
def Schema (ast : AST) (text : Str) : Prop := ∃ l t, text = l ++ t ∧ Newlines l ∧ Lines ast t

end Packetc.Grammar
