import Verif.Js.Lexer
/-!
# Tokens of the Rust subset

A lexer for the part of Rust that rust.rs emits, following the lexical structure in the Rust reference: identifiers, decimal integers with an
optional type suffix, strings without escapes, punctuation by longest match. It is stricter than Rust: what it does not know (comments,
lifetimes, other literals, other punctuation, prefixes of literals), it rejects.
-/

namespace Packetc.Rs
open Js (isIdStart isIdPart digitsValue)

/-- Words that cannot be names (2021 edition). -/
def keywords : List Str :=
  ["as".toList, "break".toList, "const".toList, "continue".toList, "crate".toList, "else".toList, "enum".toList, "extern".toList,
   "false".toList, "fn".toList, "for".toList, "if".toList, "impl".toList, "in".toList, "let".toList, "loop".toList, "match".toList,
   "mod".toList, "move".toList, "mut".toList, "pub".toList, "ref".toList, "return".toList, "self".toList, "Self".toList,
   "static".toList, "struct".toList, "super".toList, "trait".toList, "true".toList, "type".toList, "unsafe".toList, "use".toList,
   "where".toList, "while".toList, "async".toList, "await".toList, "dyn".toList, "abstract".toList, "become".toList, "box".toList,
   "do".toList, "final".toList, "macro".toList, "override".toList, "priv".toList, "typeof".toList, "unsized".toList,
   "virtual".toList, "yield".toList, "try".toList, "_".toList]

inductive Tok where
  /-- identifier or keyword -/
  | word (s : Str)
  /-- number and suffix -/
  | num (n : Nat) (suffix : Str)
  | str (s : Str)
  /-- punctuation -/
  | op (s : Str)
deriving DecidableEq, Repr

/-- What the lexer is in the middle of. -/
inductive LState where
  | start
  | word (s : Str)
  | num (digits : Str)
  /-- a number and a part of its suffix -/
  | suffix (digits s : Str)
  /-- a number and a dot, which can only be the first of two -/
  | dot (digits : Str)
  | str (s : Str)
  | op (s : Str)
deriving DecidableEq, Repr

def isSpace (c : Char) : Bool := c = ' ' || c = '\n' || c = '\t' || c = '\r'

/-- Characters that are a token of their own. -/
def isSingle (c : Char) : Bool := "()[]{},;#?".toList.contains c

/-- The punctuation that is known. Each has its beginnings in the list. -/
def operators : List Str :=
  ["<".toList, "<<".toList, "<=".toList, "<<=".toList, "<-".toList, ">".toList, ">>".toList, ">=".toList, ">>=".toList, "=".toList,
   "==".toList, "=>".toList, "&".toList, "&&".toList, "&=".toList, "-".toList, "-=".toList, "->".toList, "!".toList, "!=".toList,
   ":".toList, "::".toList, ".".toList, "..".toList, "...".toList, "..=".toList]

/-- The suffixes of integers. -/
def suffixes : List Str :=
  ["u8".toList, "u16".toList, "u32".toList, "u64".toList, "u128".toList, "usize".toList, "i8".toList, "i16".toList, "i32".toList,
   "i64".toList, "i128".toList, "isize".toList]

/-- Characters that make a word or number into something else: a prefixed literal. -/
def isPrefixed (c : Char) : Bool := c = '"' || c = '\'' || c = '#'

/-- The next character when no token has been begun. -/
def stepStart (c : Char) : Option (List Tok × LState) :=
  if isSpace c then some ([], .start)
  else if isIdStart c then some ([], .word [c])
  else if c.isDigit then some ([], .num [c])
  else if c = '"' then some ([], .str [])
  else if isSingle c then some ([.op [c]], .start)
  else if [c] ∈ operators then some ([], .op [c])
  else none

/-- A token ends, and the next character begins something else. -/
def stepAfter (t : Tok) (c : Char) : Option (List Tok × LState) :=
  (stepStart c).map fun r => (t :: r.1, r.2)

/-- One character. -/
def step : LState → Char → Option (List Tok × LState)
  | .start, c => stepStart c
  | .word s, c =>
    if isIdPart c then some ([], .word (s ++ [c]))
    else if isPrefixed c then none
    else stepAfter (.word s) c
  | .num ds, c =>
    if c.isDigit then some ([], .num (ds ++ [c]))
    else if isIdPart c then some ([], .suffix ds [c])
    else if c = '.' then some ([], .dot ds)
    else if isPrefixed c then none
    else stepAfter (.num (digitsValue ds) []) c
  | .suffix ds s, c =>
    if isIdPart c then some ([], .suffix ds (s ++ [c]))
    else if isPrefixed c || c = '.' then none
    else if s ∈ suffixes then stepAfter (.num (digitsValue ds) s) c
    else none
  | .dot ds, c => if c = '.' then some ([.num (digitsValue ds) []], .op "..".toList) else none
  | .str s, c =>
    if c = '"' then some ([.str s], .start)
    else if c = '\\' || c = '\r' then none
    else some ([], .str (s ++ [c]))
  | .op s, c => if s ++ [c] ∈ operators then some ([], .op (s ++ [c])) else stepAfter (.op s) c

/-- Several characters. -/
def lexFrom : LState → Str → Option (List Tok × LState)
  | st, [] => some ([], st)
  | st, c :: cs => (step st c).bind fun r => (lexFrom r.2 cs).map fun q => (r.1 ++ q.1, q.2)

/-- The end of the text. -/
def finish : LState → Option (List Tok)
  | .start => some []
  | .word s => some [.word s]
  | .num ds => some [.num (digitsValue ds) []]
  | .suffix ds s => if s ∈ suffixes then some [.num (digitsValue ds) s] else none
  | .op s => some [.op s]
  | .dot _ => none
  | .str _ => none

/-- The tokens of a text. -/
def lex (text : Str) : Option (List Tok) :=
  (lexFrom .start text).bind fun r => (finish r.2).map fun ts => r.1 ++ ts

end Packetc.Rs
