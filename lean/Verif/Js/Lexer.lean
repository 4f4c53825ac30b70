import Verif.Model.Basic
/-!
# Tokens of the TypeScript subset

A lexer for (more than) the part of TypeScript that the generator uses, following the lexical grammar of
ECMAScript: identifiers, decimal integers, strings without escapes, operators by longest match, line comments.
It is stricter than ECMAScript: what it does not know, it rejects. Line ends are kept as tokens, because the
parser (`Verif.Js.Parse`) allows them only in places where automatic semicolon insertion cannot happen.
-/

namespace Packetc.Js

inductive Tok where
  /-- identifier or keyword -/
  | word (s : Str)
  | num (n : Nat)
  | str (s : Str)
  /-- operator or punctuation -/
  | op (s : Str)
  /-- line end -/
  | nl
deriving DecidableEq, Repr

/-- What the lexer is in the middle of. -/
inductive LState where
  | start
  | word (s : Str)
  | num (digits : Str)
  | str (s : Str)
  | op (s : Str)
  | comment
deriving DecidableEq, Repr

def isIdStart (c : Char) : Bool := c.isAlpha || c = '_'
def isIdPart (c : Char) : Bool := c.isAlphanum || c = '_'

/-- Line terminators (ECMAScript 12.3). -/
def isLineEnd (c : Char) : Bool := c = '\n' || c = '\r' || c = '\u2028' || c = '\u2029'

/-- Characters that are a token of their own. -/
def isSingle (c : Char) : Bool := "()[]{},;:.".toList.contains c
/-- Characters that operators are made of. -/
def isOpChar (c : Char) : Bool := "<>=&+-|?/!*%^~".toList.contains c

/-- The operators that are known. -/
def operators : List Str :=
  ["<".toList, "<=".toList, ">".toList, "<<".toList, "=".toList, "&&".toList, "++".toList, "-".toList, "|".toList,
   "?".toList]

/-- The value of a decimal number. -/
def digitsValue (ds : Str) : Nat := ds.foldl (fun n d => n * 10 + (d.toNat - 48)) 0

/-- The next character when no token has been begun. -/
def stepStart (c : Char) : Option (List Tok × LState) :=
  if isLineEnd c then some ([.nl], .start)
  else if c = ' ' then some ([], .start)
  else if isIdStart c then some ([], .word [c])
  else if c.isDigit then some ([], .num [c])
  else if c = '"' then some ([], .str [])
  else if isSingle c then some ([.op [c]], .start)
  else if isOpChar c then some ([], .op [c])
  else none

/-- A token ends, and the next character begins something else. -/
def stepAfter (t : Tok) (c : Char) : Option (List Tok × LState) :=
  (stepStart c).map fun r => (t :: r.1, r.2)

/-- One character. -/
def step : LState → Char → Option (List Tok × LState)
  | .start, c => stepStart c
  | .word s, c => if isIdPart c then some ([], .word (s ++ [c])) else stepAfter (.word s) c
  | .num ds, c =>
    if c.isDigit then (if ds = ['0'] then none else some ([], .num (ds ++ [c])))
    else if isIdPart c || c = '.' then none
    else stepAfter (.num (digitsValue ds)) c
  | .str s, c =>
    if c = '"' then some ([.str s], .start)
    else if c = '\\' || isLineEnd c then none
    else some ([], .str (s ++ [c]))
  | .op s, c =>
    if isOpChar c then
      if s ++ [c] = "//".toList then some ([], .comment) else some ([], .op (s ++ [c]))
    else if s ∈ operators then (if s = ['?'] ∧ c = '.' then none else stepAfter (.op s) c)
    else none
  | .comment, c => if isLineEnd c then some ([.nl], .start) else some ([], .comment)

/-- Several characters. -/
def lexFrom : LState → Str → Option (List Tok × LState)
  | st, [] => some ([], st)
  | st, c :: cs => (step st c).bind fun r => (lexFrom r.2 cs).map fun q => (r.1 ++ q.1, q.2)

/-- The end of the text. -/
def finish : LState → Option (List Tok)
  | .start => some []
  | .word s => some [.word s]
  | .num ds => some [.num (digitsValue ds)]
  | .op s => if s ∈ operators then some [.op s] else none
  | .str _ => none
  | .comment => some []

/-- The tokens of a text. -/
def lex (text : Str) : Option (List Tok) :=
  (lexFrom .start text).bind fun r => (finish r.2).map fun ts => r.1 ++ ts

end Packetc.Js
