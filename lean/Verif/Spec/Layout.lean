import Verif.Spec.Module
/-!
# Indentation of generated code (C123)
-/

namespace Packetc.Layout
open Module (scan)

/-- Where a line has been read to: nothing but some number of blanks, or something. -/
inductive Line where
  | start (blanks : Nat)
  | inside
deriving DecidableEq, Repr

/-- The number of blanks that a line must begin with: four for every bracket that is open, but not for one that is closed first thing. -/
def indentOf (st : List Char) (c : Char) : Nat := 4 * (st.length - if c = ')' ∨ c = ']' ∨ c = '}' then 1 else 0)

/-- Read a text, with a stack of the closing brackets that are still expected; `none` at a wrong bracket, at an empty line and at a line
that is indented wrongly. -/
def layout : List Char → Line → Str → Option (List Char × Line)
  | st, l, [] => some (st, l)
  | st, .start k, c :: cs =>
    if c = ' ' then layout st (.start (k + 1)) cs
    else if c = '\n' then none
    else if k = indentOf st c then
      match scan st [c] with
      | some st => layout st .inside cs
      | none => none
    else none
  | st, .inside, c :: cs =>
    if c = '\n' then layout st (.start 0) cs
    else
      match scan st [c] with
      | some st => layout st .inside cs
      | none => none

/-- Complete lines, all indented as they should be, with brackets that match. -/
def LaidOut (text : Str) : Prop := layout [] (.start 0) text = some ([], .start 0)

end Packetc.Layout
