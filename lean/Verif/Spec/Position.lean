import Verif.Model.Basic
/-!
# Positions in a text (specification for C07-C10)

A position is given by the text before it (`pre`) and the text after it (`post`).
-/

namespace Packetc.Position

/-- The part of the current line that lies before the position. -/
def lineBefore (pre : Str) : Str := (pre.reverse.takeWhile (fun c => c != '\n')).reverse
/-- The part of the current line that lies after the position. -/
def lineAfter (post : Str) : Str := post.takeWhile (fun c => c != '\n')

/-- 1-based line number. -/
def line (pre : Str) : Nat := 1 + pre.count '\n'
/-- 1-based column, in characters. -/
def column (pre : Str) : Nat := 1 + (lineBefore pre).length

end Packetc.Position
