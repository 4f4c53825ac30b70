import Verif.Model.Basic
/-!
# Line ends (specification for C87)
-/

namespace Packetc.LineEnds

/-- Every line end becomes CR LF (what `unix2dos`, or git with `autocrlf`, do to a file with LF line ends). -/
def toDos : Str → Str
  | [] => []
  | c :: cs => if c = '\n' then '\r' :: '\n' :: toDos cs else c :: toDos cs

/-- Every CR LF becomes LF (what `dos2unix` does). -/
def toUnix : Str → Str
  | [] => []
  | c :: cs => if c = '\r' ∧ cs.head? = some '\n' then toUnix cs else c :: toUnix cs

end Packetc.LineEnds
