import Verif.Proof.ErrViable
/-!
# C55, C56: where the parser says the error is
-/

namespace Packetc.Props
open Packetc Peg Ast

/-! ## C55 -/

/-- C55, first half: the text before the reported position is not to blame, it is the beginning of some schema
that is accepted. -/
theorem C55_prefix_viable {text : Str} {off : Nat} (h : Parser.schema text = .err off) :
    ∃ pre post, text = pre ++ post ∧ bytes pre = off ∧
      ∃ ext ast, Parser.schema (pre ++ ext) = .ok ast := by
  obtain ⟨pre, post, h1, h2, ext, ast, h3⟩ := Parser.schema_err_viable h
  exact ⟨pre, post, h1, h2, ext, ast, (Parser.schema_iff _ _).mpr h3⟩

/-- C55, second half: the error is not further right: no accepted schema agrees with the text for six bytes or
more past the reported position (the longest keyword has six bytes, and is checked as a whole). -/
theorem C55_error_is_there {text text' w r r' : Str} {off : Nat} {ast : AST}
    (h : Parser.schema text = .err off) (h' : Parser.schema text' = .ok ast)
    (hw : text = w ++ r) (hw' : text' = w ++ r') : bytes w < off + 6 := by
  subst hw hw'
  by_cases hlt : bytes w < off + 6
  · exact hlt
  · rw [Parser.schema_err_local h (by omega) r'] at h'
    cases h'

/-- The hypotheses are met, and five bytes are possible: `a: strucx{}` is rejected at the `s`, and
`a: struct{}` agrees with it for five more bytes. -/
example : Parser.schema "a: strucx{}".toList = .err 3 ∧
    Parser.schema "a: struct{}".toList = .ok [.decl "a".toList (.struct [])] ∧
    "a: strucx{}".toList = "a: struc".toList ++ "x{}".toList ∧
    "a: struct{}".toList = "a: struc".toList ++ "t{}".toList ∧ bytes "a: struc".toList = 3 + 5 := by
  decide +kernel

/-! ## C56 -/

/-- C56: what is reported depends only on the text up to six bytes past the reported position. -/
theorem C56_error_stable {text w r : Str} {off : Nat} (h : Parser.schema text = .err off) (hw : text = w ++ r)
    (hoff : off + 6 ≤ bytes w) (r' : Str) : Parser.schema (w ++ r') = .err off := by
  subst hw; exact Parser.schema_err_local h hoff r'

example : Parser.schema "A: enum { V }\nB = struct {}".toList = .err 16 ∧
    "A: enum { V }\nB = struct {}".toList = "A: enum { V }\nB = stru".toList ++ "ct {}".toList ∧
    16 + 6 ≤ bytes "A: enum { V }\nB = stru".toList := by decide +kernel

end Packetc.Props
