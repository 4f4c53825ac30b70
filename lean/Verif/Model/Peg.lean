import Verif.Model.Basic
/-!
# The part of the `peg` 0.6 runtime used by `src/lib/parser.rs`

`peg::parser!` expands each rule to a function from an input position to
`RuleResult::{Matched(pos, value), Failed}`, threading an `ErrorState`.
`ErrorState::mark_failure(pos, ..)` does `max_err_pos = max(max_err_pos, pos)` unless failures are being
suppressed (`quiet!{..}` and negative lookahead). As the error state is only ever raised and is never
inspected during the parse, each parser here *returns* the largest position it marked (`far`, `0` if none)
instead of mutating a cell; the final `max_err_pos` is the same maximum.
The second run that `peg` makes after a failure only collects the set of expected tokens, which packetc
never looks at; it is not modelled.
-/

namespace Packetc.Peg

/-- A position in the input: byte offset and the remaining characters. (parser.rs:5.) -/
structure Inp where
  pos : Nat
  rest : Str
deriving DecidableEq, Repr

/-- `RuleResult`, plus an explicit outcome for a repetition that never ends. (parser.rs:5-89.) -/
inductive Res (α : Type) where
  | matched (i : Inp) (v : α)
  | failed
  | diverge
deriving Repr

/-- Result of a rule and the furthest failure position it marked. (parser.rs:5-89.) -/
structure Out (α : Type) where
  res : Res α
  far : Nat
deriving Repr

/-- A rule. (parser.rs:5-89.) -/
def P (α : Type) := Inp → Out α

/-- Matching the empty sequence with an action `{ v }`. (e.g. parser.rs:38.) -/
def P.pure {α : Type} (v : α) : P α := fun i => ⟨.matched i v, 0⟩

/-- Sequencing: the second expression starts where the first one stopped. (e.g. parser.rs:15.) -/
def P.bind {α β : Type} (p : P α) (f : α → P β) : P β := fun i =>
  match p i with
  | ⟨.matched i' v, n⟩ => match f v i' with | ⟨r, m⟩ => ⟨r, max n m⟩
  | ⟨.failed, n⟩ => ⟨.failed, n⟩
  | ⟨.diverge, n⟩ => ⟨.diverge, n⟩

instance : Monad P where
  pure := P.pure
  bind := P.bind

/-- `[pattern]`: one character; on failure marks the current position. (parser.rs:7-11, 15, 18, 33-35.) -/
def elem (f : Char → Bool) : P Char := fun i =>
  match i.rest with
  | c :: cs => if f c then ⟨.matched ⟨i.pos + c.utf8Size, cs⟩ c, 0⟩ else ⟨.failed, i.pos⟩
  | [] => ⟨.failed, i.pos⟩

/-- `"literal"`: marks the *start* position on failure. (e.g. parser.rs:15, 22-31.) -/
def lit (s : Str) : P Unit := fun i =>
  if s.isPrefixOf i.rest then ⟨.matched ⟨i.pos + bytes s, i.rest.drop s.length⟩ (), 0⟩
  else ⟨.failed, i.pos⟩

/-- `p / q`: ordered choice; `q` is tried only when `p` fails. (parser.rs:22-31, 50-51, 63-64, 78-80.) -/
def orElse {α : Type} (p q : P α) : P α := fun i =>
  match p i with
  | ⟨.failed, n⟩ => match q i with | ⟨r, m⟩ => ⟨r, max n m⟩
  | o => o

/-- `p?`. (parser.rs:41, 47, 51, 84.) -/
def opt {α : Type} (p : P α) : P (Option α) := fun i =>
  match p i with
  | ⟨.matched i' v, n⟩ => ⟨.matched i' (some v), n⟩
  | ⟨.failed, n⟩ => ⟨.matched i none, n⟩
  | ⟨.diverge, n⟩ => ⟨.diverge, n⟩

/-- The loop of `p*`. `peg` loops until `p` fails; running out of fuel stands for an endless loop. (e.g. parser.rs:7.) -/
def starN {α : Type} (p : P α) : Nat → P (List α)
  | 0 => fun _ => ⟨.diverge, 0⟩
  | fuel + 1 => fun i =>
    match p i with
    | ⟨.matched i' v, n⟩ =>
      match starN p fuel i' with
      | ⟨.matched i'' vs, m⟩ => ⟨.matched i'' (v :: vs), max n m⟩
      | ⟨.failed, m⟩ => ⟨.failed, max n m⟩
      | ⟨.diverge, m⟩ => ⟨.diverge, max n m⟩
    | ⟨.failed, n⟩ => ⟨.matched i [], n⟩
    | ⟨.diverge, n⟩ => ⟨.diverge, n⟩

/-- `p*`. A loop whose body always consumes input ends within `|rest| + 1` rounds; a body that matches
without consuming repeats for ever (the position, and so the outcome of the body, does not change).
(e.g. parser.rs:7, 38, 44, 55, 84.) -/
def star {α : Type} (p : P α) : P (List α) := fun i => starN p (i.rest.length + 1) i

/-- `!p`: negative lookahead, failures suppressed. (parser.rs:38.) -/
def notP {α : Type} (p : P α) : P Unit := fun i =>
  match (p i).res with
  | .matched _ _ => ⟨.failed, 0⟩
  | .failed => ⟨.matched i (), 0⟩
  | .diverge => ⟨.diverge, 0⟩

/-- `quiet!{ p }`: failures suppressed. (parser.rs:38.) -/
def quiet {α : Type} (p : P α) : P α := fun i => ⟨(p i).res, 0⟩

/-- `$(p)`: the matched slice of the input. (parser.rs:18, 33, 35, 38.) -/
def slice {α : Type} (p : P α) : P Str := fun i =>
  match p i with
  | ⟨.matched i' _, n⟩ => ⟨.matched i' (i.rest.take (i.rest.length - i'.rest.length)), n⟩
  | ⟨.failed, n⟩ => ⟨.failed, n⟩
  | ⟨.diverge, n⟩ => ⟨.diverge, n⟩

/-- `peg::str::LineCol`. (lib.rs:24.) -/
structure LineCol where
  line : Nat
  column : Nat
  offset : Nat
deriving DecidableEq, Repr

/-- `<str as Parse>::position_repr`: `before = &self[..pos]`, line = number of `\n` in `before` + 1,
column = characters of `before` after its last `\n` + 1. `none` when `pos` is not a character boundary of
the text (the slice would panic). (lib.rs:28-32.) -/
def positionRepr (text : Str) (pos : Nat) : Option LineCol :=
  go text pos 1 1
where
  go : Str → Nat → Nat → Nat → Option LineCol
    | _, 0, line, col => some ⟨line, col, pos⟩
    | [], _ + 1, _, _ => none
    | c :: cs, n + 1, line, col =>
      if c.utf8Size ≤ n + 1 then
        if c = '\n' then go cs (n + 1 - c.utf8Size) (line + 1) 1
        else go cs (n + 1 - c.utf8Size) line (col + 1)
      else none

/-- Outcome of a `pub rule`. (lib.rs:47-50.) -/
inductive ParseOutcome (α : Type) where
  | ok (v : α)
  | err (offset : Nat)
  | diverge
deriving Repr, DecidableEq

/-- Entry point generated for a `pub rule`: the rule must match the whole input
(`is_eof`, else `mark_failure(pos, "EOF")`). (parser.rs:83, lib.rs:47.) -/
def parseAll {α : Type} (p : P α) (text : Str) : ParseOutcome α :=
  match p ⟨0, text⟩ with
  | ⟨.matched i v, n⟩ => if i.rest = [] then .ok v else .err (max n i.pos)
  | ⟨.failed, n⟩ => .err n
  | ⟨.diverge, _⟩ => .diverge

end Packetc.Peg
