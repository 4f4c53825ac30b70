import Verif.Model.Parser
import Verif.Model.Ts
/-!
# `src/lib/lib.rs`: `compile` and `pretty_error`
-/

namespace Packetc

/-- `str::split('\n')` (always at least one piece). (lib.rs:32.) -/
def splitNl : Str → List Str
  | [] => [[]]
  | c :: cs =>
    match splitNl cs with
    | [] => [[]]  -- unreachable: the result is never empty
    | l :: ls => if c = '\n' then [] :: l :: ls else (c :: l) :: ls

/-- lib.rs:24-41 `pretty_error`. `err.location.line - 1` underflows (panics) when the line is 0: `none`. -/
def prettyError (file : Str) (loc : Peg.LineCol) : Option Str :=
  if loc.line = 0 then none
  else
    let ch := (file[loc.offset]?).getD '\x00'
    let line := ((splitNl file)[loc.line - 1]?).getD ['\x00']
    let markColumn := if loc.column < 1 then 0 else loc.column - 1
    some ("\nUnexpected token '".toList ++ [ch] ++ "' at line ".toList ++ (toString loc.line).toList ++
      ", column ".toList ++ (toString loc.column).toList ++
      "\n|\n|  ".toList ++ line ++ "\n".toList ++
      "|~~".toList ++ List.replicate markColumn '~' ++ "^\n".toList)

/-- Result of `compile`: `Ok`, the two `Error` variants (lib.rs:17-22), a panic, or non-termination. -/
inductive CompileOutcome where
  | ok (code : Str)
  | parseError (msg : Str)
  | checkError (msg : Str)
  | panic
  | diverge
deriving DecidableEq, Repr

/-- Everything `compile` takes from its surroundings: crate version, clock, and the iteration orders of the
two hash maps it iterates over. -/
structure Env where
  version : Str
  now : Str
  ordTypes : List (Str × Ast.Ty) → List (Str × Ast.Ty)
  ordDecls : Check.TypeMap → Check.TypeMap

/-- The iteration orders really enumerate the maps: they are permutations of the entries. (check.rs:344, gen/ts.rs:332.) -/
def Env.Fair (env : Env) : Prop :=
  (∀ l, (env.ordTypes l).Perm l) ∧ (∀ l, (env.ordDecls l).Perm l)

/-- lib.rs:43-56 `compile::<TypeScript>`. -/
def compile (env : Env) (text : Str) : CompileOutcome :=
  match Parser.schema text with
  | .diverge => .diverge
  | .err off =>
    match Peg.positionRepr text off with
    | none => .panic
    | some loc =>
      match prettyError text loc with
      | none => .panic
      | some msg => .parseError msg
  | .ok ast =>
    match Check.typeCheck env.ordTypes ast with
    | .error (.err e) => .checkError e.render
    | .error .panic => .panic
    | .error .diverge => .diverge
    | .ok r =>
      match Gen.generate env.version env.now env.ordDecls r with
      | none => .panic
      | some code => .ok code

end Packetc
