import Verif.Model.Parallel
import Verif.Spec.Folders
/-!
# Runs at the same time (specification for C110)
-/

namespace Packetc.Cli

/-- Runs at the same time: their directories and what is left to do for each. -/
abbrev Runs := List (List Str × Prog)

/-- The run has ended. -/
def Prog.Ended (p : Prog) : Prop := ∃ o, p = .done o

/-- One of the runs that have not ended does its next operation. -/
inductive OneStep : Runs × Files → Runs × Files → Prop
  | step (before after : Runs) (cwd prog fs) : ¬ prog.Ended →
      OneStep (before ++ (cwd, prog) :: after, fs) (before ++ (cwd, (prog.step cwd fs).1) :: after, (prog.step cwd fs).2)

/-- `n` operations, in any order. -/
inductive Steps : Nat → Runs × Files → Runs × Files → Prop
  | none (c) : Steps 0 c c
  | more (n c c' c'') : OneStep c c' → Steps n c' c'' → Steps (n + 1) c c''

/-- A run: hash functions and so on, working directory, both arguments, what is found at the input path, and the places
that the two arguments lead to. -/
structure Job where
  env : Str → Env
  cwd : List Str
  path : Str
  out : Str
  input : Tree
  dir : List Str
  place : List Str

/-- The run at its start. -/
def Job.start (j : Job) : List Str × Prog := (j.cwd, mainP j.env .typeScript j.path j.out (some j.input))

/-- The input path ends in the name `….pkt`, without further dots. -/
def PlainName (path stem : Str) : Prop :=
  stem ≠ [] ∧ '.' ∉ stem ∧ ∃ cs, components path = cs ++ [.normal (stem ++ ".pkt".toList)]

/-- A schema of this run: where it lies below the input directory (just its name, for a run on one file), its content, and
the path that the run has for it. -/
def Job.Schema (fs : Files) (j : Job) (p : List Str) (c : Option Str) (file : Str) : Prop :=
  match j.input with
  | .dir _ _ => fs.Schema j.dir p c ∧ file = below j.path p
  | .file c' => c = c' ∧ file = j.path ∧ ∃ stem, PlainName j.path stem ∧ p = [stem ++ ".pkt".toList]

/-- The arguments lead to these places, a single file has a plain name, and all schemas compile. -/
structure Job.Ready (fs : Files) (j : Job) : Prop where
  cwd : fs j.cwd = some .dir
  found : Found fs j.cwd j.path j.dir j.input
  out : Leads j.cwd j.out j.place
  name : ∀ c, j.input = .file c → ∃ stem, PlainName j.path stem
  compiles : ∀ p c file, j.Schema fs p c file → ∃ text code, c = some text ∧ compile (j.env file) text = .ok code

/-- One of the runs has an output at `q`, with this text. -/
def Output (fs : Files) (js : List Job) (q : List Str) (code : Str) : Prop :=
  ∃ j ∈ js, ∃ p text file, j.Schema fs p (some text) file ∧ OutFile j.place p q ∧ compile (j.env file) text = .ok code

/-- The outputs can be there together: nothing is in the way, none is a directory for another, and runs with the same
output agree on the text. -/
structure Together (fs : Files) (js : List Job) : Prop where
  free : ∀ q code, Output fs js q code → Free fs q
  apart : ∀ q code q' code', Output fs js q code → Output fs js q' code' → q <+: q' → q = q'
  agree : ∀ q code code', Output fs js q code → Output fs js q code' → code = code'

/-- The file system after all runs: the outputs, their directories, and everything else as before. -/
def AfterAll (js : List Job) (fs fs' : Files) : Prop :=
  ∀ q, (∀ code, Output fs js q code → fs' q = some (.file (some code))) ∧
    ((∃ p code, Output fs js p code ∧ q <+: p ∧ q ≠ p) → fs' q = some .dir) ∧
    ((¬ ∃ p code, Output fs js p code ∧ q <+: p) → fs' q = fs q)

end Packetc.Cli
