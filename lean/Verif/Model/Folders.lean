import Verif.Model.Cli
/-!
# `src/main.rs` on a file system with directories

`Model/Cli` leaves open which of the operations of `save_one` fail. Here the file system itself is modelled, so that this
is determined by what is there. What is simplified: every operation is permitted, there is enough space, nothing else
changes the files, there are no links, and a path is given by its components (a trailing `/` makes no difference).
-/

namespace Packetc.Cli

/-- What there can be at a path; `file none` is a file that `read_to_string` rejects. (main.rs:73, 98, 100.) -/
inductive Item where
  | dir
  | file (content : Option Str)
deriving DecidableEq, Repr

/-- What there is at each path: the names from the root on. (main.rs:98, 100, 126.) -/
abbrev Files := List Str → Option Item

/-- A new file or directory. (main.rs:98, 100.) -/
def Files.set (fs : Files) (p : List Str) (i : Item) : Files := fun q => if q = p then some i else fs q

/-- The error of a file system operation, as far as `create_dir_all` distinguishes: `ENOENT`, anything else.
(main.rs:98.) -/
inductive Errno where
  | notFound
  | other
deriving DecidableEq, Repr

/-- One component, from a directory. (main.rs:98, 100, 126.) -/
def stepTo (dir : List Str) : Comp → List Str
  | .root => []
  | .cur => dir
  | .parent => dir.dropLast
  | .normal n => dir ++ [n]

/-- How the operating system finds the place that a path denotes: all before the last component must be directories.
(main.rs:98, 100, 126.) -/
def walk (fs : Files) (dir : List Str) : List Comp → Except Errno (List Str)
  | [] => .ok dir
  | c :: cs =>
    match fs dir with
    | some .dir => walk fs (stepTo dir c) cs
    | some (.file _) => .error .other
    | none => .error .notFound

/-- `mkdir`. (main.rs:98, in `create_dir_all`.) -/
def mkdir (cwd : List Str) (path : List Comp) (fs : Files) : Except Errno Files :=
  match walk fs cwd path with
  | .error e => .error e
  | .ok p =>
    match fs p with
    | some _ => .error .other
    | none => .ok (fs.set p .dir)

/-- `Path::is_dir`. (main.rs:98, in `create_dir_all`.) -/
def isDir (cwd : List Str) (path : List Comp) (fs : Files) : Bool :=
  match walk fs cwd path with
  | .error _ => false
  | .ok p => fs p == some .dir

/-- `fs::create_dir_all` (`DirBuilder::create_dir_all`), for the path whose components are these in reverse order; whether
it succeeds. (main.rs:98.) -/
def createDirAll (cwd : List Str) : List Comp → Files → Bool × Files
  | [], fs => (true, fs)
  | c :: up, fs =>
    match mkdir cwd (c :: up).reverse fs with
    | .ok fs => (true, fs)
    | .error .other => (isDir cwd (c :: up).reverse fs, fs)
    | .error .notFound =>
      match createDirAll cwd up fs with
      | (false, fs) => (false, fs)
      | (true, fs) =>
        match mkdir cwd (c :: up).reverse fs with
        | .ok fs => (true, fs)
        | .error _ => (isDir cwd (c :: up).reverse fs, fs)

/-- `Path::parent`. (main.rs:97.) -/
def parentPath (p : List Comp) : Option (List Comp) :=
  match p.getLast? with
  | none => none
  | some .root => none
  | some _ => some p.dropLast

/-- `fs::write`; whether it succeeds. (main.rs:100.) -/
def writeFile (cwd : List Str) (path : List Comp) (text : Str) (fs : Files) : Bool × Files :=
  if path = [] then (false, fs)
  else
    match walk fs cwd path with
    | .error _ => (false, fs)
    | .ok p =>
      match fs p with
      | some .dir => (false, fs)
      | _ => (true, fs.set p (.file (some text)))

/-- main.rs:95-102 `save_one`. -/
def saveOneF (cwd : List Str) (s : Schema) (out : List Comp) (fs : Files) : Outcome Unit × Files :=
  match (match parentPath out with
    | none => (true, fs)
    | some up => createDirAll cwd up.reverse fs) with
  | (false, fs) => (.err .io, fs)
  | (true, fs) =>
    match writeFile cwd out s.generated fs with
    | (false, fs) => (.err .io, fs)
    | (true, fs) => (.ok (), fs)

/-- main.rs:128-131, the loop over the compiled schemas. -/
def saveAllF (cwd : List Str) (base out : Str) (lang : Lang) : List Schema → Files → Outcome Unit × Files
  | [], fs => (.ok (), fs)
  | s :: ss, fs =>
    match formatPath s.path base out lang true with
    | .ok p =>
      match saveOneF cwd s p fs with
      | (.ok (), fs) => saveAllF cwd base out lang ss fs
      | (e, fs) => (e, fs)
    | .err e => (.err e, fs)
    | .panic => (.panic, fs)
    | .diverge => (.diverge, fs)

/-- main.rs:122-140 `main` after argument parsing, in the directory `cwd`; `input` is what is found at the path (see
`Found` in `Spec/Folders`). All reading is done before the first operation of `save_one`. -/
def mainF (env : Str → Env) (cwd : List Str) (lang : Lang) (path out : Str) (input : Option Tree) (fs : Files) :
    Outcome Unit × Files :=
  match input with
  | none => (.ok (), fs)
  | some (.dir es c) =>
    match runAll env path (.dir es c) with
    | .ok ss => saveAllF cwd path out lang ss fs
    | .err e => (.err e, fs)
    | .panic => (.panic, fs)
    | .diverge => (.diverge, fs)
  | some (.file content) =>
    match runOne env path content with
    | .ok s =>
      match formatPath s.path path out lang false with
      | .ok p => saveOneF cwd s p fs
      | .err e => (.err e, fs)
      | .panic => (.panic, fs)
      | .diverge => (.diverge, fs)
    | .err e => (.err e, fs)
    | .panic => (.panic, fs)
    | .diverge => (.diverge, fs)

end Packetc.Cli
