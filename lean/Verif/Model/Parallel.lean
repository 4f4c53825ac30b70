import Verif.Model.Folders
/-!
# `src/main.rs`: several runs at the same time

The functions of `Model/Folders` as programs whose operations on the file system are done one by one, so that other runs can
come in between. What is simplified, beyond `Model/Folders`: a run starts here when it has compiled its schemas (all reading
is done before the first operation, and schemas do not change, see C109), and `write_all` fills a file at once.
-/

namespace Packetc.Cli

/-- What is left to do for a run. (main.rs:95-102, 128-137.) -/
inductive Prog where
  /-- the run has ended -/
  | done (o : Outcome Unit)
  /-- `mkdir`, with its error if it fails -/
  | mkdir (path : List Comp) (k : Option Errno → Prog)
  /-- `Path::is_dir` -/
  | isDir (path : List Comp) (k : Bool → Prog)
  /-- `fs::write`, first part: `File::create`, which makes or empties the file -/
  | create (path : List Comp) (text : Str) (k : Bool → Prog)
  /-- `fs::write`, second part: `write_all` on the open file -/
  | fill (place : List Str) (text : Str) (k : Prog)

/-- One operation of a run in the directory `cwd`. (main.rs:98, 100.) -/
def Prog.step (cwd : List Str) (fs : Files) : Prog → Prog × Files
  | .done o => (.done o, fs)
  | .mkdir path k =>
    match Cli.mkdir cwd path fs with
    | .ok fs => (k none, fs)
    | .error e => (k (some e), fs)
  | .isDir path k => (k (Cli.isDir cwd path fs), fs)
  | .create path text k =>
    if path = [] then (k false, fs)
    else
      match walk fs cwd path with
      | .error _ => (k false, fs)
      | .ok p =>
        match fs p with
        | some .dir => (k false, fs)
        | _ => (.fill p text (k true), fs.set p (.file (some [])))
  | .fill p text k => (k, fs.set p (.file (some text)))

/-- `fs::create_dir_all`, as in `createDirAll`. (main.rs:98.) -/
def createDirAllP : List Comp → (Bool → Prog) → Prog
  | [], k => k true
  | c :: up, k =>
    .mkdir (c :: up).reverse fun r =>
      match r with
      | none => k true
      | some .other => .isDir (c :: up).reverse k
      | some .notFound =>
        createDirAllP up fun b =>
          if b then
            .mkdir (c :: up).reverse fun r =>
              match r with
              | none => k true
              | some _ => .isDir (c :: up).reverse k
          else k false

/-- main.rs:95-102 `save_one`. -/
def saveOneP (s : Schema) (out : List Comp) (k : Prog) : Prog :=
  let write : Bool → Prog := fun b =>
    if b then .create out s.generated fun b => if b then k else .done (.err .io) else .done (.err .io)
  match parentPath out with
  | none => write true
  | some up => createDirAllP up.reverse write

/-- main.rs:128-131, the loop over the compiled schemas. -/
def saveAllP (base out : Str) (lang : Lang) : List Schema → Prog
  | [] => .done (.ok ())
  | s :: ss =>
    match formatPath s.path base out lang true with
    | .ok p => saveOneP s p (saveAllP base out lang ss)
    | .err e => .done (.err e)
    | .panic => .done .panic
    | .diverge => .done .diverge

/-- main.rs:122-140 `main` after argument parsing. -/
def mainP (env : Str → Env) (lang : Lang) (path out : Str) (input : Option Tree) : Prog :=
  match input with
  | none => .done (.ok ())
  | some (.dir es c) =>
    match runAll env path (.dir es c) with
    | .ok ss => saveAllP path out lang ss
    | .err e => .done (.err e)
    | .panic => .done .panic
    | .diverge => .done .diverge
  | some (.file content) =>
    match runOne env path content with
    | .ok s =>
      match formatPath s.path path out lang false with
      | .ok p => saveOneP s p (.done (.ok ()))
      | .err e => .done (.err e)
      | .panic => .done .panic
      | .diverge => .done .diverge
    | .err e => .done (.err e)
    | .panic => .done .panic
    | .diverge => .done .diverge

/-- A run by itself, to its end. (main.rs:122-140.) -/
def Prog.run (cwd : List Str) : Prog → Files → Outcome Unit × Files
  | .done o, fs => (o, fs)
  | .mkdir path k, fs =>
    match Cli.mkdir cwd path fs with
    | .ok fs => (k none).run cwd fs
    | .error e => (k (some e)).run cwd fs
  | .isDir path k, fs => (k (Cli.isDir cwd path fs)).run cwd fs
  | .create path text k, fs =>
    if path = [] then (k false).run cwd fs
    else
      match walk fs cwd path with
      | .error _ => (k false).run cwd fs
      | .ok p =>
        match fs p with
        | some .dir => (k false).run cwd fs
        | _ => (k true).run cwd ((fs.set p (.file (some []))).set p (.file (some text)))
  | .fill p text k, fs => k.run cwd (fs.set p (.file (some text)))

end Packetc.Cli
