import Verif.Model.Cli
/-!
# `src/main.rs`: what the tool does to the outside, in order

The functions of `Model/Cli` again, recording every listing of a directory, every reading of a file, every printed line,
every creation of directories and every writing of a file. `Proof/CliEvents` shows that they agree with `Model/Cli`.
Not recorded: `fs::metadata` and `Path::is_dir`. Printing does not fail.
-/

namespace Packetc.Cli

/-- Something the tool does. (main.rs:33, 49, 73, 96, 98, 100, 112.) -/
inductive Event where
  /-- `fs::read_dir` -/
  | list (dir : Str)
  /-- `fs::read_to_string` -/
  | read (path : Str)
  /-- `println!` -/
  | line (text : Str)
  /-- `fs::create_dir_all`, and whether it succeeds -/
  | mkdirs (dir : List Comp) (ok : Bool)
  /-- `fs::write`, and what it leaves behind if it fails (as in `Disk`) -/
  | write (path : List Comp) (content : Str) (failed : Option (Option Str))

/-- How a function returns, and what it has done. (main.rs:47-140.) -/
abbrev Traced (α : Type) := Outcome α × List Event

/-- The operator `?`, e.g. main.rs:53, 89, 130. -/
def Traced.bind {α β : Type} (x : Traced α) (f : α → Traced β) : Traced β :=
  match x.1 with
  | .ok a => ((f a).1, x.2 ++ (f a).2)
  | .err e => (.err e, x.2)
  | .panic => (.panic, x.2)
  | .diverge => (.diverge, x.2)

/-- `Path::parent`. (main.rs:97.) -/
def parentOf (p : List Comp) : Option (List Comp) :=
  match p.getLast? with
  | none => none
  | some .root => none
  | some _ => some p.dropLast

/-- main.rs:27-38 `from_str`: what is printed. (clap calls it to validate the argument.) -/
def langLines (lower : Str → Str) (s : Str) : List Event :=
  if lower s = "ts".toList then [] else [.line (lower s)]

/-- main.rs:68-77 `run_one`. -/
def runOneT (env : Str → Env) (path : Str) (content : Option Str) : Traced Schema :=
  (runOne env path content, [.read path])

mutual
/-- main.rs:47-60 `visit_files` with the callback of `run_all` (81-91). -/
def visitFilesT (env : Str → Env) (path : Str) : Tree → List Schema → Traced (List Schema)
  | .file _, out => (.ok out, [])
  | .dir entries complete, out =>
    Traced.bind (.ok (), [.list path]) fun _ =>
      Traced.bind (visitEntriesT env path entries out) fun out => (if complete then .ok out else .err .io, [])
/-- main.rs:49-57, the loop. -/
def visitEntriesT (env : Str → Env) (dir : Str) : List (EntryOf Tree) → List Schema → Traced (List Schema)
  | [], out => (.ok out, [])
  | e :: es, out => Traced.bind (visitEntryT env dir e out) fun out => visitEntriesT env dir es out
/-- main.rs:50-56, the body of the loop. -/
def visitEntryT (env : Str → Env) (dir : Str) : EntryOf Tree → List Schema → Traced (List Schema)
  | ⟨name, utf8, node⟩, out =>
    let path := join dir name
    match node with
    | .dir es c => if utf8 then visitFilesT env path (.dir es c) out else (.panic, [])
    | .file content =>
      if (fileName (components path)).bind extension = some "pkt".toList then
        if utf8 then Traced.bind (runOneT env path content) fun s => (.ok (out ++ [s]), []) else (.err .invalidPath, [])
      else (.ok out, [])
end

/-- main.rs:95-102 `save_one`, the `k`-th call; `out` is the text of the path. (The path has no parent only if it is `/`;
nothing is created then, and, as in `Cli.saveOne`, `disk.mkdir` still decides whether there is an error first. The write
would fail in any case.) -/
def saveOneT (disk : Disk) (k : Nat) (s : Schema) (out : Str) : Traced Unit :=
  Traced.bind (.ok (), [.line ("Writing to ".toList ++ out)]) fun _ =>
  Traced.bind (match parentOf (components out) with
    | some d => (if disk.mkdir k then .ok () else .err .io, [.mkdirs d (disk.mkdir k)])
    | none => (if disk.mkdir k then .ok () else .err .io, [])) fun _ =>
  (match disk.write k with | none => .ok () | some _ => .err .io, [.write (components out) s.generated (disk.write k)])

/-- main.rs:104-120 `format_path`; in single-file mode it prints the output directory (line 112). -/
def formatPathT (file base out : Str) (lang : Lang) (preserveDir : Bool) : Traced Str :=
  (formatPathText file base out lang preserveDir, if preserveDir then [] else [.line out])

/-- main.rs:128-131, the loop over the compiled schemas. -/
def saveAllT (disk : Disk) (base out : Str) (lang : Lang) : Nat → List Schema → Traced Unit
  | _, [] => (.ok (), [])
  | k, s :: ss =>
    Traced.bind (formatPathT s.path base out lang true) fun p =>
    Traced.bind (saveOneT disk k s p) fun _ => saveAllT disk base out lang (k + 1) ss

/-- main.rs:122-140 `main` after argument parsing. -/
def mainT (env : Str → Env) (disk : Disk) (lang : Lang) (path out : Str) (input : Option Tree) : Traced Unit :=
  match input with
  | none => (.ok (), [])
  | some (.dir es c) =>
    Traced.bind (visitFilesT env path (.dir es c) []) fun ss => saveAllT disk path out lang 0 ss
  | some (.file content) =>
    Traced.bind (runOneT env path content) fun s =>
    Traced.bind (formatPathT s.path path out lang false) fun p => saveOneT disk 0 s p

/-- The command (`none`: a usage error). (main.rs:12-18, 123.) -/
def commandT (lower : Str → Str) (env : Str → Env) (disk : Disk) (langArg path out : Str) (input : Option Tree) :
    Option (Outcome Unit) × List Event :=
  match langFromStr lower langArg with
  | none => (none, langLines lower langArg)
  | some lang => (some (mainT env disk lang path out input).1, (mainT env disk lang path out input).2)

end Packetc.Cli
