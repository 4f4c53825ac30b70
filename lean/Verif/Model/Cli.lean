import Verif.Model.Compile
/-!
# `src/main.rs`: the command line tool

What is modelled: argument `lang`, the walk over the input directory, reading, compiling, computing output paths, the
order of all file system operations, and what each error does. What is simplified:

* A path is a Unix path; names that are not UTF-8 are represented by a flag (their text is the lossy rendition).
* The input is a finite tree that does not change during the run; links are represented by what they point to.
* The `clap` argument parser (other than `Lang::from_str`) is not modelled. `println!` is in `Model/CliEvents`.
-/

namespace Packetc.Cli

/-! ### `std::path` (Unix) -/

/-- `std::path::Component`. (main.rs:7, 116.) -/
inductive Comp where
  | root
  | cur
  | parent
  | normal (name : Str)
deriving DecidableEq, Repr

/-- `str::split('/')`. (used by `components`, main.rs:107-108, 114.) -/
def splitSlash : Str → List Str
  | [] => [[]]
  | c :: cs =>
    match splitSlash cs with
    | [] => [[]]  -- unreachable: the result is never empty
    | l :: ls => if c = '/' then [] :: l :: ls else (c :: l) :: ls

/-- One piece of a path as a component (`Components::parse_single_component`): empty pieces and `.` are skipped.
(main.rs:107-108, 114.) -/
def parsePiece (p : Str) : Option Comp :=
  if p = [] ∨ p = ".".toList then none else if p = "..".toList then some .parent else some (.normal p)

/-- `Path::components`: a leading `/` is the root, a leading `.` is kept. (main.rs:107-108, 114.) -/
def components (p : Str) : List Comp :=
  match splitSlash p with
  | [] => []  -- unreachable
  | x :: xs =>
    (if x = ".".toList then [.cur] else if x = [] ∧ xs ≠ [] then [.root] else (parsePiece x).toList) ++
      xs.filterMap parsePiece

/-- `PathBuf::push` as used by `DirEntry::path` (`root.join(name)`) for a relative name. (main.rs:51, 84.) -/
def join (dir name : Str) : Str :=
  if dir.getLast? = some '/' ∨ dir = [] then dir ++ name else dir ++ "/".toList ++ name

/-- `Path::file_name`: the last component, if it is a normal one. (main.rs:54, 116.) -/
def fileName (p : List Comp) : Option Str :=
  match p.getLast? with
  | some (.normal n) => some n
  | _ => none

/-- `std::path::rsplit_file_at_dot`: text before and after the last dot (`none` before: there is no dot; a name
whose only dot is the first character counts as having none). The name is never `..` here. (main.rs:54, 110, 116, 118.) -/
def rsplitDot (name : Str) : Option Str × Option Str :=
  let after := (name.reverse.takeWhile (· ≠ '.')).reverse
  let before := name.take (name.length - after.length - 1)
  if '.' ∉ name then (none, some name)
  else if before = [] then (some name, none)
  else (some before, some after)

/-- `Path::file_stem` of a name: `before.or(after)`. (main.rs:116.) -/
def fileStem (name : Str) : Str :=
  match rsplitDot name with
  | (some b, _) => b
  | (none, some a) => a
  | (none, none) => []  -- unreachable

/-- `Path::extension` of a name: `before.and(after)`. (main.rs:54.) -/
def extension (name : Str) : Option Str :=
  match rsplitDot name with
  | (some _, a) => a
  | (none, _) => none

/-- `PathBuf::push` of one component: the root replaces everything, anything else is appended after a separator.
(main.rs:109, 117.) -/
def pushComp (buf : Str) : Comp → Str
  | .root => "/".toList
  | .cur => join buf ".".toList
  | .parent => join buf "..".toList
  | .normal n => join buf n

/-- `collect::<PathBuf>()` of components. Note that the text need not have these components again: a component
`Normal(".")` disappears, and `Normal("..")` becomes the parent. (main.rs:109, 117.) -/
def collect (p : List Comp) : Str := p.foldl pushComp []

/-- `Path::with_extension`, for a text made by `collect`: cut after the file stem (which also cuts a trailing `/.`),
then append the extension; unchanged if there is no file name. (main.rs:110, 118.) -/
def withExtension (text ext : Str) : Str :=
  match fileName (components text) with
  | none => text
  | some n => collect ((components text).dropLast ++ [.normal (fileStem n ++ ".".toList ++ ext)])

/-- `Path::strip_prefix`, on the components. (main.rs:108.) -/
def stripPrefix (p base : List Comp) : Option (List Comp) :=
  if base.isPrefixOf p then some (p.drop base.length) else none

/-! ### files -/

/-- A directory entry. (main.rs:49-51.) -/
structure EntryOf (α : Type) where
  name : Str
  /-- the name is valid UTF-8 -/
  utf8 : Bool
  node : α

/-- What is found at a path. `file none` stands for everything that `is_dir` denies and `read_to_string` rejects
(unreadable, not UTF-8, dangling link). The entries of a directory are in the order in which `read_dir` lists them;
`complete = false` says that listing fails after these entries. (main.rs:48-52, 73, 126-127.) -/
inductive Tree where
  | file (content : Option Str)
  | dir (entries : List (EntryOf Tree)) (complete : Bool)

/-- main.rs:49-51. -/
abbrev Entry := EntryOf Tree

/-- The errors that `main` can return. (main.rs:48-50, 73, 86, 98-100, 108.) -/
inductive CliErr where
  /-- `std::io::Error` -/
  | io
  /-- "invalid path" -/
  | invalidPath
  /-- `packetc_lib::Error` -/
  | compile (msg : Str)
  /-- `StripPrefixError` -/
  | stripPrefix
deriving DecidableEq, Repr

/-- How a function returns. (main.rs:53 and 116 can panic.) -/
inductive Outcome (α : Type) where
  | ok (a : α)
  | err (e : CliErr)
  | panic
  | diverge

/-- The operator `?`, e.g. main.rs:53, 89, 130. -/
def Outcome.bind {α β : Type} : Outcome α → (α → Outcome β) → Outcome β
  | .ok a, f => f a
  | .err e, _ => .err e
  | .panic, _ => .panic
  | .diverge, _ => .diverge

/-- main.rs:20-24 `Lang`. -/
inductive Lang where
  | typeScript
deriving DecidableEq, Repr

/-- main.rs:28-37 `Lang::from_str`; `lower` is `str::to_lowercase`. -/
def langFromStr (lower : Str → Str) (s : Str) : Option Lang :=
  if lower s = "ts".toList then some .typeScript else none

/-- main.rs:40-45 `extension`. -/
def langExtension : Lang → Str
  | .typeScript => "ts".toList

/-- main.rs:62-66 `Schema`. -/
structure Schema where
  path : Str
  generated : Str
deriving DecidableEq, Repr

/-- main.rs:68-77 `run_one`, on a file with the given content. `env` is what `compile` takes from its surroundings
while compiling this file. -/
def runOne (env : Str → Env) (path : Str) (content : Option Str) : Outcome Schema :=
  match content with
  | none => .err .io
  | some text =>
    match Packetc.compile (env path) text with
    | .ok code => .ok ⟨path, code⟩
    | .parseError m => .err (.compile ("Parsing failed with:\n".toList ++ m))
    | .checkError m => .err (.compile ("One or more type errors:\n".toList ++ m))
    | .panic => .panic
    | .diverge => .diverge

mutual
/-- main.rs:47-60 `visit_files` with the callback of `run_all` (81-91), on what is found at `path`; `out` is the
vector collected so far. -/
def visitFiles (env : Str → Env) (path : Str) : Tree → List Schema → Outcome (List Schema)
  | .file _, out => .ok out
  | .dir entries complete, out =>
    (visitEntries env path entries out).bind fun out => if complete then .ok out else .err .io
/-- main.rs:49-57, the loop. -/
def visitEntries (env : Str → Env) (dir : Str) : List (EntryOf Tree) → List Schema → Outcome (List Schema)
  | [], out => .ok out
  | e :: es, out => (visitEntry env dir e out).bind fun out => visitEntries env dir es out
/-- main.rs:50-56, the body of the loop. -/
def visitEntry (env : Str → Env) (dir : Str) : EntryOf Tree → List Schema → Outcome (List Schema)
  | ⟨name, utf8, node⟩, out =>
    let path := join dir name
    match node with
    | .dir es c => if utf8 then visitFiles env path (.dir es c) out else .panic
    | .file content =>
      if (fileName (components path)).bind extension = some "pkt".toList then
        if utf8 then (runOne env path content).bind fun s => .ok (out ++ [s]) else .err .invalidPath
      else .ok out
end

/-- main.rs:79-93 `run_all`. -/
def runAll (env : Str → Env) (dir : Str) (t : Tree) : Outcome (List Schema) := visitFiles env dir t []

/-- main.rs:104-120 `format_path`: the text of the path. (What it prints is in `Model/CliEvents`.) -/
def formatPathText (file base out : Str) (lang : Lang) (preserveDir : Bool) : Outcome Str :=
  if preserveDir then
    match stripPrefix (components file) (components base) with
    | none => .err .stripPrefix
    | some rest => .ok (withExtension (collect (components out ++ rest)) (langExtension lang))
  else
    match fileName (components file) with
    | none => .panic
    | some n => .ok (withExtension (collect (components out ++ [.normal (fileStem n)])) (langExtension lang))

/-- The file that this path denotes. (main.rs:130, 135: `fs::write` and `create_dir_all` take this path.) -/
def formatPath (file base out : Str) (lang : Lang) (preserveDir : Bool) : Outcome (List Comp) :=
  (formatPathText file base out lang preserveDir).bind fun t => .ok (components t)

/-! ### writing -/

/-- Contents of the files at output paths. (main.rs:100.) -/
abbrev Store := List Comp → Option Str

/-- main.rs:100 `fs::write`. -/
def Store.set (s : Store) (p : List Comp) (v : Option Str) : Store := fun q => if q = p then v else s q

/-- What happens to the operations of the `k`-th call of `save_one`: whether creating the directories succeeds, and
whether writing succeeds (`none`) or fails leaving something at the path (`some`: nothing, or any text).
(main.rs:98, 100.) -/
structure Disk where
  mkdir : Nat → Bool
  write : Nat → Option (Option Str)

/-- main.rs:95-102 `save_one`, the `k`-th call. Creating directories does not change any file. -/
def saveOne (disk : Disk) (k : Nat) (s : Schema) (out : List Comp) (st : Store) : Outcome Unit × Store :=
  if disk.mkdir k then
    match disk.write k with
    | none => (.ok (), st.set out (some s.generated))
    | some left => (.err .io, st.set out left)
  else (.err .io, st)

/-- main.rs:128-131, the loop over the compiled schemas. -/
def saveAll (disk : Disk) (base out : Str) (lang : Lang) : Nat → List Schema → Store → Outcome Unit × Store
  | _, [], st => (.ok (), st)
  | k, s :: ss, st =>
    match formatPath s.path base out lang true with
    | .ok p =>
      match saveOne disk k s p st with
      | (.ok (), st) => saveAll disk base out lang (k + 1) ss st
      | (e, st) => (e, st)
    | .err e => (.err e, st)
    | .panic => (.panic, st)
    | .diverge => (.diverge, st)

/-- main.rs:122-140 `main` after argument parsing; `input` is what `fs::metadata` finds at the path (`none`: an
error). -/
def main (env : Str → Env) (disk : Disk) (lang : Lang) (path out : Str) (input : Option Tree) (st : Store) :
    Outcome Unit × Store :=
  match input with
  | none => (.ok (), st)
  | some (.dir es c) =>
    match runAll env path (.dir es c) with
    | .ok ss => saveAll disk path out lang 0 ss st
    | .err e => (.err e, st)
    | .panic => (.panic, st)
    | .diverge => (.diverge, st)
  | some (.file content) =>
    match runOne env path content with
    | .ok s =>
      match formatPath s.path path out lang false with
      | .ok p => saveOne disk 0 s p st
      | .err e => (.err e, st)
      | .panic => (.panic, st)
      | .diverge => (.diverge, st)
    | .err e => (.err e, st)
    | .panic => (.panic, st)
    | .diverge => (.diverge, st)

/-- The command: a wrong language argument is a usage error (clap exits with status 2) before anything is done.
(main.rs:12-18, 123.) -/
def command (lower : Str → Str) (env : Str → Env) (disk : Disk) (langArg path out : Str) (input : Option Tree)
    (st : Store) : Option (Outcome Unit) × Store :=
  match langFromStr lower langArg with
  | none => (none, st)
  | some lang => let (r, st) := main env disk lang path out input st; (some r, st)

end Packetc.Cli
