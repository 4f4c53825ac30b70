import Verif.Model.Folders
import Verif.Spec.Files
/-!
# File systems and the folders of a run (specification for C107-C109)
-/

namespace Packetc.Cli

/-- A possible state of the file system: the root is a directory, everything lies in a directory, names are possible. -/
structure Files.Sound (fs : Files) : Prop where
  root : fs [] = some .dir
  up : ∀ p n, fs (p ++ [n]) ≠ none → fs p = some .dir
  names : ∀ p, fs p ≠ none → ∀ n ∈ p, ValidName n

/-- The tree is what a walk finds at `p`: everything below `p`, in some order. -/
inductive Shows (fs : Files) : List Str → Tree → Prop
  | file (p c) : fs p = some (.file c) → Shows fs p (.file c)
  | dir (p es) : fs p = some .dir → (es.map EntryOf.name).Nodup → (∀ n, n ∈ es.map EntryOf.name ↔ fs (p ++ [n]) ≠ none) →
      (∀ e ∈ es, e.utf8 = true) → (∀ e ∈ es, Shows fs (p ++ [e.name]) e.node) → Shows fs p (.dir es true)

/-- From the directory `d`, a path leads to the place `p`; each place that is left on the way is `ok`. -/
inductive Goes (ok : List Str → Prop) : List Str → List Comp → List Str → Prop
  | here (d) : Goes ok d [] d
  | root (d cs p) : ok d → Goes ok [] cs p → Goes ok d (.root :: cs) p
  | cur (d cs p) : ok d → Goes ok d cs p → Goes ok d (.cur :: cs) p
  | parent (d n cs p) : ok (d ++ [n]) → Goes ok d cs p → Goes ok (d ++ [n]) (.parent :: cs) p
  | parentRoot (cs p) : ok [] → Goes ok [] cs p → Goes ok [] (.parent :: cs) p
  | name (d n cs p) : ok d → Goes ok (d ++ [n]) cs p → Goes ok d (.normal n :: cs) p

/-- In the directory `cwd`, the input path leads to `dir`, through directories only, and the tree `t` is there. -/
def Found (fs : Files) (cwd : List Str) (path : Str) (dir : List Str) (t : Tree) : Prop :=
  components path ≠ [] ∧ Goes (fun d => fs d = some .dir) cwd (components path) dir ∧ Shows fs dir t

/-- There is a schema at the relative path `r` below `dir`: a file called something and `.pkt`. -/
def Files.Schema (fs : Files) (dir r : List Str) (c : Option Str) : Prop :=
  fs (dir ++ r) = some (.file c) ∧ ∃ d stem, r = d ++ [stem ++ ".pkt".toList] ∧ stem ≠ []

/-- All schemas below `dir` compile; the paths in messages begin with the text `path`. -/
def AllCompile (env : Str → Env) (path : Str) (fs : Files) (dir : List Str) : Prop :=
  ∀ r c, fs.Schema dir r c → ∃ code, CompilesTo env path r c code

/-- In the directory `cwd`, the path `text` leads to `place`, if all is there: first up (`/`, `.`, `..`), then down along
names. -/
def Leads (cwd : List Str) (text : Str) (place : List Str) : Prop :=
  Goes (fun _ => True) cwd (components text) place ∧
    ∃ h names, components text = h ++ List.map Comp.normal names ∧ ∀ n, Comp.normal n ∉ h

/-- The output for the schema at the relative path `r`. -/
def OutFile (out r q : List Str) : Prop :=
  ∃ d stem, r = d ++ [stem ++ ".pkt".toList] ∧ q = out ++ d ++ [stem ++ ".ts".toList]

/-- Nothing is in the way of a file at `q`: there is no file where a directory is needed, no directory at `q`. -/
def Free (fs : Files) (q : List Str) : Prop :=
  (∀ p, p <+: q → p ≠ q → ∀ c, fs p ≠ some (.file c)) ∧ fs q ≠ some .dir

/-- A schema `….pkt` beside a directory `….ts` with a schema in it. -/
def Clash (fs : Files) (dir : List Str) : Prop :=
  ∃ d stem r c c', fs.Schema dir (d ++ [stem ++ ".pkt".toList]) c ∧ fs.Schema dir (d ++ [stem ++ ".ts".toList] ++ r) c'

/-- The files after a run: the outputs, with their directories, and else what was there before. -/
def After (env : Str → Env) (path : Str) (dir out : List Str) (fs fs' : Files) : Prop :=
  ∀ q, (∀ r c code, fs.Schema dir r c → OutFile out r q → CompilesTo env path r c code →
      fs' q = some (.file (some code))) ∧
    ((∃ r c p, fs.Schema dir r c ∧ OutFile out r p ∧ q <+: p ∧ q ≠ p) → fs' q = some .dir) ∧
    ((¬ ∃ r c p, fs.Schema dir r c ∧ OutFile out r p ∧ q <+: p) → fs' q = fs q)

/-- The only changes are whole outputs, and new directories which have a new output below them. -/
def OnlyOutputs (env : Str → Env) (path : Str) (dir out : List Str) (fs fs' : Files) : Prop :=
  ∀ q, fs' q ≠ fs q → ∃ r c p code, fs.Schema dir r c ∧ OutFile out r p ∧ CompilesTo env path r c code ∧
    fs' p = some (.file (some code)) ∧ (q = p ∨ (q <+: p ∧ q ≠ p ∧ fs q = none ∧ fs' q = some .dir))

open scoped Classical in
/-- Everything at these places has been removed. -/
noncomputable def Files.without (fs : Files) (gone : List Str → Prop) : Files := fun p => if gone p then none else fs p

/-- Nothing is removed, directories stay, files stay files, and only files with names in `.ts` are changed. -/
def OnlyTs (fs fs' : Files) : Prop :=
  ∀ p, fs p ≠ none → (fs' p = fs p ∨ ((∃ c, fs p = some (.file c)) ∧ (∃ text, fs' p = some (.file (some text))) ∧
    ∃ stem, stem ≠ [] ∧ p.getLast? = some (stem ++ ".ts".toList)))

end Packetc.Cli
