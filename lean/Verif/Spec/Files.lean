import Verif.Model.Cli
/-!
# Files below a directory (specification for C47-C53)
-/

namespace Packetc.Cli

/-- A file with this content (`none`: unreadable) at this relative path. -/
inductive At : Tree → List Str → Option Str → Prop
  | file (c) : At (.file c) [] c
  | dir (es b e p c) : e ∈ es → At e.node p c → At (.dir es b) (e.name :: p) c

/-- A `.pkt` file: its name is `.pkt` after something. -/
def SchemaAt (t : Tree) (p : List Str) (c : Option Str) : Prop :=
  At t p c ∧ ∃ d stem, p = d ++ [stem ++ ".pkt".toList] ∧ stem ≠ []

/-- A possible file name. -/
def ValidName (n : Str) : Prop := n ≠ [] ∧ '/' ∉ n ∧ n ≠ ".".toList ∧ n ≠ "..".toList

mutual
/-- Names are possible, and different within each directory. -/
def Tree.Valid : Tree → Prop
  | .file _ => True
  | .dir es _ => (es.map EntryOf.name).Nodup ∧ (∀ n ∈ es.map EntryOf.name, ValidName n) ∧ ValidEntries es
def ValidEntries : List (EntryOf Tree) → Prop
  | [] => True
  | e :: es => ValidEntry e ∧ ValidEntries es
def ValidEntry : EntryOf Tree → Prop
  | ⟨_, _, t⟩ => t.Valid
end

mutual
/-- Every directory can be listed; directories and `.pkt` files have names in UTF-8. -/
def Tree.Accessible : Tree → Prop
  | .file _ => True
  | .dir es b => b = true ∧ AccessibleEntries es
def AccessibleEntries : List (EntryOf Tree) → Prop
  | [] => True
  | e :: es => AccessibleEntry e ∧ AccessibleEntries es
def AccessibleEntry : EntryOf Tree → Prop
  | ⟨n, u, t⟩ =>
    match t with
    | .file _ => (∃ stem, n = stem ++ ".pkt".toList ∧ stem ≠ []) → u = true
    | .dir es b => u = true ∧ Tree.Accessible (.dir es b)
end

mutual
/-- All names are UTF-8. -/
def Tree.Utf8 : Tree → Prop
  | .file _ => True
  | .dir es _ => Utf8Entries es
def Utf8Entries : List (EntryOf Tree) → Prop
  | [] => True
  | e :: es => Utf8Entry e ∧ Utf8Entries es
def Utf8Entry : EntryOf Tree → Prop
  | ⟨_, u, t⟩ => u = true ∧ t.Utf8
end

mutual
/-- The schemas (in the sense of `SchemaAt`: see `mem_schemaList`) below a directory, in listing order. -/
def schemaList : Tree → List (List Str × Option Str)
  | .file _ => []
  | .dir es _ => schemaEntries es
def schemaEntries : List (EntryOf Tree) → List (List Str × Option Str)
  | [] => []
  | e :: es => schemaEntry e ++ schemaEntries es
def schemaEntry : EntryOf Tree → List (List Str × Option Str)
  | ⟨n, _, t⟩ =>
    match t with
    | .file c => if extension n = some "pkt".toList then [([n], c)] else []
    | .dir es b => (schemaList (.dir es b)).map fun x => (n :: x.1, x.2)
end

/-- The text of a path below `dir`. -/
def below (dir : Str) (p : List Str) : Str := p.foldl join dir

/-- `q` is the output path for the schema at relative path `p`: same place below `out`, `.ts` instead of `.pkt`. -/
def OutPath (out : Str) (p : List Str) (q : List Comp) : Prop :=
  ∃ d stem, p = d ++ [stem ++ ".pkt".toList] ∧
    q = components out ++ d.map Comp.normal ++ [.normal (stem ++ ".ts".toList)]

/-- The file is readable and compiles to `code`. -/
def CompilesTo (env : Str → Env) (dir : Str) (p : List Str) (c : Option Str) (code : Str) : Prop :=
  ∃ text, c = some text ∧ compile (env (below dir p)) text = .ok code

/-- Two trees that differ only in the order in which directories are listed. -/
inductive Reordered : Tree → Tree → Prop
  | file (c) : Reordered (.file c) (.file c)
  | dir (es es' b) (f : List (EntryOf Tree × EntryOf Tree)) : es.Perm (f.map Prod.fst) → es'.Perm (f.map Prod.snd) →
      (∀ p ∈ f, p.1.name = p.2.name ∧ p.1.utf8 = p.2.utf8) → (∀ p ∈ f, Reordered p.1.node p.2.node) →
      Reordered (.dir es b) (.dir es' b)

end Packetc.Cli
