import Verif.Model.Check
/-!
# The work done by the type checker

For each function of check.rs, the number of steps that it takes: a step is one operation on a hash map or set, one round of a loop, or the
copying of one field, variant or map entry. Each definition follows the control flow of the definition of `Model/Check` without
`Work` in its name, which gives the values.
-/

namespace Packetc.CheckW
open Ast Check

/-- The variants or fields of a declaration, which `clone` copies. (check.rs:36.) -/
def tySize : Ty → Nat
  | .enum vs => vs.length
  | .struct fs => fs.length

/-- check.rs:13-26 `get_export`. -/
def getExportWork : Option Str → AST → Nat
  | _, [] => 1
  | none, .export n :: ast => 1 + getExportWork (some n) ast
  | some _, .export _ :: _ => 1
  | found, .decl _ _ :: ast => 1 + getExportWork found ast

/-- check.rs:28-41 `collect_types`: for each declaration a lookup, an insertion and a copy of the type. -/
def collectWork : Map Ty → AST → Nat
  | _, [] => 1
  | cache, .decl n t :: ast =>
    if cache.has n then 2 else 3 + tySize t + collectWork (cache.insert n t) ast
  | cache, .export _ :: ast => 1 + collectWork cache ast

/-- check.rs:179-191, the loop of `resolve_enum`: a lookup and an insertion for each variant. -/
def variantsWork : List Str → List Str → Nat
  | _, [] => 1
  | seen, v :: vs => if v ∈ seen then 2 else 3 + variantsWork (v :: seen) vs

/-- check.rs:166-193 `resolve_enum`. -/
def enumWork (vs : List Str) : Nat :=
  if vs.length = 0 then 1 else if vs.length ≤ 32 then 1 + variantsWork [] vs else 1

/-- check.rs:222-234: for each field two operations on the set of names, and the lookup of its type. -/
def firstFieldsWork (name : Str) (builtins : TypeMap) : List Str → List (Str × Unresolved) → Nat
  | _, [] => 1
  | seen, (fname, fty) :: fs =>
    if fname ∈ seen then 2
    else
      match resolveStructField fname fty builtins name with
      | .ok (some _) => 4 + firstFieldsWork name builtins (fname :: seen) fs
      | _ => 4

/-- check.rs:195-242 `resolve_one_first_pass`: afterwards, a removal and an insertion. -/
def firstOneWork (name : Str) (ty : Ty) (builtins : TypeMap) : Nat :=
  match ty with
  | .enum e => enumWork e + 2
  | .struct s => firstFieldsWork name builtins [] s + 2

/-- check.rs:245-259 `resolve_first_pass`. -/
def firstPassWork (builtins : TypeMap) : AST → FirstPass → Nat
  | [], _ => 1
  | .decl name ty :: ast, st =>
    match resolveOneFirstPass name ty builtins st with
    | .error _ => 1 + firstOneWork name ty builtins
    | .ok st => 1 + firstOneWork name ty builtins + firstPassWork builtins ast st
  | .export _ :: ast, st => 1 + firstPassWork builtins ast st

/-- check.rs:298-312: for each unresolved field a removal, and then a call or a lookup. `rec` and `recWork` are the values and
the steps of the call. -/
def depsWork (rec : Str → Ty → SecondPass → Except Fault SecondPass) (recWork : Str → Ty → SecondPass → Nat) :
    List (Str × Unresolved) → SecondPass → Nat
  | [], _ => 1
  | (_, fty) :: nots, st =>
    match st.unresolved.get fty.name with
    | some utype =>
      match rec fty.name utype { st with unresolved := st.unresolved.erase fty.name } with
      | .error _ => 2 + recWork fty.name utype { st with unresolved := st.unresolved.erase fty.name }
      | .ok st' => 2 + recWork fty.name utype { st with unresolved := st.unresolved.erase fty.name } + depsWork rec recWork nots st'
    | none => if st.cache.has fty.name then 3 + depsWork rec recWork nots st else 3

/-- check.rs:261-337 `resolve_one_second_pass`: a lookup; for a struct, a lookup and an insertion for `visited`; for each field a round of the loop,
a copy and a lookup (check.rs:284-292); the loop over the fields that are not resolved, and once more a round and a lookup for each of them (check.rs:315-318);
an insertion, and a copy of the fields (check.rs:324). -/
def secondOneWork : Nat → Str → Ty → SecondPass → Nat
  | 0, _, _, _ => 0
  | fuel + 1, name, ty, st =>
    if st.cache.has name then 1
    else
      match ty with
      | .enum _ => 1
      | .struct s =>
        if name ∈ st.visited then 2
        else
          match splitFields st.cache name s with
          | .error _ => 4 + 3 * s.length
          | .ok (_, nots) =>
            if nots.isEmpty then 5 + 3 * s.length
            else
              match depsLoop (resolveOneSecondPass fuel) nots { st with visited := name :: st.visited } with
              | .error _ => 4 + 3 * s.length +
                  depsWork (resolveOneSecondPass fuel) (secondOneWork fuel) nots { st with visited := name :: st.visited }
              | .ok _ => 5 + 4 * s.length + 2 * nots.length +
                  depsWork (resolveOneSecondPass fuel) (secondOneWork fuel) nots { st with visited := name :: st.visited }

/-- check.rs:344-348, the loop of `resolve_second_pass`. -/
def secondLoopWork (fuel : Nat) : List (Str × Ty) → SecondPass → Nat
  | [], _ => 1
  | (name, ty) :: rest, st =>
    match resolveOneSecondPass fuel name ty st with
    | .error _ => 1 + secondOneWork fuel name ty st
    | .ok st' => 1 + secondOneWork fuel name ty st + secondLoopWork fuel rest st'

/-- check.rs:339-350 `resolve_second_pass`: copies the map of unresolved types, and their fields. -/
def secondPassWork (ord : List (Str × Ty) → List (Str × Ty)) (cache : TypeMap) (unresolved : Map Ty) : Nat :=
  (unresolved.map fun e => 1 + tySize e.2).sum + secondLoopWork (unresolved.length + 1) (ord unresolved) ⟨cache, [], unresolved⟩

mutual
/-- check.rs:352-363 `collect_used_types`: an insertion; a struct is copied (`get_struct_variant`). -/
def collectUsedWork (visited : List Str) (name : Str) : RType → Nat
  | .struct fs => 1 + fs.length + collectFieldsWork (name :: visited) fs
  | .builtin _ => 1
  | .enum _ => 1
/-- check.rs:355-361, the loop of `collect_used_types`. -/
def collectFieldsWork (visited : List Str) : List (FieldOf RType) → Nat
  | [] => 1
  | f :: fs => collectFieldWork visited f + collectFieldsWork (collectUsedField visited f) fs
/-- check.rs:356-360: a round of the loop and a lookup. -/
def collectFieldWork (visited : List Str) : FieldOf RType → Nat
  | ⟨_, tyName, ty, _, _⟩ => if tyName ∈ visited then 2 else 2 + collectUsedWork visited tyName ty
end

/-- check.rs:378-380: the fields of the exported struct. -/
def exportVisitedWork (visited : List Str) : List RField → Nat
  | [] => 1
  | f :: fs => 1 + collectUsedWork visited f.tyName f.ty + exportVisitedWork (collectUsed visited f.tyName f.ty) fs

/-- check.rs:370-390 `resolve_export`: a lookup, a copy of the struct, the names that are used, and a round and a lookup for each
entry of the map. -/
def resolveExportWork (name : Str) (resolved : TypeMap) : Nat :=
  match resolved.get name with
  | some e =>
    match e.2.getStruct with
    | some fs => 2 + fs.length + exportVisitedWork [name] fs + 2 * resolved.length
    | none => 1
  | none => 1

/-- check.rs:400-429 `type_check`. The map of builtins has 8 entries; check.rs:419 inserts them and the entries of the first pass into a new map. -/
def typeCheckWork (ord : List (Str × Ty) → List (Str × Ty)) (ast : AST) : Nat :=
  match getExport ast with
  | .error _ => getExportWork none ast
  | .ok exp =>
    match collectTypes ast with
    | .error _ => getExportWork none ast + collectWork [] ast
    | .ok unresolved =>
      match resolveFirstPass getBuiltins ast ⟨[], unresolved⟩ with
      | .error _ => getExportWork none ast + collectWork [] ast + 8 + firstPassWork getBuiltins ast ⟨[], unresolved⟩
      | .ok fp =>
        getExportWork none ast + collectWork [] ast + 8 + firstPassWork getBuiltins ast ⟨[], unresolved⟩ + (8 + fp.resolved.length) +
          secondPassWork ord (mergeMaps getBuiltins fp.resolved) fp.unresolved +
          match resolveSecondPass ord (mergeMaps getBuiltins fp.resolved) fp.unresolved with
          | .error _ => 0
          | .ok cache => resolveExportWork exp cache

end Packetc.CheckW
