import Verif.Model.Ast
/-!
# `src/lib/check.rs`: the type checker

`HashMap<&str, V>` is modelled by an association list (`Map V`); the only observable difference between
hash maps with the same entries is their iteration order, which is made a parameter (`ord`) where the code
iterates. `HashSet<&str>` is modelled by the list of its elements (only `insert`/`contains` are used).
`Ptr<T> = Rc<RefCell<T>>` (check.rs:109-118) is never mutated after construction and is modelled by value.
-/

namespace Packetc.Check
open Ast

/-- A `HashMap<&str, V>`. (check.rs:28, 126, 392.) -/
abbrev Map (V : Type) := List (Str × V)

/-- `HashMap::get`. (check.rs:147, 374.) -/
def Map.get {V : Type} (m : Map V) (k : Str) : Option V :=
  match m with
  | [] => none
  | (k', v) :: m => if k' = k then some v else Map.get m k

/-- `HashMap::contains_key`. (check.rs:33, 269, 307.) -/
def Map.has {V : Type} (m : Map V) (k : Str) : Bool := (m.get k).isSome

/-- `HashMap::remove` (the map without the key). (check.rs:206, 236, 301.) -/
def Map.erase {V : Type} (m : Map V) (k : Str) : Map V := m.filter (fun e => e.1 ≠ k)

/-- `HashMap::insert`: overwrites an existing entry. (check.rs:36, 207, 237, 295, 320.) -/
def Map.insert {V : Type} (m : Map V) (k : Str) (v : V) : Map V := (k, v) :: m.erase k

/-- The `Err(String)`s of check.rs; `render` gives the text. -/
inductive CheckErr where
  | moreThanOneExport
  | noExport
  | duplicateDecl (n : Str)
  | optionalArray (field struct : Str)
  | emptyEnum (n : Str)
  | tooManyVariants (n : Str) (k : Nat)
  | duplicateVariant (v n : Str)
  | duplicateField (f n : Str)
  | cycle (n : Str)
  | missingType (n : Str)
  | notAStruct (n : Str)
  | exportUnresolved (n : Str)
deriving DecidableEq, Repr

/-- The messages at check.rs:18, 24, 34, 150-153, 169, 173, 181, 226, 276-279, 310, 385, 388. -/
def CheckErr.render : CheckErr → Str
  | .moreThanOneExport => "Schema has more than one export".toList
  | .noExport => "Schema has no export".toList
  | .duplicateDecl n => "Schema has duplicate declaration: ".toList ++ n
  | .optionalArray f s =>
    "Field '".toList ++ f ++ "' in struct '".toList ++ s ++ "' cannot be optional and array at once".toList
  | .emptyEnum n => "Enum '".toList ++ n ++ "' must have at least one variant".toList
  | .tooManyVariants n k =>
    "Enum '".toList ++ n ++ "' has too many variants (".toList ++ (toString k).toList ++ "/32)".toList
  | .duplicateVariant v n => "Duplicate variant '".toList ++ v ++ "' on enum '".toList ++ n ++ "'".toList
  | .duplicateField f n => "Duplicate field '".toList ++ f ++ "' on struct '".toList ++ n ++ "'".toList
  | .cycle n =>
    "Found a cycle between two or more top level definitions in type '".toList ++ n ++ "'".toList
  | .missingType n => "Declaration for type '".toList ++ n ++ "' does not exist".toList
  | .notAStruct n => "Attempted to export '".toList ++ n ++ "', which is not a struct".toList
  | .exportUnresolved n => "Export '".toList ++ n ++ "' could not be resolved".toList

/-- How a function of check.rs can end without a value: `Err(..)`, a panic, or endless recursion. -/
inductive Fault where
  | err (e : CheckErr)
  | panic
  | diverge
deriving DecidableEq, Repr

/-- check.rs:13-26 `get_export` (`found` is the local `export`). -/
def getExportLoop : Option Str → AST → Except Fault (Option Str)
  | found, [] => .ok found
  | none, .export n :: ast => getExportLoop (some n) ast
  | some _, .export _ :: _ => .error (.err .moreThanOneExport)
  | found, .decl _ _ :: ast => getExportLoop found ast

/-- check.rs:13-26 `get_export`. -/
def getExport (ast : AST) : Except Fault Str :=
  match getExportLoop none ast with
  | .error e => .error e
  | .ok (some e) => .ok e
  | .ok none => .error (.err .noExport)

/-- check.rs:28-41 `collect_types` (`cache` is the local accumulator). -/
def collectLoop : Map Ty → AST → Except Fault (Map Ty)
  | cache, [] => .ok cache
  | cache, .decl n t :: ast =>
    if cache.has n then .error (.err (.duplicateDecl n)) else collectLoop (cache.insert n t) ast
  | cache, .export _ :: ast => collectLoop cache ast

/-- check.rs:28-41 `collect_types`. -/
def collectTypes (ast : AST) : Except Fault (Map Ty) := collectLoop [] ast

/-- check.rs:44-53 `Builtin`. -/
inductive Builtin where
  | uint8 | uint16 | uint32 | int8 | int16 | int32 | float | string
deriving DecidableEq, Repr

/-- check.rs:56-59 `EnumVariant`. -/
structure EnumVariant where
  name : Str
  value : Nat
deriving DecidableEq, Repr

/-- check.rs:61-65 `EnumRepr`. -/
inductive EnumRepr where
  | u8 | u16 | u32
deriving DecidableEq, Repr

/-- check.rs:76-79 `Enum`. -/
structure REnum where
  repr : EnumRepr
  variants : List EnumVariant
deriving DecidableEq, Repr

/-- check.rs:82-87 `StructField`; `r#type: Ptr<(&str, ResolvedType)>` is the pair `tyName`, `ty`. -/
structure FieldOf (T : Type) where
  name : Str
  tyName : Str
  ty : T
  array : Bool
  optional : Bool
deriving DecidableEq, Repr

/-- check.rs:94-98 `ResolvedType`; `Struct` (check.rs:89-91) is its list of fields. -/
inductive RType where
  | builtin (b : Builtin)
  | enum (e : REnum)
  | struct (fields : List (FieldOf RType))

/-- check.rs:82-87 `StructField`. -/
abbrev RField := FieldOf RType

/-- check.rs:101-106 `get_struct_variant`. -/
def RType.getStruct : RType → Option (List RField)
  | .struct fs => some fs
  | _ => none

/-- check.rs:392 `TypeMap`: name ↦ `Ptr<(name, type)>`. -/
abbrev TypeMap := Map (Str × RType)

/-- check.rs:126-139 `get_builtins`. -/
def getBuiltins : TypeMap :=
  [("uint8".toList, ("uint8".toList, .builtin .uint8)),
   ("uint16".toList, ("uint16".toList, .builtin .uint16)),
   ("uint32".toList, ("uint32".toList, .builtin .uint32)),
   ("int8".toList, ("int8".toList, .builtin .int8)),
   ("int16".toList, ("int16".toList, .builtin .int16)),
   ("int32".toList, ("int32".toList, .builtin .int32)),
   ("float".toList, ("float".toList, .builtin .float)),
   ("string".toList, ("string".toList, .builtin .string))]

/-- check.rs:141-164 `resolve_struct_field`. -/
def resolveStructField (fname : Str) (fty : Unresolved) (resolved : TypeMap) (ttypename : Str) :
    Except Fault (Option RField) :=
  match resolved.get fty.name with
  | some rty =>
    if fty.array && fty.optional then .error (.err (.optionalArray fname ttypename))
    else .ok (some ⟨fname, rty.1, rty.2, fty.array, fty.optional⟩)
  | none => .ok none

/-- check.rs:179-191, the loop of `resolve_enum`: `seen` is `variant_names`, `count` the counter. -/
def resolveVariants (name : Str) : List Str → Nat → List Str → Except Fault (List EnumVariant)
  | _, _, [] => .ok []
  | seen, count, v :: vs =>
    if v ∈ seen then .error (.err (.duplicateVariant v name))
    else
      match resolveVariants name (v :: seen) (count + 1) vs with
      | .error e => .error e
      | .ok rest => .ok (⟨v, count⟩ :: rest)

/-- check.rs:166-193 `resolve_enum`. -/
def resolveEnum (name : Str) (vs : List Str) : Except Fault REnum :=
  let withRepr (r : EnumRepr) : Except Fault REnum :=
    match resolveVariants name [] 0 vs with
    | .error e => .error e
    | .ok vs => .ok ⟨r, vs⟩
  if vs.length = 0 then .error (.err (.emptyEnum name))
  else if vs.length ≤ 8 then withRepr .u8
  else if vs.length ≤ 16 then withRepr .u16
  else if vs.length ≤ 32 then withRepr .u32
  else .error (.err (.tooManyVariants name vs.length))

/-- check.rs:222-234, the field loop of `resolve_one_first_pass`: stops at the first field whose type is
not a builtin. -/
def firstPassFields (name : Str) (builtins : TypeMap) :
    List Str → List (Str × Unresolved) → Except Fault (List RField)
  | _, [] => .ok []
  | seen, (fname, fty) :: fs =>
    if fname ∈ seen then .error (.err (.duplicateField fname name))
    else
      match resolveStructField fname fty builtins name with
      | .error e => .error e
      | .ok none => .ok []
      | .ok (some field) =>
        match firstPassFields name builtins (fname :: seen) fs with
        | .error e => .error e
        | .ok rest => .ok (field :: rest)

/-- State of the first pass: `first_pass` and `unresolved`. (check.rs:199-200.) -/
structure FirstPass where
  resolved : TypeMap
  unresolved : Map Ty

/-- check.rs:195-242 `resolve_one_first_pass`. -/
def resolveOneFirstPass (name : Str) (ty : Ty) (builtins : TypeMap) (st : FirstPass) :
    Except Fault FirstPass :=
  match ty with
  | .enum e =>
    match resolveEnum name e with
    | .ok rty => .ok ⟨st.resolved.insert name (name, .enum rty), st.unresolved.erase name⟩
    | .error e => .error e
  | .struct s =>
    match firstPassFields name builtins [] s with
    | .error e => .error e
    | .ok fields =>
      if fields.length = s.length then
        .ok ⟨st.resolved.insert name (name, .struct fields), st.unresolved.erase name⟩
      else .ok st

/-- check.rs:245-259 `resolve_first_pass`. -/
def resolveFirstPass (builtins : TypeMap) : AST → FirstPass → Except Fault FirstPass
  | [], st => .ok st
  | .decl name ty :: ast, st =>
    match resolveOneFirstPass name ty builtins st with
    | .error e => .error e
    | .ok st => resolveFirstPass builtins ast st
  | .export _ :: ast, st => resolveFirstPass builtins ast st

/-- The mutable state of the second pass: `cache`, `visited`, `unresolved`. (check.rs:264-266.) -/
structure SecondPass where
  cache : TypeMap
  visited : List Str
  unresolved : Map Ty

/-- check.rs:284-292: the fields that can be resolved now, and those that cannot. -/
def splitFields (cache : TypeMap) (name : Str) :
    List (Str × Unresolved) → Except Fault (List RField × List (Str × Unresolved))
  | [] => .ok ([], [])
  | (fname, fty) :: fs =>
    match resolveStructField fname fty cache name with
    | .error e => .error e
    | .ok r =>
      match splitFields cache name fs with
      | .error e => .error e
      | .ok (fields, nots) =>
        match r with
        | some field => .ok (field :: fields, nots)
        | none => .ok (fields, (fname, fty) :: nots)

/-- check.rs:298-312: resolve the types of the unresolved fields, calling the function itself (`rec`). -/
def depsLoop (rec : Str → Ty → SecondPass → Except Fault SecondPass) :
    List (Str × Unresolved) → SecondPass → Except Fault SecondPass
  | [], st => .ok st
  | (_, fty) :: nots, st =>
    match st.unresolved.get fty.name with
    | some utype =>
      match rec fty.name utype { st with unresolved := st.unresolved.erase fty.name } with
      | .error e => .error e
      | .ok st => depsLoop rec nots st
    | none =>
      if st.cache.has fty.name then depsLoop rec nots st
      else .error (.err (.missingType fty.name))

/-- check.rs:315-318: `now_resolved`; `unwrap` of `None` is a panic. -/
def finishFields (cache : TypeMap) (name : Str) :
    List (Str × Unresolved) → Except Fault (List RField)
  | [] => .ok []
  | (fname, fty) :: fs =>
    match resolveStructField fname fty cache name with
    | .error e => .error e
    | .ok none => .error .panic
    | .ok (some field) =>
      match finishFields cache name fs with
      | .error e => .error e
      | .ok rest => .ok (field :: rest)

/-- check.rs:261-337 `resolve_one_second_pass`. The first argument bounds the recursion depth. -/
def resolveOneSecondPass : Nat → Str → Ty → SecondPass → Except Fault SecondPass
  | 0, _, _, _ => .error .diverge
  | fuel + 1, name, ty, st =>
    if st.cache.has name then .ok st
    else
      match ty with
      | .enum _ => .error .panic
      | .struct s =>
        if name ∈ st.visited then .error (.err (.cycle name))
        else
          match splitFields st.cache name s with
          | .error e => .error e
          | .ok (fields, nots) =>
            if nots.isEmpty then
              .ok { st with
                visited := name :: st.visited
                cache := st.cache.insert name (name, .struct fields) }
            else
              match depsLoop (resolveOneSecondPass fuel) nots { st with visited := name :: st.visited } with
              | .error e => .error e
              | .ok st =>
                match finishFields st.cache name nots with
                | .error e => .error e
                | .ok now =>
                  .ok { st with cache := st.cache.insert name (name, .struct (fields ++ now)) }

/-- check.rs:344-348, the loop of `resolve_second_pass` over the (copied) unresolved types. -/
def secondPassLoop (fuel : Nat) : List (Str × Ty) → SecondPass → Except Fault SecondPass
  | [], st => .ok st
  | (name, ty) :: rest, st =>
    match resolveOneSecondPass fuel name ty st with
    | .error e => .error e
    | .ok st => secondPassLoop fuel rest st

/-- check.rs:339-350 `resolve_second_pass`. `ord` is the iteration order of the hash map. The recursion depth
is at most the number of unresolved types plus one (each recursive call removes one). -/
def resolveSecondPass (ord : List (Str × Ty) → List (Str × Ty)) (cache : TypeMap) (unresolved : Map Ty) :
    Except Fault TypeMap :=
  match secondPassLoop (unresolved.length + 1) (ord unresolved) ⟨cache, [], unresolved⟩ with
  | .error e => .error e
  | .ok st => .ok st.cache

mutual
/-- check.rs:352-363 `collect_used_types`. -/
def collectUsed (visited : List Str) (name : Str) : RType → List Str
  | .struct fs => collectUsedFields (name :: visited) fs
  | .builtin _ => name :: visited
  | .enum _ => name :: visited
/-- check.rs:355-361, the loop of `collect_used_types`. -/
def collectUsedFields (visited : List Str) : List (FieldOf RType) → List Str
  | [] => visited
  | f :: fs => collectUsedFields (collectUsedField visited f) fs
/-- check.rs:356-360, the body of the loop. -/
def collectUsedField (visited : List Str) : FieldOf RType → List Str
  | ⟨_, tyName, ty, _, _⟩ => if tyName ∈ visited then visited else collectUsed visited tyName ty
end

/-- check.rs:365-368 `remove_unused`. -/
def removeUnused (visited : List Str) (resolved : TypeMap) : TypeMap :=
  resolved.filter (fun e => e.1 ∈ visited)

/-- check.rs:121-124 `Export`. -/
structure Export where
  name : Str
  fields : List RField

/-- check.rs:378-380: the fields of the exported struct. -/
def exportVisited (visited : List Str) : List RField → List Str
  | [] => visited
  | f :: fs => exportVisited (collectUsed visited f.tyName f.ty) fs

/-- check.rs:395-398 `Resolved`. -/
structure Resolved where
  «export» : Export
  types : TypeMap

/-- check.rs:370-390 `resolve_export`; returns the export together with the pruned map. -/
def resolveExport (name : Str) (resolved : TypeMap) : Except Fault Resolved :=
  match resolved.get name with
  | some e =>
    match e.2.getStruct with
    | some fs => .ok ⟨⟨name, fs⟩, removeUnused (exportVisited [name] fs) resolved⟩
    | none => .error (.err (.notAStruct name))
  | none => .error (.err (.exportUnresolved name))

/-- check.rs:419: `cache.into_iter().chain(first_pass).collect()`: later entries overwrite earlier ones. -/
def mergeMaps (a b : TypeMap) : TypeMap := b.foldl (fun m e => m.insert e.1 e.2) a

/-- check.rs:400-429 `type_check`. -/
def typeCheck (ord : List (Str × Ty) → List (Str × Ty)) (ast : AST) : Except Fault Resolved :=
  match getExport ast with
  | .error e => .error e
  | .ok exp =>
    match collectTypes ast with
    | .error e => .error e
    | .ok unresolved =>
      match resolveFirstPass getBuiltins ast ⟨[], unresolved⟩ with
      | .error e => .error e
      | .ok fp =>
        match resolveSecondPass ord (mergeMaps getBuiltins fp.resolved) fp.unresolved with
        | .error e => .error e
        | .ok cache => resolveExport exp cache

end Packetc.Check
