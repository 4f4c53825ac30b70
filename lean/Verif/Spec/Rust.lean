import Verif.Rust.Sem
import Verif.Rust.Program
import Verif.Rust.Parse
import Verif.Rust.File
import Verif.Spec.Wire
import Verif.Spec.Resolved
import Verif.Model.Parser
import Mathlib.Data.List.Forall2
/-!
# Specification of packets as Rust values (C91-C98)

Which Rust values belong to a type, how they are laid out as bytes, and which definitions a program has.
-/

namespace Packetc.Rs
open Ast Check WellFormed
open Js (Num Scalar utf8Enc scalarOf reprScalar)

section
-- `lim` limits the number of items.
variable (lim : Nat)

mutual
/-- The values of a type: what Rust's type of the field allows, with less than 2^32 bytes of text and less than `lim` items. -/
def ValT (tn : Str) : RType → Val → Prop
  | .builtin b, v =>
    match scalarOf b with
    | some sc => ∃ n, v = .num n ∧ NumOk sc n
    | none => ∃ s, v = .str s ∧ (utf8Enc s).length < 2 ^ 32
  | .enum e, v => ∃ w ∈ e.variants, v = .variant tn w.name
  | .struct fs, v => ∃ ps, v = .struct ps ∧ ValFs fs ps
/-- One component per field, in order. -/
def ValFs : List (FieldOf RType) → List (Str × Val) → Prop
  | [], ps => ps = []
  | f :: fs, ps => ∃ p qs, ps = p :: qs ∧ ValF f p ∧ ValFs fs qs
/-- The component for a field. -/
def ValF : FieldOf RType → Str × Val → Prop
  | ⟨name, tn, ty, array, optional⟩, p =>
    p.1 = name ∧
    ((optional = true ∧ p.2 = .none) ∨
      ∃ v, p.2 = (if optional then Val.some v else v) ∧
        if array then ∃ vs, v = .vec vs ∧ vs.length < lim ∧ ∀ w ∈ vs, ValT tn ty w else ValT tn ty v)
end
end

variable (lib : Lib)

mutual
/-- The bytes of a value. -/
def encT : RType → Val → List UInt8
  | .builtin b, v =>
    match scalarOf b, v with
    | some sc, .num n => lib.enc sc n
    | none, .str s => lib.enc .uint32 (.int (utf8Enc s).length) ++ utf8Enc s
    | _, _ => []
  | .enum e, v =>
    match v with
    | .variant _ n =>
      match e.variants.find? fun w => w.name = n with
      | some w => lib.enc (reprScalar e.repr) (.int (2 ^ w.value))
      | none => []
    | _ => []
  | .struct fs, v => match v with | .struct ps => encFs fs ps | _ => []
def encFs : List (FieldOf RType) → List (Str × Val) → List UInt8
  | [], _ => []
  | f :: fs, ps => match ps with | [] => [] | p :: ps => encF f p.2 ++ encFs fs ps
/-- Presence flag, number of items, items. -/
def encF : FieldOf RType → Val → List UInt8
  | ⟨_, _, ty, array, optional⟩, v =>
    let one (v : Val) : List UInt8 :=
      if array then
        match v with
        | .vec vs => lib.enc .uint32 (.int vs.length) ++ (vs.map fun x => encT ty x).flatten
        | _ => []
      else encT ty v
    if optional then
      match v with
      | .none => lib.enc .uint8 (.int 0)
      | .some v => lib.enc .uint8 (.int 1) ++ one v
      | _ => []
    else one v
end

/-- The names that Rust itself gives to the builtin types. -/
def primNames : List Str :=
  ["u8".toList, "u16".toList, "u32".toList, "i8".toList, "i16".toList, "i32".toList, "f32".toList, "String".toList]

/-- `T::default()` of the builtin types. -/
def primDefault (n : Str) : Val :=
  if n = "String".toList then .str [] else if n = "f32".toList then .num (.f32 0#32) else .num (.int 0)

def Item.name : Item → Str
  | .struct n _ => n
  | .enum n _ _ _ _ => n

/-- The program has these definitions (in any order), and `default()` does what they say: the first variant of an enum, the default
of each field of a struct, where that of a `Vec` is empty and that of an `Option` is `None`. -/
structure Prog.HasItems (P : Prog) (items : List Item) : Prop where
  perm : P.items.Perm items
  prim : ∀ n ∈ primNames, n ∉ items.map Item.name → P.dflt n = primDefault n
  enum : ∀ n r vs d arms, Item.enum n r vs d arms ∈ items → P.dflt n = .variant n d
  struct : ∀ n fs, Item.struct n fs ∈ items → P.dflt n =
    .struct (fs.map fun f => (f.1, if f.2.opt then .none else if f.2.vec then .vec [] else P.dflt f.2.base))

/-- The definition that rust.rs emits for an entry of the type map (none for builtin types). -/
def itemOf : Str × (Str × RType) → Option Item
  | (n, (_, .struct fs)) => some (structItem n fs)
  | (n, (_, .enum e)) => some (enumItem n e)
  | (_, (_, .builtin _)) => none

/-- The definitions that rust.rs emits for the types of a schema. -/
def itemsOf (types : TypeMap) : List Item := types.filterMap itemOf

mutual
/-- The value of `default()`. -/
def dfltT (tn : Str) : RType → Val
  | .builtin .string => .str []
  | .builtin .float => .num (.f32 0#32)
  | .builtin _ => .num (.int 0)
  | .enum e => .variant tn ((e.variants.head?.map EnumVariant.name).getD [])
  | .struct fs => .struct (dfltFs fs)
def dfltFs : List (FieldOf RType) → List (Str × Val)
  | [] => []
  | f :: fs => (f.name, dfltF f) :: dfltFs fs
def dfltF : FieldOf RType → Val
  | ⟨_, tn, ty, array, optional⟩ => if optional then .none else if array then .vec [] else dfltT tn ty
end

mutual
/-- The bytes `bs` hold the value `v` of the type: numbers and enums by fixed width, text by its length in bytes and its UTF-8. -/
def HasT (tn : Str) : RType → List UInt8 → Val → Prop
  | .builtin b, bs, v =>
    match scalarOf b with
    | some sc => bs.length = sc.width ∧ v = .num (lib.dec sc bs)
    | none => ∃ len s, bs = len ++ utf8Enc s ∧ len.length = 4 ∧ lib.dec .uint32 len = .int (utf8Enc s).length ∧ v = .str s
  | .enum e, bs, v => bs.length = (reprScalar e.repr).width ∧
      ∃ w ∈ e.variants, lib.dec (reprScalar e.repr) bs = .int (2 ^ w.value) ∧ v = .variant tn w.name
  | .struct fs, bs, v => ∃ ps, v = .struct ps ∧ HasFs fs bs ps
/-- The bytes of one field after the other. -/
def HasFs : List (FieldOf RType) → List UInt8 → List (Str × Val) → Prop
  | [], bs, ps => bs = [] ∧ ps = []
  | f :: fs, bs, ps => ∃ b₁ b₂ v qs, bs = b₁ ++ b₂ ∧ ps = (f.name, v) :: qs ∧ HasF f b₁ v ∧ HasFs fs b₂ qs
/-- An optional begins with a number, 0 if it is absent; an array with the number of its items. -/
def HasF : FieldOf RType → List UInt8 → Val → Prop
  | ⟨_, tn, ty, array, optional⟩, bs, v =>
    if optional then
      ∃ flag body, bs = flag ++ body ∧ flag.length = 1 ∧
        ((lib.dec .uint8 flag = .int 0 ∧ body = [] ∧ v = .none) ∨
          (lib.dec .uint8 flag ≠ .int 0 ∧ ∃ w, v = .some w ∧ HasT tn ty body w))
    else if array then
      ∃ len items vs, bs = len ++ items.flatten ∧ len.length = 4 ∧ lib.dec .uint32 len = .int vs.length ∧ vs.length ≤ lib.maxItems ∧
        v = .vec vs ∧ List.Forall₂ (fun b w => HasT tn ty b w) items vs
    else HasT tn ty bs v
end

/-- The type checker accepts the schema, with the result `r`. -/
def Checked (ast : AST) (r : Resolved) : Prop :=
  ∃ (ord : List (Str × Ty) → List (Str × Ty)) (text : Str), (∀ l, (ord l).Perm l) ∧ Parser.schema text = .ok ast ∧ typeCheck ord ast = .ok r

/-- Rust's names of the builtin types. -/
def rustTable : List (Str × Str) :=
  [("uint8".toList, "u8".toList), ("uint16".toList, "u16".toList), ("uint32".toList, "u32".toList), ("int8".toList, "i8".toList),
   ("int16".toList, "i16".toList), ("int32".toList, "i32".toList), ("float".toList, "f32".toList), ("string".toList, "String".toList)]

/-- Unsigned types that have the number of bits. -/
def unsignedTypes : List (Str × Nat) := [("u8".toList, 8), ("u16".toList, 16), ("u32".toList, 32)]

/-- The name of a type of the schema in Rust. -/
def rustTypeName (n : Str) : Str := (rustTable.lookup n).getD n

/-- The Rust definition of a declared type: a struct has the declared fields (in some order, see C24); an enum has the declared variants,
of which the first is the default, the `k`-th being the `k`-th bit of the smallest type that has a bit for each, and `try_from` takes the
bits (the 32nd by a negative number). -/
inductive DefinedAs (n : Str) : Ast.Ty → Item → Prop
  | struct (gs fs) : fs.Perm (gs.map fun g => (g.1, ⟨rustTypeName g.2.name, g.2.array, g.2.optional⟩)) → DefinedAs n (.struct gs) (.struct n fs)
  | enum (v vs repr bits) : (repr, bits) ∈ unsignedTypes → (v :: vs).length ≤ bits →
      (∀ t ∈ unsignedTypes, (v :: vs).length ≤ t.2 → bits ≤ t.2) →
      DefinedAs n (.enum (v :: vs)) (.enum n repr (v :: vs).zipIdx v
        ((v :: vs).zipIdx.map fun w => (if w.2 = 31 then -2 ^ 31 else 2 ^ w.2, w.1)))

/-- The file that is emitted for the checked schema is read by the Rust compiler as `s`. -/
def Emitted (r : Resolved) (s : Source) : Prop := ∃ text, RustGen.rustFile r = some text ∧ parseText text = some s

/-- Rust programs with the emitted file in them. -/
structure Built (r : Resolved) (s : Source) (P : Prog) : Prop where
  emitted : Emitted r s
  items : P.HasItems s.items

/-- `read` into a default value of the type of its parameter. -/
abbrev readDefault (lib : Lib) (P : Prog) (s : Source) (data : List UInt8) : ReadResult :=
  runRead lib P s.read.2 (P.dflt s.read.1) data

/-- Names that Rust needs: no two fields of a struct have the same name, and no type is named like one of Rust's own. -/
structure NamesFit (ast : AST) : Prop where
  fields : ∀ n fs, Used ast n → .decl n (.struct fs) ∈ ast → (fs.map Prod.fst).Nodup
  types : ∀ n ∈ primNames, ¬ Used ast n

end Packetc.Rs
