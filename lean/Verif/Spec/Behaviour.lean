import Verif.Spec.Text
import Verif.Spec.Plain
/-!
# Observable behaviour of the generated class (specification for C30-C44)
-/

namespace Packetc.Js
open Ast Check

/-- What one run of the compiler makes of a schema: the text, and the resolved export, which says what its types are. -/
structure Artifact extends Export where
  code : Str

/-- `e` is what the compiler makes of (some text of) the schema `ast`, under some hash order, version and time. -/
def Compiled (ast : AST) (e : Artifact) : Prop :=
  ∃ (env : Env) (text : Str) (r : Resolved), env.Fair ∧ OneLine env ∧ Parser.schema text = .ok ast ∧
    compile env text = .ok e.code ∧ typeCheck env.ordTypes ast = .ok r ∧ r.export = e.toExport

/-- TypeScript accepts the generated text, the class name hides nothing, and property names are ordinary. -/
structure Usable (e : Artifact) : Prop where
  loads : load e.code ≠ none
  className : ClassNameOk e.name
  nested : OrdinaryFs e.fields
  top : TopNamesOk e.fields

variable (rt : Runtime)

/-- `C.read(data)` returns an object holding `ps`, made of new objects, and leaves all existing objects alone; this takes
less than 2^32+1 rounds of any loop. -/
def Reads (e : Artifact) (data : List UInt8) (ps : List (PropOf JVal)) : Prop :=
  ∀ heap fuel, 2 ^ 32 ≤ fuel → ∃ v st ext, readText rt fuel e.code heap data = .returns v st ∧ st.heap = heap ++ ext ∧
    RepFrom st.heap heap.length (.obj ps) v

/-- `C.read(data)` returns `null`. -/
def Rejects (e : Artifact) (data : List UInt8) : Prop :=
  ∀ heap fuel, 2 ^ 32 ≤ fuel → ∃ st ext, readText rt fuel e.code heap data = .returns .null st ∧ st.heap = heap ++ ext

/-- `write` on any object holding `ps` returns `bytes`, with or without a buffer argument, and changes no object. -/
def Writes (e : Artifact) (ps : List (PropOf JVal)) (bytes : List UInt8) : Prop :=
  ∀ heap this buffer fuel, 2 ^ 32 ≤ fuel → (buffer = .undef ∨ ∃ b, buffer = .buf b) → Rep heap (.obj ps) this →
    ∃ st, writeText rt fuel e.code heap this buffer = .returns (.buf bytes) st ∧ st.heap = heap

/-- A field list has at most one value per object; for stating that a result is *the* value read. -/
abbrev Shaped (fs : List (FieldOf RType)) (ps : List (PropOf JVal)) : Prop := TypedFs (fun _ => True) (fun _ _ => True) fs ps

/-- Further assumptions about the library, used for C41 only: text is self-delimiting once its length in UTF-16
units is known (UTF-8, UTF-16, ... are), and `write_uint32` wraps around, as `DataView.setUint32` does. -/
structure Delimiting : Prop where
  text : ∀ s s' t t', utf16Length s = utf16Length s' → rt.encS s ++ t = rt.encS s' ++ t' → s = s'
  wraps : ∀ i : Int, rt.enc .uint32 (.int i) = rt.enc .uint32 (.int (i % 2 ^ 32))

/-! ### sizes -/

mutual
/-- Number of bytes of a value: the sum of the widths of its parts. -/
def sizeT : RType → JVal → Nat
  | .builtin b, j =>
    match scalarOf b, j with
    | none, .str s => 4 + (rt.encS s).length
    | none, _ => 0
    | some sc, _ => sc.width
  | .enum e, _ => match e.repr with | .u8 => 1 | .u16 => 2 | .u32 => 4
  | .struct fs, j => match j with | .obj ps => sizeFs fs ps | _ => 0
def sizeFs : List (FieldOf RType) → List (PropOf JVal) → Nat
  | [], _ => 0
  | f :: fs, ps => match ps with | [] => 0 | p :: ps => sizeF f p.value + sizeFs fs ps
def sizeF : FieldOf RType → JVal → Nat
  | ⟨_, _, ty, array, optional⟩, j =>
    (if optional then 1 else 0) +
    (match j with
    | .undef => 0
    | .arr js => if array then 4 + (js.map fun x => sizeT ty x).sum else 0
    | _ => sizeT ty j)
end

mutual
/-- Number of reads in the generated code (loop bodies counted once). -/
def slotsT : RType → Nat
  | .builtin .string => 2
  | .builtin _ => 1
  | .enum _ => 1
  | .struct fs => slotsFs fs
def slotsFs : List (FieldOf RType) → Nat
  | [] => 0
  | f :: fs => slotsF f + slotsFs fs
def slotsF : FieldOf RType → Nat
  | ⟨_, _, ty, array, optional⟩ => (if optional then 1 else 0) + (if array then 1 else 0) + slotsT ty
end

end Packetc.Js
