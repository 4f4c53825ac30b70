import Verif.Spec.Behaviour
/-!
# Can packets be made smaller? (specification for C102)

format.md: "Small, meaning the packets will serialize into something that only contains the absolutely necessary
information, and besides bit-packing and compression, it would be impossible to shrink the packet any further by hand."
-/

namespace Packetc.Shrink
open Js Check

/-- `c` is another way to write the packets of the program: it delimits itself (no packet is the beginning of another
one), no packet is longer than the program writes it, and some packet is shorter. -/
structure Better (rt : Runtime) (e : Artifact) (c : List (PropOf JVal) → List UInt8) : Prop where
  delimits : ∀ ps qs, HasFields e.fields ps → HasFields e.fields qs → c ps <+: c qs → ps = qs
  le : ∀ ps bytes, HasFields e.fields ps → Writes rt e ps bytes → (c ps).length ≤ bytes.length
  lt : ∃ ps bytes, HasFields e.fields ps ∧ Writes rt e ps bytes ∧ (c ps).length < bytes.length

/-- Text leaves gaps: some byte begins no text (in UTF-8: 255), and some text has two bytes or more. -/
structure TextGap (rt : Runtime) : Prop where
  gap : ∃ b : UInt8, ∀ s, ¬ [b] <+: rt.encS s
  long : ∃ s, ShortStr s ∧ 2 ≤ (rt.encS s).length

/-- How well the values of a type use their bytes. -/
inductive Kind
  /-- No bytes at all. -/
  | none
  /-- Data of sufficient length always begins with a value. -/
  | dense
  /-- One byte that selects one of two or more values, but not of 256. -/
  | choice
  /-- There is room that is not used. -/
  | loose
deriving DecidableEq

/-- One after the other. -/
def Kind.and : Kind → Kind → Kind
  | .none, k => k
  | k, .none => k
  | .dense, .dense => .dense
  | _, _ => .loose

/-- A number of items after their count. -/
def Kind.array : Kind → Kind
  | .none => .dense
  | .dense => .dense
  | _ => .loose

/-- A value after a flag, or the flag. -/
def Kind.optional : Kind → Kind
  | .none => .choice
  | _ => .loose

/-- A field with the given flags, of a type of the given kind. -/
def Kind.field (array optional : Bool) (k : Kind) : Kind :=
  let k := if array then k.array else k
  if optional then k.optional else k

/-- Integers are dense. Floats are loose, since there are many bit patterns for NaN, and text is loose. -/
def builtinKinds : List (Str × Kind) :=
  [("uint8".toList, .dense), ("uint16".toList, .dense), ("uint32".toList, .dense), ("int8".toList, .dense),
   ("int16".toList, .dense), ("int32".toList, .dense), ("float".toList, .loose), ("string".toList, .loose)]

mutual
/-- The type `n` of the schema is of kind `k`. An enum of 2 to 8 variants is a choice; for a single variant no byte, for 9 and
more variants one byte would do. -/
inductive KindOf (ast : Ast.AST) : Str → Kind → Prop
  | builtin {n k} : (n, k) ∈ builtinKinds → KindOf ast n k
  | single {n v} : .decl n (.enum [v]) ∈ ast → KindOf ast n .loose
  | few {n vs} : .decl n (.enum vs) ∈ ast → 2 ≤ vs.length → vs.length ≤ 8 → KindOf ast n .choice
  | many {n vs} : .decl n (.enum vs) ∈ ast → 8 < vs.length → KindOf ast n .loose
  | struct {n fs k} : .decl n (.struct fs) ∈ ast → KindFields ast fs k → KindOf ast n k
/-- The fields, one after the other. -/
inductive KindFields (ast : Ast.AST) : List (Str × Ast.Unresolved) → Kind → Prop
  | nil : KindFields ast [] .none
  | cons {f fs k l} : KindOf ast f.2.name k → KindFields ast fs l →
      KindFields ast (f :: fs) ((k.field f.2.array f.2.optional).and l)
end

end Packetc.Shrink
