import Verif.Spec.Behaviour
import Mathlib.Data.List.Forall2
/-!
# Which schemas understand each other (specification for C89)
-/

namespace Packetc.Compat
open Ast WellFormed Check Js

/-- Everything that the program `e₁` sends (strings as in C31) is a packet of the program `e₂` too, and `e₂` reads exactly this packet. -/
def Understood (rt : Runtime) (e₁ e₂ : Artifact) : Prop :=
  ∀ ps, TypedFs (FaithfulStr rt) IsVariant e₁.fields ps →
    Shaped e₂.fields ps ∧ ∃ bytes, Writes rt e₁ ps bytes ∧ Reads rt e₂ bytes ps

/-- How many bytes the value of an enum with so many variants takes. -/
def enumBytes (variants : Nat) : Nat := if variants ≤ 8 then 1 else if variants ≤ 16 then 2 else 4

/-- The integer types `uintN` and `intN` that can take the place of an enum with so many variants: of the same size, and with room for
the bit of the last variant (the topmost bit of `intN` is its sign). -/
inductive IntFor (variants : Nat) : Str → Prop
  | u8 : enumBytes variants = 1 → IntFor variants "uint8".toList
  | u16 : enumBytes variants = 2 → IntFor variants "uint16".toList
  | u32 : enumBytes variants = 4 → IntFor variants "uint32".toList
  | i8 : enumBytes variants = 1 → variants < 8 → IntFor variants "int8".toList
  | i16 : enumBytes variants = 2 → variants < 16 → IntFor variants "int16".toList
  | i32 : enumBytes variants = 4 → variants < 32 → IntFor variants "int32".toList

/-- The type `n` of the old schema can be replaced by the type `m` of the new schema: it is the same builtin type, an enum with at
least as many variants and of the same size, an integer type in place of an enum, or a struct with fields of the same names in the
same order whose types can be replaced. (Names of types and variants do not matter.) -/
inductive Replaces (old new : AST) : Str → Str → Prop
  | builtin {n} : n ∈ builtinNames → Replaces old new n n
  | enum {n m vs us} : (n, .enum vs) ∈ decls old → (m, .enum us) ∈ decls new → vs.length ≤ us.length →
      enumBytes vs.length = enumBytes us.length → Replaces old new n m
  | int {n m vs} : (n, .enum vs) ∈ decls old → IntFor vs.length m → Replaces old new n m
  | struct {n m fs gs} : (n, .struct fs) ∈ decls old → (m, .struct gs) ∈ decls new →
      List.Forall₂ (fun f g => g.1 = f.1 ∧ g.2.array = f.2.array ∧ g.2.optional = f.2.optional) fs gs →
      (∀ p ∈ fs.zip gs, Replaces old new p.1.2.name p.2.2.name) → Replaces old new n m

/-- The exported type of the old schema can be replaced by that of the new one. -/
def Compatible (old new : AST) : Prop := ∃ x y, exports old = [x] ∧ exports new = [y] ∧ Replaces old new x y

/-- The same type up to names of types and variants. -/
inductive SameType (old new : AST) : Str → Str → Prop
  | builtin {n} : n ∈ builtinNames → SameType old new n n
  | enum {n m vs us} : (n, .enum vs) ∈ decls old → (m, .enum us) ∈ decls new → vs.length = us.length → SameType old new n m
  | struct {n m fs gs} : (n, .struct fs) ∈ decls old → (m, .struct gs) ∈ decls new →
      List.Forall₂ (fun f g => g.1 = f.1 ∧ g.2.array = f.2.array ∧ g.2.optional = f.2.optional) fs gs →
      (∀ p ∈ fs.zip gs, SameType old new p.1.2.name p.2.2.name) → SameType old new n m

/-- The exported types are the same up to names of types and variants. -/
def SamePackets (old new : AST) : Prop := ∃ x y, exports old = [x] ∧ exports new = [y] ∧ SameType old new x y

/-- Bytes that are a number in the range of `intN` when they are read as `uintN` are the same number when they are read as `intN` (as in
two's complement). -/
structure SameSigned (rt : Runtime) : Prop where
  w8 : ∀ bs (i : Int), bs.length = 1 → i < 2 ^ 7 → rt.dec .uint8 bs = .int i → rt.dec .int8 bs = .int i
  w16 : ∀ bs (i : Int), bs.length = 2 → i < 2 ^ 15 → rt.dec .uint16 bs = .int i → rt.dec .int16 bs = .int i
  w32 : ∀ bs (i : Int), bs.length = 4 → i < 2 ^ 31 → rt.dec .uint32 bs = .int i → rt.dec .int32 bs = .int i

/-! ### resolved types -/

/-- The scalar types that can take the place of an enum: unsigned ones of the same size, and signed ones if the topmost bit is not used. -/
def ScalarFor (e : REnum) : Scalar → Prop
  | .uint8 => e.repr = .u8
  | .uint16 => e.repr = .u16
  | .uint32 => e.repr = .u32
  | .int8 => e.repr = .u8 ∧ e.variants.length < 8
  | .int16 => e.repr = .u16 ∧ e.variants.length < 16
  | .int32 => e.repr = .u32 ∧ e.variants.length < 32
  | .float => False

mutual
/-- The second type can take the place of the first: the same builtin type, an enum of the same size with at least as many variants, an
integer type in place of an enum, or a struct with fields of the same names in the same order whose types can take the place. -/
def CompT : RType → RType → Prop
  | .builtin b, t => t = .builtin b
  | .enum e, t => (∃ e', t = .enum e' ∧ e'.repr = e.repr ∧ e.variants.length ≤ e'.variants.length) ∨
      ∃ b sc, t = .builtin b ∧ scalarOf b = some sc ∧ ScalarFor e sc
  | .struct fs, t => ∃ gs, t = .struct gs ∧ CompFs fs gs
def CompFs : List (FieldOf RType) → List (FieldOf RType) → Prop
  | [], gs => gs = []
  | f :: fs, gs => ∃ g gs', gs = g :: gs' ∧ CompF f g ∧ CompFs fs gs'
def CompF : FieldOf RType → FieldOf RType → Prop
  | ⟨n, _, t, a, o⟩, g => g.name = n ∧ g.array = a ∧ g.optional = o ∧ CompT t g.ty
end

end Packetc.Compat
