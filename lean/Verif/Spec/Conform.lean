import Verif.Js.Parse
import Verif.Spec.Wire
/-!
# When a JavaScript value has a type that a module declares (specification for C119)

Structural typing as in TypeScript: an object has the type of an interface if it has the members; it may have more. `null` counts as
`undefined` (the checker does this without `strictNullChecks`). Which numbers are values of a const enum is a parameter: versions of
TypeScript differ.
-/

namespace Packetc.Js
open Check

/-- The path refers to the type `n` that the namespace of the module declares. -/
def NamesType (m : TsModule) (path : List Str) (n : Str) : Prop := path = [n] ∨ path = [m.space, n]

/-- The type of a member: `x?: T` means `x: T | undefined`. -/
def memberType (x : TsMember) : TsType := if x.optional then ⟨["undefined".toList], false⟩ :: x.type else x.type

/-- The value has the type. -/
inductive Conforms (enumOk : List (Str × Nat) → Num → Prop) (m : TsModule) (heap : List Obj) : TsAtom → Val → Prop
  | number (n) : Conforms enumOk m heap ⟨["number".toList], false⟩ (.num n)
  | string (s) : Conforms enumOk m heap ⟨["string".toList], false⟩ (.str s)
  | undef {v} : v = .undef ∨ v = .null → Conforms enumOk m heap ⟨["undefined".toList], false⟩ v
  | enum {path name vs n} : NamesType m path name → .enum name vs ∈ m.decls → enumOk vs n →
      Conforms enumOk m heap ⟨path, false⟩ (.num n)
  | array {path i items} : heap[i]? = some (.arr items) → items.length < 2 ^ 32 →
      (∀ v ∈ items, Conforms enumOk m heap ⟨path, false⟩ v) → Conforms enumOk m heap ⟨path, true⟩ (.ref i)
  | interface {path name ms i pr props} (value : TsMember → Val) (type : TsMember → TsAtom) :
      NamesType m path name → .interface name ms ∈ m.decls → heap[i]? = some (.obj pr props) →
      (∀ x ∈ ms, (Obj.obj pr props).get x.name = .ok (value x)) → (∀ x ∈ ms, type x ∈ memberType x) →
      (∀ x ∈ ms, Conforms enumOk m heap (type x) (value x)) → Conforms enumOk m heap ⟨path, false⟩ (.ref i)

/-- The value has the fields of the class, of the types that the constructor declares. -/
def HasClassFields (enumOk : List (Str × Nat) → Num → Prop) (m : TsModule) (heap : List Obj) (v : Val) : Prop :=
  ∃ i pr props, v = .ref i ∧ heap[i]? = some (.obj pr props) ∧
    ∀ x ∈ m.params, ∃ w t, (Obj.obj pr props).get x.name = .ok w ∧ t ∈ memberType x ∧ Conforms enumOk m heap t w

/-- One of the constants of a const enum. -/
def Constant (vs : List (Str × Nat)) (n : Num) : Prop := ∃ v ∈ vs, n = .int (jsShl1 v.2)

/-- A number between two constants. -/
def BetweenConsts (vs : List (Str × Nat)) (n : Num) : Prop :=
  ∃ x ∈ vs, ∃ y ∈ vs, ∃ i, n = .int i ∧ jsShl1 x.2 ≤ i ∧ i ≤ jsShl1 y.2

/-- A condition on enums, in terms of the declaration. -/
def viaDecl (enumOk : List (Str × Nat) → Num → Prop) (e : REnum) (n : Num) : Prop :=
  enumOk (e.variants.map fun v => (v.name, v.value)) n

end Packetc.Js
