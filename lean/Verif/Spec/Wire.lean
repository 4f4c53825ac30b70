import Verif.Js.Sem
import Verif.Spec.Resolved
/-!
# Specification of packet values, their wire format and their representation as JavaScript objects

Independent of the generated code: values, which values belong to a type, how they are laid out as bytes
(docs/format.md and README of packetc), and when a JavaScript value in a heap holds a packet value.
-/

namespace Packetc.Js
open Check

/-- A named component of a value. -/
structure PropOf (T : Type) where
  name : Str
  value : T
deriving DecidableEq, Repr

/-- Packet values; `undef` is an absent optional. -/
inductive JVal where
  | undef
  | num (n : Num)
  | str (s : Str)
  | arr (items : List JVal)
  | obj (props : List (PropOf JVal))

/-- The scalar behind a builtin type (`none` for strings). -/
def scalarOf : Builtin → Option Scalar
  | .uint8 => some .uint8
  | .uint16 => some .uint16
  | .uint32 => some .uint32
  | .int8 => some .int8
  | .int16 => some .int16
  | .int32 => some .int32
  | .float => some .float
  | .string => none

/-- The scalar that carries an enum. -/
def reprScalar : EnumRepr → Scalar
  | .u8 => .uint8
  | .u16 => .uint16
  | .u32 => .uint32

/-- The value of the JavaScript expression `1 << v` (a 32-bit signed integer). -/
def jsShl1 (v : Nat) : Int := if v % 32 = 31 then -2 ^ 31 else 2 ^ (v % 32)

/-- `n` is (the value of) one of the enum's variants. -/
def IsVariant (e : REnum) (n : Num) : Prop := ∃ v ∈ e.variants, n = .int (jsShl1 v.value)

section
variable (strOk : Str → Prop) (enumOk : REnum → Num → Prop)

mutual
/-- The values of a type, when strings satisfy `strOk` and the numbers carrying an enum satisfy `enumOk`. -/
def TypedT : RType → JVal → Prop
  | .builtin b, j =>
    match scalarOf b with
    | none => ∃ s, j = .str s ∧ strOk s
    | some sc => ∃ n, j = .num n ∧ sc.Ok n
  | .enum e, j => ∃ n, j = .num n ∧ enumOk e n
  | .struct fs, j => ∃ ps, j = .obj ps ∧ TypedFs fs ps
/-- One component per field, in order. -/
def TypedFs : List (FieldOf RType) → List (PropOf JVal) → Prop
  | [], ps => ps = []
  | f :: fs, ps => ∃ p qs, ps = p :: qs ∧ TypedF f p ∧ TypedFs fs qs
/-- The component for a field. -/
def TypedF : FieldOf RType → PropOf JVal → Prop
  | ⟨name, _, ty, array, optional⟩, p =>
    p.name = name ∧
    ((optional = true ∧ p.value = .undef) ∨
      if array then ∃ js, p.value = .arr js ∧ js.length < 2 ^ 32 ∧ ∀ j ∈ js, TypedT ty j
      else TypedT ty p.value)
end
end

/-- Strings whose length fits in the prefix. -/
abbrev ShortStr (s : Str) : Prop := utf16Length s < 2 ^ 32

/-- The values of a type. -/
abbrev HasType : RType → JVal → Prop := TypedT ShortStr IsVariant
/-- The values of a struct with the given fields. -/
abbrev HasFields : List (FieldOf RType) → List (PropOf JVal) → Prop := TypedFs ShortStr IsVariant

variable (rt : Runtime)

mutual
/-- The bytes of a value. -/
def encode : RType → JVal → List UInt8
  | .builtin b, j =>
    match scalarOf b, j with
    | none, .str s => rt.enc .uint32 (.int (utf16Length s)) ++ rt.encS s
    | some sc, .num n => rt.enc sc n
    | _, _ => []
  | .enum e, j => match j with | .num n => rt.enc (reprScalar e.repr) n | _ => []
  | .struct fs, j => match j with | .obj ps => encodeFields fs ps | _ => []
/-- The bytes of a struct: those of its fields, in order, without padding. -/
def encodeFields : List (FieldOf RType) → List (PropOf JVal) → List UInt8
  | [], _ => []
  | f :: fs, ps => match ps with | [] => [] | p :: ps => encodeField f p.value ++ encodeFields fs ps
/-- The bytes of a field: presence flag, number of items. -/
def encodeField : FieldOf RType → JVal → List UInt8
  | ⟨_, _, ty, array, optional⟩, j =>
    if optional = true ∧ j matches .undef then rt.enc .uint8 (.int 0)
    else
      (if optional then rt.enc .uint8 (.int 1) else []) ++
      (if array then
        match j with
        | .arr js => rt.enc .uint32 (.int js.length) ++ (js.map fun x => encode ty x).flatten
        | _ => []
      else encode ty j)
end

/-- The name under which each builtin type is known. -/
def builtinName : Builtin → Str
  | .uint8 => "uint8".toList | .uint16 => "uint16".toList | .uint32 => "uint32".toList
  | .int8 => "int8".toList | .int16 => "int16".toList | .int32 => "int32".toList
  | .float => "float".toList | .string => "string".toList

/-- An enum as the checker produces it: 1 to 32 variants numbered from 0, the smallest representation. -/
def SoundEnum (e : REnum) : Prop := ∃ vs, WellFormed.EnumOk vs ∧ WellFormed.EnumResolved vs e

mutual
/-- Types as the checker produces them, at any depth: builtin types are referred to by their own names, enums
are well formed. -/
def SoundT : RType → Prop
  | .builtin _ => True
  | .enum e => SoundEnum e
  | .struct fs => SoundFs fs
def SoundFs : List (FieldOf RType) → Prop
  | [] => True
  | f :: fs => SoundF f ∧ SoundFs fs
def SoundF : FieldOf RType → Prop
  | ⟨_, tn, t, _, _⟩ => (∀ b, t = .builtin b → tn = builtinName b) ∧ SoundT t
end

mutual
/-- At any depth, the fields of a struct have different names, and no field is called `__proto__`. (The checker
does not guarantee this, see C18.) -/
def OrdinaryT : RType → Prop
  | .builtin _ => True
  | .enum _ => True
  | .struct fs => (fs.map FieldOf.name).Nodup ∧ OrdinaryFs fs
def OrdinaryFs : List (FieldOf RType) → Prop
  | [] => True
  | f :: fs => OrdinaryF f ∧ OrdinaryFs fs
def OrdinaryF : FieldOf RType → Prop
  | ⟨n, _, t, _, _⟩ => n ≠ "__proto__".toList ∧ OrdinaryT t
end

section
variable (P : REnum → Prop)
mutual
/-- All enums occurring in a type, at any depth, satisfy `P`. -/
def EnumsT : RType → Prop
  | .builtin _ => True
  | .enum e => P e
  | .struct fs => EnumsFs fs
def EnumsFs : List (FieldOf RType) → Prop
  | [] => True
  | f :: fs => EnumsF f ∧ EnumsFs fs
def EnumsF : FieldOf RType → Prop
  | ⟨_, _, t, _, _⟩ => EnumsT t
end
end

section
variable (Q : List Str → Prop) (P : REnum → Prop)
mutual
/-- At any depth, the list of field names of each struct satisfies `Q` and each enum satisfies `P`. -/
def DeepT : RType → Prop
  | .builtin _ => True
  | .enum e => P e
  | .struct fs => Q (fs.map FieldOf.name) ∧ DeepFs fs
def DeepFs : List (FieldOf RType) → Prop
  | [] => True
  | f :: fs => DeepF f ∧ DeepFs fs
def DeepF : FieldOf RType → Prop
  | ⟨_, _, t, _, _⟩ => DeepT t
end
end

/-- Different names, none of which is another one continued with an underscore (such as `a` and `a_len`), and none
of which is `__proto__`. -/
structure PlainNames (ns : List Str) : Prop where
  nodup : ns.Nodup
  apart : ∀ m ∈ ns, ∀ n ∈ ns, ¬ (m ++ "_".toList) <+: n
  proto : "__proto__".toList ∉ ns

/-- Strings whose encoding has as many bytes as JavaScript says the string has characters. -/
def FaithfulStr (s : Str) : Prop := utf16Length s < 2 ^ 32 ∧ (rt.encS s).length = utf16Length s

/-- An integer between two declared variants. -/
def BetweenVariants (e : REnum) (n : Num) : Prop :=
  ∃ v ∈ e.variants, ∃ w ∈ e.variants, ∃ i, n = .int i ∧ jsShl1 v.value ≤ i ∧ i ≤ jsShl1 w.value

/-- The class name is none of the names that the generated code uses for something else. -/
def ClassNameOk (c : Str) : Prop :=
  c ∉ ["Reader".toList, "Writer".toList, "Object".toList, "Array".toList, "reader".toList, "data".toList] ∧
  ¬ "output".toList <+: c

/-- The names of the exported struct's fields are not special for class constructors (the prototype of the object
that `read` builds). -/
def TopNamesOk (fs : List (FieldOf RType)) : Prop := ∀ f ∈ fs, f.name ∉ readOnlyNames ∧ f.name ∉ poisonedNames

variable (heap : List Obj) (lo : Nat)

mutual
/-- The JavaScript value `v` holds the packet value `j`, using only objects at addresses `≥ lo`. -/
def RepFrom : JVal → Val → Prop
  | .undef, v => v = .undef ∨ v = .null
  | .num n, v => v = .num n
  | .str s, v => v = .str s
  | .arr js, v => ∃ i items, v = .ref i ∧ lo ≤ i ∧ heap[i]? = some (.arr items) ∧ RepItems js items
  | .obj ps, v => ∃ i pr props, v = .ref i ∧ lo ≤ i ∧ heap[i]? = some (.obj pr props) ∧ RepProps ps (.obj pr props)
/-- Item by item. -/
def RepItems : List JVal → List Val → Prop
  | [], vs => vs = []
  | j :: js, vs => ∃ w ws, vs = w :: ws ∧ RepFrom j w ∧ RepItems js ws
/-- Property by property; the object may have further properties. -/
def RepProps : List (PropOf JVal) → Obj → Prop
  | [], _ => True
  | p :: ps, o => RepProp p o ∧ RepProps ps o
def RepProp : PropOf JVal → Obj → Prop
  | ⟨n, j⟩, o => ∃ w, o.get n = .ok w ∧ RepFrom j w
end

/-- The JavaScript value `v` holds the packet value `j`. -/
def Rep (j : JVal) (v : Val) : Prop := RepFrom heap 0 j v

end Packetc.Js
