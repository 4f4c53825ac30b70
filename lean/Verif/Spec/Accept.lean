import Mathlib.Data.List.Forall2
import Verif.Spec.Wire
/-!
# Which bytes are a packet (specification for C75, C76)

Said of bytes and values, without a reader: which byte strings hold a value of a type, and which value.
-/

namespace Packetc.Js
open Check

section
variable (rt : Runtime) (numOk : Scalar → List UInt8 → Prop) (flagOk : Num → Prop) (textOk : List UInt8 → Prop)

/-- The bytes `bs` hold the number `n`. -/
structure HoldsNum (s : Scalar) (bs : List UInt8) (n : Num) : Prop where
  width : bs.length = s.width
  ok : numOk s bs
  value : rt.dec s bs = n

mutual
/-- The bytes `bs` hold the value `j` of the given type, where the bytes of numbers, the flags of values that are present and
the bytes of strings satisfy `numOk`, `flagOk` and `textOk`. -/
def HoldsT : RType → List UInt8 → JVal → Prop
  | .builtin b, bs, j =>
    match scalarOf b with
    | some sc => ∃ n, HoldsNum rt numOk sc bs n ∧ j = .num n
    | none => ∃ len text, bs = len ++ text ∧ HoldsNum rt numOk .uint32 len (.int text.length) ∧ textOk text ∧
        j = .str (rt.decS text)
  | .enum e, bs, j => ∃ i : Int, HoldsNum rt numOk (reprScalar e.repr) bs (.int i) ∧
      1 ≤ i ∧ i ≤ jsShl1 (e.variants.length - 1) ∧ j = .num (.int i)
  | .struct fs, bs, j => ∃ ps, j = .obj ps ∧ HoldsFs fs bs ps
/-- The bytes of one field after the other. -/
def HoldsFs : List (FieldOf RType) → List UInt8 → List (PropOf JVal) → Prop
  | [], bs, ps => bs = [] ∧ ps = []
  | f :: fs, bs, ps => ∃ b₁ b₂ p qs, bs = b₁ ++ b₂ ∧ ps = p :: qs ∧ HoldsF f b₁ p ∧ HoldsFs fs b₂ qs
/-- An optional begins with a number, 0 if it is absent; an array with the number of its items. -/
def HoldsF : FieldOf RType → List UInt8 → PropOf JVal → Prop
  | ⟨name, _, ty, array, optional⟩, bs, p =>
    p.name = name ∧
    ((optional = true ∧ p.value = .undef ∧ HoldsNum rt numOk .uint8 bs (.int 0)) ∨
      ∃ flag body, bs = flag ++ body ∧
        (if optional then ∃ n, HoldsNum rt numOk .uint8 flag n ∧ n ≠ .int 0 ∧ flagOk n else flag = []) ∧
        if array then ∃ len items js, body = len ++ items.flatten ∧ HoldsNum rt numOk .uint32 len (.int js.length) ∧
          p.value = .arr js ∧ List.Forall₂ (fun b j => HoldsT ty b j) items js
        else HoldsT ty body p.value)
end
end

variable (rt : Runtime)

/-- The bytes hold the values of the fields. -/
abbrev Holds (fs : List (FieldOf RType)) (bs : List UInt8) (ps : List (PropOf JVal)) : Prop :=
  HoldsFs rt (fun _ _ => True) (fun _ => True) (fun _ => True) fs bs ps

/-- Bytes as `write` would choose them: the flag of a value that is present is 1, and numbers and texts are given by the bytes that they
are encoded as, texts with as many bytes as UTF-16 units. -/
abbrev HoldsTidily (fs : List (FieldOf RType)) (bs : List UInt8) (ps : List (PropOf JVal)) : Prop :=
  HoldsFs rt (fun s b => rt.enc s (rt.dec s b) = b) (fun n => n = .int 1)
    (fun b => rt.encS (rt.decS b) = b ∧ utf16Length (rt.decS b) = b.length) fs bs ps

end Packetc.Js
