import Verif.Spec.Rust
import Verif.Spec.Accept
/-!
# Specification of the same packet in Rust and TypeScript (C96)
-/

namespace Packetc.Rs
open Check
open Js (Num Scalar JVal PropOf jsShl1 canonF Runtime utf8Enc)

/-- The number of JavaScript with the same value (JavaScript has only one NaN). -/
def jsNum : Num → Num
  | .int i => .int i
  | .f32 b => .f32 (canonF b)

mutual
/-- The TypeScript value with the content of a Rust value. -/
def jsT : RType → Val → JVal
  | .builtin _, v => match v with | .num n => .num (jsNum n) | .str s => .str s | _ => .undef
  | .enum e, v =>
    match v with
    | .variant _ n =>
      match e.variants.find? fun w => w.name = n with
      | some w => .num (.int (jsShl1 w.value))
      | none => .undef
    | _ => .undef
  | .struct fs, v => match v with | .struct ps => .obj (jsFs fs ps) | _ => .undef
/-- Field by field. -/
def jsFs : List (FieldOf RType) → List (Str × Val) → List (PropOf JVal)
  | [], _ => []
  | f :: fs, ps => match ps with | [] => [] | p :: ps => ⟨p.1, jsF f p.2⟩ :: jsFs fs ps
/-- `None` is `undefined`. -/
def jsF : FieldOf RType → Val → JVal
  | ⟨_, _, ty, array, optional⟩, v =>
    let one (v : Val) : JVal :=
      if array then
        match v with
        | .vec vs => .arr (vs.map fun x => jsT ty x)
        | _ => .undef
      else jsT ty v
    if optional then
      match v with
      | .some v => one v
      | _ => .undef
    else one v
end

/-- The two libraries `packet` agree: the same bytes are the same numbers, and text is UTF-8 (which the Rust library needs). -/
structure Agree (rt : Runtime) (lib : Lib) : Prop where
  num : ∀ (s : Scalar) bs, bs.length = s.width → rt.dec s bs = jsNum (lib.dec s bs)
  text : ∀ s, rt.encS s = utf8Enc s

mutual
/-- No array in the value has more than `k` items. -/
def Few (k : Nat) : JVal → Prop
  | .undef => True
  | .num _ => True
  | .str _ => True
  | .arr js => js.length ≤ k ∧ FewItems k js
  | .obj ps => FewProps k ps
def FewItems (k : Nat) : List JVal → Prop
  | [] => True
  | j :: js => Few k j ∧ FewItems k js
def FewProps (k : Nat) : List (PropOf JVal) → Prop
  | [] => True
  | p :: ps => FewProp k p ∧ FewProps k ps
def FewProp (k : Nat) : PropOf JVal → Prop
  | ⟨_, j⟩ => Few k j
end

/-- The bytes of a text. -/
def IsText (bs : List UInt8) : Prop := ∃ s, bs = utf8Enc s

end Packetc.Rs
