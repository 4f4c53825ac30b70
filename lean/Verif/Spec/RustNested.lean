import Verif.Spec.Rust
import Verif.Spec.Nested
/-!
# Values inside of Rust values (specification for C127)
-/

namespace Packetc.Rs
open Check

/-- `x` is in the value `v` of the field: it is the value, or what an optional holds, or one of the items of an array. -/
def PartOf (f : FieldOf RType) (v x : Val) : Prop :=
  ∃ w, v = (if f.optional then Val.some w else w) ∧ if f.array then ∃ vs, w = .vec vs ∧ x ∈ vs else w = x

/-- At some depth in the value `ps` of a struct with the given fields there is a field declared with type `T`, which was resolved to
a struct with fields `gs`, and in this field is the value `qs`. -/
inductive Within (T : Str) (gs : List (FieldOf RType)) (qs : List (Str × Val)) : List (FieldOf RType) → List (Str × Val) → Prop
  | here {fs ps f p} : (f, p) ∈ fs.zip ps → f.tyName = T → f.ty = .struct gs → PartOf f p.2 (.struct qs) → Within T gs qs fs ps
  | deeper {fs ps f p hs rs} : (f, p) ∈ fs.zip ps → f.ty = .struct hs → PartOf f p.2 (.struct rs) → Within T gs qs hs rs →
      Within T gs qs fs ps

end Packetc.Rs
