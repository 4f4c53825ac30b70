import Verif.Spec.Rust
import Verif.Spec.Evolution
/-!
# Specification of the same packet in two versions of a Rust program (C104)
-/

namespace Packetc.Rs
open Check

mutual
/-- The values of two types that correspond: the same numbers and texts, variants in the same place, the same parts; names may differ. -/
def SameT (tn tn' : Str) : RType → RType → Val → Val → Prop
  | .builtin b, t', v, v' => t' = .builtin b ∧ v' = v
  | .enum e, t', v, v' => ∃ (e' : REnum) (i : Nat) (w w' : EnumVariant), t' = .enum e' ∧ e.variants[i]? = some w ∧ e'.variants[i]? = some w' ∧
      v = .variant tn w.name ∧ v' = .variant tn' w'.name
  | .struct fs, t', v, v' => ∃ gs ps qs, t' = .struct gs ∧ v = .struct ps ∧ v' = .struct qs ∧ SameFs fs gs ps qs
/-- Field by field. -/
def SameFs : List (FieldOf RType) → List (FieldOf RType) → List (Str × Val) → List (Str × Val) → Prop
  | [], gs, ps, qs => gs = [] ∧ ps = [] ∧ qs = []
  | f :: fs, gs, ps, qs => ∃ g gs' v v' ps' qs', gs = g :: gs' ∧ ps = (f.name, v) :: ps' ∧ qs = (g.name, v') :: qs' ∧
      SameF f g v v' ∧ SameFs fs gs' ps' qs'
/-- Both are absent or both are present; arrays have the same number of items. -/
def SameF : FieldOf RType → FieldOf RType → Val → Val → Prop
  | ⟨_, tn, ty, array, optional⟩, g, v, v' =>
    if optional then (v = .none ∧ v' = .none) ∨ ∃ w w', v = .some w ∧ v' = .some w' ∧ SameT tn g.tyName ty g.ty w w'
    else if array then ∃ ws ws', v = .vec ws ∧ v' = .vec ws' ∧ List.Forall₂ (fun w w' => SameT tn g.tyName ty g.ty w w') ws ws'
    else SameT tn g.tyName ty g.ty v v'
end

end Packetc.Rs
