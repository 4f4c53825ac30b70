import Verif.Spec.Wire
/-!
# Values inside of values (specification for C77)
-/

namespace Packetc.WellFormed
open Ast

/-- Schema `b` exports `T`, and all that `T` uses is declared alike in schema `a`. -/
structure Shares (a b : AST) (T : Str) : Prop where
  exported : exports b = [T]
  decl : ∀ n, Relation.ReflTransGen (Refers b) T n → ∀ t, .decl n t ∈ a ↔ .decl n t ∈ b

end Packetc.WellFormed

namespace Packetc.Js
open Check

/-- `x` is the value `j` of the field or, if the field is an array, one of its items. -/
def ItemOf (f : FieldOf RType) (j x : JVal) : Prop := if f.array then ∃ js, j = .arr js ∧ x ∈ js else j = x

/-- At some depth in the value `ps` of a struct with the given fields there is a field declared with type `T`, which was resolved to
a struct with fields `gs`, and it (or one of its items) has the value `qs`. -/
inductive Occurs (T : Str) (gs : List (FieldOf RType)) (qs : List (PropOf JVal)) : List (FieldOf RType) → List (PropOf JVal) → Prop
  | here {fs ps f p} : (f, p) ∈ fs.zip ps → f.tyName = T → f.ty = .struct gs → ItemOf f p.value (.obj qs) → Occurs T gs qs fs ps
  | deeper {fs ps f p hs rs} : (f, p) ∈ fs.zip ps → f.ty = .struct hs → ItemOf f p.value (.obj rs) → Occurs T gs qs hs rs →
      Occurs T gs qs fs ps

end Packetc.Js
