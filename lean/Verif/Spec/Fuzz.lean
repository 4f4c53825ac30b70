import Verif.Model.Fuzz
import Verif.Spec.Grammar
import Verif.Spec.WellFormed
/-!
# Good runs of the generator of random schema files (specification for C83)
-/

namespace Packetc.Fuzz
open Grammar WellFormed

/-- The random choices of a run were lucky in all of these respects. -/
structure Good (ds : List Def) : Prop where
  /-- no name was drawn twice -/
  names : (ds.filterMap Def.name).Nodup
  /-- no enum has the same variant twice -/
  distinct : ∀ i w₁ w₂ op cl vs, Def.enum i w₁ w₂ op cl vs ∈ ds → (vs.map Prod.fst).Nodup
  /-- no variant begins with a reserved word -/
  unreserved : ∀ i w₁ w₂ op cl vs, Def.enum i w₁ w₂ op cl vs ∈ ds →
    ∀ v ∈ vs, ∀ r ∈ reservedWords, ¬ r <+: v.1
  /-- no field of a struct has the name of a field before it, as long as all of those have builtin types -/
  fields : ∀ i w₁ w₂ op cl fs, Def.struct i w₁ w₂ op cl fs ∈ ds →
    ∀ pre f post, fs = pre ++ f :: post → (∀ g ∈ pre, g.type ∈ builtinNames) →
      upper f.ident ∉ pre.map fun g => upper g.ident
  /-- the last line that contains the letters `struct` is the definition of a struct -/
  last : ∃ pre post i w₁ w₂ op cl fs, ds = pre ++ Def.struct i w₁ w₂ op cl fs :: post ∧
    ∀ d ∈ post, ¬ "struct".toList <:+: d.line

end Packetc.Fuzz
