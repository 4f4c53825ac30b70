import Verif.Spec.Behaviour
import Mathlib.Data.List.Forall2
/-!
# Changes to a schema (specification for C62-C66)

Relations between the syntax trees of two versions of a schema, and between values that differ in names only.
-/

namespace Packetc.Evolution
open Ast WellFormed Js

/-- The new version has further fields at the end of the exported struct; whatever else was used is still there. -/
structure Appends (old new : AST) (added : List (Str × Unresolved)) : Prop where
  top : ∃ x fs, exports old = [x] ∧ exports new = [x] ∧ (x, .struct fs) ∈ decls old ∧ (x, .struct (fs ++ added)) ∈ decls new
  kept : ∀ n t, Used old n → exports old ≠ [n] → (n, t) ∈ decls old → (n, t) ∈ decls new

/-- Every value of the field takes up space in a packet. (Only structs without fields, and structs of these, do not.) -/
inductive TakesSpace (ast : AST) : Unresolved → Prop
  | array {n o} : TakesSpace ast ⟨n, true, o⟩
  | optional {n a} : TakesSpace ast ⟨n, a, true⟩
  | builtin {n a o} : n ∈ builtinNames → TakesSpace ast ⟨n, a, o⟩
  | enum {n a o vs} : (n, .enum vs) ∈ decls ast → TakesSpace ast ⟨n, a, o⟩
  | struct {n a o fs f} : (n, .struct fs) ∈ decls ast → f ∈ fs → TakesSpace ast f.2 → TakesSpace ast ⟨n, a, o⟩

/-- The new version has further variants at the end of enums; structs are the same. -/
structure AddsVariants (old new : AST) : Prop where
  top : exports new = exports old
  structs : ∀ n fs, Used old n → (n, .struct fs) ∈ decls old → (n, .struct fs) ∈ decls new
  enums : ∀ n vs, Used old n → (n, .enum vs) ∈ decls old → ∃ more, (n, .enum (vs ++ more)) ∈ decls new

/-- No enum outgrows its representation: it has at most 8, at most 16, or at most 32 variants in both versions. -/
def SameWidths (old new : AST) : Prop :=
  ∀ n vs us, Used old n → (n, .enum vs) ∈ decls old → (n, .enum us) ∈ decls new →
    (us.length ≤ 8 ∨ 8 < vs.length) ∧ (us.length ≤ 16 ∨ 16 < vs.length)

/-- The new version is the old one with other names: types are renamed by `τ`, fields and variants arbitrarily. -/
structure Renames (τ : Str → Str) (old new : AST) : Prop where
  top : ∃ x, exports old = [x] ∧ exports new = [τ x]
  builtins : ∀ n ∈ builtinNames, τ n = n
  structs : ∀ n fs, Used old n → (n, .struct fs) ∈ decls old → ∃ gs, (τ n, .struct gs) ∈ decls new ∧
    List.Forall₂ (fun f g => g.2 = ⟨τ f.2.name, f.2.array, f.2.optional⟩) fs gs
  enums : ∀ n vs, Used old n → (n, .enum vs) ∈ decls old → ∃ us, (τ n, .enum us) ∈ decls new ∧ us.length = vs.length

section
variable (N : Str → Str → Prop)
mutual
/-- The same value, except that corresponding components have names related by `N`. -/
def Alike : JVal → JVal → Prop
  | .undef, k => k = .undef
  | .num n, k => k = .num n
  | .str s, k => k = .str s
  | .arr js, k => ∃ ks, k = .arr ks ∧ AlikeItems js ks
  | .obj ps, k => ∃ qs, k = .obj qs ∧ AlikeProps ps qs
termination_by structural j => j
def AlikeItems : List JVal → List JVal → Prop
  | [], ks => ks = []
  | j :: js, ks => ∃ k ks', ks = k :: ks' ∧ Alike j k ∧ AlikeItems js ks'
termination_by structural js => js
def AlikeProps : List (PropOf JVal) → List (PropOf JVal) → Prop
  | [], qs => qs = []
  | p :: ps, qs => ∃ q qs', qs = q :: qs' ∧ AlikeProp p q ∧ AlikeProps ps qs'
termination_by structural ps => ps
def AlikeProp : PropOf JVal → PropOf JVal → Prop
  | ⟨n, j⟩, q => N n q.name ∧ Alike j q.value
termination_by structural p => p
end
end

/-- Equal up to names. -/
abbrev SameValues : List (PropOf JVal) → List (PropOf JVal) → Prop := AlikeProps fun _ _ => True

end Packetc.Evolution
