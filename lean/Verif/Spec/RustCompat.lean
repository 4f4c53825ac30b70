import Verif.Spec.Rust
import Verif.Spec.Compat
/-!
# Which schemas' Rust programs understand each other (specification for C106)
-/

namespace Packetc.Rs
open Ast WellFormed Check
open Compat (enumBytes)

/-- All values (with less than `lim` items in each array) that the first program writes are read by the second one as the same values. -/
def Follows (lib : Lib) (lim : Nat) (r₁ : Resolved) (s₁ s₂ : Source) (P₁ P₂ : Prog) : Prop :=
  ∀ vs bytes, ValFs lim r₁.export.fields vs → runWrite lib P₁ s₁.write.2 (.struct vs) = some bytes →
    readDefault lib P₂ s₂ bytes = .ok (.struct vs) []

/-- The type `n` of the old schema can be replaced by the type `m` of the new schema: it is the same builtin type, an enum of the same
name and size that begins with the same variants, or a struct with fields of the same names in the same order whose types can be
replaced. (Names of structs do not matter.) -/
inductive Stands (old new : AST) : Str → Str → Prop
  | builtin {n} : n ∈ builtinNames → Stands old new n n
  | enum {n vs us} : (n, .enum vs) ∈ decls old → (n, .enum us) ∈ decls new → vs <+: us →
      enumBytes vs.length = enumBytes us.length → Stands old new n n
  | struct {n m fs gs} : (n, .struct fs) ∈ decls old → (m, .struct gs) ∈ decls new →
      List.Forall₂ (fun f g => g.1 = f.1 ∧ g.2.array = f.2.array ∧ g.2.optional = f.2.optional) fs gs →
      (∀ p ∈ fs.zip gs, Stands old new p.1.2.name p.2.2.name) → Stands old new n m

/-- The exported type of the old schema can be replaced by that of the new one. -/
def StandsFor (old new : AST) : Prop := ∃ x y, exports old = [x] ∧ exports new = [y] ∧ Stands old new x y

/-- The same type up to names of structs. -/
inductive Equal (old new : AST) : Str → Str → Prop
  | builtin {n} : n ∈ builtinNames → Equal old new n n
  | enum {n vs} : (n, .enum vs) ∈ decls old → (n, .enum vs) ∈ decls new → Equal old new n n
  | struct {n m fs gs} : (n, .struct fs) ∈ decls old → (m, .struct gs) ∈ decls new →
      List.Forall₂ (fun f g => g.1 = f.1 ∧ g.2.array = f.2.array ∧ g.2.optional = f.2.optional) fs gs →
      (∀ p ∈ fs.zip gs, Equal old new p.1.2.name p.2.2.name) → Equal old new n m

/-- The exported types are the same up to names of structs. -/
def EqualExports (old new : AST) : Prop := ∃ x y, exports old = [x] ∧ exports new = [y] ∧ Equal old new x y

/-! ### resolved types -/

section
variable (E : REnum → REnum → Prop)
mutual
/-- The second type can take the place of the first: the same builtin type, an enum of the same name and related to the other by `E`, or a
struct with fields of the same names in the same order whose types can take the place. -/
def TakesT (tn tn' : Str) : RType → RType → Prop
  | .builtin b, t => t = .builtin b
  | .enum e, t => ∃ e', t = .enum e' ∧ tn' = tn ∧ E e e'
  | .struct fs, t => ∃ gs, t = .struct gs ∧ TakesFs fs gs
def TakesFs : List (FieldOf RType) → List (FieldOf RType) → Prop
  | [], gs => gs = []
  | f :: fs, gs => ∃ g gs', gs = g :: gs' ∧ TakesF f g ∧ TakesFs fs gs'
def TakesF : FieldOf RType → FieldOf RType → Prop
  | ⟨n, tn, t, a, o⟩, g => g.name = n ∧ g.array = a ∧ g.optional = o ∧ TakesT tn g.tyName t g.ty
end
end

/-- An enum of the same size that begins with the same variants. -/
def Begins (e e' : REnum) : Prop := e'.repr = e.repr ∧ e.variants <+: e'.variants

end Packetc.Rs
