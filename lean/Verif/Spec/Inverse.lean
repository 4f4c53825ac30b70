import Verif.Spec.Resolved
/-!
# Schemas that differ in nothing that is used, up to the order of fields
-/

namespace Packetc.WellFormed
open Ast

/-- The same type, up to the order of fields. -/
inductive LikeTy : Ty → Ty → Prop
  | enum {vs} : LikeTy (.enum vs) (.enum vs)
  | struct {fs gs} : fs.Perm gs → LikeTy (.struct fs) (.struct gs)

/-- The two schemas export the same type, use the same types, and declare these alike up to the order of fields. -/
structure LikeUsed (a b : AST) : Prop where
  exported : exports a = exports b
  used : ∀ n, Used a n ↔ Used b n
  decl : ∀ n, Used a n → ∀ t, .decl n t ∈ a → ∃ u, .decl n u ∈ b ∧ LikeTy t u
  back : ∀ n, Used b n → ∀ u, .decl n u ∈ b → ∃ t, .decl n t ∈ a ∧ LikeTy t u

end Packetc.WellFormed
