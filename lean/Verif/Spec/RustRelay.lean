import Verif.Spec.Rust
/-!
# Specification of packets that a Rust program passes on unchanged (C105)
-/

namespace Packetc.Rs
open Check
open Js (scalarOf reprScalar utf8Enc)

/-- Each number has only one encoding. -/
def OneCode (lib : Lib) : Prop := ∀ s bs, bs.length = s.width → lib.enc s (lib.dec s bs) = bs

variable (lib : Lib)

mutual
/-- The bytes `bs` hold the value `v` as in `HasT`, and the flags of optional fields are 0 or 1. -/
def NeatT (tn : Str) : RType → List UInt8 → Val → Prop
  | .builtin b, bs, v =>
    match scalarOf b with
    | some sc => bs.length = sc.width ∧ v = .num (lib.dec sc bs)
    | none => ∃ len s, bs = len ++ utf8Enc s ∧ len.length = 4 ∧ lib.dec .uint32 len = .int (utf8Enc s).length ∧ v = .str s
  | .enum e, bs, v => bs.length = (reprScalar e.repr).width ∧
      ∃ w ∈ e.variants, lib.dec (reprScalar e.repr) bs = .int (2 ^ w.value) ∧ v = .variant tn w.name
  | .struct fs, bs, v => ∃ ps, v = .struct ps ∧ NeatFs fs bs ps
/-- The bytes of one field after the other. -/
def NeatFs : List (FieldOf RType) → List UInt8 → List (Str × Val) → Prop
  | [], bs, ps => bs = [] ∧ ps = []
  | f :: fs, bs, ps => ∃ b₁ b₂ v qs, bs = b₁ ++ b₂ ∧ ps = (f.name, v) :: qs ∧ NeatF f b₁ v ∧ NeatFs fs b₂ qs
/-- An optional begins with 0 or 1; an array with the number of its items. -/
def NeatF : FieldOf RType → List UInt8 → Val → Prop
  | ⟨_, tn, ty, array, optional⟩, bs, v =>
    if optional then
      ∃ flag body, bs = flag ++ body ∧ flag.length = 1 ∧
        ((lib.dec .uint8 flag = .int 0 ∧ body = [] ∧ v = .none) ∨
          (lib.dec .uint8 flag = .int 1 ∧ ∃ w, v = .some w ∧ NeatT tn ty body w))
    else if array then
      ∃ len items vs, bs = len ++ items.flatten ∧ len.length = 4 ∧ lib.dec .uint32 len = .int vs.length ∧ vs.length ≤ lib.maxItems ∧
        v = .vec vs ∧ List.Forall₂ (fun b w => NeatT tn ty b w) items vs
    else NeatT tn ty bs v
end

end Packetc.Rs
