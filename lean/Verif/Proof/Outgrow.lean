import Verif.Proof.Evolution
import Verif.Proof.Sized
/-!
# Enums that outgrow their representation (for C65)

A value with all optionals present and one item in each array shows every part of a type.
-/

namespace Packetc.Evolution
open Ast WellFormed Check Js

mutual
/-- The value with all optionals present and one item in each array. -/
def fullT : RType → JVal
  | .builtin b => leastT (.builtin b)
  | .enum _ => .num (.int 1)
  | .struct fs => .obj (fullFs fs)
def fullFs : List (FieldOf RType) → List (PropOf JVal)
  | [] => []
  | f :: fs => fullF f :: fullFs fs
def fullF : FieldOf RType → PropOf JVal
  | ⟨n, _, ty, array, _⟩ => ⟨n, if array then .arr [fullT ty] else fullT ty⟩
end

mutual
/-- Its size. -/
def fullSizeT : RType → Nat
  | .builtin b => minT (.builtin b)
  | .enum e => reprSize e.repr
  | .struct fs => fullSizeFs fs
def fullSizeFs : List (FieldOf RType) → Nat
  | [] => 0
  | f :: fs => fullSizeF f + fullSizeFs fs
def fullSizeF : FieldOf RType → Nat
  | ⟨_, _, ty, array, optional⟩ => (if optional then 1 else 0) + ((if array then 4 else 0) + fullSizeT ty)
end

section
set_option linter.unusedSectionVars false
variable {rt : Runtime} (hrt : FaithfulStr rt [])
include hrt

theorem faithful_empty : rt.encS [] = [] := List.length_eq_zero_iff.1 hrt.2

mutual
theorem full_type : (t : RType) → EnumsT SoundEnum t → TypedT (FaithfulStr rt) IsVariant t (fullT t)
  | .builtin b, _ => by
    unfold TypedT fullT leastT
    cases b <;> first | exact ⟨_, rfl, by decide, by decide⟩ | skip
    · refine ⟨_, rfl, ?_⟩
      intro h
      exact absurd h.1 (by decide)
    · exact ⟨_, rfl, hrt⟩
  | .enum e, h => ⟨_, rfl, sound_one h⟩
  | .struct fs, h => ⟨_, rfl, full_fields fs h⟩
theorem full_fields : (fs : List (FieldOf RType)) → EnumsFs SoundEnum fs → TypedFs (FaithfulStr rt) IsVariant fs (fullFs fs)
  | [], _ => rfl
  | f :: fs, h => ⟨_, _, rfl, full_field f h.1, full_fields fs h.2⟩
theorem full_field : (f : FieldOf RType) → EnumsF SoundEnum f → TypedF (FaithfulStr rt) IsVariant f (fullF f)
  | ⟨n, tn, t, a, o⟩, h => by
    refine ⟨rfl, .inr ?_⟩
    have := full_type t h
    cases a with
    | true => exact ⟨[fullT t], rfl, (show 1 < 2 ^ 32 by decide), fun j hj => by rw [List.mem_singleton.1 hj]; exact this⟩
    | false => exact this
end

mutual
theorem full_size_type : (t : RType) → EnumsT SoundEnum t → sizeT rt t (fullT t) = fullSizeT t
  | .builtin b, h => size_least_type (faithful_empty hrt) (.builtin b) h
  | .enum e, h => by
    show (match e.repr with | .u8 => 1 | .u16 => 2 | .u32 => 4) = reprSize e.repr
    cases e.repr <;> rfl
  | .struct fs, h => full_size_fields fs h
theorem full_size_fields : (fs : List (FieldOf RType)) → EnumsFs SoundEnum fs → sizeFs rt fs (fullFs fs) = fullSizeFs fs
  | [], _ => rfl
  | f :: fs, h => by
    show sizeF rt f (fullF f).value + sizeFs rt fs (fullFs fs) = fullSizeF f + fullSizeFs fs
    rw [full_size_field f h.1, full_size_fields fs h.2]
theorem full_size_field : (f : FieldOf RType) → EnumsF SoundEnum f → sizeF rt f (fullF f).value = fullSizeF f
  | ⟨n, tn, t, a, o⟩, h => by
    have hs := full_size_type t h
    have ht := full_type hrt t h
    cases a with
    | true =>
      show (if o = true then 1 else 0) + (4 + ([fullT t].map fun x => sizeT rt t x).sum) =
        (if o = true then 1 else 0) + (4 + fullSizeT t)
      rw [List.map_singleton, List.sum_singleton, hs]
    | false =>
      cases o with
      | true =>
        show sizeF rt ⟨n, tn, t, false, true⟩ (fullT t) = 1 + (0 + fullSizeT t)
        rw [sizeF_present rt n tn t ht, hs, Nat.zero_add]
      | false =>
        show sizeF rt ⟨n, tn, t, false, false⟩ (fullT t) = 0 + (0 + fullSizeT t)
        rw [sizeF_plain rt n tn t ht, hs, Nat.zero_add, Nat.zero_add]
end
end

theorem full_undef (t : RType) : fullT t ≠ .undef := by
  cases t with
  | builtin b => cases b <;> intro h <;> cases h
  | enum e => intro h; cases h
  | struct fs => intro h; cases h

section
variable {rt : Runtime} {numOk : Scalar → List UInt8 → Prop} {flagOk : Num → Prop} {textOk : List UInt8 → Prop}

mutual
/-- Bytes that hold the value are at least as many. -/
theorem full_holds_type : (t : RType) → ∀ bs, HoldsT rt numOk flagOk textOk t bs (fullT t) → fullSizeT t ≤ bs.length
  | .builtin b, bs, h => by
    unfold HoldsT at h
    unfold fullSizeT minT
    cases hs : scalarOf b with
    | some sc =>
      rw [hs] at h
      obtain ⟨n, h1, -⟩ := h
      exact Nat.le_of_eq h1.width.symm
    | none =>
      rw [hs] at h
      obtain ⟨len, text, rfl, h1, -⟩ := h
      rw [List.length_append, h1.width]
      exact Nat.le_add_right _ _
  | .enum e, bs, h => by
    obtain ⟨i, h1, -⟩ := h
    rw [h1.width]
    show reprSize e.repr ≤ _
    cases e.repr <;> exact Nat.le_refl _
  | .struct fs, bs, h => by
    obtain ⟨ps, h1, h2⟩ := h
    cases h1
    exact full_holds_fields fs bs h2
theorem full_holds_fields : (fs : List (FieldOf RType)) → ∀ bs, HoldsFs rt numOk flagOk textOk fs bs (fullFs fs) →
    fullSizeFs fs ≤ bs.length
  | [], _, _ => Nat.zero_le _
  | f :: fs, bs, h => by
    obtain ⟨b₁, b₂, p, qs, rfl, h1, h2, h3⟩ := h
    cases h1
    rw [List.length_append]
    exact Nat.add_le_add (full_holds_field f _ h2) (full_holds_fields fs _ h3)
theorem full_holds_field : (f : FieldOf RType) → ∀ bs, HoldsF rt numOk flagOk textOk f bs (fullF f) → fullSizeF f ≤ bs.length
  | ⟨n, tn, t, a, o⟩, bs, h => by
    have key := full_holds_type t
    obtain ⟨-, h⟩ := h
    rcases h with ⟨-, h, -⟩ | ⟨flag, body, rfl, h1, h2⟩
    · exfalso
      cases a with
      | true => cases h
      | false => exact full_undef t h
    · rw [List.length_append]
      refine Nat.add_le_add ?_ ?_
      · cases o with
        | true =>
          obtain ⟨n, h3, -⟩ := h1
          exact Nat.le_of_eq h3.width.symm
        | false => exact Nat.zero_le _
      · cases a with
        | true =>
          obtain ⟨len, items, js, rfl, h3, h4, h5⟩ := h2
          cases h4
          cases h5 with
          | cons h6 h7 =>
            cases h7
            rw [List.length_append, h3.width]
            simp only [List.flatten_cons, List.flatten_nil, List.append_nil]
            exact Nat.add_le_add (Nat.le_refl _) (key _ h6)
        | false =>
          show 0 + fullSizeT t ≤ _
          rw [Nat.zero_add]
          exact key _ h2
end
end

section
set_option linter.unusedSectionVars false
variable {M : Str → Str → Prop} {P : REnum → REnum → Prop}
mutual
/-- Similar types with the same names have the same such value. -/
theorem full_sim_type : (t t' : RType) → SimT Eq M P t t' → fullT t' = fullT t
  | .builtin b, t', h => by cases h; rfl
  | .enum e, t', h => by
    obtain ⟨e', rfl, -⟩ := h
    rfl
  | .struct fs, t', h => by
    obtain ⟨gs, rfl, h⟩ := h
    exact congrArg JVal.obj (full_sim_fields fs gs h)
theorem full_sim_fields : (fs gs : List (FieldOf RType)) → SimFs Eq M P fs gs → fullFs gs = fullFs fs
  | [], gs, h => by cases h; rfl
  | f :: fs, gs, h => by
    obtain ⟨g, gs', rfl, h1, h2⟩ := h
    show fullF g :: fullFs gs' = fullF f :: fullFs fs
    rw [full_sim_field f g h1, full_sim_fields fs gs' h2]
theorem full_sim_field : (f g : FieldOf RType) → SimF Eq M P f g → fullF g = fullF f
  | ⟨n, tn, t, a, o⟩, ⟨n', tn', t', a', o'⟩, h => by
    obtain ⟨h1, -, h2, h3, h4⟩ := h
    have h1 : n = n' := h1
    have h2 : a' = a := h2
    have h5 : fullT t' = fullT t := full_sim_type t t' h4
    subst h1 h2
    show PropOf.mk n (if a' then .arr [fullT t'] else fullT t') = PropOf.mk n (if a' then .arr [fullT t] else fullT t)
    rw [h5]
end

variable (hP : ∀ e e', P e e' → reprSize e.repr ≤ reprSize e'.repr)
include hP
mutual
theorem full_le_type : (t t' : RType) → SimT Eq M P t t' → fullSizeT t ≤ fullSizeT t'
  | .builtin b, t', h => by cases h; exact Nat.le_refl _
  | .enum e, t', h => by
    obtain ⟨e', rfl, h⟩ := h
    exact hP e e' h
  | .struct fs, t', h => by
    obtain ⟨gs, rfl, h⟩ := h
    exact full_le_fields fs gs h
theorem full_le_fields : (fs gs : List (FieldOf RType)) → SimFs Eq M P fs gs → fullSizeFs fs ≤ fullSizeFs gs
  | [], gs, h => Nat.zero_le _
  | f :: fs, gs, h => by
    obtain ⟨g, gs', rfl, h1, h2⟩ := h
    exact Nat.add_le_add (full_le_field f g h1) (full_le_fields fs gs' h2)
theorem full_le_field : (f g : FieldOf RType) → SimF Eq M P f g → fullSizeF f ≤ fullSizeF g
  | ⟨n, tn, t, a, o⟩, ⟨n', tn', t', a', o'⟩, h => by
    obtain ⟨h1, -, h2, h3, h4⟩ := h
    have h2 : a' = a := h2
    have h3 : o' = o := h3
    have h4 := full_le_type t t' h4
    subst h2 h3
    exact Nat.add_le_add (Nat.le_refl _) (Nat.add_le_add (Nat.le_refl _) h4)
end
end

/-- Variants at the end. -/
def Longer (vs us : List Str) : Prop := ∃ more, us = vs ++ more

theorem adds_longer {old new : AST} (h : AddsVariants old new) (ho : AllInOrder old) : Maps id Eq Longer old new (Used old) where
  builtins := fun _ _ => rfl
  closed := fun n m ⟨e, he, hn⟩ hr => ⟨e, he, hn.tail hr⟩
  structs := fun n fs hn hd => ⟨fs, h.structs n fs hn hd, forall₂_refl (fun _ => ⟨rfl, rfl⟩) fs⟩
  enums := fun n vs hn hd => by
    obtain ⟨more, h1⟩ := h.enums n vs hn hd
    exact ⟨_, h1, more, rfl⟩
  ord := fun n fs hn hd => ho n fs hn hd

theorem longer_repr {e e' : REnum} (h : EnumRel Longer e e') : reprSize e.repr ≤ reprSize e'.repr := by
  obtain ⟨vs, us, ⟨more, rfl⟩, o1, o2, h1, h2⟩ := h
  have a8 := h1.smallest .u8
  have a16 := h1.smallest .u16
  have b := h2.fits
  rw [List.length_append] at b
  cases hr : e.repr <;> cases hr' : e'.repr <;> rw [hr] at a8 a16 <;> rw [hr'] at b <;>
    simp only [reprBits] at a8 a16 b <;> (simp only [reprSize]; omega)

/-- If the fields have the same size together, then each has. -/
theorem full_each {c₁ c₂ : TypeMap} {fs : List (Str × Unresolved)} {r₁ r₂ : List RField} (h₁ : List.Forall₂ (FieldOk c₁) fs r₁)
    (h₂ : List.Forall₂ (FieldOk c₂) fs r₂)
    (hle : ∀ f ∈ fs, ∀ t t', c₁.get f.2.name = some (f.2.name, t) → c₂.get f.2.name = some (f.2.name, t') → fullSizeT t ≤ fullSizeT t') :
    fullSizeFs r₁ ≤ fullSizeFs r₂ ∧ (fullSizeFs r₁ = fullSizeFs r₂ →
      ∀ f ∈ fs, ∀ t t', c₁.get f.2.name = some (f.2.name, t) → c₂.get f.2.name = some (f.2.name, t') → fullSizeT t = fullSizeT t') := by
  induction h₁ generalizing r₂ with
  | nil => cases h₂; exact ⟨Nat.le_refl _, fun _ f hf => absurd hf List.not_mem_nil⟩
  | cons a₁ b₁ ih =>
    cases h₂ with
    | cons a₂ b₂ =>
      rename_i f rf fs rfs rg rgs
      obtain ⟨i1, i2⟩ := ih b₂ fun f hf => hle f (List.mem_cons_of_mem _ hf)
      have hh := hle f List.mem_cons_self _ _ a₁.ty a₂.ty
      have e1 : fullSizeF rf = (if f.2.optional then 1 else 0) + ((if f.2.array then 4 else 0) + fullSizeT rf.ty) := by
        obtain ⟨n, tn, t, a, o⟩ := rf
        rw [← a₁.array, ← a₁.optional]
        rfl
      have e2 : fullSizeF rg = (if f.2.optional then 1 else 0) + ((if f.2.array then 4 else 0) + fullSizeT rg.ty) := by
        obtain ⟨n, tn, t, a, o⟩ := rg
        rw [← a₂.array, ← a₂.optional]
        rfl
      have e3 : fullSizeFs (rf :: rfs) = fullSizeF rf + fullSizeFs rfs := rfl
      have e4 : fullSizeFs (rg :: rgs) = fullSizeF rg + fullSizeFs rgs := rfl
      refine ⟨by omega, fun he g hg t t' ht ht' => ?_⟩
      rcases List.mem_cons.1 hg with rfl | hg
      · rw [a₁.ty] at ht
        rw [a₂.ty] at ht'
        cases ht
        cases ht'
        omega
      · exact i2 (by omega) g hg t t' ht ht'

/-- If the exported types have full values of the same size, then no enum outgrows its representation. -/
theorem widths_of_full {old new : AST} (ha : AddsVariants old new) (ho : AllInOrder old) {e₁ e₂ : Artifact} (hc₁ : Compiled old e₁)
    (hc₂ : Compiled new e₂) (he : fullSizeFs e₁.fields = fullSizeFs e₂.fields) : SameWidths old new := by
  obtain ⟨v₁, t₁, r₁, f₁, -, p₁, -, c₁, x₁⟩ := hc₁
  obtain ⟨v₂, t₂, r₂, f₂, -, p₂, -, c₂, x₂⟩ := hc₂
  obtain ⟨m₁, F₁, n₁, g₁, -⟩ := Props.typeCheck_final f₁.1 (Props.parsed_noBuiltinDecl p₁) c₁
  obtain ⟨m₂, F₂, n₂, g₂, -⟩ := Props.typeCheck_final f₂.1 (Props.parsed_noBuiltinDecl p₂) c₂
  rw [x₁] at n₁ g₁
  rw [x₂] at n₂ g₂
  have hM := adds_longer ha ho
  have hle : ∀ n, Used old n → ∀ t t', m₁.get n = some (n, t) → m₂.get n = some (n, t') → fullSizeT t ≤ fullSizeT t' := by
    intro n hn t t' ht ht'
    obtain ⟨t'', h1, h2⟩ := sim_get hM F₁ F₂ _ n hn (Nat.le_refl _) t ht
    have h1 : m₂.get n = some (n, t'') := h1
    rw [ht'] at h1
    cases h1
    exact full_le_type (fun e e' => longer_repr) _ _ h2
  have key : ∀ n, Relation.ReflTransGen (Refers old) e₁.name n →
      ∀ t t', m₁.get n = some (n, t) → m₂.get n = some (n, t') → fullSizeT t = fullSizeT t' := by
    intro n hn
    induction hn with
    | refl =>
      intro t t' ht ht'
      have hx : e₂.name = e₁.name := by
        have := ha.top
        rw [n₁, n₂] at this
        simpa using this
      rw [hx] at g₂
      rw [g₁] at ht
      rw [g₂] at ht'
      cases ht
      cases ht'
      exact he
    | @tail k m hk hr ih =>
      obtain ⟨fs, hd, f, hf, rfl⟩ := hr
      have hu : Used old k := ⟨_, n₁, hk⟩
      have hu' : ∀ f ∈ fs, Used old f.2.name := fun f hf => ⟨_, n₁, hk.tail ⟨fs, hd, f, hf, rfl⟩⟩
      obtain ⟨a₁, b₁, k₁⟩ := F₁.inOrder hd (ho _ _ hu hd)
      obtain ⟨a₂, b₂, k₂⟩ := F₂.inOrder (ha.structs _ _ hu hd)
        (inOrder_slots hM hu' (forall₂_refl (fun _ => ⟨rfl, rfl⟩) fs) (ho _ _ hu hd))
      exact (full_each k₁ k₂ fun f hf => hle _ (hu' f hf)).2 (ih _ _ b₁ b₂) f hf
  intro n vs us hn hv hu
  obtain ⟨x, hx, hr⟩ := hn
  rw [n₁] at hx
  cases hx
  obtain ⟨o1, q1⟩ := F₁.enum n vs hv
  obtain ⟨o2, q2⟩ := F₂.enum n us hu
  have h := key n hr _ _ q1 q2
  have h : reprSize (enumSpec vs).repr = reprSize (enumSpec us).repr := h
  obtain ⟨more, hm⟩ := ha.enums n vs ⟨_, n₁, hr⟩ hv
  obtain ⟨-, q3⟩ := F₂.enum n _ hm
  rw [reprSize_enumSpec, reprSize_enumSpec] at h
  split_ifs at h <;> omega

end Packetc.Evolution
