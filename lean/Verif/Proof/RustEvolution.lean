import Verif.Spec.RustEvolution
import Verif.Proof.RustExact
import Verif.Proof.Bridge
import Verif.Proof.Outgrow
/-!
# The bytes of values of similar types, in Rust
-/

namespace Packetc.Rs
open Ast Check WellFormed RustGen Evolution
open Js (Num Scalar utf8Enc AllT AllFs AllF scalarOf)

set_option linter.unusedSectionVars false

variable {lib : Lib}

theorem has_items {R S : List UInt8 → Val → Prop} {Q : Val → Val → Prop} (h : ∀ b v, R b v → ∃ v', S b v' ∧ Q v v')
    {items : List (List UInt8)} {vs : List Val} (hi : List.Forall₂ R items vs) :
    ∃ us, List.Forall₂ S items us ∧ List.Forall₂ Q vs us := by
  induction hi with
  | nil => exact ⟨[], .nil, .nil⟩
  | cons h1 _ ih =>
    obtain ⟨v', a, b⟩ := h _ _ h1
    obtain ⟨us, c, d⟩ := ih
    exact ⟨v' :: us, .cons a c, .cons b d⟩

section
variable {N M : Str → Str → Prop} {P : REnum → REnum → Prop}
  (hP : ∀ e e', P e e' → e.repr = e'.repr ∧ ∀ w ∈ e.variants, ∃ (i : Nat) (w' : EnumVariant), e.variants[i]? = some w ∧ e'.variants[i]? = some w' ∧ w'.value = w.value)
include hP

mutual
/-- The bytes of a value of the one type are those of a corresponding value of the other. -/
theorem same_type (tn tn' : Str) : (t : RType) → ∀ t' bs v, SimT N M P t t' → HasT lib tn t bs v →
    ∃ v', HasT lib tn' t' bs v' ∧ SameT tn tn' t t' v v'
  | .builtin b, t', bs, v, hs, h => by
    have hs : t' = .builtin b := hs
    subst hs
    exact ⟨v, h, rfl, rfl⟩
  | .enum e, t', bs, v, hs, h => by
    obtain ⟨e', rfl, hp⟩ := hs
    obtain ⟨hr, hv⟩ := hP e e' hp
    obtain ⟨h1, w, hw, h2, rfl⟩ := h
    obtain ⟨i, w', h3, h4, h5⟩ := hv w hw
    rw [hr] at h1 h2
    refine ⟨.variant tn' w'.name, ⟨h1, w', List.mem_of_getElem? h4, by rw [h5]; exact h2, rfl⟩, e', i, w, w', rfl, h3, h4, rfl, rfl⟩
  | .struct fs, t', bs, v, hs, h => by
    obtain ⟨gs, rfl, hg⟩ := hs
    obtain ⟨ps, rfl, h1⟩ := h
    obtain ⟨qs, h2, h3⟩ := same_fields fs gs bs ps hg h1
    exact ⟨.struct qs, ⟨qs, rfl, h2⟩, gs, ps, qs, rfl, rfl, rfl, h3⟩
theorem same_fields : (fs : List (FieldOf RType)) → ∀ gs bs ps, SimFs N M P fs gs → HasFs lib fs bs ps →
    ∃ qs, HasFs lib gs bs qs ∧ SameFs fs gs ps qs
  | [], gs, bs, ps, hs, h => by
    have hs : gs = [] := hs
    subst hs
    exact ⟨[], ⟨h.1, rfl⟩, rfl, h.2, rfl⟩
  | f :: fs, gs, bs, ps, hs, h => by
    obtain ⟨g, gs', rfl, h1, h2⟩ := hs
    obtain ⟨b₁, b₂, v, ps', rfl, rfl, h3, h4⟩ := h
    obtain ⟨v', h5, h6⟩ := same_field f g b₁ v h1 h3
    obtain ⟨qs, h7, h8⟩ := same_fields fs gs' b₂ ps' h2 h4
    exact ⟨(g.name, v') :: qs, ⟨b₁, b₂, v', qs, rfl, rfl, h5, h7⟩, g, gs', v, v', ps', qs, rfl, rfl, rfl, h6, h8⟩
theorem same_field : (f : FieldOf RType) → ∀ g bs v, SimF N M P f g → HasF lib f bs v →
    ∃ v', HasF lib g bs v' ∧ SameF f g v v'
  | ⟨n, tn, t, a, o⟩, ⟨n', tn', t', a', o'⟩, bs, v, hs, h => by
    have key := fun bs v => same_type tn tn' t t' bs v hs.2.2.2.2
    obtain ⟨-, -, ha, ho, -⟩ := hs
    have ha : a' = a := ha
    have ho : o' = o := ho
    subst ha ho
    unfold HasF at h ⊢
    unfold SameF
    by_cases ho : o' = true
    · rw [if_pos ho] at h
      simp only [if_pos ho]
      obtain ⟨flag, body, rfl, h1, ⟨h2, rfl, rfl⟩ | ⟨h2, w, rfl, h3⟩⟩ := h
      · exact ⟨.none, ⟨flag, [], rfl, h1, Or.inl ⟨h2, rfl, rfl⟩⟩, Or.inl ⟨rfl, rfl⟩⟩
      · obtain ⟨w', h4, h5⟩ := key _ _ h3
        exact ⟨.some w', ⟨flag, body, rfl, h1, Or.inr ⟨h2, w', rfl, h4⟩⟩, Or.inr ⟨w, w', rfl, rfl, h5⟩⟩
    · rw [if_neg ho] at h
      simp only [if_neg ho]
      by_cases ha : a' = true
      · rw [if_pos ha] at h
        simp only [if_pos ha]
        obtain ⟨len, items, vs, rfl, h1, h2, h3, rfl, h4⟩ := h
        obtain ⟨us, h5, h6⟩ := has_items key h4
        have hl := h6.length_eq
        exact ⟨.vec us, ⟨len, items, us, rfl, h1, by rw [← hl]; exact h2, by rw [← hl]; exact h3, rfl, h5⟩,
          ⟨vs, us, rfl, rfl, h6⟩⟩
      · rw [if_neg ha] at h
        simp only [if_neg ha]
        obtain ⟨v', h1, h2⟩ := key _ _ h
        exact ⟨v', h1, h2⟩
end
end

section
variable {P : REnum → REnum → Prop}
  (hP : ∀ e e', P e e' → e.repr = e'.repr ∧ ∀ w ∈ e.variants, ∃ w' ∈ e'.variants, w'.name = w.name ∧ w'.value = w.value)
include hP

mutual
/-- With the same names, the values are the same. -/
theorem equal_type (tn : Str) : (t : RType) → ∀ t' bs v, SimT Eq (fun a b => b = a) P t t' → HasT lib tn t bs v → HasT lib tn t' bs v
  | .builtin b, t', bs, v, hs, h => by
    have hs : t' = .builtin b := hs
    subst hs
    exact h
  | .enum e, t', bs, v, hs, h => by
    obtain ⟨e', rfl, hp⟩ := hs
    obtain ⟨hr, hv⟩ := hP e e' hp
    obtain ⟨h1, w, hw, h2, rfl⟩ := h
    obtain ⟨w', h3, h4, h5⟩ := hv w hw
    rw [hr] at h1 h2
    exact ⟨h1, w', h3, by rw [h5]; exact h2, by rw [h4]⟩
  | .struct fs, t', bs, v, hs, h => by
    obtain ⟨gs, rfl, hg⟩ := hs
    obtain ⟨ps, rfl, h1⟩ := h
    exact ⟨ps, rfl, equal_fields fs gs bs ps hg h1⟩
theorem equal_fields : (fs : List (FieldOf RType)) → ∀ gs bs ps, SimFs Eq (fun a b => b = a) P fs gs → HasFs lib fs bs ps → HasFs lib gs bs ps
  | [], gs, bs, ps, hs, h => by
    have hs : gs = [] := hs
    subst hs
    exact h
  | f :: fs, gs, bs, ps, hs, h => by
    obtain ⟨g, gs', rfl, h1, h2⟩ := hs
    obtain ⟨b₁, b₂, v, ps', rfl, rfl, h3, h4⟩ := h
    have hn : f.name = g.name := by obtain ⟨n, tn, t, a, o⟩ := f; exact h1.1
    exact ⟨b₁, b₂, v, ps', rfl, by rw [hn], equal_field f g b₁ v h1 h3, equal_fields fs gs' b₂ ps' h2 h4⟩
theorem equal_field : (f : FieldOf RType) → ∀ g bs v, SimF Eq (fun a b => b = a) P f g → HasF lib f bs v → HasF lib g bs v
  | ⟨n, tn, t, a, o⟩, ⟨n', tn', t', a', o'⟩, bs, v, hs, h => by
    have key := fun bs v => equal_type tn t t' bs v hs.2.2.2.2
    obtain ⟨-, hm, ha, ho, -⟩ := hs
    have hm : tn' = tn := hm
    have ha : a' = a := ha
    have ho : o' = o := ho
    subst hm ha ho
    unfold HasF at h ⊢
    by_cases ho : o' = true
    · rw [if_pos ho] at h ⊢
      obtain ⟨flag, body, rfl, h1, ⟨h2, rfl, rfl⟩ | ⟨h2, w, rfl, h3⟩⟩ := h
      · exact ⟨flag, [], rfl, h1, Or.inl ⟨h2, rfl, rfl⟩⟩
      · exact ⟨flag, body, rfl, h1, Or.inr ⟨h2, w, rfl, key _ _ h3⟩⟩
    · rw [if_neg ho] at h ⊢
      by_cases ha : a' = true
      · rw [if_pos ha] at h ⊢
        obtain ⟨len, items, vs, rfl, h1, h2, h3, rfl, h4⟩ := h
        exact ⟨len, items, vs, rfl, h1, h2, h3, rfl, h4.imp fun _ _ => key _ _⟩
      · rw [if_neg ha] at h ⊢
        exact key _ _ h
end
end

mutual
/-- What bytes hold is a value of the type, with arrays that fit in memory. -/
theorem hasT_fits (tn : Str) : (t : RType) → AllT NoOptArrays t → ∀ bs v, HasT lib tn t bs v → ValT (min (2 ^ 32) (lib.maxItems + 1)) tn t v
  | .builtin b, _, bs, v, h => by
    unfold HasT at h
    unfold ValT
    cases hb : scalarOf b with
    | some sc =>
      rw [hb] at h
      exact ⟨_, h.2, lib.dec_ok _ _⟩
    | none =>
      rw [hb] at h
      obtain ⟨len, s, rfl, -, h1, rfl⟩ := h
      have hok := lib.dec_ok .uint32 len
      rw [h1] at hok
      have : ((utf8Enc s).length : Int) < 2 ^ 32 := (u32_range hok).2
      exact ⟨s, rfl, by omega⟩
  | .enum e, _, bs, v, h => by
    obtain ⟨-, w, hw, -, rfl⟩ := h
    exact ⟨w, hw, rfl⟩
  | .struct fs, ha, bs, v, h => by
    obtain ⟨ps, rfl, h⟩ := h
    exact ⟨ps, rfl, hasFs_fits fs ha.1 ha.2 bs ps h⟩
theorem hasFs_fits : (fs : List (FieldOf RType)) → NoOptArrays fs → AllFs NoOptArrays fs → ∀ bs ps, HasFs lib fs bs ps → ValFs (min (2 ^ 32) (lib.maxItems + 1)) fs ps
  | [], _, _, bs, ps, h => h.2
  | f :: fs, hn, ha, bs, ps, h => by
    obtain ⟨b₁, b₂, v, qs, rfl, rfl, h1, h2⟩ := h
    exact ⟨(f.name, v), qs, rfl, hasF_fits f (hn f List.mem_cons_self) ha.1 b₁ v h1,
      hasFs_fits fs (fun g hg => hn g (List.mem_cons_of_mem _ hg)) ha.2 b₂ qs h2⟩
theorem hasF_fits : (f : FieldOf RType) → ¬ (f.array = true ∧ f.optional = true) → AllF NoOptArrays f → ∀ bs v, HasF lib f bs v →
    ValF (min (2 ^ 32) (lib.maxItems + 1)) f (f.name, v)
  | ⟨n, tn, t, a, o⟩, hn, ha, bs, v, h => by
    have key := hasT_fits tn t ha
    refine ⟨rfl, ?_⟩
    cases o with
    | true =>
      cases a with
      | true => exact absurd ⟨rfl, rfl⟩ hn
      | false =>
        obtain ⟨flag, body, rfl, -, ⟨-, -, rfl⟩ | ⟨-, w, rfl, h3⟩⟩ := h
        · exact Or.inl ⟨rfl, rfl⟩
        · exact Or.inr ⟨w, rfl, key _ _ h3⟩
    | false =>
      cases a with
      | true =>
        obtain ⟨len, items, vs, rfl, -, h2, h3, rfl, h4⟩ := h
        have hok := lib.dec_ok .uint32 len
        rw [h2] at hok
        have : (vs.length : Int) < 2 ^ 32 := (u32_range hok).2
        refine Or.inr ⟨.vec vs, rfl, vs, rfl, by omega, fun w hw => ?_⟩
        obtain ⟨b, -, hb⟩ := Forall₂.exists_left h4 hw
        exact key _ _ hb
      | false => exact Or.inr ⟨v, rfl, key _ _ h⟩
end

theorem hasFs_val (fs : List (FieldOf RType)) (hn : NoOptArrays fs) (ha : AllFs NoOptArrays fs) (bs : List UInt8) (ps : List (Str × Val))
    (h : HasFs lib fs bs ps) : ValFs (2 ^ 32) fs ps :=
  valFs_mono (Nat.min_le_left _ _) _ _ (hasFs_fits fs hn ha bs ps h)

section
variable {P : REnum → REnum → Prop} {lim : Nat}
  (hP : ∀ e e', P e e' → e.repr = e'.repr ∧ ∀ w ∈ e.variants, ∀ w' ∈ e'.variants, w.name = w'.name → w.value = w'.value)
include hP

mutual
/-- Bytes of a value of the new type that is also one of the old type. -/
theorem back_type (tn : Str) : (t : RType) → AllT NoOptArrays t → ∀ t' bs v, SimT Eq (fun a b => b = a) P t t' → ValT lim tn t v →
    HasT lib tn t' bs v → HasT lib tn t bs v
  | .builtin b, _, t', bs, v, hs, _, h => by
    have hs : t' = .builtin b := hs
    subst hs
    exact h
  | .enum e, _, t', bs, v, hs, hv, h => by
    obtain ⟨e', rfl, hp⟩ := hs
    obtain ⟨hr, hw⟩ := hP e e' hp
    obtain ⟨h1, w', hw', h2, rfl⟩ := h
    obtain ⟨w, hm, h3⟩ := hv
    simp only [Val.variant.injEq, true_and] at h3
    rw [← hr] at h1 h2
    exact ⟨h1, w, hm, by rw [hw w hm w' hw' h3.symm]; exact h2, by rw [h3]⟩
  | .struct fs, ha, t', bs, v, hs, hv, h => by
    obtain ⟨gs, rfl, hg⟩ := hs
    obtain ⟨ps, rfl, h1⟩ := h
    obtain ⟨qs, hq, h2⟩ := hv
    cases hq
    exact ⟨ps, rfl, back_fields fs ha.1 ha.2 gs bs ps hg h2 h1⟩
theorem back_fields : (fs : List (FieldOf RType)) → NoOptArrays fs → AllFs NoOptArrays fs → ∀ gs bs ps,
    SimFs Eq (fun a b => b = a) P fs gs → ValFs lim fs ps → HasFs lib gs bs ps → HasFs lib fs bs ps
  | [], _, _, gs, bs, ps, hs, _, h => by
    have hs : gs = [] := hs
    subst hs
    exact h
  | f :: fs, hn, ha, gs, bs, ps, hs, hv, h => by
    obtain ⟨g, gs', rfl, h1, h2⟩ := hs
    obtain ⟨b₁, b₂, v, ps', rfl, rfl, h3, h4⟩ := h
    obtain ⟨p, qs, hq, h5, h6⟩ := hv
    cases hq
    have hnm : g.name = f.name := by obtain ⟨n, tn, t, a, o⟩ := f; exact h1.1.symm
    exact ⟨b₁, b₂, v, ps', rfl, by rw [hnm], back_field f (hn f List.mem_cons_self) ha.1 g b₁ _ v h1 h5 h3,
      back_fields fs (fun g hg => hn g (List.mem_cons_of_mem _ hg)) ha.2 gs' b₂ ps' h2 h6 h4⟩
theorem back_field : (f : FieldOf RType) → ¬ (f.array = true ∧ f.optional = true) → AllF NoOptArrays f → ∀ g bs m v,
    SimF Eq (fun a b => b = a) P f g → ValF lim f (m, v) → HasF lib g bs v → HasF lib f bs v
  | ⟨n, tn, t, a, o⟩, hn, hall, ⟨n', tn', t', a', o'⟩, bs, m, v, hs, hv, h => by
    have key := fun bs v => back_type tn t hall t' bs v hs.2.2.2.2
    obtain ⟨-, hm, ha, ho, -⟩ := hs
    have hm : tn' = tn := hm
    have ha : a' = a := ha
    have ho : o' = o := ho
    subst hm ha ho
    obtain ⟨-, hv⟩ := hv
    cases o' with
    | true =>
      cases a' with
      | true => exact absurd ⟨rfl, rfl⟩ hn
      | false =>
        obtain ⟨flag, body, rfl, h1, ⟨h2, rfl, rfl⟩ | ⟨h2, w, rfl, h3⟩⟩ := h
        · exact ⟨flag, [], rfl, h1, Or.inl ⟨h2, rfl, rfl⟩⟩
        · rcases hv with ⟨-, hv⟩ | ⟨u, hu, hv⟩
          · cases hv
          · cases hu
            exact ⟨flag, body, rfl, h1, Or.inr ⟨h2, w, rfl, key _ _ hv h3⟩⟩
    | false =>
      rcases hv with ⟨hv, -⟩ | ⟨u, hu, hv⟩
      · cases hv
      · replace hu : v = u := hu
        subst hu
        cases a' with
        | true =>
          obtain ⟨len, items, vs, rfl, h1, h2, h3, rfl, h4⟩ := h
          obtain ⟨us, hu, -, hv⟩ := hv
          cases hu
          refine ⟨len, items, vs, rfl, h1, h2, h3, rfl, ?_⟩
          clear h1 h2 h3
          induction h4 with
          | nil => exact .nil
          | cons h5 _ ih => exact .cons (key _ _ (hv _ List.mem_cons_self) h5) (ih fun w hw => hv w (List.mem_cons_of_mem _ hw))
        | false => exact key _ _ hv h
end
end

/-- The bytes of some fields, and of more fields after them. -/
theorem hasFs_append {more : List (FieldOf RType)} : (gs : List (FieldOf RType)) → ∀ bs ps,
    HasFs lib (gs ++ more) bs ps ↔ ∃ b₁ b₂ p₁ p₂, bs = b₁ ++ b₂ ∧ ps = p₁ ++ p₂ ∧ HasFs lib gs b₁ p₁ ∧ HasFs lib more b₂ p₂
  | [], bs, ps => by
    constructor
    · exact fun h => ⟨[], bs, [], ps, rfl, rfl, ⟨rfl, rfl⟩, h⟩
    · rintro ⟨b₁, b₂, p₁, p₂, rfl, rfl, ⟨rfl, rfl⟩, h⟩
      exact h
  | g :: gs, bs, ps => by
    constructor
    · rintro ⟨b₁, b₂, v, qs, rfl, rfl, h1, h2⟩
      obtain ⟨c₁, c₂, p₁, p₂, rfl, rfl, h3, h4⟩ := (hasFs_append gs _ _).1 h2
      exact ⟨b₁ ++ c₁, c₂, (g.name, v) :: p₁, p₂, by rw [List.append_assoc], rfl, ⟨b₁, c₁, v, p₁, rfl, rfl, h1, h3⟩, h4⟩
    · rintro ⟨b₁, b₂, p₁, p₂, rfl, rfl, ⟨c₁, c₂, v, qs, rfl, rfl, h1, h2⟩, h3⟩
      exact ⟨c₁, c₂ ++ b₂, v, qs ++ p₂, by rw [List.append_assoc], rfl, h1, (hasFs_append gs _ _).2 ⟨c₂, b₂, qs, p₂, rfl, rfl, h2, h3⟩⟩

mutual
/-- The bytes of the value with everything in it. -/
theorem last_le_type (tn : Str) : (t : RType) → ∀ bs, HasT lib tn t bs (lastT tn t) → bs.length ≤ fullSizeT t
  | .builtin b, bs, h => by
    unfold HasT at h
    cases b <;> simp only [scalarOf] at h <;> first | exact Nat.le_of_eq h.1 | skip
    obtain ⟨len, s, rfl, h1, -, h2⟩ := h
    have h2 : ([] : Str) = s := Val.str.inj h2
    subst h2
    rw [List.length_append, h1]
    exact Nat.le_refl _
  | .enum e, bs, h => by
    have h1 : bs.length = (Js.reprScalar e.repr).width := h.1
    rw [h1]
    show _ ≤ Js.reprSize e.repr
    cases e.repr <;> exact Nat.le_refl _
  | .struct fs, bs, h => by
    obtain ⟨ps, hp, h⟩ := h
    cases hp
    exact last_le_fields fs bs h
theorem last_le_fields : (fs : List (FieldOf RType)) → ∀ bs, HasFs lib fs bs (lastFs fs) → bs.length ≤ fullSizeFs fs
  | [], bs, h => by rw [h.1]; exact Nat.le_refl _
  | f :: fs, bs, h => by
    obtain ⟨b₁, b₂, v, qs, rfl, hq, h1, h2⟩ := h
    cases hq
    rw [List.length_append]
    exact Nat.add_le_add (last_le_field f b₁ h1) (last_le_fields fs b₂ h2)
theorem last_le_field : (f : FieldOf RType) → ∀ bs, HasF lib f bs (lastF f) → bs.length ≤ fullSizeF f
  | ⟨n, tn, t, a, o⟩, bs, h => by
    have key := last_le_type tn t
    show _ ≤ (if o then 1 else 0) + ((if a then 4 else 0) + fullSizeT t)
    cases o with
    | true =>
      obtain ⟨flag, body, rfl, h1, ⟨-, -, h2⟩ | ⟨-, w, h2, h3⟩⟩ := h
      · cases h2
      · cases h2
        have := key _ h3
        rw [List.length_append, h1, if_pos rfl]
        omega
    | false =>
      cases a with
      | true =>
        obtain ⟨len, items, vs, rfl, h1, -, -, h2, h3⟩ := h
        cases h2
        cases h3 with
        | cons h4 h5 =>
          cases h5
          have := key _ h4
          rw [List.length_append, h1, if_pos rfl]
          simp only [List.flatten_cons, List.flatten_nil, List.append_nil]
          omega
      | false =>
        have := key _ h
        omega
end

section
variable {N M : Str → Str → Prop} {P : REnum → REnum → Prop}
mutual
/-- The bytes of the same value in the new version. -/
theorem last_ge_type (tn tn' : Str) : (t : RType) → AllT NoOptArrays t → ∀ t' bs, SimT N M P t t' → HasT lib tn' t' bs (lastT tn t) → fullSizeT t' ≤ bs.length
  | .builtin b, _, t', bs, hs, h => by
    have hs : t' = .builtin b := hs
    subst hs
    unfold HasT at h
    cases b <;> simp only [scalarOf] at h <;> first | exact Nat.le_of_eq h.1.symm | skip
    obtain ⟨len, s, rfl, h1, -, -⟩ := h
    rw [List.length_append, h1]
    exact Nat.le_add_right _ _
  | .enum e, _, t', bs, hs, h => by
    obtain ⟨e', rfl, -⟩ := hs
    have h1 : bs.length = (Js.reprScalar e'.repr).width := h.1
    rw [h1]
    show Js.reprSize e'.repr ≤ _
    cases e'.repr <;> exact Nat.le_refl _
  | .struct fs, ha, t', bs, hs, h => by
    obtain ⟨gs, rfl, hs⟩ := hs
    obtain ⟨ps, hp, h⟩ := h
    cases hp
    exact last_ge_fields fs ha.1 ha.2 gs bs hs h
theorem last_ge_fields : (fs : List (FieldOf RType)) → NoOptArrays fs → AllFs NoOptArrays fs → ∀ gs bs, SimFs N M P fs gs → HasFs lib gs bs (lastFs fs) →
    fullSizeFs gs ≤ bs.length
  | [], _, _, gs, bs, hs, h => by
    have hs : gs = [] := hs
    subst hs
    exact Nat.zero_le _
  | f :: fs, hn, ha, gs, bs, hs, h => by
    obtain ⟨g, gs', rfl, hs1, hs2⟩ := hs
    obtain ⟨b₁, b₂, v, qs, rfl, hq, h1, h2⟩ := h
    obtain ⟨hq1, rfl⟩ := List.cons.inj hq
    obtain ⟨-, rfl⟩ := Prod.mk.inj hq1
    rw [List.length_append]
    exact Nat.add_le_add (last_ge_field f (hn f List.mem_cons_self) ha.1 g b₁ hs1 h1)
      (last_ge_fields fs (fun g hg => hn g (List.mem_cons_of_mem _ hg)) ha.2 gs' b₂ hs2 h2)
theorem last_ge_field : (f : FieldOf RType) → ¬ (f.array = true ∧ f.optional = true) → AllF NoOptArrays f → ∀ g bs, SimF N M P f g →
    HasF lib g bs (lastF f) → fullSizeF g ≤ bs.length
  | ⟨n, tn, t, a, o⟩, hn, hall, ⟨n', tn', t', a', o'⟩, bs, hs, h => by
    have key := fun bs => last_ge_type tn tn' t hall t' bs hs.2.2.2.2
    obtain ⟨-, -, ha, ho, -⟩ := hs
    have ha : a' = a := ha
    have ho : o' = o := ho
    subst ha ho
    show (if o' then 1 else 0) + ((if a' then 4 else 0) + fullSizeT t') ≤ _
    cases o' with
    | true =>
      cases a' with
      | true => exact absurd ⟨rfl, rfl⟩ hn
      | false =>
        obtain ⟨flag, body, rfl, h1, ⟨-, -, h2⟩ | ⟨-, w, h2, h3⟩⟩ := h
        · cases h2
        · cases h2
          have := key _ h3
          rw [List.length_append, h1, if_pos rfl]
          simp only [Bool.false_eq_true, if_false]
          omega
    | false =>
      cases a' with
      | true =>
        obtain ⟨len, items, vs, rfl, h1, -, -, h2, h3⟩ := h
        cases h2
        cases h3 with
        | cons h4 h5 =>
          cases h5
          have := key _ h4
          rw [List.length_append, h1, if_pos rfl]
          simp only [Bool.false_eq_true, if_false, List.flatten_cons, List.flatten_nil, List.append_nil]
          omega
      | false =>
        have := key _ h
        simp only [Bool.false_eq_true, if_false]
        omega
end
end

end Packetc.Rs
