import Verif.Spec.Evolution
import Verif.Proof.JsRep
import Verif.Props.Wire
/-!
# Types resolved from two versions of a schema
-/

namespace Packetc.Evolution
open Ast WellFormed Check Js

/-! ### Similar types -/

section
variable (N M : Str → Str → Prop) (P : REnum → REnum → Prop)
mutual
/-- The same type, up to names (related by `N`), names of types (related by `M`), and enums (related by `P`). -/
def SimT : RType → RType → Prop
  | .builtin b, t => t = .builtin b
  | .enum e, t => ∃ e', t = .enum e' ∧ P e e'
  | .struct fs, t => ∃ gs, t = .struct gs ∧ SimFs fs gs
def SimFs : List (FieldOf RType) → List (FieldOf RType) → Prop
  | [], gs => gs = []
  | f :: fs, gs => ∃ g gs', gs = g :: gs' ∧ SimF f g ∧ SimFs fs gs'
def SimF : FieldOf RType → FieldOf RType → Prop
  | ⟨n, tn, t, a, o⟩, g => N n g.name ∧ M tn g.tyName ∧ g.array = a ∧ g.optional = o ∧ SimT t g.ty
end
end

/-- The enums that two lists of variants resolve to. -/
def EnumRel (R : List Str → List Str → Prop) (e e' : REnum) : Prop :=
  ∃ vs us, R vs us ∧ EnumOk vs ∧ EnumOk us ∧ EnumResolved vs e ∧ EnumResolved us e'

/-- Related declarations of fields. -/
def Slot (τ : Str → Str) (N : Str → Str → Prop) (f g : Str × Unresolved) : Prop :=
  N f.1 g.1 ∧ g.2 = ⟨τ f.2.name, f.2.array, f.2.optional⟩

/-- The types in `U` are mapped to related types. -/
structure Maps (τ : Str → Str) (N : Str → Str → Prop) (R : List Str → List Str → Prop) (old new : AST) (U : Str → Prop) : Prop where
  builtins : ∀ n ∈ builtinNames, τ n = n
  closed : ∀ n m, U n → Refers old n m → U m
  structs : ∀ n fs, U n → (n, .struct fs) ∈ decls old → ∃ gs, (τ n, .struct gs) ∈ decls new ∧ List.Forall₂ (Slot τ N) fs gs
  enums : ∀ n vs, U n → (n, .enum vs) ∈ decls old → ∃ us, (τ n, .enum us) ∈ decls new ∧ R vs us
  ord : ∀ n fs, U n → (n, .struct fs) ∈ decls old → InOrder old fs

section
variable {τ : Str → Str} {N : Str → Str → Prop} {R : List Str → List Str → Prop} {old new : AST}

theorem Maps.reach {U : Str → Prop} (h : Maps τ N R old new U) {n m : Str} (hn : U n)
    (hr : Relation.ReflTransGen (Refers old) n m) : U m ∧ Relation.ReflTransGen (Refers new) (τ n) (τ m) := by
  induction hr with
  | refl => exact ⟨hn, .refl⟩
  | tail _ hr ih =>
    refine ⟨h.closed _ _ ih.1 hr, ih.2.tail ?_⟩
    obtain ⟨fs, hd, f, hf, rfl⟩ := hr
    obtain ⟨gs, h1, h2⟩ := h.structs _ fs ih.1 hd
    obtain ⟨g, hg, hs⟩ := Forall₂.exists_right h2 hf
    exact ⟨gs, h1, g, hg, by rw [hs.2]⟩

theorem Maps.simple {U : Str → Prop} (h : Maps τ N R old new U) {n : Str} (hn : U n) (hs : Simple old n) : Simple new (τ n) := by
  rcases hs with hb | ⟨vs, hd⟩ | ⟨fs, hd, hb⟩
  · exact Or.inl (by rw [h.builtins n hb]; exact hb)
  · obtain ⟨us, h1, -⟩ := h.enums n vs hn hd
    exact Or.inr (Or.inl ⟨us, h1⟩)
  · obtain ⟨gs, h1, h2⟩ := h.structs n fs hn hd
    refine Or.inr (Or.inr ⟨gs, h1, fun g hg => ?_⟩)
    obtain ⟨f, hf, hs⟩ := Forall₂.exists_left h2 hg
    rw [hs.2]
    simp only
    rw [h.builtins _ (hb f hf)]
    exact hb f hf

theorem inOrder_slots {U : Str → Prop} (h : Maps τ N R old new U) {fs gs : List (Str × Unresolved)} (hU : ∀ f ∈ fs, U f.2.name)
    (h2 : List.Forall₂ (Slot τ N) fs gs) (ho : InOrder old fs) : InOrder new gs := by
  induction h2 with
  | nil => exact List.Pairwise.nil
  | cons hs h2 ih =>
    obtain ⟨h3, h4⟩ := List.pairwise_cons.1 ho
    refine List.pairwise_cons.2 ⟨fun g' hg => ?_, ih (fun f hf => hU f (List.mem_cons_of_mem _ hf)) h4⟩
    obtain ⟨f', hf', hs'⟩ := Forall₂.exists_left h2 hg
    rw [hs.2, hs'.2]
    rcases h3 f' hf' with h5 | h5
    · exact Or.inl (h.simple (hU _ List.mem_cons_self) h5)
    · exact Or.inr (h.reach (hU f' (List.mem_cons_of_mem _ hf')) h5).2

theorem simFs_of {c₁ c₂ : TypeMap} {fs gs : List (Str × Unresolved)} {rfs rgs : List RField}
    (h : List.Forall₂ (Slot τ N) fs gs) (h₁ : List.Forall₂ (FieldOk c₁) fs rfs) (h₂ : List.Forall₂ (FieldOk c₂) gs rgs)
    (ih : ∀ f ∈ fs, ∀ t, c₁.get f.2.name = some (f.2.name, t) → (∃ rf ∈ rfs, rf.ty = t) →
      ∃ t', c₂.get (τ f.2.name) = some (τ f.2.name, t') ∧ SimT N (fun a b => b = τ a) (EnumRel R) t t') :
    SimFs N (fun a b => b = τ a) (EnumRel R) rfs rgs := by
  induction h generalizing rfs rgs with
  | nil => cases h₁; cases h₂; rfl
  | cons hs _ ih' =>
    cases h₁ with
    | cons a₁ b₁ =>
      cases h₂ with
      | cons a₂ b₂ =>
        rename_i f g _ _ _ rf rfs' rg rgs'
        refine ⟨rg, rgs', rfl, ?_, ih' b₁ b₂ fun f hf t ht ⟨rf, hrf, he⟩ =>
          ih f (List.mem_cons_of_mem _ hf) t ht ⟨rf, List.mem_cons_of_mem _ hrf, he⟩⟩
        obtain ⟨t', h1, h2⟩ := ih f List.mem_cons_self rf.ty a₁.ty ⟨rf, List.mem_cons_self, rfl⟩
        have hg := a₂.ty
        have hn : g.2.name = τ f.2.name := by rw [hs.2]
        rw [hn, h1] at hg
        simp only [Option.some.injEq, Prod.mk.injEq, true_and] at hg
        obtain ⟨n, tn, t, a, o⟩ := rf
        refine ⟨?_, ?_, ?_, ?_, by rw [← hg]; exact h2⟩
        · have := hs.1
          rwa [← a₁.name, ← a₂.name] at this
        · show rg.tyName = τ tn
          rw [a₂.tyName, hs.2]; exact congrArg τ a₁.tyName.symm
        · rw [a₂.array, hs.2]; exact a₁.array.symm
        · rw [a₂.optional, hs.2]; exact a₁.optional.symm

theorem sim_get {U : Str → Prop} (h : Maps τ N R old new U) {c₁ c₂ : TypeMap} (F₁ : Final old c₁) (F₂ : Final new c₂)
    (k : Nat) : ∀ n, U n → sizeOf (typeOf c₁ n) ≤ k → ∀ t, c₁.get n = some (n, t) →
      ∃ t', c₂.get (τ n) = some (τ n, t') ∧ SimT N (fun a b => b = τ a) (EnumRel R) t t' := by
  induction k with
  | zero =>
    intro n _ hn
    have : 0 < sizeOf (typeOf c₁ n) := by cases typeOf c₁ n <;> simp
    omega
  | succ k ih =>
    intro n hU hn t ht
    by_cases hb : n ∈ builtinNames
    · rw [h.builtins n hb, F₂.builtin n hb, ← F₁.builtin n hb]
      refine ⟨t, ht, ?_⟩
      rw [F₁.builtin n hb] at ht
      obtain ⟨b, hbt⟩ := builtins_not_struct ht
      cases hbt
      exact rfl
    · by_cases hd : Declared old n
      · obtain ⟨ty, hty⟩ := hd
        cases ty with
        | enum vs =>
          obtain ⟨us, h1, h2⟩ := h.enums n vs hU hty
          obtain ⟨o1, g1⟩ := F₁.enum n vs hty
          obtain ⟨o2, g2⟩ := F₂.enum _ us h1
          rw [g1] at ht
          cases ht
          exact ⟨_, g2, _, rfl, vs, us, h2, o1, o2, Props.enumSpec_resolved o1, Props.enumSpec_resolved o2⟩
        | struct fs =>
          obtain ⟨gs, h1, h2⟩ := h.structs n fs hU hty
          obtain ⟨r₁, g₁, f₁⟩ := F₁.inOrder hty (h.ord n fs hU hty)
          obtain ⟨r₂, g₂, f₂⟩ := F₂.inOrder h1
            (inOrder_slots h (fun f hf => h.closed n _ hU ⟨fs, hty, f, hf, rfl⟩) h2 (h.ord n fs hU hty))
          rw [g₁] at ht
          cases ht
          refine ⟨_, g₂, _, rfl, simFs_of h2 f₁ f₂ fun f hf t htt ⟨rf, hrf, he⟩ => ?_⟩
          refine ih f.2.name (h.closed n _ hU ⟨fs, hty, f, hf, rfl⟩) ?_ t htt
          have h3 := sizeOf_field hrf
          have h4 : typeOf c₁ n = .struct r₁ := by unfold typeOf; rw [g₁]; rfl
          have h5 : typeOf c₁ f.2.name = rf.ty := by unfold typeOf; rw [htt, he]; rfl
          rw [h4] at hn
          rw [h5]
          omega
      · rw [F₁.other n hb hd] at ht
        cases ht

end

/-! ### the schemas -/

theorem compiled_sim {τ : Str → Str} {N : Str → Str → Prop} {R : List Str → List Str → Prop} {old new : AST} (h : Maps τ N R old new (Used old))
    {x : Str} (hx : exports old = [x]) (hy : exports new = [τ x]) {e₁ e₂ : Artifact} (hc₁ : Compiled old e₁)
    (hc₂ : Compiled new e₂) : SimFs N (fun a b => b = τ a) (EnumRel R) e₁.fields e₂.fields := by
  obtain ⟨v₁, t₁, r₁, f₁, -, p₁, -, c₁, x₁⟩ := hc₁
  obtain ⟨v₂, t₂, r₂, f₂, -, p₂, -, c₂, x₂⟩ := hc₂
  obtain ⟨m₁, F₁, n₁, g₁, -⟩ := Props.typeCheck_final f₁.1 (Props.parsed_noBuiltinDecl p₁) c₁
  obtain ⟨m₂, F₂, n₂, g₂, -⟩ := Props.typeCheck_final f₂.1 (Props.parsed_noBuiltinDecl p₂) c₂
  rw [x₁] at n₁ g₁
  rw [x₂] at n₂ g₂
  rw [n₁] at hx
  rw [n₂] at hy
  obtain ⟨t', h1, gs, rfl, h2⟩ := sim_get h F₁ F₂ _ _ ⟨_, n₁, .refl⟩ (Nat.le_refl _) _ g₁
  cases hx
  simp only [List.cons.injEq, and_true] at hy
  rw [← hy, g₂] at h1
  cases h1
  exact h2

theorem renames_maps {τ : Str → Str} {old new : AST} (h : Renames τ old new) (ho : AllInOrder old) :
    Maps τ (fun _ _ => True) (fun vs us => us.length = vs.length) old new (Used old) where
  builtins := h.builtins
  closed := fun n m ⟨e, he, hn⟩ hr => ⟨e, he, hn.tail hr⟩
  structs := fun n fs hn hd => by
    obtain ⟨gs, h1, h2⟩ := h.structs n fs hn hd
    exact ⟨gs, h1, h2.imp fun f g hg => ⟨trivial, hg⟩⟩
  enums := h.enums
  ord := fun n fs hn hd => ho n fs hn hd

theorem forall₂_refl {α : Type} {Q : α → α → Prop} (h : ∀ x, Q x x) : (xs : List α) → List.Forall₂ Q xs xs
  | [] => .nil
  | x :: xs => .cons (h x) (forall₂_refl h xs)

/-- How the variants of an enum change. -/
def Grows (vs us : List Str) : Prop :=
  (∃ more, us = vs ++ more) ∧ (us.length ≤ 8 ∨ 8 < vs.length) ∧ (us.length ≤ 16 ∨ 16 < vs.length) ∧ us.length ≤ 31

theorem adds_maps {old new : AST} (h : AddsVariants old new) (hw : SameWidths old new) (hs : SmallEnums new) (ho : AllInOrder old) :
    Maps id Eq Grows old new (Used old) where
  builtins := fun _ _ => rfl
  closed := fun n m ⟨e, he, hn⟩ hr => ⟨e, he, hn.tail hr⟩
  structs := fun n fs hn hd => ⟨fs, h.structs n fs hn hd, forall₂_refl (fun _ => ⟨rfl, rfl⟩) fs⟩
  enums := fun n vs hn hd => by
    obtain ⟨more, h1⟩ := h.enums n vs hn hd
    obtain ⟨h2, h3⟩ := hw n vs _ hn hd h1
    exact ⟨_, h1, ⟨more, rfl⟩, h2, h3, hs n _ (mem_decls.1 h1)⟩
  ord := fun n fs hn hd => ho n fs hn hd

theorem enumOk_length {vs : List Str} (h : EnumOk vs) : vs.length ≤ 32 := by
  obtain ⟨h1, h2, h3⟩ := h
  assumption

/-- The representation is determined by the number of variants. -/
theorem repr_eq {vs us : List Str} {e e' : REnum} (h₁ : EnumResolved vs e) (h₂ : EnumResolved us e') (hl : vs.length ≤ us.length)
    (h8 : us.length ≤ 8 ∨ 8 < vs.length) (h16 : us.length ≤ 16 ∨ 16 < vs.length) (h32 : us.length ≤ 32) : e.repr = e'.repr := by
  have a8 := h₁.smallest .u8
  have a16 := h₁.smallest .u16
  have b8 := h₂.smallest .u8
  have b16 := h₂.smallest .u16
  have a := h₁.fits
  have b := h₂.fits
  cases hr : e.repr <;> cases hr' : e'.repr <;> rw [hr] at a8 a16 a <;> rw [hr'] at b8 b16 b <;>
    simp only [reprBits] at a8 a16 a b8 b16 b <;> first | rfl | (exfalso; omega)

theorem enumBounds_values {vs us : List EnumVariant} (h : vs.map EnumVariant.value = us.map EnumVariant.value) :
    Gen.enumBounds vs = Gen.enumBounds us := by
  have h1 := congrArg List.head? h
  have h2 := congrArg List.getLast? h
  rw [List.head?_map, List.head?_map] at h1
  rw [List.getLast?_map, List.getLast?_map] at h2
  unfold Gen.enumBounds
  cases a : vs.head? <;> cases b : us.head? <;> cases c : vs.getLast? <;> cases d : us.getLast? <;>
    rw [a, b] at h1 <;> rw [c, d] at h2 <;> simp only [Option.map_some, Option.map_none, Option.some.injEq, reduceCtorEq] at h1 h2 <;>
    first | rfl | (simp only [h1, h2])

theorem rename_enum {e e' : REnum} (h : EnumRel (fun vs us => us.length = vs.length) e e') :
    e.repr = e'.repr ∧ ∀ n, inBounds e n = inBounds e' n := by
  obtain ⟨vs, us, hl, o1, o2, h1, h2⟩ := h
  refine ⟨repr_eq h1 h2 (by omega) (by omega) (by omega) (enumOk_length o2), fun n => ?_⟩
  have : e.variants.map EnumVariant.value = e'.variants.map EnumVariant.value := by rw [h1.values, h2.values, hl]
  unfold inBounds
  rw [enumBounds_values this]

theorem variant_of_values {e e' : REnum} {vs us : List Str} (h₁ : EnumResolved vs e) (h₂ : EnumResolved us e')
    (hl : vs.length ≤ us.length) {n : Num} (h : IsVariant e n) : IsVariant e' n := by
  obtain ⟨v, hv, rfl⟩ := h
  have h1 : v.value ∈ e.variants.map EnumVariant.value := List.mem_map_of_mem hv
  rw [h₁.values, List.mem_range] at h1
  have h2 : v.value ∈ e'.variants.map EnumVariant.value := by rw [h₂.values, List.mem_range]; omega
  obtain ⟨w, hw, he⟩ := List.mem_map.1 h2
  exact ⟨w, hw, by rw [he]⟩

theorem grows_enum {e e' : REnum} (h : EnumRel Grows e e') : e.repr = e'.repr ∧ (∀ n, inBounds e n = true → inBounds e' n = true) ∧
    (∀ n, IsVariant e n → IsVariant e' n) ∧ ∀ n, inBounds e n = true → IsVariant e' n → IsVariant e n := by
  obtain ⟨vs, us, ⟨⟨more, hm⟩, g1, g2, g3⟩, o1, o2, h1, h2⟩ := h
  have hl : vs.length ≤ us.length := by rw [hm, List.length_append]; omega
  have l1 : e.variants.length = vs.length := by rw [← h1.names, List.length_map]
  have l2 : e'.variants.length = us.length := by rw [← h2.names, List.length_map]
  have b1 := sound_bounds ⟨vs, o1, h1⟩ l1
  have b2 := sound_bounds ⟨us, o2, h2⟩ l2
  have p1 := o1.1
  have hj : ∀ v w, v < w → w < 31 → jsShl1 v < jsShl1 w := by
    intro v w hv hw
    rw [jsShl1_small (by omega), jsShl1_small (by omega)]
    exact pow_lt_bits hv
  have hle : jsShl1 (vs.length - 1) ≤ jsShl1 (us.length - 1) := by
    rcases Nat.lt_or_eq_of_le (show vs.length - 1 ≤ us.length - 1 by omega) with h | h
    · exact Int.le_of_lt (hj _ _ h (by omega))
    · rw [h]
  refine ⟨repr_eq h1 h2 hl g1 g2 (by omega), fun n hn => ?_, fun n => variant_of_values h1 h2 hl, ?_⟩
  · cases n with
    | f32 b => cases hn
    | int i =>
      unfold inBounds at hn ⊢
      simp only [b1, b2, Option.getD_some, Bool.and_eq_true, decide_eq_true_eq] at hn ⊢
      omega
  · rintro n hn ⟨v, hv, rfl⟩
    unfold inBounds at hn
    simp only [b1, Option.getD_some, Bool.and_eq_true, decide_eq_true_eq] at hn
    have hv' : v.value ∈ e'.variants.map EnumVariant.value := List.mem_map_of_mem hv
    rw [h2.values, List.mem_range] at hv'
    have : v.value < vs.length := by
      by_contra hc
      have := hj (vs.length - 1) v.value (by omega) (by omega)
      omega
    have hm : v.value ∈ e.variants.map EnumVariant.value := by rw [h1.values, List.mem_range]; exact this
    obtain ⟨w, hw, he⟩ := List.mem_map.1 hm
    exact ⟨w, hw, by rw [he]⟩

/-- The fields of the exported struct before and after others were appended. -/
theorem append_sim {old new : AST} {added : List (Str × Unresolved)} (h : Appends old new added) (ho : AllInOrder old)
    (ho' : AllInOrder new) {e₁ e₂ : Artifact} (hc₁ : Compiled old e₁) (hc₂ : Compiled new e₂) :
    ∃ gs more c, e₂.fields = gs ++ more ∧ SimFs Eq (fun a b => b = a) (EnumRel Eq) e₁.fields gs ∧ Final new c ∧ List.Forall₂ (FieldOk c) added more := by
  obtain ⟨v₁, t₁, r₁, f₁, -, p₁, -, c₁, x₁⟩ := hc₁
  obtain ⟨v₂, t₂, r₂, f₂, -, p₂, -, c₂, x₂⟩ := hc₂
  obtain ⟨m₁, F₁, n₁, g₁, -⟩ := Props.typeCheck_final f₁.1 (Props.parsed_noBuiltinDecl p₁) c₁
  obtain ⟨m₂, F₂, n₂, g₂, -⟩ := Props.typeCheck_final f₂.1 (Props.parsed_noBuiltinDecl p₂) c₂
  rw [x₁] at n₁ g₁
  rw [x₂] at n₂ g₂
  obtain ⟨⟨x, fs, hx, hy, hd, hd'⟩, hk⟩ := h
  rw [n₁] at hx
  rw [n₂] at hy
  have hx : e₁.name = x := by simpa using hx
  have hy : e₂.name = x := by simpa using hy
  rw [hx] at n₁ g₁
  rw [hy] at n₂ g₂
  have hu : ∀ f ∈ fs, ∀ m, Relation.ReflTransGen (Refers old) f.2.name m → Relation.TransGen (Refers old) x m :=
    fun f hf m hm => Relation.TransGen.head' ⟨fs, hd, f, hf, rfl⟩ hm
  have hM : Maps id Eq Eq old new fun m => ∃ f ∈ fs, Relation.ReflTransGen (Refers old) f.2.name m := by
    have kept : ∀ n t, (∃ f ∈ fs, Relation.ReflTransGen (Refers old) f.2.name n) → (n, t) ∈ decls old → (n, t) ∈ decls new := by
      rintro n t ⟨f, hf, hm⟩ hn
      have := hu f hf n hm
      refine hk n t ⟨x, n₁, this.to_reflTransGen⟩ ?_ hn
      rw [n₁]
      rintro h
      cases h
      exact F₁.acyclic _ this
    refine ⟨fun _ _ => rfl, fun n m ⟨f, hf, hn⟩ hr => ⟨f, hf, hn.tail hr⟩, fun n gs hn hg => ⟨gs, kept n _ hn hg, forall₂_refl (fun _ => ⟨rfl, rfl⟩) gs⟩,
      fun n vs hn hv => ⟨vs, kept n _ hn hv, rfl⟩, fun n gs ⟨f, hf, hn⟩ hg => ho n gs ⟨x, n₁, (hu f hf n hn).to_reflTransGen⟩ hg⟩
  obtain ⟨a₁, b₁, k₁⟩ := F₁.inOrder hd (ho x fs ⟨x, n₁, .refl⟩ hd)
  obtain ⟨a₂, b₂, k₂⟩ := F₂.inOrder hd' (ho' x _ ⟨x, n₂, .refl⟩ hd')
  rw [g₁] at b₁
  cases b₁
  rw [g₂] at b₂
  cases b₂
  have split : ∀ (fs : List (Str × Unresolved)) (rs : List RField), List.Forall₂ (FieldOk m₂) (fs ++ added) rs →
      ∃ gs more, rs = gs ++ more ∧ List.Forall₂ (FieldOk m₂) fs gs ∧ List.Forall₂ (FieldOk m₂) added more := by
    intro fs
    induction fs with
    | nil => exact fun rs h => ⟨[], rs, rfl, .nil, h⟩
    | cons f fs ih =>
      intro rs h
      cases h with
      | cons h1 h2 =>
        obtain ⟨gs, more, rfl, h3, h4⟩ := ih _ h2
        exact ⟨_ :: gs, more, rfl, .cons h1 h3, h4⟩
  obtain ⟨gs, more, h1, h2, h3⟩ := split fs _ k₂
  refine ⟨gs, more, m₂, h1, simFs_of (τ := id) (forall₂_refl (fun _ => ⟨rfl, rfl⟩) fs) k₁ h2 fun f hf t ht _ => ?_, F₂, h3⟩
  exact sim_get hM F₁ F₂ _ f.2.name ⟨f, hf, .refl⟩ (Nat.le_refl _) t ht

/-! ### values of similar types -/

set_option linter.unusedSectionVars false

section
variable {N M : Str → Str → Prop} {P : REnum → REnum → Prop}

theorem alikeItems_map {js : List JVal} {Q : JVal → Prop} (h : ∀ j ∈ js, ∃ k, Alike N j k ∧ Q k) :
    ∃ ks, AlikeItems N js ks ∧ ks.length = js.length ∧ ∀ k ∈ ks, Q k := by
  induction js with
  | nil => exact ⟨[], rfl, rfl, fun _ h => by cases h⟩
  | cons j js ih =>
    obtain ⟨k, h1, h2⟩ := h j List.mem_cons_self
    obtain ⟨ks, h3, h4, h5⟩ := ih fun j hj => h j (List.mem_cons_of_mem _ hj)
    exact ⟨k :: ks, ⟨k, ks, rfl, h1, h3⟩, by simp [h4], List.forall_mem_cons.2 ⟨h2, h5⟩⟩

section
variable {S : Str → Prop} {E E' : REnum → Num → Prop} (hE : ∀ e e' n, P e e' → E e n → E' e' n)
include hE

mutual
/-- A value of the one type corresponds to a value of the other. -/
theorem sim_typed : (t : RType) → ∀ t' j, SimT N M P t t' → TypedT S E t j → ∃ k, Alike N j k ∧ TypedT S E' t' k
  | .builtin b, t', j, hs, h => by
    have hs : t' = .builtin b := hs
    subst hs
    unfold TypedT at h ⊢
    cases hb : scalarOf b with
    | none => rw [hb] at h; obtain ⟨s, rfl, h1⟩ := h; exact ⟨.str s, rfl, s, rfl, h1⟩
    | some sc => rw [hb] at h; obtain ⟨s, rfl, h1⟩ := h; exact ⟨.num s, rfl, s, rfl, h1⟩
  | .enum e, t', j, hs, h => by
    obtain ⟨e', rfl, hp⟩ := hs
    obtain ⟨n, rfl, h1⟩ := h
    exact ⟨.num n, rfl, n, rfl, hE _ _ _ hp h1⟩
  | .struct fs, t', j, hs, h => by
    obtain ⟨gs, rfl, hg⟩ := hs
    obtain ⟨ps, rfl, h1⟩ := h
    obtain ⟨qs, h2, h3⟩ := simFs_typed fs gs ps hg h1
    exact ⟨.obj qs, ⟨qs, rfl, h2⟩, qs, rfl, h3⟩
theorem simFs_typed : (fs : List (FieldOf RType)) → ∀ gs ps, SimFs N M P fs gs → TypedFs S E fs ps →
    ∃ qs, AlikeProps N ps qs ∧ TypedFs S E' gs qs
  | [], gs, ps, hs, h => by
    have hs : gs = [] := hs
    have h : ps = [] := h
    subst hs
    subst h
    exact ⟨[], rfl, rfl⟩
  | f :: fs, gs, ps, hs, h => by
    obtain ⟨g, gs', rfl, h1, h2⟩ := hs
    obtain ⟨p, ps', rfl, h3, h4⟩ := h
    obtain ⟨q, h5, h6⟩ := simF_typed f g p h1 h3
    obtain ⟨qs, h7, h8⟩ := simFs_typed fs gs' ps' h2 h4
    exact ⟨q :: qs, ⟨q, qs, rfl, h5, h7⟩, q, qs, rfl, h6, h8⟩
theorem simF_typed : (f : FieldOf RType) → ∀ g p, SimF N M P f g → TypedF S E f p → ∃ q, AlikeProp N p q ∧ TypedF S E' g q
  | ⟨n, tn, t, a, o⟩, g, ⟨pn, j⟩, hs, h => by
    have key := sim_typed t g.ty
    obtain ⟨hn, -, ha, ho, ht⟩ := hs
    rw [typedF_iff] at h
    obtain ⟨hpn, h⟩ := h
    simp only at hpn
    subst hpn
    suffices h : ∃ k, Alike N j k ∧ ((g.optional = true ∧ k = .undef) ∨ okB S E' g.ty g.array k) by
      obtain ⟨k, h1, h2⟩ := h
      exact ⟨⟨g.name, k⟩, ⟨hn, h1⟩, (typedF_iff _ _ _ _).2 ⟨rfl, h2⟩⟩
    simp only at h
    rcases h with ⟨h1, rfl⟩ | h1
    · exact ⟨.undef, rfl, Or.inl ⟨by rw [ho, h1], rfl⟩⟩
    · rw [ha]
      cases a with
      | false =>
        obtain ⟨k, h2, h3⟩ := key j ht h1
        exact ⟨k, h2, Or.inr h3⟩
      | true =>
        obtain ⟨js, rfl, h2, h3⟩ := h1
        obtain ⟨ks, h4, h5, h6⟩ := alikeItems_map (N := N) fun x hx => key x ht (h3 x hx)
        exact ⟨.arr ks, ⟨ks, rfl, h4⟩, Or.inr ⟨ks, rfl, by omega, h6⟩⟩
end
end

mutual
theorem alike_eq : (j k : JVal) → Alike Eq j k → k = j
  | .undef, _, h => h
  | .num _, _, h => h
  | .str _, _, h => h
  | .arr js, k, h => by obtain ⟨ks, rfl, h⟩ := h; rw [alikeItems_eq js ks h]
  | .obj js, k, h => by obtain ⟨ks, rfl, h⟩ := h; rw [alikeProps_eq js ks h]
theorem alikeItems_eq : (js ks : List JVal) → AlikeItems Eq js ks → ks = js
  | [], _, h => h
  | j :: js, ks, h => by obtain ⟨k, ks', rfl, h1, h2⟩ := h; rw [alike_eq j k h1, alikeItems_eq js ks' h2]
theorem alikeProps_eq : (ps qs : List (PropOf JVal)) → AlikeProps Eq ps qs → qs = ps
  | [], _, h => h
  | p :: ps, qs, h => by obtain ⟨q, qs', rfl, h1, h2⟩ := h; rw [alikeProp_eq p q h1, alikeProps_eq ps qs' h2]
theorem alikeProp_eq : (p q : PropOf JVal) → AlikeProp Eq p q → q = p
  | ⟨n, j⟩, ⟨m, k⟩, h => by
    obtain ⟨h1, h2⟩ := h
    simp only at h1 h2
    rw [← h1, alike_eq j k h2]
end

mutual
theorem alike_mono {M N : Str → Str → Prop} (h : ∀ a b, M a b → N a b) : (j k : JVal) → Alike M j k → Alike N j k
  | .undef, _, ha => ha
  | .num _, _, ha => ha
  | .str _, _, ha => ha
  | .arr js, k, ha => by obtain ⟨ks, rfl, ha⟩ := ha; exact ⟨ks, rfl, alikeItems_mono h js ks ha⟩
  | .obj js, k, ha => by obtain ⟨ks, rfl, ha⟩ := ha; exact ⟨ks, rfl, alikeProps_mono h js ks ha⟩
theorem alikeItems_mono {M N : Str → Str → Prop} (h : ∀ a b, M a b → N a b) : (js ks : List JVal) → AlikeItems M js ks → AlikeItems N js ks
  | [], _, ha => ha
  | j :: js, ks, ha => by obtain ⟨k, ks', rfl, h1, h2⟩ := ha; exact ⟨k, ks', rfl, alike_mono h j k h1, alikeItems_mono h js ks' h2⟩
theorem alikeProps_mono {M N : Str → Str → Prop} (h : ∀ a b, M a b → N a b) : (ps qs : List (PropOf JVal)) → AlikeProps M ps qs → AlikeProps N ps qs
  | [], _, ha => ha
  | p :: ps, qs, ha => by obtain ⟨q, qs', rfl, h1, h2⟩ := ha; exact ⟨q, qs', rfl, alikeProp_mono h p q h1, alikeProps_mono h ps qs' h2⟩
theorem alikeProp_mono {M N : Str → Str → Prop} (h : ∀ a b, M a b → N a b) : (p q : PropOf JVal) → AlikeProp M p q → AlikeProp N p q
  | ⟨n, j⟩, ⟨m, k⟩, ha => ⟨h _ _ ha.1, alike_mono h j k ha.2⟩
end

theorem alikeItems_length : {js ks : List JVal} → AlikeItems N js ks → ks.length = js.length
  | [], _, h => by rw [show _ = [] from h]
  | j :: js, ks, h => by obtain ⟨k, ks', rfl, -, h2⟩ := h; simp [alikeItems_length h2]

theorem alikeItems_bytes {F G : JVal → List UInt8} (h : ∀ j k, Alike N j k → F j = G k) : (js ks : List JVal) →
    AlikeItems N js ks → (js.map F).flatten = (ks.map G).flatten
  | [], _, hs => by rw [show _ = [] from hs]; rfl
  | j :: js, ks, hs => by
    obtain ⟨k, ks', rfl, h1, h2⟩ := hs
    simp only [List.map_cons, List.flatten_cons, h j k h1, alikeItems_bytes h js ks' h2]

section
variable {N' : Str → Str → Prop} (rt : Runtime) (hr : ∀ e e', P e e' → e.repr = e'.repr)
include hr

mutual
/-- Corresponding values have the same bytes. -/
theorem sim_encode : (t : RType) → ∀ t' j k, SimT N' M P t t' → Alike N j k → encode rt t j = encode rt t' k
  | .builtin b, t', j, k, hs, ha => by
    have hs : t' = .builtin b := hs
    subst hs
    unfold encode
    cases j with
    | undef => rw [show k = .undef from ha]
    | num n => rw [show k = .num n from ha]
    | str s => rw [show k = .str s from ha]
    | arr js => obtain ⟨ks, rfl, -⟩ := ha; cases scalarOf b <;> rfl
    | obj ps => obtain ⟨ks, rfl, -⟩ := ha; cases scalarOf b <;> rfl
  | .enum e, t', j, k, hs, ha => by
    obtain ⟨e', rfl, hp⟩ := hs
    unfold encode
    cases j with
    | undef => rw [show k = .undef from ha]
    | num n => rw [show k = .num n from ha, hr e e' hp]
    | str s => rw [show k = .str s from ha]
    | arr js => obtain ⟨ks, rfl, -⟩ := ha; rfl
    | obj ps => obtain ⟨ks, rfl, -⟩ := ha; rfl
  | .struct fs, t', j, k, hs, ha => by
    obtain ⟨gs, rfl, hg⟩ := hs
    cases j with
    | undef => rw [show k = .undef from ha]; rfl
    | num n => rw [show k = .num n from ha]; rfl
    | str s => rw [show k = .str s from ha]; rfl
    | arr js => obtain ⟨ks, rfl, -⟩ := ha; rfl
    | obj ps => obtain ⟨qs, rfl, h⟩ := ha; exact simFs_encode fs gs ps qs hg h
theorem simFs_encode : (fs : List (FieldOf RType)) → ∀ gs ps qs, SimFs N' M P fs gs → AlikeProps N ps qs →
    encodeFields rt fs ps = encodeFields rt gs qs
  | [], gs, ps, qs, hs, ha => by
    have hs : gs = [] := hs
    subst hs
    rfl
  | f :: fs, gs, ps, qs, hs, ha => by
    obtain ⟨g, gs', rfl, h1, h2⟩ := hs
    cases ps with
    | nil => rw [show qs = [] from ha]; rfl
    | cons p ps =>
      obtain ⟨q, qs', rfl, h3, h4⟩ := ha
      show encodeField rt f p.value ++ encodeFields rt fs ps = encodeField rt g q.value ++ encodeFields rt gs' qs'
      rw [simF_encode f g p.value q.value h1 (by obtain ⟨pn, pv⟩ := p; exact h3.2), simFs_encode fs gs' ps qs' h2 h4]
theorem simF_encode : (f : FieldOf RType) → ∀ g j k, SimF N' M P f g → Alike N j k → encodeField rt f j = encodeField rt g k
  | ⟨n, tn, t, a, o⟩, g, j, k, hs, h => by
    have key := sim_encode t g.ty
    obtain ⟨-, -, ha, ho, ht⟩ := hs
    have hB : encB rt t a j = encB rt g.ty a k := by
      unfold encB
      cases a with
      | false => exact key j k ht h
      | true =>
        cases j with
        | undef => rw [show k = .undef from h]; rfl
        | num n => rw [show k = .num n from h]; rfl
        | str s => rw [show k = .str s from h]; rfl
        | obj ps => obtain ⟨ks, rfl, -⟩ := h; rfl
        | arr js =>
          obtain ⟨ks, rfl, h⟩ := h
          simp only [if_true]
          rw [alikeItems_length h, alikeItems_bytes (fun j k h => key j k ht h) js ks h]
    rw [encodeField_eq, encodeField_eq, ha, ho]
    simp only
    rw [hB]
    cases o with
    | false => rfl
    | true =>
      simp only [if_true]
      unfold encOpt
      cases j with
      | undef => rw [show k = .undef from h]; rfl
      | num n => rw [show k = .num n from h] at hB ⊢; rw [hB]
      | str s => rw [show k = .str s from h] at hB ⊢; rw [hB]
      | obj ps => obtain ⟨ks, rfl, -⟩ := h; simp only [hB]
      | arr ps => obtain ⟨ks, rfl, -⟩ := h; simp only [hB]
end
end

section
variable (rt : Runtime) (hr : ∀ e e', P e e' → e.repr = e'.repr ∧ ∀ n, inBounds e n = true → inBounds e' n = true)

/-- Corresponding results of reading. -/
def AlikeRd (N : Str → Str → Prop) (x y : Option JVal × RState) : Prop :=
  x.2 = y.2 ∧ ∃ j k, x.1 = some j ∧ y.1 = some k ∧ Alike N j k

theorem alikeRd_many {F G : RState → Option JVal × RState} (hF : Local F)
    (h : ∀ r, (F r).2.failed = false → AlikeRd N (F r) (G r)) : (n : Nat) → (r : RState) → (rdMany F n r).2.failed = false →
    AlikeItems N (rdMany F n r).1 (rdMany G n r).1 ∧ (rdMany F n r).2 = (rdMany G n r).2
  | 0, r, _ => ⟨rfl, rfl⟩
  | n + 1, r, hf => by
    have hf : (rdMany F n (F r).2).2.failed = false := hf
    obtain ⟨h1, h2⟩ := h r (local_failed (local_many hF n) hf)
    obtain ⟨h3, h4⟩ := alikeRd_many hF h n (F r).2 hf
    rw [rdMany, rdMany, ← h1]
    refine ⟨⟨_, _, rfl, ?_, h3⟩, h4⟩
    obtain ⟨j, k, a, b, c⟩ := h2
    rw [a, b]; exact c

include hr

mutual
/-- What a reader accepts, the reader of a similar type accepts. -/
theorem sim_rd : (t : RType) → ∀ t' r, SimT N M P t t' → (rdType rt t r).2.failed = false → AlikeRd N (rdType rt t r) (rdType rt t' r)
  | .builtin b, t', r, hs, _ => by
    have hs : t' = .builtin b := hs
    subst hs
    refine ⟨rfl, ?_⟩
    unfold rdType
    cases scalarOf b with
    | none => exact ⟨_, _, rfl, rfl, rfl⟩
    | some sc => exact ⟨_, _, rfl, rfl, rfl⟩
  | .enum e, t', r, hs, hf => by
    obtain ⟨e', rfl, hp⟩ := hs
    obtain ⟨h1, h2⟩ := hr e e' hp
    unfold rdType at hf ⊢
    rw [← h1]
    by_cases hb : inBounds e (rt.readNum (reprScalar e.repr) r).1 = true
    · rw [if_pos hb, if_pos (h2 _ hb)]
      exact ⟨rfl, _, _, rfl, rfl, rfl⟩
    · rw [if_neg hb] at hf
      cases hf
  | .struct fs, t', r, hs, hf => by
    obtain ⟨gs, rfl, hg⟩ := hs
    obtain ⟨h1, h2⟩ := simFs_rd fs gs r hg hf
    exact ⟨h2, _, _, rfl, rfl, _, rfl, h1⟩
theorem simFs_rd : (fs : List (FieldOf RType)) → ∀ gs r, SimFs N M P fs gs → (rdFields rt fs r).2.failed = false →
    AlikeProps N (rdFields rt fs r).1 (rdFields rt gs r).1 ∧ (rdFields rt fs r).2 = (rdFields rt gs r).2
  | [], gs, r, hs, _ => by
    have hs : gs = [] := hs
    subst hs
    exact ⟨rfl, rfl⟩
  | f :: fs, gs, r, hs, hf => by
    obtain ⟨g, gs', rfl, h1, h2⟩ := hs
    have hf : (rdFields rt fs (rdField rt f r).2).2.failed = false := hf
    obtain ⟨⟨p, q, a, b, c⟩, h4⟩ := simF_rd f g r h1 (local_failed (local_fields rt fs) hf)
    obtain ⟨h5, h6⟩ := simFs_rd fs gs' (rdField rt f r).2 h2 hf
    rw [rdFields, rdFields, ← h4]
    refine ⟨?_, h6⟩
    rw [a, b]; exact ⟨_, _, rfl, c, h5⟩
theorem simF_rd : (f : FieldOf RType) → ∀ g r, SimF N M P f g → (rdField rt f r).2.failed = false →
    (∃ p q, (rdField rt f r).1 = [p] ∧ (rdField rt g r).1 = [q] ∧ AlikeProp N p q) ∧ (rdField rt f r).2 = (rdField rt g r).2
  | ⟨n, tn, t, a, o⟩, g, r, hs, hf => by
    have key := sim_rd t g.ty
    obtain ⟨hn, -, ha, ho, ht⟩ := hs
    have hB : ∀ r, (rdB rt t a r).2.failed = false → AlikeRd N (rdB rt t a r) (rdB rt g.ty a r) := by
      intro r hf
      unfold rdB at hf ⊢
      cases a with
      | false => exact key r ht hf
      | true =>
        obtain ⟨h1, h2⟩ := alikeRd_many (local_type rt t) (fun r => key r ht) (rt.readNum .uint32 r).1.toNat (rt.readNum .uint32 r).2 hf
        exact ⟨h2, _, _, rfl, rfl, _, rfl, h1⟩
    have hC : ∀ r, (rdB rt t a r).2.failed = false →
        (∃ p q, component n (rdB rt t a r).1 = [p] ∧ component g.name (rdB rt g.ty a r).1 = [q] ∧ AlikeProp N p q) ∧
        (rdB rt t a r).2 = (rdB rt g.ty a r).2 := by
      intro r hf
      obtain ⟨h1, j, k, a, b, c⟩ := hB r hf
      refine ⟨?_, h1⟩
      rw [a, b]; exact ⟨_, _, rfl, rfl, hn, c⟩
    rw [rdField_eq] at hf
    rw [rdField_eq, rdField_eq, ha, ho]
    simp only at hf ⊢
    cases o with
    | false => exact hC r hf
    | true =>
      simp only [if_true] at hf ⊢
      split
      · rename_i h
        rw [if_pos h] at hf
        exact hC _ hf
      · exact ⟨⟨_, _, rfl, rfl, hn, rfl⟩, rfl⟩
end
end

end

/-! ### symmetry, prefixes -/

section
variable {N M : Str → Str → Prop} {P : REnum → REnum → Prop}
mutual
theorem sim_symm : (t : RType) → ∀ t', SimT N M P t t' → SimT (flip N) (flip M) (flip P) t' t
  | .builtin b, t', h => by
    have h : t' = .builtin b := h
    subst h
    exact rfl
  | .enum e, t', h => by
    obtain ⟨e', rfl, h⟩ := h
    exact ⟨e, rfl, h⟩
  | .struct fs, t', h => by
    obtain ⟨gs, rfl, h⟩ := h
    exact ⟨fs, rfl, simFs_symm fs gs h⟩
theorem simFs_symm : (fs : List (FieldOf RType)) → ∀ gs, SimFs N M P fs gs → SimFs (flip N) (flip M) (flip P) gs fs
  | [], gs, h => by
    have h : gs = [] := h
    subst h
    exact rfl
  | f :: fs, gs, h => by
    obtain ⟨g, gs', rfl, h1, h2⟩ := h
    exact ⟨f, fs, rfl, simF_symm f g h1, simFs_symm fs gs' h2⟩
theorem simF_symm : (f : FieldOf RType) → ∀ g, SimF N M P f g → SimF (flip N) (flip M) (flip P) g f
  | ⟨n, tn, t, a, o⟩, ⟨m, tm, t', a', o'⟩, h => by
    obtain ⟨h1, h0, h2, h3, h4⟩ := h
    exact ⟨h1, h0, h2.symm, h3.symm, sim_symm t t' h4⟩
end
end

section
variable {M : Str → Str → Prop} {P : REnum → REnum → Prop} {S S₁ : Str → Prop} {E E₁ E' : REnum → Num → Prop}
  (hE : ∀ e e' n, P e e' → E₁ e n → E e' n → E' e n)
include hE
mutual
/-- What is known about a value as a value of two similar types. -/
theorem sim_both : (t : RType) → ∀ t' j, SimT Eq M P t t' → TypedT S₁ E₁ t j → TypedT S E t' j → TypedT S E' t j
  | .builtin b, t', j, hs, _, h => by
    have hs : t' = .builtin b := hs
    subst hs
    exact h
  | .enum e, t', j, hs, h1, h => by
    obtain ⟨e', rfl, hp⟩ := hs
    obtain ⟨n, rfl, h2⟩ := h
    obtain ⟨m, hm, h3⟩ := h1
    cases hm
    exact ⟨n, rfl, hE _ _ _ hp h3 h2⟩
  | .struct fs, t', j, hs, h1, h => by
    obtain ⟨gs, rfl, hg⟩ := hs
    obtain ⟨ps, rfl, h2⟩ := h
    obtain ⟨qs, hq, h3⟩ := h1
    cases hq
    exact ⟨ps, rfl, simFs_both fs gs ps hg h3 h2⟩
theorem simFs_both : (fs : List (FieldOf RType)) → ∀ gs ps, SimFs Eq M P fs gs → TypedFs S₁ E₁ fs ps → TypedFs S E gs ps → TypedFs S E' fs ps
  | [], gs, ps, _, h1, _ => h1
  | f :: fs, gs, ps, hs, h1, h => by
    obtain ⟨g, gs', rfl, hs1, hs2⟩ := hs
    obtain ⟨p, ps', rfl, h3, h4⟩ := h
    obtain ⟨q, qs', hq, h5, h6⟩ := h1
    cases hq
    exact ⟨p, ps', rfl, simF_both f g p hs1 h5 h3, simFs_both fs gs' ps' hs2 h6 h4⟩
theorem simF_both : (f : FieldOf RType) → ∀ g p, SimF Eq M P f g → TypedF S₁ E₁ f p → TypedF S E g p → TypedF S E' f p
  | ⟨n, tn, t, a, o⟩, g, p, hs, h1, h => by
    have key := sim_both t g.ty
    obtain ⟨hn, -, ha, ho, ht⟩ := hs
    rw [typedF_iff] at h h1 ⊢
    refine ⟨h1.1, ?_⟩
    replace h1 := h1.2
    replace h := h.2
    rw [ha, ho] at h
    simp only at h1 h ⊢
    rcases h with h | h
    · exact Or.inl h
    · rcases h1 with h1 | h1
      · exact absurd h1.2 (okB_ne_undef h)
      · refine Or.inr ?_
        cases a with
        | false => exact key _ ht h1 h
        | true =>
          obtain ⟨js, e1, h2, h3⟩ := h
          obtain ⟨ks, e2, h4, h5⟩ := h1
          rw [e1] at e2
          cases e2
          exact ⟨js, e1, h2, fun x hx => key x ht (h5 x hx) (h3 x hx)⟩
end
end

theorem typedFs_append {S : Str → Prop} {E : REnum → Num → Prop} : (gs more : List (FieldOf RType)) → ∀ ps, TypedFs S E (gs ++ more) ps →
    ∃ qs rs, ps = qs ++ rs ∧ TypedFs S E gs qs ∧ TypedFs S E more rs
  | [], more, ps, h => ⟨[], ps, rfl, rfl, h⟩
  | g :: gs, more, ps, h => by
    obtain ⟨p, ps', rfl, h1, h2⟩ := h
    obtain ⟨qs, rs, rfl, h3, h4⟩ := typedFs_append gs more ps' h2
    exact ⟨p :: qs, rs, rfl, ⟨p, qs, rfl, h1, h3⟩, h4⟩

theorem encodeFields_append {rt : Runtime} {S : Str → Prop} {E : REnum → Num → Prop} : (gs more : List (FieldOf RType)) → ∀ qs rs, TypedFs S E gs qs →
    encodeFields rt (gs ++ more) (qs ++ rs) = encodeFields rt gs qs ++ encodeFields rt more rs
  | [], more, qs, rs, h => by
    have h : qs = [] := h
    subst h
    rfl
  | g :: gs, more, qs, rs, h => by
    obtain ⟨p, qs', rfl, h1, h2⟩ := h
    show encodeField rt g p.value ++ encodeFields rt (gs ++ more) (qs' ++ rs) = (encodeField rt g p.value ++ encodeFields rt gs qs') ++ _
    rw [encodeFields_append gs more qs' rs h2, List.append_assoc]

theorem rdFields_append (rt : Runtime) : (gs more : List (FieldOf RType)) → ∀ r, rdFields rt (gs ++ more) r =
    ((rdFields rt gs r).1 ++ (rdFields rt more (rdFields rt gs r).2).1, (rdFields rt more (rdFields rt gs r).2).2)
  | [], more, r => by simp [rdFields]
  | g :: gs, more, r => by
    show ((rdField rt g r).1 ++ (rdFields rt (gs ++ more) _).1, (rdFields rt (gs ++ more) _).2) = _
    rw [rdFields_append rt gs more]
    simp only [rdFields, List.append_assoc]

/-! ### reading beyond the end -/

section
variable (rt : Runtime)

/-- Fails if there are no more bytes. -/
def Ends {α : Type} (f : RState → α × RState) : Prop := ∀ r, r.rest = [] → (f r).2.failed = true

theorem not_false {b : Bool} (h : b = false → False) : b = true := by
  cases b
  · exact (h rfl).elim
  · rfl

theorem ends_num (s : Scalar) : Ends (rt.readNum s) := by
  intro r hr
  unfold Runtime.readNum
  rw [if_neg]
  rw [hr]
  intro h
  have := h.2
  cases s <;> revert this <;> decide

theorem ends_B_array (t : RType) : Ends (rdB rt t true) := by
  intro r hr
  refine not_false fun h => ?_
  have := local_failed (local_many (local_type rt t) _) h
  rw [ends_num rt _ r hr] at this
  cases this

theorem ends_field (f : FieldOf RType) (h : f.optional = true ∨ Ends (rdB rt f.ty f.array)) : Ends (rdField rt f) := by
  intro r hr
  refine not_false fun hf => ?_
  rw [rdField_eq] at hf
  cases ho : f.optional with
  | true =>
    rw [ho] at hf
    simp only [if_true] at hf
    have : (rt.readNum .uint8 r).2.failed = false := by
      split at hf
      · exact local_failed (local_B rt f.ty f.array (local_type rt f.ty)) hf
      · exact hf
    rw [ends_num rt _ r hr] at this
    cases this
  | false =>
    rw [ho] at hf h
    have h : Ends (rdB rt f.ty f.array) := by simpa using h
    have hf : (rdB rt f.ty f.array r).2.failed = false := hf
    rw [h r hr] at hf
    cases hf

theorem ends_fields {fs : List (FieldOf RType)} {f} (hf : f ∈ fs) (h : Ends (rdField rt f)) : Ends (rdFields rt fs) := by
  induction fs with
  | nil => cases hf
  | cons g gs ih =>
    intro r hr
    refine not_false fun hn => ?_
    have hn : (rdFields rt gs (rdField rt g r).2).2.failed = false := hn
    have h1 := local_failed (local_fields rt gs) hn
    rcases List.mem_cons.1 hf with rfl | hf
    · rw [h r hr] at h1
      cases h1
    · obtain ⟨-, used, k, h2, -⟩ := local_field rt g (local_type rt g.ty) r h1
      rw [hr] at h2
      rw [ih hf _ (List.append_eq_nil_iff.1 h2.symm).2] at hn
      cases hn

theorem ends_builtin (b : Builtin) : Ends (rdType rt (.builtin b)) := by
  intro r hr
  refine not_false fun h => ?_
  unfold rdType at h
  cases hs : scalarOf b with
  | some s =>
    rw [hs] at h
    have h : (rt.readNum s r).2.failed = false := h
    rw [ends_num rt _ r hr] at h
    cases h
  | none =>
    rw [hs] at h
    have h : (rt.readStr (rt.readNum .uint32 r).1.toNat (rt.readNum .uint32 r).2).2.failed = false := h
    unfold Runtime.readStr at h
    rw [ends_num rt _ r hr] at h
    simp at h

theorem ends_enum (e : REnum) : Ends (rdType rt (.enum e)) := by
  intro r hr
  unfold rdType
  split
  · exact ends_num rt _ r hr
  · rfl

theorem takesSpace_ends {ast : AST} {c : TypeMap} (F : Final ast c) {u : Unresolved} (h : TakesSpace ast u) (n : Str) (rf : RField)
    (hf : FieldOk c (n, u) rf) : Ends (rdField rt rf) := by
  induction h generalizing n rf with
  | array => exact ends_field rt rf (Or.inr (by rw [hf.array]; exact ends_B_array rt _))
  | optional => exact ends_field rt rf (Or.inl hf.optional)
  | builtin hb =>
    refine ends_field rt rf (Or.inr ?_)
    cases ha : rf.array with
    | true => exact ends_B_array rt _
    | false =>
      have := hf.ty
      rw [F.builtin _ hb] at this
      obtain ⟨b, h1⟩ := builtins_not_struct this
      have : rf.ty = .builtin b := by simpa using h1
      rw [this]
      exact ends_builtin rt b
  | enum hd =>
    refine ends_field rt rf (Or.inr ?_)
    cases ha : rf.array with
    | true => exact ends_B_array rt _
    | false =>
      have := hf.ty
      rw [(F.enum _ _ hd).2] at this
      obtain ⟨e, this⟩ : ∃ e, rf.ty = .enum e := ⟨_, (Prod.mk.inj (Option.some.inj this)).2.symm⟩
      rw [this]
      exact ends_enum rt _
  | struct hd hf' _ ih =>
    refine ends_field rt rf (Or.inr ?_)
    cases ha : rf.array with
    | true => exact ends_B_array rt _
    | false =>
      obtain ⟨rfs, g, h1, h2, h3⟩ := F.field hd hf'
      have := hf.ty
      rw [h1] at this
      have : rf.ty = .struct rfs := by simpa using this.symm
      rw [this]
      exact ends_fields rt h2 (ih _ g h3)

/-- Reads nothing. -/
def Idle {α : Type} (f : RState → α × RState) : Prop := ∀ r, (f r).2 = r

theorem idle_fields : {fs : List (FieldOf RType)} → (∀ f ∈ fs, Idle (rdField rt f)) → Idle (rdFields rt fs)
  | [], _, r => rfl
  | f :: fs, h, r => by
    show (rdFields rt fs (rdField rt f r).2).2 = r
    rw [h f List.mem_cons_self, idle_fields (fun g hg => h g (List.mem_cons_of_mem _ hg))]

theorem noSpace_idle {ast : AST} {c : TypeMap} (F : Final ast c) (k : Nat) : ∀ (n : Str) (u : Unresolved) (rf : RField), FieldOk c (n, u) rf →
    ¬ TakesSpace ast u → sizeOf (typeOf c u.name) ≤ k → Idle (rdField rt rf) := by
  induction k with
  | zero =>
    intro n u rf _ _ h
    have : 0 < sizeOf (typeOf c u.name) := by cases typeOf c u.name <;> simp
    omega
  | succ k ih =>
    intro n ⟨m, a, o⟩ rf hf hs hk r
    have ha : a = false := by cases a with | false => rfl | true => exact absurd .array hs
    have ho : o = false := by cases o with | false => rfl | true => exact absurd .optional hs
    subst ha
    subst ho
    have h1 : rf.optional = false := hf.optional
    have h2 : rf.array = false := hf.array
    have h3 : c.get m = some (m, rf.ty) := hf.ty
    rw [rdField_eq, h1, h2]
    show (rdType rt rf.ty r).2 = r
    by_cases hb : m ∈ builtinNames
    · exact absurd (.builtin hb) hs
    · by_cases hd : Declared ast m
      · obtain ⟨t, hd⟩ := hd
        cases t with
        | enum vs => exact absurd (.enum hd) hs
        | struct fs =>
          obtain ⟨-, rfs, p, h4, -, -, h5⟩ := F.struct m fs hd
          rw [h3] at h4
          have h6 : rf.ty = .struct rfs := by simpa using h4
          rw [h6]
          refine idle_fields rt (fun g hg => ?_) r
          obtain ⟨f, hf', hR⟩ := Forall₂.exists_left h5 hg
          have hf' := (mem_partition (fun f : Str × Unresolved => p f.2.name) fs f).1 hf'
          refine ih f.1 f.2 g hR (fun h => hs (.struct hd hf' h)) ?_
          have := F.refers_lt (n := m) (m := f.2.name) ⟨fs, hd, f, hf', rfl⟩
          simp only at hk
          omega
      · rw [F.other m hb hd] at h3
        cases h3

end

end Packetc.Evolution
