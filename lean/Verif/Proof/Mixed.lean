import Verif.Spec.Mixed
import Verif.Proof.Bridge
import Verif.Proof.Compat
import Verif.Proof.RustEvolution
/-!
# Values that Rust and TypeScript programs of different schemas exchange (for C120)
-/

namespace Packetc.Compat
open Ast WellFormed Check Js Evolution
open Rs (IsText Few FewItems FewProps FewProp)

/-! ### what holds a value of a type holds a value of a type that takes its place -/

section
set_option linter.unusedSectionVars false
variable {rt : Runtime} (hss : SameSigned rt) {T : List UInt8 → Prop} {S : Str → Prop}
include hss

mutual
theorem cross_type : (t : RType) → EnumsT FineEnum t → (t' : RType) → EnumsT FineEnum t' → CompT t t' → (bs : List UInt8) → (j : JVal) →
    HoldsT rt (fun _ _ => True) (fun _ => True) T t bs j → TypedT S IsVariant t j →
    HoldsT rt (fun _ _ => True) (fun _ => True) T t' bs j ∧ TypedT S IsVariant t' j
  | .builtin b, _, t', _, h, bs, j, hb, hj => by
    cases h
    exact ⟨hb, hj⟩
  | .enum e, he, t', he', h, bs, j, hb, hj => by
    obtain ⟨n, rfl, hn⟩ := hj
    obtain ⟨i, hi, rfl⟩ := (fine_variant he).1 hn
    have he : FineEnum e := he
    obtain ⟨k, hk, -, -, hkj⟩ := hb
    obtain rfl : (2 : Int) ^ i = k := by cases hkj; rfl
    rcases h with ⟨e', rfl, hr, hle⟩ | ⟨b, sc, rfl, hs, hsc⟩
    · have he' : FineEnum e' := he'
      obtain ⟨b1, b2, -⟩ := fine_bits he'
      have h1 : (1 : Int) ≤ 2 ^ i := by have := pow_succ_le (Nat.zero_le i); simpa using this
      refine ⟨⟨2 ^ i, by rw [hr]; exact hk, h1, ?_, rfl⟩, _, rfl, (fine_variant he').2 ⟨i, by omega, rfl⟩⟩
      rw [jsShl1_small (by omega)]
      exact pow_succ_le (by omega)
    · have hc := cross_scalar hss he hsc hi hk
      unfold HoldsT TypedT
      rw [hs]
      exact ⟨⟨_, hc, rfl⟩, _, rfl, by rw [← hc.value]; exact rt.dec_ok _ _⟩
  | .struct fs, he, t', he', h, bs, j, hb, hj => by
    obtain ⟨gs, rfl, h⟩ := h
    obtain ⟨ps, rfl, hps⟩ := hj
    obtain ⟨qs, hq, hb⟩ := hb
    cases hq
    obtain ⟨h1, h2⟩ := cross_fields fs he gs he' h bs ps hb hps
    exact ⟨⟨ps, rfl, h1⟩, ps, rfl, h2⟩
theorem cross_fields : (fs : List (FieldOf RType)) → EnumsFs FineEnum fs → (gs : List (FieldOf RType)) → EnumsFs FineEnum gs →
    CompFs fs gs → (bs : List UInt8) → (ps : List (PropOf JVal)) → HoldsFs rt (fun _ _ => True) (fun _ => True) T fs bs ps →
    TypedFs S IsVariant fs ps → HoldsFs rt (fun _ _ => True) (fun _ => True) T gs bs ps ∧ TypedFs S IsVariant gs ps
  | [], _, gs, _, h, bs, ps, hb, hps => by
    cases h
    exact ⟨hb, hps⟩
  | f :: fs, he, gs, he', h, bs, ps, hb, hps => by
    obtain ⟨g, gs', rfl, h1, h2⟩ := h
    obtain ⟨p, qs, rfl, h3, h4⟩ := hps
    obtain ⟨b₁, b₂, p', qs', rfl, hq, h5, h6⟩ := hb
    cases hq
    obtain ⟨i1, i2⟩ := cross_field f he.1 g he'.1 h1 b₁ p h5 h3
    obtain ⟨j1, j2⟩ := cross_fields fs he.2 gs' he'.2 h2 b₂ qs h6 h4
    exact ⟨⟨b₁, b₂, p, qs, rfl, rfl, i1, j1⟩, p, qs, rfl, i2, j2⟩
theorem cross_field : (f : FieldOf RType) → EnumsF FineEnum f → (g : FieldOf RType) → EnumsF FineEnum g → CompF f g →
    (bs : List UInt8) → (p : PropOf JVal) → HoldsF rt (fun _ _ => True) (fun _ => True) T f bs p → TypedF S IsVariant f p →
    HoldsF rt (fun _ _ => True) (fun _ => True) T g bs p ∧ TypedF S IsVariant g p
  | ⟨n, tn, t, a, o⟩, he, ⟨n', tn', t', a', o'⟩, he', h, bs, ⟨pn, j⟩, hb, hp => by
    obtain ⟨h1, h2, h3, h4⟩ := h
    have h1 : n' = n := h1
    have h2 : a' = a := h2
    have h3 : o' = o := h3
    have h4 : CompT t t' := h4
    subst h1 h2 h3
    have ih := cross_type t he t' he' h4
    obtain ⟨hn, hp⟩ := hp
    obtain ⟨-, hb⟩ := hb
    rcases hb with ⟨ho, hu, hz⟩ | ⟨flag, body, rfl, hf, hb⟩
    · exact ⟨⟨hn, .inl ⟨ho, hu, hz⟩⟩, hn, .inl ⟨ho, hu⟩⟩
    · have hju : j ≠ .undef := by
        rintro rfl
        cases a' with
        | true =>
          obtain ⟨_, _, _, _, _, hj, _⟩ := hb
          cases hj
        | false =>
          have hb : HoldsT rt (fun _ _ => True) (fun _ => True) T t body .undef := hb
          cases t with
          | builtin b =>
            unfold HoldsT at hb
            cases hs : scalarOf b with
            | none => rw [hs] at hb; obtain ⟨_, _, _, _, _, hj⟩ := hb; cases hj
            | some sc => rw [hs] at hb; obtain ⟨_, _, hj⟩ := hb; cases hj
          | enum e => obtain ⟨_, _, _, _, hj⟩ := hb; cases hj
          | struct fs => obtain ⟨_, hj, _⟩ := hb; cases hj
      rcases hp with ⟨-, hu⟩ | hp
      · exact absurd hu hju
      · cases a' with
        | true =>
          obtain ⟨len, items, js, rfl, hl, hj, hi⟩ := hb
          have hj : j = .arr js := hj
          subst hj
          obtain ⟨js', hj', hlt, hp⟩ := hp
          cases hj'
          refine ⟨⟨hn, .inr ⟨flag, _, rfl, hf, len, items, js, rfl, hl, rfl, ?_⟩⟩, hn, .inr ⟨js, rfl, hlt, ?_⟩⟩
          · clear hju hl hlt hn hj
            induction hi with
            | nil => exact .nil
            | cons hx _ ihj =>
              exact .cons (ih _ _ hx (hp _ List.mem_cons_self)).1 (ihj fun y hy => hp y (List.mem_cons_of_mem _ hy))
          · clear hju hl hlt hn hj
            induction hi with
            | nil => exact fun x hx => absurd hx List.not_mem_nil
            | cons hx _ ihj =>
              intro y hy
              rcases List.mem_cons.1 hy with rfl | hy
              · exact (ih _ _ hx (hp _ List.mem_cons_self)).2
              · exact ihj (fun y hy => hp y (List.mem_cons_of_mem _ hy)) y hy
        | false =>
          obtain ⟨i1, i2⟩ := ih body j hb hp
          exact ⟨⟨hn, .inr ⟨flag, body, rfl, hf, i1⟩⟩, hn, .inr i2⟩
end
end

/-! ### the size of the value with everything in it -/

section
set_option linter.unusedSectionVars false
variable {rt : Runtime} (ht : ∀ s, rt.encS s = utf8Enc s)
include ht

mutual
theorem full_le_type : (t : RType) → (bs : List UInt8) → HoldsT rt (fun _ _ => True) (fun _ => True) IsText t bs (fullT t) →
    bs.length ≤ fullSizeT t
  | .builtin b, bs, h => by
    unfold HoldsT at h
    unfold fullSizeT minT
    cases hs : scalarOf b with
    | some sc =>
      rw [hs] at h
      obtain ⟨n, h1, -⟩ := h
      exact Nat.le_of_eq h1.width
    | none =>
      rw [hs] at h
      obtain ⟨len, text, rfl, h1, ⟨s, rfl⟩, h2⟩ := h
      obtain rfl := scalar_string b .string hs rfl
      have h2 : JVal.str [] = .str (rt.decS (utf8Enc s)) := h2
      rw [← ht, rt.decS_encS] at h2
      cases h2
      rw [List.length_append, h1.width]
      exact Nat.le_refl _
  | .enum e, bs, h => by
    obtain ⟨i, h1, -⟩ := h
    rw [h1.width]
    show _ ≤ reprSize e.repr
    cases e.repr <;> exact Nat.le_refl _
  | .struct fs, bs, h => by
    obtain ⟨ps, hp, h⟩ := h
    cases hp
    exact full_le_fields fs bs h
theorem full_le_fields : (fs : List (FieldOf RType)) → (bs : List UInt8) →
    HoldsFs rt (fun _ _ => True) (fun _ => True) IsText fs bs (fullFs fs) → bs.length ≤ fullSizeFs fs
  | [], bs, h => by rw [h.1]; exact Nat.le_refl _
  | f :: fs, bs, h => by
    obtain ⟨b₁, b₂, p, qs, rfl, hq, h1, h2⟩ := h
    cases hq
    rw [List.length_append]
    exact Nat.add_le_add (full_le_field f b₁ h1) (full_le_fields fs b₂ h2)
theorem full_le_field : (f : FieldOf RType) → (bs : List UInt8) →
    HoldsF rt (fun _ _ => True) (fun _ => True) IsText f bs (fullF f) → bs.length ≤ fullSizeF f
  | ⟨n, tn, t, a, o⟩, bs, h => by
    have ih := full_le_type t
    show _ ≤ (if o then 1 else 0) + ((if a then 4 else 0) + fullSizeT t)
    obtain ⟨-, ⟨ho, hu, hz⟩ | ⟨flag, body, rfl, hf, hb⟩⟩ := h
    · subst ho
      rw [hz.width]
      exact Nat.le_add_right _ _
    · rw [List.length_append]
      refine Nat.add_le_add ?_ ?_
      · cases o with
        | true => obtain ⟨m, hm, -⟩ := hf; rw [hm.width]; exact Nat.le_refl _
        | false => have hf : flag = [] := hf; rw [hf]; exact Nat.le_refl _
      · cases a with
        | true =>
          obtain ⟨len, items, js, rfl, hl, hj, hi⟩ := hb
          cases hj
          cases hi with
          | cons hx hn =>
            cases hn
            rw [List.length_append, hl.width]
            simp only [List.flatten_cons, List.flatten_nil, List.append_nil]
            exact Nat.add_le_add (Nat.le_refl _) (ih _ hx)
        | false =>
          show _ ≤ 0 + fullSizeT t
          rw [Nat.zero_add]
          exact ih _ hb
end
end

/-! ### arrays of values are not too long -/

section
set_option linter.unusedSectionVars false
variable {k : Nat} (hk : 2 ^ 32 ≤ k + 1) {S : Str → Prop} {E : REnum → Num → Prop}
include hk

mutual
theorem few_type : (t : RType) → (j : JVal) → TypedT S E t j → Few k j
  | .builtin b, j, h => by
    unfold TypedT at h
    cases hs : scalarOf b with
    | some sc => rw [hs] at h; obtain ⟨_, rfl, -⟩ := h; exact True.intro
    | none => rw [hs] at h; obtain ⟨_, rfl, -⟩ := h; exact True.intro
  | .enum e, j, h => by obtain ⟨_, rfl, -⟩ := h; exact True.intro
  | .struct fs, j, h => by
    obtain ⟨ps, rfl, h⟩ := h
    exact few_fields fs ps h
theorem few_fields : (fs : List (FieldOf RType)) → (ps : List (PropOf JVal)) → TypedFs S E fs ps → FewProps k ps
  | [], ps, h => by cases h; exact True.intro
  | f :: fs, ps, h => by
    obtain ⟨p, qs, rfl, h1, h2⟩ := h
    exact ⟨few_field f p h1, few_fields fs qs h2⟩
theorem few_field : (f : FieldOf RType) → (p : PropOf JVal) → TypedF S E f p → FewProp k p
  | ⟨n, tn, t, a, o⟩, ⟨pn, j⟩, h => by
    have ih := few_type t
    obtain ⟨-, ⟨-, hu⟩ | h⟩ := h
    · have hu : j = .undef := hu
      subst hu
      exact True.intro
    · cases a with
      | true =>
        obtain ⟨js, hj, hl, h⟩ := h
        have hj : j = .arr js := hj
        subst hj
        refine ⟨by omega, ?_⟩
        clear hl hj
        induction js with
        | nil => exact True.intro
        | cons x xs ihx => exact ⟨ih x (h x List.mem_cons_self), ihx fun y hy => h y (List.mem_cons_of_mem _ hy)⟩
      | false => exact ih j h
end
end

end Packetc.Compat
