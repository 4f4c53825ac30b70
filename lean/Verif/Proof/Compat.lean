import Verif.Spec.Compat
import Verif.Proof.Outgrow
import Verif.Proof.JsAccept
import Verif.Proof.JsEnums
/-!
# Types whose values are understood by other types (for C89)
-/

namespace Packetc.Compat
open Ast WellFormed Check Js Evolution

/-- Enums as they come, but not with 32 variants. -/
abbrev FineEnum (e : REnum) : Prop := SoundEnum e ∧ e.variants.length ≤ 31

theorem fine_bits {e : REnum} (h : FineEnum e) : 1 ≤ e.variants.length ∧ e.variants.length ≤ 31 ∧
    (e.repr = .u8 → e.variants.length ≤ 8) ∧ (e.repr = .u16 → 8 < e.variants.length ∧ e.variants.length ≤ 16) ∧
    (e.repr = .u32 → 16 < e.variants.length) := by
  obtain ⟨⟨vs, ho, hr⟩, h31⟩ := h
  have hl : e.variants.length = vs.length := by rw [← List.length_map (f := EnumVariant.name), hr.names]
  have a8 := hr.smallest .u8
  have a16 := hr.smallest .u16
  have b := hr.fits
  have c := ho.1
  rw [hl] at h31 ⊢
  refine ⟨c, h31, ?_, ?_, ?_⟩ <;> intro hr' <;> rw [hr'] at a8 a16 b <;> simp only [reprBits] at a8 a16 b <;> omega

/-- The variants have the values 2^i. -/
theorem fine_variant {e : REnum} (h : FineEnum e) {n : Num} :
    IsVariant e n ↔ ∃ i, i < e.variants.length ∧ n = .int (2 ^ i) := by
  obtain ⟨⟨vs, ho, hr⟩, h31⟩ := h
  have hl : e.variants.length = vs.length := by rw [← List.length_map (f := EnumVariant.name), hr.names]
  constructor
  · rintro ⟨v, hv, rfl⟩
    have h1 : v.value ∈ e.variants.map EnumVariant.value := List.mem_map_of_mem hv
    rw [hr.values, List.mem_range] at h1
    exact ⟨v.value, by omega, by rw [jsShl1_small (by omega)]⟩
  · rintro ⟨i, hi, rfl⟩
    have h1 : i ∈ e.variants.map EnumVariant.value := by rw [hr.values, List.mem_range]; omega
    obtain ⟨v, hv, rfl⟩ := List.mem_map.1 h1
    exact ⟨v, hv, by rw [jsShl1_small (by omega)]⟩

theorem fine_last {e : REnum} (h : FineEnum e) : IsVariant e (.int (2 ^ (e.variants.length - 1))) :=
  (fine_variant h).2 ⟨_, by have := (fine_bits h).1; omega, rfl⟩

/-! ### only if -/

section
variable (rt : Runtime)

/-- All values of the first type are values of the second. -/
def SubT (t t' : RType) : Prop := ∀ j, TypedT (FaithfulStr rt) IsVariant t j → ∃ bs, HoldsTt rt t' bs j
def SubFs (fs gs : List (FieldOf RType)) : Prop := ∀ ps, TypedFs (FaithfulStr rt) IsVariant fs ps → ∃ bs, Holds rt gs bs ps
def SubF (f g : FieldOf RType) : Prop := ∀ p, TypedF (FaithfulStr rt) IsVariant f p → ∃ bs, HoldsFt rt g bs p

/-- What is to be shown of a type. -/
structure OkT (t t' : RType) : Prop where
  le : fullSizeT t ≤ fullSizeT t'
  least : ∀ bs, HoldsTt rt t' bs (fullT t) → fullSizeT t' ≤ bs.length
  same : fullSizeT t' ≤ fullSizeT t → CompT t t'
structure OkFs (fs gs : List (FieldOf RType)) : Prop where
  le : fullSizeFs fs ≤ fullSizeFs gs
  least : ∀ bs, Holds rt gs bs (fullFs fs) → fullSizeFs gs ≤ bs.length
  same : fullSizeFs gs ≤ fullSizeFs fs → CompFs fs gs
structure OkF (f g : FieldOf RType) : Prop where
  le : fullSizeF f ≤ fullSizeF g
  least : ∀ bs, HoldsFt rt g bs (fullF f) → fullSizeF g ≤ bs.length
  same : fullSizeF g ≤ fullSizeF f → CompF f g

theorem leaf_builtin {b : Builtin} {bs : List UInt8} {j : JVal} (h : HoldsTt rt (.builtin b) bs j) :
    fullSizeT (.builtin b) ≤ bs.length := by
  unfold HoldsTt HoldsT at h
  unfold fullSizeT minT
  cases hs : scalarOf b with
  | some sc =>
    rw [hs] at h
    obtain ⟨n, h1, -⟩ := h
    exact Nat.le_of_eq h1.width.symm
  | none =>
    rw [hs] at h
    obtain ⟨len, text, rfl, h1, -⟩ := h
    rw [List.length_append, h1.width]
    exact Nat.le_add_right _ _

theorem leaf_enum {e : REnum} {bs : List UInt8} {j : JVal} (h : HoldsTt rt (.enum e) bs j) :
    fullSizeT (.enum e) ≤ bs.length := by
  obtain ⟨i, h1, -⟩ := h
  rw [h1.width]
  show reprSize e.repr ≤ _
  cases e.repr <;> exact Nat.le_refl _

theorem holds_scalar {b : Builtin} {sc : Scalar} (hs : scalarOf b = some sc) {bs : List UInt8} {j : JVal}
    (h : HoldsTt rt (.builtin b) bs j) : ∃ n, j = .num n ∧ sc.Ok n := by
  unfold HoldsTt HoldsT at h
  rw [hs] at h
  obtain ⟨n, h1, h2⟩ := h
  exact ⟨n, h2, by rw [← h1.value]; exact rt.dec_ok _ _⟩

theorem holds_string {b : Builtin} (hs : scalarOf b = none) {bs : List UInt8} {j : JVal}
    (h : HoldsTt rt (.builtin b) bs j) : ∃ s, j = .str s := by
  unfold HoldsTt HoldsT at h
  rw [hs] at h
  obtain ⟨len, text, -, -, -, h⟩ := h
  exact ⟨_, h⟩

/-- A scalar type whose numbers all belong to another. -/
theorem scalar_sub (sc sc' : Scalar) (h : ∀ n, sc.Ok n → sc'.Ok n) : sc.width ≤ sc'.width ∧ (sc'.width ≤ sc.width → sc = sc') := by
  have a := h (.int (-1))
  have b := h (.int 255)
  have c := h (.int 65535)
  have d := h (.int 4294967295)
  have e := h (.int 127)
  have f := h (.int 32767)
  have g := h (.int 2147483647)
  have i := h (.f32 0#32)
  cases sc <;> cases sc' <;> simp [Scalar.Ok, Scalar.width, Scalar.CanonF] at a b c d e f g i ⊢

theorem scalar_string (b b' : Builtin) (h : scalarOf b = none) (h' : scalarOf b' = none) : b = b' := by
  cases b <;> first | cases h; done | (cases b' <;> first | rfl | cases h')

theorem scalar_inj (b b' : Builtin) (sc : Scalar) (h : scalarOf b = some sc) (h' : scalarOf b' = some sc) : b = b' := by
  cases b <;> cases b' <;> cases h <;> first | rfl | cases h'

theorem pow_succ_le {a b : Nat} (h : a ≤ b) : (2 : Int) ^ a ≤ 2 ^ b := by
  exact_mod_cast Nat.pow_le_pow_right (by decide) h

theorem pow_lt_iff {a b : Nat} (h : (2 : Int) ^ a < 2 ^ b) : a < b := by
  have h' : (2 : Nat) ^ a < 2 ^ b := by exact_mod_cast h
  exact (Nat.pow_lt_pow_iff_right (by decide)).1 h'

theorem pow_le_iff {a b : Nat} (h : (2 : Int) ^ a ≤ 2 ^ b) : a ≤ b := by
  have h' : (2 : Nat) ^ a ≤ 2 ^ b := by exact_mod_cast h
  exact (Nat.pow_le_pow_iff_right (by decide)).1 h'

theorem enum_scalar {e : REnum} (he : FineEnum e) {sc : Scalar} (h : sc.Ok (.int (2 ^ (e.variants.length - 1)))) :
    reprSize e.repr ≤ sc.width ∧ (sc.width ≤ reprSize e.repr → ScalarFor e sc) := by
  obtain ⟨h1, h2, h8, h16, h32⟩ := fine_bits he
  cases sc <;> simp only [Scalar.Ok] at h <;>
    (obtain ⟨-, h⟩ := h
     have h := pow_lt_iff h
     cases hr : e.repr <;> simp only [hr, reduceCtorEq, forall_const, IsEmpty.forall_iff] at h8 h16 h32 <;>
       simp only [reprSize, Scalar.width, ScalarFor, hr] <;> refine ⟨?_, ?_⟩ <;> first | omega | (intro _; first | rfl | omega | (refine ⟨True.intro, ?_⟩; omega)))

set_option linter.unusedSectionVars false
variable {rt} (hrt : FaithfulStr rt [])
include hrt

theorem ok_builtin (b : Builtin) (t' : RType) (h : SubT rt (.builtin b) t') : OkT rt (.builtin b) t' := by
  have hf := full_type hrt (.builtin b) trivial
  have hsome : ∀ sc, scalarOf b = some sc → ∀ n, sc.Ok n → ∃ bs, HoldsTt rt t' bs (.num n) := by
    intro sc hs n hn
    refine h (.num n) ?_
    unfold TypedT
    rw [hs]
    exact ⟨n, rfl, hn⟩
  cases t' with
  | builtin b' =>
    refine ⟨?_, fun bs => leaf_builtin rt, ?_⟩ <;> cases hs : scalarOf b with
    | none =>
      obtain ⟨bs, hb⟩ := h (.str []) (by unfold TypedT; rw [hs]; exact ⟨_, rfl, hrt⟩)
      have hs' : scalarOf b' = none := by
        cases hs' : scalarOf b' with
        | none => rfl
        | some sc =>
          obtain ⟨n, hn, -⟩ := holds_scalar rt hs' hb
          cases hn
      obtain rfl := scalar_string b b' hs hs'
      first | exact Nat.le_refl _ | exact fun _ => rfl
    | some sc =>
      cases hs' : scalarOf b' with
      | none =>
        exfalso
        obtain ⟨bs, hb⟩ := h _ hf
        obtain ⟨s, hj⟩ := holds_string rt hs' hb
        unfold TypedT at hf
        rw [hs] at hf
        obtain ⟨n, hn, -⟩ := hf
        rw [hn] at hj
        cases hj
      | some sc' =>
        have hsub := scalar_sub sc sc' fun n hn => by
          obtain ⟨bs, hb⟩ := hsome sc hs n hn
          obtain ⟨m, hm, ho⟩ := holds_scalar rt hs' hb
          cases hm
          exact ho
        have e1 : fullSizeT (.builtin b) = sc.width := by unfold fullSizeT minT; rw [hs]
        have e2 : fullSizeT (.builtin b') = sc'.width := by unfold fullSizeT minT; rw [hs']
        rw [e1, e2]
        first
          | exact hsub.1
          | (intro hw
             obtain rfl := hsub.2 hw
             rw [scalar_inj b b' _ hs hs']
             rfl)
  | enum e =>
    exfalso
    cases hs : scalarOf b with
    | none =>
      obtain ⟨bs, i, -, -, -, hj⟩ := h (.str []) (by unfold TypedT; rw [hs]; exact ⟨_, rfl, hrt⟩)
      cases hj
    | some sc =>
      by_cases hfl : sc = .float
      · subst hfl
        obtain ⟨bs, i, -, -, -, hj⟩ := hsome _ hs (.f32 0#32) (by intro h; exact absurd h.1 (by decide))
        cases hj
      · obtain ⟨bs, i, -, h1, -, hj⟩ := hsome _ hs (.int 0) (by cases sc <;> first | exact absurd rfl hfl | exact ⟨by decide, by decide⟩)
        cases hj
        omega
  | struct gs =>
    exfalso
    obtain ⟨bs, ps, hj, -⟩ := h _ hf
    cases b <;> cases hj

theorem ok_enum (e : REnum) (he : FineEnum e) (t' : RType) (he' : EnumsT FineEnum t') (h : SubT rt (.enum e) t') :
    OkT rt (.enum e) t' := by
  have hl : TypedT (FaithfulStr rt) IsVariant (.enum e) (.num (.int (2 ^ (e.variants.length - 1)))) := ⟨_, rfl, fine_last he⟩
  obtain ⟨bs, hb⟩ := h _ hl
  cases t' with
  | builtin b' =>
    cases hs' : scalarOf b' with
    | none =>
      obtain ⟨s, hj⟩ := holds_string rt hs' hb
      cases hj
    | some sc' =>
      obtain ⟨m, hm, ho⟩ := holds_scalar rt hs' hb
      cases hm
      have e2 : fullSizeT (.builtin b') = sc'.width := by unfold fullSizeT minT; rw [hs']
      obtain ⟨h1, h2⟩ := enum_scalar he ho
      exact ⟨by rw [e2]; exact h1, fun bs => leaf_builtin rt, fun hw => .inr ⟨b', sc', rfl, hs', h2 (by rw [e2] at hw; exact hw)⟩⟩
  | enum e' =>
    have he' : FineEnum e' := he'
    obtain ⟨i, h0, h1, h2, hj⟩ := hb
    cases hj
    obtain ⟨a1, a2, a3, a4, a5⟩ := fine_bits he
    obtain ⟨b1, b2, b3, b4, b5⟩ := fine_bits he'
    rw [jsShl1_small (by omega)] at h2
    have hle := pow_le_iff h2
    have hsz : reprSize e.repr ≤ reprSize e'.repr ∧ (reprSize e'.repr ≤ reprSize e.repr → e'.repr = e.repr) := by
      cases hr : e.repr <;> cases hr' : e'.repr <;> simp only [hr, hr', reduceCtorEq, forall_const, IsEmpty.forall_iff] at a3 a4 a5 b3 b4 b5 <;>
        simp only [reprSize] <;> first | exact ⟨by decide, by decide⟩ | omega
    exact ⟨hsz.1, fun bs => leaf_enum rt, fun hw => .inl ⟨e', rfl, hsz.2 hw, by omega⟩⟩
  | struct gs =>
    obtain ⟨ps, hj, -⟩ := hb
    cases hj

mutual
theorem ok_type : (t : RType) → EnumsT FineEnum t → (t' : RType) → EnumsT FineEnum t' → SubT rt t t' → OkT rt t t'
  | .builtin b, _, t', _, h => ok_builtin hrt b t' h
  | .enum e, he, t', he', h => ok_enum hrt e he t' he' h
  | .struct fs, he, t', he', h => by
    have hf := full_fields hrt fs (enumsFs_imp (fun _ h => h.1) fs he)
    obtain ⟨bs, hb⟩ := h (.obj (fullFs fs)) ⟨_, rfl, hf⟩
    cases t' with
    | builtin b' =>
      exfalso
      cases hs' : scalarOf b' with
      | none =>
        obtain ⟨s, hj⟩ := holds_string rt hs' hb
        cases hj
      | some sc' =>
        obtain ⟨m, hm, ho⟩ := holds_scalar rt hs' hb
        cases hm
    | enum e' =>
      obtain ⟨i, h0, h1, h2, hj⟩ := hb
      cases hj
    | struct gs =>
      obtain ⟨h1, h2, h3⟩ := ok_fields fs he gs he' fun ps hps => by
        obtain ⟨bs, qs, hq, hb⟩ := h (.obj ps) ⟨_, rfl, hps⟩
        cases hq
        exact ⟨bs, hb⟩
      refine ⟨h1, ?_, fun hw => ⟨gs, rfl, h3 hw⟩⟩
      rintro bs ⟨qs, hq, hb⟩
      cases hq
      exact h2 bs hb
theorem ok_fields : (fs : List (FieldOf RType)) → EnumsFs FineEnum fs → (gs : List (FieldOf RType)) → EnumsFs FineEnum gs →
    SubFs rt fs gs → OkFs rt fs gs
  | [], _, gs, _, h => by
    obtain ⟨bs, hb⟩ := h [] rfl
    cases gs with
    | nil => exact ⟨Nat.le_refl _, fun _ _ => Nat.zero_le _, fun _ => rfl⟩
    | cons g gs =>
      obtain ⟨_, _, _, _, _, hc, _⟩ := hb
      cases hc
  | f :: fs, he, gs, he', h => by
    have hf := full_field hrt f (enumsF_imp (fun _ h => h.1) f he.1)
    have hfs := full_fields hrt fs (enumsFs_imp (fun _ h => h.1) fs he.2)
    cases gs with
    | nil =>
      exfalso
      obtain ⟨bs, hb⟩ := h (fullF f :: fullFs fs) ⟨_, _, rfl, hf, hfs⟩
      cases hb.2
    | cons g gs =>
      have s1 : SubF rt f g := fun p hp => by
        obtain ⟨bs, b₁, b₂, q, qs, rfl, hq, h1, h2⟩ := h (p :: fullFs fs) ⟨_, _, rfl, hp, hfs⟩
        cases hq
        exact ⟨_, h1⟩
      have s2 : SubFs rt fs gs := fun ps hps => by
        obtain ⟨bs, b₁, b₂, q, qs, rfl, hq, h1, h2⟩ := h (fullF f :: ps) ⟨_, _, rfl, hf, hps⟩
        cases hq
        exact ⟨_, h2⟩
      obtain ⟨a1, a2, a3⟩ := ok_field f he.1 g he'.1 s1
      obtain ⟨b1, b2, b3⟩ := ok_fields fs he.2 gs he'.2 s2
      refine ⟨Nat.add_le_add a1 b1, ?_, fun hw => ?_⟩
      · rintro bs ⟨c₁, c₂, q, qs, rfl, hq, h1, h2⟩
        cases hq
        rw [List.length_append]
        exact Nat.add_le_add (a2 _ h1) (b2 _ h2)
      · have hw : fullSizeF g + fullSizeFs gs ≤ fullSizeF f + fullSizeFs fs := hw
        exact ⟨g, gs, rfl, a3 (by omega), b3 (by omega)⟩
theorem ok_field : (f : FieldOf RType) → EnumsF FineEnum f → (g : FieldOf RType) → EnumsF FineEnum g → SubF rt f g → OkF rt f g
  | ⟨n, tn, t, a, o⟩, he, ⟨n', tn', t', a', o'⟩, he', h => by
    have ht := full_type hrt t (enumsT_imp (fun _ h => h.1) t he)
    have hf := full_field hrt ⟨n, tn, t, a, o⟩ (enumsF_imp (fun _ h => h.1) ⟨n, tn, t, a, o⟩ he)
    obtain ⟨bs, hn, hb⟩ := h _ hf
    have hn : n = n' := hn
    subst hn
    have hne : (fullF ⟨n, tn, t, a, o⟩).value ≠ .undef := by
      cases a with
      | true => intro h; cases h
      | false => exact full_undef t
    have harr : ∀ (u : RType) bs js, ¬ HoldsTt rt u bs (.arr js) := by
      intro u bs js hu
      cases u with
      | builtin b =>
        cases hs : scalarOf b with
        | none => obtain ⟨_, hj⟩ := holds_string rt hs hu; cases hj
        | some sc => obtain ⟨_, hj, -⟩ := holds_scalar rt hs hu; cases hj
      | enum e => obtain ⟨_, _, _, _, hj⟩ := hu; cases hj
      | struct fs => obtain ⟨_, hj, -⟩ := hu; cases hj
    have ha : a = a' := by
      rcases hb with ⟨-, hu, -⟩ | ⟨flag, body, -, -, h2⟩
      · exact absurd hu hne
      · cases a <;> cases a' <;> try rfl
        · exfalso
          obtain ⟨len, items, js, -, -, hj, -⟩ := h2
          have hj : fullT t = .arr js := hj
          cases t with
          | builtin b => cases b <;> cases hj
          | enum e => cases hj
          | struct fs => cases hj
        · exact absurd h2 (harr _ _ _)
    subst ha
    have ho : o = true → o' = true := by
      rintro rfl
      obtain ⟨bs, -, hb⟩ := h ⟨n, .undef⟩ ⟨rfl, .inl ⟨rfl, rfl⟩⟩
      rcases hb with ⟨h1, -⟩ | ⟨flag, body, -, -, h2⟩
      · exact h1
      · exfalso
        cases a with
        | true => obtain ⟨len, items, js, -, -, hj, -⟩ := h2; cases hj
        | false =>
          have h2 : HoldsTt rt t' body .undef := h2
          cases t' with
          | builtin b =>
            cases hs : scalarOf b with
            | none => obtain ⟨_, hj⟩ := holds_string rt hs h2; cases hj
            | some sc => obtain ⟨_, hj, -⟩ := holds_scalar rt hs h2; cases hj
          | enum e => obtain ⟨_, _, _, _, hj⟩ := h2; cases hj
          | struct fs => obtain ⟨_, hj, -⟩ := h2; cases hj
    have st : SubT rt t t' := fun j hj => by
      have hju : j ≠ .undef := by
        rintro rfl
        cases t with
        | builtin b =>
          unfold TypedT at hj
          cases hs : scalarOf b <;> rw [hs] at hj <;> obtain ⟨_, hc, -⟩ := hj <;> cases hc
        | enum e => obtain ⟨_, hc, -⟩ := hj; cases hc
        | struct fs => obtain ⟨_, hc, -⟩ := hj; cases hc
      cases a with
      | true =>
        obtain ⟨bs, -, hb⟩ := h ⟨n, .arr [j]⟩ ⟨rfl, .inr ⟨[j], rfl, (show 1 < 2 ^ 32 by decide), fun k hk => by
          rw [List.mem_singleton.1 hk]; exact hj⟩⟩
        rcases hb with ⟨-, hu, -⟩ | ⟨flag, body, -, -, len, items, js, -, -, hjs, h3⟩
        · cases hu
        · cases hjs
          cases h3 with
          | cons h4 _ => exact ⟨_, h4⟩
      | false =>
        obtain ⟨bs, -, hb⟩ := h ⟨n, j⟩ ⟨rfl, .inr hj⟩
        rcases hb with ⟨-, hu, -⟩ | ⟨flag, body, -, -, h2⟩
        · exact absurd hu hju
        · exact ⟨_, h2⟩
    obtain ⟨h1, h2, h3⟩ := ok_type t he t' he' st
    have hle : (if o = true then 1 else 0) ≤ (if o' = true then 1 else 0) := by
      cases o <;> cases o' <;> first | exact Nat.le_refl _ | exact Nat.zero_le _ | exact absurd (ho rfl) (by decide)
    refine ⟨Nat.add_le_add hle (Nat.add_le_add (Nat.le_refl _) h1), ?_, fun hw => ?_⟩
    · rintro bs ⟨-, hb⟩
      rcases hb with ⟨-, hu, -⟩ | ⟨flag, body, rfl, hfl, hbo⟩
      · exact absurd hu hne
      · rw [List.length_append]
        refine Nat.add_le_add ?_ ?_
        · cases o' with
          | true =>
            obtain ⟨n, h3, -⟩ := hfl
            exact Nat.le_of_eq h3.width.symm
          | false => exact Nat.zero_le _
        · cases a with
          | true =>
            obtain ⟨len, items, js, rfl, h5, h6, h7⟩ := hbo
            cases h6
            cases h7 with
            | cons h8 h9 =>
              cases h9
              rw [List.length_append, h5.width]
              simp only [List.flatten_cons, List.flatten_nil, List.append_nil]
              exact Nat.add_le_add (Nat.le_refl _) (h2 _ h8)
          | false =>
            show 0 + fullSizeT t' ≤ _
            rw [Nat.zero_add]
            exact h2 _ hbo
    · have hw : (if o' = true then 1 else 0) + ((if a = true then 4 else 0) + fullSizeT t') ≤
        (if o = true then 1 else 0) + ((if a = true then 4 else 0) + fullSizeT t) := hw
      have h5 : o' = o := by
        cases o <;> cases o' <;> first | rfl | (exfalso; simp only [if_true, Bool.false_eq_true, if_false] at hw; omega) | exact absurd (ho rfl) (by decide)
      refine ⟨rfl, rfl, h5, h3 (by omega)⟩
end

end

/-! ### if -/

theorem encodeField_there (rt : Runtime) (n tn : Str) (t : RType) (a o : Bool) {j : JVal} (hj : j ≠ .undef) :
    encodeField rt ⟨n, tn, t, a, o⟩ j = (if o = true then rt.enc .uint8 (.int 1) else []) ++
      (if a = true then match j with
        | .arr js => rt.enc .uint32 (.int js.length) ++ (js.map fun x => encode rt t x).flatten
        | _ => []
      else encode rt t j) := by
  unfold encodeField
  cases j with
  | undef => exact absurd rfl hj
  | _ => exact if_neg (by rintro ⟨-, h⟩; cases h)

section
set_option linter.unusedSectionVars false
variable {rt : Runtime} (hss : SameSigned rt)
include hss

theorem cross_scalar {N : Scalar → List UInt8 → Prop} {e : REnum} (he : FineEnum e) {sc : Scalar} (h : ScalarFor e sc) {i : Nat}
    (hi : i < e.variants.length) {bs : List UInt8} (hb : HoldsNum rt N (reprScalar e.repr) bs (.int (2 ^ i))) :
    HoldsNum rt (fun _ _ => True) sc bs (.int (2 ^ i)) := by
  obtain ⟨a1, a2, a3, a4, a5⟩ := fine_bits he
  obtain ⟨hw, -, hv⟩ := hb
  cases sc with
  | uint8 =>
    have h : e.repr = .u8 := h
    rw [h] at hw hv
    exact ⟨hw, True.intro, hv⟩
  | uint16 =>
    have h : e.repr = .u16 := h
    rw [h] at hw hv
    exact ⟨hw, True.intro, hv⟩
  | uint32 =>
    have h : e.repr = .u32 := h
    rw [h] at hw hv
    exact ⟨hw, True.intro, hv⟩
  | int8 =>
    obtain ⟨h, h'⟩ := h
    rw [h] at hw hv
    exact ⟨hw, True.intro, hss.w8 _ _ hw (pow_lt_bits (by omega)) hv⟩
  | int16 =>
    obtain ⟨h, h'⟩ := h
    rw [h] at hw hv
    exact ⟨hw, True.intro, hss.w16 _ _ hw (pow_lt_bits (by omega)) hv⟩
  | int32 =>
    obtain ⟨h, h'⟩ := h
    rw [h] at hw hv
    exact ⟨hw, True.intro, hss.w32 _ _ hw (pow_lt_bits (by omega)) hv⟩
  | float => exact h.elim

mutual
theorem comp_type : (t : RType) → EnumsT FineEnum t → (t' : RType) → EnumsT FineEnum t' → CompT t t' → (j : JVal) →
    TypedT (FaithfulStr rt) IsVariant t j → HoldsTt rt t' (encode rt t j) j
  | .builtin b, _, t', _, h, j, hj => by
    cases h
    unfold TypedT at hj
    unfold HoldsTt HoldsT encode
    cases hs : scalarOf b with
    | none =>
      rw [hs] at hj
      obtain ⟨s, rfl, h1, h2⟩ := hj
      refine ⟨_, _, rfl, ?_, True.intro, by rw [rt.decS_encS]⟩
      rw [h2]
      exact holdsNum_enc rt ⟨Int.natCast_nonneg _, by exact_mod_cast h1⟩
    | some sc =>
      rw [hs] at hj
      obtain ⟨n, rfl, hn⟩ := hj
      exact ⟨n, holdsNum_enc rt hn, rfl⟩
  | .enum e, he, t', he', h, j, hj => by
    obtain ⟨n, rfl, hn⟩ := hj
    obtain ⟨i, hi, rfl⟩ := (fine_variant he).1 hn
    have he : FineEnum e := he
    rcases h with ⟨e', rfl, hr, hle⟩ | ⟨b, sc, rfl, hs, hsc⟩
    · have he' : FineEnum e' := he'
      obtain ⟨b1, b2, -⟩ := fine_bits he'
      have h1 : (1 : Int) ≤ 2 ^ i := by have := pow_succ_le (Nat.zero_le i); simpa using this
      refine ⟨2 ^ i, ?_, h1, ?_, rfl⟩
      · show HoldsNum rt _ _ (rt.enc (reprScalar e.repr) _) _
        rw [hr]
        exact holdsNum_enc rt (variant_faithful he.1 he.2 hn).1
      · rw [jsShl1_small (by omega)]
        exact pow_succ_le (by omega)
    · unfold HoldsTt HoldsT
      rw [hs]
      exact ⟨_, cross_scalar hss he hsc hi (holdsNum_enc rt (variant_faithful he.1 he.2 hn).1), rfl⟩
  | .struct fs, he, t', he', h, j, hj => by
    obtain ⟨gs, rfl, h⟩ := h
    obtain ⟨ps, rfl, hps⟩ := hj
    exact ⟨ps, rfl, comp_fields fs he gs he' h ps hps⟩
theorem comp_fields : (fs : List (FieldOf RType)) → EnumsFs FineEnum fs → (gs : List (FieldOf RType)) → EnumsFs FineEnum gs →
    CompFs fs gs → (ps : List (PropOf JVal)) → TypedFs (FaithfulStr rt) IsVariant fs ps → Holds rt gs (encodeFields rt fs ps) ps
  | [], _, gs, _, h, ps, hps => by
    cases h
    cases hps
    exact ⟨rfl, rfl⟩
  | f :: fs, he, gs, he', h, ps, hps => by
    obtain ⟨g, gs', rfl, h1, h2⟩ := h
    obtain ⟨p, qs, rfl, h3, h4⟩ := hps
    exact ⟨_, _, p, qs, rfl, rfl, comp_field f he.1 g he'.1 h1 p h3, comp_fields fs he.2 gs' he'.2 h2 qs h4⟩
theorem comp_field : (f : FieldOf RType) → EnumsF FineEnum f → (g : FieldOf RType) → EnumsF FineEnum g → CompF f g →
    (p : PropOf JVal) → TypedF (FaithfulStr rt) IsVariant f p → HoldsFt rt g (encodeField rt f p.value) p
  | ⟨n, tn, t, a, o⟩, he, ⟨n', tn', t', a', o'⟩, he', h, ⟨pn, j⟩, hp => by
    obtain ⟨h1, h2, h3, h4⟩ := h
    have h1 : n' = n := h1
    have h2 : a' = a := h2
    have h3 : o' = o := h3
    have h4 : CompT t t' := h4
    subst h1 h2 h3
    obtain ⟨hn, hp⟩ := hp
    refine ⟨hn, ?_⟩
    have ih := comp_type t he t' he' h4
    rcases hp with ⟨ho, hu⟩ | hp
    · have hu : j = .undef := hu
      subst ho hu
      exact .inl ⟨rfl, rfl, holdsNum_enc rt ⟨by decide, by decide⟩⟩
    · right
      have hju : j ≠ .undef := by
        rintro rfl
        cases a' with
        | true =>
          obtain ⟨js, hj, -⟩ := hp
          cases hj
        | false =>
          have hp : TypedT (FaithfulStr rt) IsVariant t .undef := hp
          cases t with
          | builtin b =>
            unfold TypedT at hp
            cases hs : scalarOf b <;> rw [hs] at hp <;> obtain ⟨_, hc, -⟩ := hp <;> cases hc
          | enum e => obtain ⟨_, hc, -⟩ := hp; cases hc
          | struct fs => obtain ⟨_, hc, -⟩ := hp; cases hc
      have e1 := encodeField_there rt n' tn t a' o' hju
      refine ⟨_, _, e1, ?_, ?_⟩
      · cases o' with
        | true => exact ⟨_, holdsNum_enc rt ⟨by decide, by decide⟩, by decide, True.intro⟩
        | false => rfl
      · cases a' with
        | true =>
          obtain ⟨js, hj, hl, hp⟩ := hp
          have hj : j = .arr js := hj
          subst hj
          refine ⟨_, js.map fun x => encode rt t x, js, rfl, holdsNum_enc rt ⟨Int.natCast_nonneg _, by exact_mod_cast hl⟩, rfl, ?_⟩
          clear hju e1 hl hj hn
          induction js with
          | nil => exact .nil
          | cons x js ihj =>
            exact .cons (ih x (hp x List.mem_cons_self)) (ihj fun y hy => hp y (List.mem_cons_of_mem _ hy))
        | false => exact ih j hp
end
end

/-! ### types of schemas -/

theorem builtin_lookup {n : Str} {t : RType} (h : getBuiltins.get n = some (n, t)) : ∃ b, n = builtinName b ∧ t = .builtin b := by
  have := Map.get_mem h
  revert this
  unfold getBuiltins
  simp only [List.mem_cons, Prod.mk.injEq, List.not_mem_nil, or_false]
  rintro (⟨rfl, -, rfl⟩ | ⟨rfl, -, rfl⟩ | ⟨rfl, -, rfl⟩ | ⟨rfl, -, rfl⟩ | ⟨rfl, -, rfl⟩ | ⟨rfl, -, rfl⟩ | ⟨rfl, -, rfl⟩ | ⟨rfl, -, rfl⟩)
  exacts [⟨.uint8, rfl, rfl⟩, ⟨.uint16, rfl, rfl⟩, ⟨.uint32, rfl, rfl⟩, ⟨.int8, rfl, rfl⟩, ⟨.int16, rfl, rfl⟩, ⟨.int32, rfl, rfl⟩,
    ⟨.float, rfl, rfl⟩, ⟨.string, rfl, rfl⟩]

theorem builtinName_mem (b : Builtin) : builtinName b ∈ builtinNames := by cases b <;> decide +kernel

theorem builtinName_inj {b b' : Builtin} (h : builtinName b = builtinName b') : b = b' := by
  revert h
  cases b <;> cases b' <;> decide +kernel

/-- What a name means. -/
inductive Means (ast : AST) (c : TypeMap) (n : Str) : RType → Prop
  | builtin (b) : n = builtinName b → Means ast c n (.builtin b)
  | enum (vs) : (n, .enum vs) ∈ decls ast → EnumOk vs → Means ast c n (.enum (enumSpec vs))
  | struct (fs rfs) : (n, .struct fs) ∈ decls ast → List.Forall₂ (FieldOk c) fs rfs → Means ast c n (.struct rfs)

theorem means {ast : AST} {c : TypeMap} (F : Final ast c) (ho : AllInOrder ast) {n : Str} (hn : Used ast n) {t : RType}
    (h : c.get n = some (n, t)) : Means ast c n t := by
  by_cases hb : n ∈ builtinNames
  · rw [F.builtin n hb] at h
    obtain ⟨b, rfl, rfl⟩ := builtin_lookup h
    exact .builtin b rfl
  · by_cases hd : Declared ast n
    · obtain ⟨ty, hty⟩ := hd
      cases ty with
      | enum vs =>
        obtain ⟨o, g⟩ := F.enum n vs hty
        rw [g] at h
        cases h
        exact .enum vs hty o
      | struct fs =>
        obtain ⟨rfs, g, hf⟩ := F.inOrder hty (ho n fs hn hty)
        rw [g] at h
        cases h
        exact .struct fs rfs hty hf
    · rw [F.other n hb hd] at h
      cases h

theorem enumSpec_bytes (vs : List Str) : reprSize (enumSpec vs).repr = enumBytes vs.length := reprSize_enumSpec

theorem enumSpec_length (vs : List Str) : (enumSpec vs).variants.length = vs.length := by
  simp [enumSpec]

theorem repr_of_size {r r' : EnumRepr} (h : reprSize r = reprSize r') : r = r' := by
  cases r <;> cases r' <;> first | rfl | exact absurd h (by decide)

theorem scalarFor_iff {vs : List Str} {b : Builtin} : (∃ sc, scalarOf b = some sc ∧ ScalarFor (enumSpec vs) sc) ↔
    IntFor vs.length (builtinName b) := by
  have hb := enumSpec_bytes vs
  have hl := enumSpec_length vs
  constructor
  · rintro ⟨sc, h1, h2⟩
    cases b <;> cases h1 <;> unfold ScalarFor at h2
    · rw [h2] at hb; exact .u8 hb.symm
    · rw [h2] at hb; exact .u16 hb.symm
    · rw [h2] at hb; exact .u32 hb.symm
    · rw [h2.1] at hb; exact .i8 hb.symm (by omega)
    · rw [h2.1] at hb; exact .i16 hb.symm (by omega)
    · rw [h2.1] at hb; exact .i32 hb.symm (by omega)
    · exact h2.elim
  · intro h
    generalize hm : builtinName b = m at h
    have r8 : enumBytes vs.length = 1 → (enumSpec vs).repr = .u8 := fun h => repr_of_size (by rw [hb, h]; rfl)
    have r16 : enumBytes vs.length = 2 → (enumSpec vs).repr = .u16 := fun h => repr_of_size (by rw [hb, h]; rfl)
    have r32 : enumBytes vs.length = 4 → (enumSpec vs).repr = .u32 := fun h => repr_of_size (by rw [hb, h]; rfl)
    cases h with
    | u8 h => obtain rfl := builtinName_inj (b' := .uint8) hm; exact ⟨_, rfl, r8 h⟩
    | u16 h => obtain rfl := builtinName_inj (b' := .uint16) hm; exact ⟨_, rfl, r16 h⟩
    | u32 h => obtain rfl := builtinName_inj (b' := .uint32) hm; exact ⟨_, rfl, r32 h⟩
    | i8 h h' => obtain rfl := builtinName_inj (b' := .int8) hm; exact ⟨_, rfl, r8 h, by rw [hl]; exact h'⟩
    | i16 h h' => obtain rfl := builtinName_inj (b' := .int16) hm; exact ⟨_, rfl, r16 h, by rw [hl]; exact h'⟩
    | i32 h h' => obtain rfl := builtinName_inj (b' := .int32) hm; exact ⟨_, rfl, r32 h, by rw [hl]; exact h'⟩

theorem intFor_builtin {k : Nat} {m : Str} (h : IntFor k m) : m ∈ builtinNames := by
  cases h <;> decide +kernel

theorem used_field {ast : AST} {n : Str} {fs : List (Str × Unresolved)} {f : Str × Unresolved} (hn : Used ast n)
    (hd : (n, .struct fs) ∈ decls ast) (hf : f ∈ fs) : Used ast f.2.name := by
  obtain ⟨x, hx, hr⟩ := hn
  exact ⟨x, hx, hr.tail ⟨fs, hd, f, hf, rfl⟩⟩

/-- Fields of declarations. -/
abbrev SameSlot (f g : Str × Unresolved) : Prop := g.1 = f.1 ∧ g.2.array = f.2.array ∧ g.2.optional = f.2.optional

theorem compFs_of {c₁ c₂ : TypeMap} {fs gs : List (Str × Unresolved)} {r₁ r₂ : List RField} (h₁ : List.Forall₂ (FieldOk c₁) fs r₁)
    (h₂ : List.Forall₂ (FieldOk c₂) gs r₂) (hs : List.Forall₂ SameSlot fs gs)
    (ih : ∀ p ∈ fs.zip gs, ∀ t t', c₁.get p.1.2.name = some (p.1.2.name, t) → c₂.get p.2.2.name = some (p.2.2.name, t') → CompT t t') :
    CompFs r₁ r₂ := by
  induction hs generalizing r₁ r₂ with
  | nil => cases h₁; cases h₂; rfl
  | cons s _ ih' =>
    cases h₁ with
    | cons a₁ b₁ =>
      cases h₂ with
      | cons a₂ b₂ =>
        rename_i f g fs gs _ rf rfs rg rgs
        refine ⟨rg, rgs, rfl, ?_, ih' b₁ b₂ fun p hp => ih p (List.mem_cons_of_mem _ hp)⟩
        have := ih (f, g) List.mem_cons_self _ _ a₁.ty a₂.ty
        obtain ⟨n, tn, t, a, o⟩ := rf
        exact ⟨by rw [a₂.name, s.1]; exact a₁.name.symm, by rw [a₂.array, s.2.1]; exact a₁.array.symm,
          by rw [a₂.optional, s.2.2]; exact a₁.optional.symm, this⟩

theorem of_compFs {c₁ c₂ : TypeMap} {fs gs : List (Str × Unresolved)} {r₁ r₂ : List RField} (h₁ : List.Forall₂ (FieldOk c₁) fs r₁)
    (h₂ : List.Forall₂ (FieldOk c₂) gs r₂) (h : CompFs r₁ r₂) : List.Forall₂ SameSlot fs gs ∧
      ∀ p ∈ fs.zip gs, ∃ rf ∈ r₁, ∃ t', c₁.get p.1.2.name = some (p.1.2.name, rf.ty) ∧ c₂.get p.2.2.name = some (p.2.2.name, t') ∧
        CompT rf.ty t' := by
  induction h₁ generalizing gs r₂ with
  | nil =>
    cases h
    cases h₂
    exact ⟨.nil, fun p hp => absurd hp List.not_mem_nil⟩
  | cons a₁ b₁ ih =>
    obtain ⟨rg, rgs, rfl, h1, h2⟩ := h
    cases h₂ with
    | cons a₂ b₂ =>
      rename_i f rf fs rfs g gs
      obtain ⟨i1, i2⟩ := ih b₂ h2
      obtain ⟨n, tn, t, a, o⟩ := rf
      obtain ⟨k1, k2, k3, k4⟩ := h1
      refine ⟨.cons ⟨?_, ?_, ?_⟩ i1, fun p hp => ?_⟩
      · rw [← a₂.name, k1]; exact a₁.name
      · rw [← a₂.array, k2]; exact a₁.array
      · rw [← a₂.optional, k3]; exact a₁.optional
      · rcases List.mem_cons.1 hp with rfl | hp
        · exact ⟨_, List.mem_cons_self, rg.ty, a₁.ty, a₂.ty, k4⟩
        · obtain ⟨rf, hrf, h⟩ := i2 p hp
          exact ⟨rf, List.mem_cons_of_mem _ hrf, h⟩

section
variable {old new : AST} {c₁ c₂ : TypeMap} (F₁ : Final old c₁) (F₂ : Final new c₂) (o₁ : AllInOrder old) (o₂ : AllInOrder new)
include F₁ F₂ o₁ o₂

theorem comp_of_replaces {n m : Str} (h : Replaces old new n m) : Used old n → Used new m → ∀ t t', c₁.get n = some (n, t) →
    c₂.get m = some (m, t') → CompT t t' := by
  induction h with
  | @builtin n hb =>
    intro _ _ t t' ht ht'
    rw [F₁.builtin n hb] at ht
    rw [F₂.builtin n hb, ht] at ht'
    cases ht'
    obtain ⟨b, -, rfl⟩ := builtin_lookup ht
    rfl
  | @enum n m vs us hv hu hle hw =>
    intro _ _ t t' ht ht'
    rw [(F₁.enum n vs hv).2] at ht
    rw [(F₂.enum m us hu).2] at ht'
    cases ht
    cases ht'
    refine .inl ⟨_, rfl, repr_of_size ?_, by rw [enumSpec_length, enumSpec_length]; exact hle⟩
    rw [enumSpec_bytes, enumSpec_bytes, hw]
  | @int n m vs hv hi =>
    intro _ _ t t' ht ht'
    rw [(F₁.enum n vs hv).2] at ht
    rw [F₂.builtin m (intFor_builtin hi)] at ht'
    obtain ⟨b, rfl, rfl⟩ := builtin_lookup ht'
    cases ht
    obtain ⟨sc, h1, h2⟩ := scalarFor_iff.2 hi
    exact .inr ⟨b, sc, rfl, h1, h2⟩
  | @struct n m fs gs hf hg hs _ ih =>
    intro un um t t' ht ht'
    obtain ⟨r₁, g₁, k₁⟩ := F₁.inOrder hf (o₁ n fs un hf)
    obtain ⟨r₂, g₂, k₂⟩ := F₂.inOrder hg (o₂ m gs um hg)
    rw [g₁] at ht
    rw [g₂] at ht'
    cases ht
    cases ht'
    refine ⟨r₂, rfl, compFs_of k₁ k₂ hs fun p hp => ih p hp (used_field un hf ?_) (used_field um hg ?_)⟩
    · exact (List.of_mem_zip hp).1
    · exact (List.of_mem_zip hp).2

theorem replaces_of_comp (k : Nat) : ∀ n m t t', sizeOf t ≤ k → Used old n → Used new m → c₁.get n = some (n, t) →
    c₂.get m = some (m, t') → CompT t t' → Replaces old new n m := by
  induction k with
  | zero =>
    intro n m t t' hk
    have : 0 < sizeOf t := by cases t <;> simp
    omega
  | succ k ih =>
    intro n m t t' hk un um ht ht' hc
    have h₂ := means F₂ o₂ um ht'
    cases means F₁ o₁ un ht with
    | builtin b hn =>
      cases hc
      generalize hx : RType.builtin b = x at h₂
      cases h₂ with
      | builtin b' hm =>
        cases hx
        rw [hn, hm]
        exact .builtin (builtinName_mem b)
      | enum => cases hx
      | struct => cases hx
    | enum vs hv ov =>
      rcases hc with ⟨e', rfl, hr, hl⟩ | ⟨b, sc, rfl, h1, h2⟩
      · generalize hx : RType.enum e' = x at h₂
        cases h₂ with
        | builtin => cases hx
        | struct => cases hx
        | enum us hu ou =>
          cases hx
          rw [enumSpec_length, enumSpec_length] at hl
          exact .enum hv hu hl (by rw [← enumSpec_bytes, ← enumSpec_bytes, hr])
      · generalize hx : RType.builtin b = x at h₂
        cases h₂ with
        | enum => cases hx
        | struct => cases hx
        | builtin b' hm =>
          cases hx
          rw [hm]
          exact .int hv (scalarFor_iff.1 ⟨sc, h1, h2⟩)
    | struct fs r₁ hf k₁ =>
      obtain ⟨r₂, rfl, hc⟩ := hc
      generalize hx : RType.struct r₂ = x at h₂
      cases h₂ with
      | builtin => cases hx
      | enum => cases hx
      | struct gs r hg k₂ =>
        cases hx
        obtain ⟨hs, hp⟩ := of_compFs k₁ k₂ hc
        refine .struct hf hg hs fun p hpm => ?_
        obtain ⟨rf, hrf, t', h1, h2, h3⟩ := hp p hpm
        have := sizeOf_field hrf
        exact ih _ _ _ _ (by omega) (used_field un hf (List.of_mem_zip hpm).1) (used_field um hg (List.of_mem_zip hpm).2) h1 h2 h3
end

/-- For schemas in which no field can be overtaken. -/
theorem compatible_iff {old new : AST} (o₁ : AllInOrder old) (o₂ : AllInOrder new) {e₁ e₂ : Artifact} (hc₁ : Compiled old e₁)
    (hc₂ : Compiled new e₂) : Compatible old new ↔ CompFs e₁.fields e₂.fields := by
  obtain ⟨v₁, t₁, r₁, f₁, -, p₁, -, c₁, x₁⟩ := hc₁
  obtain ⟨v₂, t₂, r₂, f₂, -, p₂, -, c₂, x₂⟩ := hc₂
  obtain ⟨m₁, F₁, n₁, g₁, -⟩ := Props.typeCheck_final f₁.1 (Props.parsed_noBuiltinDecl p₁) c₁
  obtain ⟨m₂, F₂, n₂, g₂, -⟩ := Props.typeCheck_final f₂.1 (Props.parsed_noBuiltinDecl p₂) c₂
  rw [x₁] at n₁ g₁
  rw [x₂] at n₂ g₂
  have u₁ : Used old e₁.name := ⟨_, n₁, .refl⟩
  have u₂ : Used new e₂.name := ⟨_, n₂, .refl⟩
  constructor
  · rintro ⟨x, y, hx, hy, hr⟩
    rw [n₁] at hx
    rw [n₂] at hy
    cases hx
    cases hy
    obtain ⟨gs, h, hc⟩ := comp_of_replaces F₁ F₂ o₁ o₂ hr u₁ u₂ _ _ g₁ g₂
    cases h
    exact hc
  · intro h
    exact ⟨_, _, n₁, n₂, replaces_of_comp F₁ F₂ o₁ o₂ _ _ _ _ _ (Nat.le_refl _) u₁ u₂ g₁ g₂ ⟨_, rfl, h⟩⟩

/-! ### both ways -/

theorem zip_swap_mem {α β : Type} {xs : List α} {ys : List β} {p : α × β} (h : p ∈ xs.zip ys) : p.swap ∈ ys.zip xs := by
  induction xs generalizing ys with
  | nil => exact absurd h List.not_mem_nil
  | cons x xs ih =>
    cases ys with
    | nil => exact absurd h List.not_mem_nil
    | cons y ys =>
      rcases List.mem_cons.1 h with rfl | h
      · exact List.mem_cons_self
      · exact List.mem_cons_of_mem _ (ih h)

theorem replaces_of_same {old new : AST} {n m : Str} (h : SameType old new n m) : Replaces old new n m ∧ Replaces new old m n := by
  induction h with
  | builtin hb => exact ⟨.builtin hb, .builtin hb⟩
  | enum hv hu hl => exact ⟨.enum hv hu (Nat.le_of_eq hl) (by rw [hl]), .enum hu hv (Nat.le_of_eq hl.symm) (by rw [hl])⟩
  | struct hf hg hs _ ih =>
    refine ⟨.struct hf hg hs fun p hp => (ih p hp).1, .struct hg hf ?_ fun p hp => (ih p.swap (zip_swap_mem hp)).2⟩
    exact (hs.imp fun f g h => ⟨h.1.symm, h.2.1.symm, h.2.2.symm⟩).flip

theorem decl_unique {ast : AST} (h : ((decls ast).map Prod.fst).Nodup) {n : Str} {t t' : Ty} (h₁ : (n, t) ∈ decls ast)
    (h₂ : (n, t') ∈ decls ast) : t = t' := by
  have := List.inj_on_of_nodup_map h h₁ h₂ rfl
  exact (Prod.mk.inj this).2

section
variable {old new : AST} (d₁ : ((decls old).map Prod.fst).Nodup) (d₂ : ((decls new).map Prod.fst).Nodup)
  (b₁ : ∀ n t, (n, t) ∈ decls old → n ∉ builtinNames) (b₂ : ∀ n t, (n, t) ∈ decls new → n ∉ builtinNames)
include d₁ d₂ b₁ b₂

theorem same_of_replaces {n m : Str} (h : Replaces old new n m) : Replaces new old m n → SameType old new n m := by
  induction h with
  | builtin hb => exact fun _ => .builtin hb
  | @enum n m vs us hv hu hle hw =>
    intro h
    cases h with
    | builtin hb => exact absurd hb (b₁ _ _ hv)
    | enum hu' hv' hle' _ =>
      cases decl_unique d₁ hv hv'
      cases decl_unique d₂ hu hu'
      exact .enum hv hu (Nat.le_antisymm hle hle')
    | int _ hi => exact absurd (intFor_builtin hi) (b₁ _ _ hv)
    | struct _ hf' _ _ => cases decl_unique d₁ hv hf'
  | @int n m vs hv hi =>
    intro h
    have hm := intFor_builtin hi
    cases h with
    | builtin hb => exact absurd hb (b₁ _ _ hv)
    | enum hu' _ _ _ => exact absurd hm (b₂ _ _ hu')
    | int hu' _ => exact absurd hm (b₂ _ _ hu')
    | struct hg' _ _ _ => exact absurd hm (b₂ _ _ hg')
  | @struct n m fs gs hf hg hs _ ih =>
    intro h
    cases h with
    | builtin hb => exact absurd hb (b₁ _ _ hf)
    | enum _ hv' _ _ => cases decl_unique d₁ hf hv'
    | int _ hi => exact absurd (intFor_builtin hi) (b₁ _ _ hf)
    | struct hg' hf' _ hp' =>
      cases decl_unique d₁ hf hf'
      cases decl_unique d₂ hg hg'
      exact .struct hf hg hs fun p hp => ih p hp (hp' p.swap (zip_swap_mem hp))
end

theorem samePackets_iff {old new : AST} {e₁ e₂ : Artifact} (hc₁ : Compiled old e₁) (hc₂ : Compiled new e₂) :
    SamePackets old new ↔ Compatible old new ∧ Compatible new old := by
  obtain ⟨v₁, t₁, r₁, f₁, -, p₁, -, c₁, x₁⟩ := hc₁
  obtain ⟨v₂, t₂, r₂, f₂, -, p₂, -, c₂, x₂⟩ := hc₂
  have b₁ := Props.parsed_noBuiltinDecl p₁
  have b₂ := Props.parsed_noBuiltinDecl p₂
  obtain ⟨m₁, F₁, -⟩ := Props.typeCheck_final f₁.1 b₁ c₁
  obtain ⟨m₂, F₂, -⟩ := Props.typeCheck_final f₂.1 b₂ c₂
  constructor
  · rintro ⟨x, y, hx, hy, h⟩
    exact ⟨⟨x, y, hx, hy, (replaces_of_same h).1⟩, y, x, hy, hx, (replaces_of_same h).2⟩
  · rintro ⟨⟨x, y, hx, hy, h⟩, y', x', hy', hx', h'⟩
    rw [hx] at hx'
    rw [hy] at hy'
    cases hx'
    cases hy'
    exact ⟨x, y, hx, hy, same_of_replaces F₁.nodup F₂.nodup (fun n t h => b₁ n ⟨t, h⟩)
      (fun n t h => b₂ n ⟨t, h⟩) h h'⟩

end Packetc.Compat
