import Verif.Spec.RustCompat
import Verif.Proof.Compat
import Verif.Proof.RustEvolution
/-!
# When the values of one type are values of another, with the same bytes
-/

namespace Packetc.Rs
open Ast Check WellFormed RustGen Evolution
open Js (Num Scalar utf8Enc AllT AllFs AllF scalarOf EnumsT EnumsFs EnumsF SoundEnum reprScalar reprSize)
open Compat (enumBytes scalar_string scalar_inj Means means used_field builtin_lookup builtinName_mem SameSlot zip_swap_mem)

set_option linter.unusedSectionVars false

variable {lib : Lib} {P Q : Prog} {lim : Nat}

theorem numOk_sub (sc sc' : Scalar) (h : ∀ n, NumOk sc n → NumOk sc' n) : sc.width ≤ sc'.width ∧ (sc'.width ≤ sc.width → sc = sc') := by
  have a := h (.int (-1))
  have b := h (.int 255)
  have c := h (.int 65535)
  have d := h (.int 4294967295)
  have e := h (.int 127)
  have f := h (.int 32767)
  have g := h (.int 2147483647)
  have i := h (.f32 0#32)
  cases sc <;> cases sc' <;> simp [NumOk, Scalar.Ok, Scalar.width, Scalar.CanonF] at a b c d e f g i ⊢

theorem comp_inj {a b : Str} {v w : Val} {vs ws : List (Str × Val)} (h : (a, v) :: vs = (b, w) :: ws) : a = b ∧ v = w ∧ vs = ws := by
  injection h with h1 h2
  injection h1 with h1 h3
  exact ⟨h1, h3, h2⟩

/-! ### the same sizes -/

/-- Enums of the same size. -/
def SameRepr (e e' : REnum) : Prop := e'.repr = e.repr

/-- All values of the one type are values of the other. -/
def SubT (lib : Lib) (lim : Nat) (tn tn' : Str) (t t' : RType) : Prop := ∀ v, ValT lim tn t v → ∃ bs, HasT lib tn' t' bs v
def SubFs (lib : Lib) (lim : Nat) (fs gs : List (FieldOf RType)) : Prop := ∀ vs, ValFs lim fs vs → ∃ bs, HasFs lib gs bs vs
def SubF (lib : Lib) (lim : Nat) (f g : FieldOf RType) : Prop := ∀ v, ValF lim f (f.name, v) → ∃ bs, HasF lib g bs v

theorem repr_mono {e e' : REnum} (h : SoundEnum e) (h' : SoundEnum e') (hs : ∀ w ∈ e.variants, ∃ w' ∈ e'.variants, w'.name = w.name) :
    reprSize e.repr ≤ reprSize e'.repr ∧ (reprSize e'.repr ≤ reprSize e.repr → e'.repr = e.repr) := by
  obtain ⟨vs, ⟨-, -, hn⟩, hr⟩ := h
  obtain ⟨us, ⟨-, -, -⟩, hr'⟩ := h'
  have hl : vs.length ≤ us.length := by
    refine (List.subperm_of_subset hn fun x hx => ?_).length_le
    rw [← hr.names] at hx
    obtain ⟨w, hw, rfl⟩ := List.mem_map.1 hx
    obtain ⟨w', hw', he⟩ := hs w hw
    rw [← hr'.names, ← he]
    exact List.mem_map_of_mem hw'
  have h1 := hr.smallest e'.repr (hl.trans hr'.fits)
  revert h1
  cases e.repr <;> cases e'.repr <;> decide

section
variable (h1 : 1 < lim)
include h1

mutual
theorem sub_type (tn tn' : Str) : (t : RType) → EnumsT SoundEnum t → DefT P tn t → (t' : RType) → EnumsT SoundEnum t' → DefT Q tn' t' →
    SubT lib lim tn tn' t t' → (∀ bs, HasT lib tn' t' bs (lastT tn t) → fullSizeT t ≤ bs.length) ∧
      ∀ bs, HasT lib tn' t' bs (lastT tn t) → bs.length ≤ fullSizeT t → TakesT SameRepr tn tn' t t'
  | .builtin b, he, hd, t', _, _, h => by
    cases hb : scalarOf b with
    | some sc =>
      have hv : ∀ n, NumOk sc n → ∃ bs, HasT lib tn' t' bs (.num n) := fun n hn => h _ (by
        unfold ValT
        rw [hb]
        exact ⟨n, rfl, hn⟩)
      have hsz : fullSizeT (.builtin b) = sc.width := by cases b <;> cases hb <;> rfl
      obtain ⟨n₀, hn₀⟩ : ∃ n, NumOk sc n := ⟨_, lib.dec_ok sc []⟩
      cases t' with
      | enum e' =>
        obtain ⟨bs, -, w, -, -, h3⟩ := hv n₀ hn₀
        cases h3
      | struct gs =>
        obtain ⟨bs, ps, h3, -⟩ := hv n₀ hn₀
        cases h3
      | builtin b' =>
        cases hb' : scalarOf b' with
        | none =>
          obtain ⟨bs, h2⟩ := hv n₀ hn₀
          unfold HasT at h2
          rw [hb'] at h2
          obtain ⟨_, _, -, -, -, h3⟩ := h2
          cases h3
        | some sc' =>
          have hs := numOk_sub sc sc' fun n hn => by
            obtain ⟨bs, h2⟩ := hv n hn
            unfold HasT at h2
            rw [hb'] at h2
            rw [Val.num.inj h2.2]
            exact lib.dec_ok _ _
          have hlen : ∀ bs, HasT lib tn' (.builtin b') bs (lastT tn (.builtin b)) → bs.length = sc'.width := fun bs h2 => by
            unfold HasT at h2
            rw [hb'] at h2
            exact h2.1
          refine ⟨fun bs h2 => ?_, fun bs h2 h3 => ?_⟩
          · rw [hlen bs h2, hsz]
            exact hs.1
          · rw [hlen bs h2, hsz] at h3
            obtain rfl := hs.2 h3
            show RType.builtin b' = _
            rw [scalar_inj b b' sc hb hb']
    | none =>
      have hv : ∀ s, (utf8Enc s).length < 2 ^ 32 → ∃ bs, HasT lib tn' t' bs (.str s) := fun s hs => h _ (by
        unfold ValT
        rw [hb]
        exact ⟨s, rfl, hs⟩)
      have hsz : fullSizeT (.builtin b) = 4 := by cases b <;> first | cases hb; done | rfl
      obtain ⟨bs₀, h0⟩ := hv [] (by decide)
      cases t' with
      | enum e' =>
        obtain ⟨-, w, -, -, h3⟩ := h0
        cases h3
      | struct gs =>
        obtain ⟨ps, h3, -⟩ := h0
        cases h3
      | builtin b' =>
        cases hb' : scalarOf b' with
        | some sc' =>
          unfold HasT at h0
          rw [hb'] at h0
          cases h0.2
        | none =>
          refine ⟨fun bs h2 => ?_, fun bs h2 h3 => ?_⟩
          · unfold HasT at h2
            rw [hb'] at h2
            obtain ⟨len, s, rfl, h4, -⟩ := h2
            rw [hsz, List.length_append, h4]
            omega
          · show RType.builtin b' = _
            rw [scalar_string b b' hb hb']
  | .enum e, he, hd, t', he', hd', h => by
    have hv : ∀ w ∈ e.variants, ∃ bs, HasT lib tn' t' bs (.variant tn w.name) := fun w hw => h _ ⟨w, hw, rfl⟩
    obtain ⟨w₀, hw₀, -⟩ := last_variant he
    obtain ⟨bs₀, h0⟩ := hv w₀ hw₀
    cases t' with
    | struct gs =>
      obtain ⟨ps, h3, -⟩ := h0
      cases h3
    | builtin b' =>
      unfold HasT at h0
      cases hb' : scalarOf b' with
      | some sc' =>
        rw [hb'] at h0
        cases h0.2
      | none =>
        rw [hb'] at h0
        obtain ⟨_, _, -, -, -, h3⟩ := h0
        cases h3
    | enum e' =>
      obtain ⟨-, w, -, -, h3⟩ := h0
      have htn : tn = tn' := by injection h3
      have hm := repr_mono he he' fun w hw => by
        obtain ⟨bs, -, w', hw', -, h4⟩ := hv w hw
        injection h4 with _ h4
        exact ⟨w', hw', h4.symm⟩
      have hwd : ∀ r, (reprScalar r).width = reprSize r := fun r => by cases r <;> rfl
      refine ⟨fun bs h2 => ?_, fun bs h2 h3 => ⟨e', rfl, htn.symm, hm.2 ?_⟩⟩
      · rw [h2.1, hwd]
        exact hm.1
      · rw [h2.1, hwd] at h3
        exact h3
  | .struct fs, he, hd, t', he', hd', h => by
    obtain ⟨bs₀, h0⟩ := h _ (last_val h1 tn (.struct fs) he hd)
    cases t' with
    | builtin b' =>
      unfold HasT at h0
      cases hb' : scalarOf b' with
      | some sc' =>
        rw [hb'] at h0
        cases h0.2
      | none =>
        rw [hb'] at h0
        obtain ⟨_, _, -, -, -, h3⟩ := h0
        cases h3
    | enum e' =>
      obtain ⟨-, w, -, -, h3⟩ := h0
      cases h3
    | struct gs =>
      have hs : SubFs lib lim fs gs := fun vs hvs => by
        obtain ⟨bs, ps, h2, h3⟩ := h (.struct vs) ⟨vs, rfl, hvs⟩
        cases h2
        exact ⟨bs, h3⟩
      obtain ⟨k1, k2⟩ := sub_fields fs he hd.2 gs he' hd'.2 hs
      refine ⟨fun bs h2 => ?_, fun bs h2 h3 => ⟨gs, rfl, ?_⟩⟩
      · obtain ⟨ps, h4, h5⟩ := h2
        cases h4
        exact k1 bs h5
      · obtain ⟨ps, h4, h5⟩ := h2
        cases h4
        exact k2 bs h5 h3
theorem sub_fields : (fs : List (FieldOf RType)) → EnumsFs SoundEnum fs → DefFs P fs → (gs : List (FieldOf RType)) → EnumsFs SoundEnum gs →
    DefFs Q gs → SubFs lib lim fs gs → (∀ bs, HasFs lib gs bs (lastFs fs) → fullSizeFs fs ≤ bs.length) ∧
      ∀ bs, HasFs lib gs bs (lastFs fs) → bs.length ≤ fullSizeFs fs → TakesFs SameRepr fs gs
  | [], _, _, gs, _, _, h => by
    refine ⟨fun bs _ => Nat.zero_le _, fun bs h2 _ => ?_⟩
    cases gs with
    | nil => rfl
    | cons g gs =>
      obtain ⟨_, _, _, _, -, h3, -⟩ := h2
      cases h3
  | f :: fs, he, hd, gs, he', hd', h => by
    obtain ⟨bs₀, h0⟩ := h _ (lastFs_val h1 (f :: fs) he hd)
    cases gs with
    | nil => cases h0.2
    | cons g gs =>
      have hf : SubF lib lim f g := fun v hv => by
        obtain ⟨bs, b₁, b₂, v', qs, -, h2, h3, -⟩ := h ((f.name, v) :: lastFs fs) ⟨_, _, rfl, hv, lastFs_val h1 fs he.2 hd.2⟩
        obtain ⟨-, rfl, -⟩ := comp_inj h2
        exact ⟨b₁, h3⟩
      have hfs : SubFs lib lim fs gs := fun vs hvs => by
        obtain ⟨bs, b₁, b₂, v', qs, -, h2, -, h3⟩ := h ((f.name, lastF f) :: vs) ⟨_, _, rfl, lastF_val h1 f he.1 hd.1, hvs⟩
        obtain ⟨-, -, rfl⟩ := comp_inj h2
        exact ⟨b₂, h3⟩
      have hname : g.name = f.name := by
        obtain ⟨_, _, _, _, -, h2, -⟩ := h0
        injection h2 with h2 _
        injection h2 with h2 _
        exact h2.symm
      obtain ⟨k1, k2⟩ := sub_field f he.1 hd.1 g he'.1 hd'.1 hname hf
      obtain ⟨k3, k4⟩ := sub_fields fs he.2 hd.2 gs he'.2 hd'.2 hfs
      refine ⟨fun bs h2 => ?_, fun bs h2 h3 => ?_⟩
      · obtain ⟨b₁, b₂, v, qs, rfl, h4, h5, h6⟩ := h2
        obtain ⟨-, rfl, rfl⟩ := comp_inj h4
        rw [List.length_append]
        exact Nat.add_le_add (k1 _ h5) (k3 _ h6)
      · obtain ⟨b₁, b₂, v, qs, rfl, h4, h5, h6⟩ := h2
        obtain ⟨-, rfl, rfl⟩ := comp_inj h4
        have h7 := k1 _ h5
        have h8 := k3 _ h6
        have h3 : (b₁ ++ b₂).length ≤ fullSizeF f + fullSizeFs fs := h3
        rw [List.length_append] at h3
        exact ⟨g, gs, rfl, k2 _ h5 (by omega), k4 _ h6 (by omega)⟩
theorem sub_field : (f : FieldOf RType) → EnumsF SoundEnum f → DefF P f → (g : FieldOf RType) → EnumsF SoundEnum g → DefF Q g → g.name = f.name →
    SubF lib lim f g → (∀ bs, HasF lib g bs (lastF f) → fullSizeF f ≤ bs.length) ∧
      ∀ bs, HasF lib g bs (lastF f) → bs.length ≤ fullSizeF f → TakesF SameRepr f g
  | ⟨n, tn, t, a, o⟩, he, hd, ⟨n', tn', t', a', o'⟩, he', hd', hname, h => by
    have hlt := last_val h1 tn t he hd.1
    have hn0 : ∀ v, ValT lim tn t v → v ≠ .none ∧ (∀ w, v ≠ .some w) ∧ ∀ ws, v ≠ .vec ws := by
      intro v hv
      cases t with
      | builtin b =>
        unfold ValT at hv
        cases hb : scalarOf b with
        | some sc => rw [hb] at hv; obtain ⟨_, rfl, -⟩ := hv; simp
        | none => rw [hb] at hv; obtain ⟨_, rfl, -⟩ := hv; simp
      | enum e => obtain ⟨_, -, rfl⟩ := hv; simp
      | struct fs => obtain ⟨_, rfl, -⟩ := hv; simp
    have hn1 : ∀ bs v, HasT lib tn' t' bs v → v ≠ .none ∧ (∀ w, v ≠ .some w) ∧ ∀ ws, v ≠ .vec ws := by
      intro bs v hv
      cases t' with
      | builtin b =>
        unfold HasT at hv
        cases hb : scalarOf b with
        | some sc => rw [hb] at hv; obtain ⟨-, rfl⟩ := hv; simp
        | none => rw [hb] at hv; obtain ⟨_, _, -, -, -, rfl⟩ := hv; simp
      | enum e => obtain ⟨-, _, -, -, rfl⟩ := hv; simp
      | struct fs => obtain ⟨_, rfl, -⟩ := hv; simp
    cases o with
    | true =>
      cases a with
      | true => exact absurd ⟨rfl, rfl⟩ hd.2
      | false =>
        obtain ⟨bs₀, h0⟩ := h .none ⟨rfl, Or.inl ⟨rfl, rfl⟩⟩
        cases o' with
        | false =>
          cases a' with
          | true =>
            obtain ⟨_, _, _, -, -, -, -, h3, -⟩ := h0
            cases h3
          | false => exact absurd rfl (hn1 _ _ h0).1
        | true =>
          cases a' with
          | true => exact absurd ⟨rfl, rfl⟩ hd'.2
          | false =>
            obtain ⟨k1, k2⟩ := sub_type tn tn' t he hd.1 t' he' hd'.1 fun v hv => by
              obtain ⟨bs, flag, body, -, -, ⟨-, -, h3⟩ | ⟨-, w, h3, h4⟩⟩ := h (.some v) ⟨rfl, Or.inr ⟨v, rfl, hv⟩⟩
              · cases h3
              · cases h3
                exact ⟨body, h4⟩
            refine ⟨fun bs h2 => ?_, fun bs h2 h5 => ?_⟩
            · obtain ⟨flag, body, rfl, h2, ⟨-, -, h3⟩ | ⟨-, w, h3, h4⟩⟩ := h2
              · cases h3
              · cases h3
                rw [List.length_append, h2]
                exact Nat.add_le_add_left ((Nat.zero_add _).le.trans (k1 _ h4)) 1
            · obtain ⟨flag, body, rfl, h2, ⟨-, -, h3⟩ | ⟨-, w, h3, h4⟩⟩ := h2
              · cases h3
              · cases h3
                rw [List.length_append, h2] at h5
                have h5 : 1 + body.length ≤ 1 + (0 + fullSizeT t) := h5
                exact ⟨hname, rfl, rfl, k2 _ h4 (by omega)⟩
    | false =>
      cases a with
      | true =>
        obtain ⟨bs₀, h0⟩ := h (.vec [lastT tn t]) ⟨rfl, Or.inr ⟨_, rfl, _, rfl, h1, fun w hw => by rw [List.mem_singleton.1 hw]; exact hlt⟩⟩
        cases o' with
        | true =>
          obtain ⟨flag, body, -, -, ⟨-, -, h3⟩ | ⟨-, w, h3, -⟩⟩ := h0
          · cases h3
          · cases h3
        | false =>
          cases a' with
          | false => exact absurd rfl ((hn1 _ _ h0).2.2 _)
          | true =>
            obtain ⟨k1, k2⟩ := sub_type tn tn' t he hd.1 t' he' hd'.1 fun v hv => by
              obtain ⟨bs, len, items, vs, -, -, -, -, h3, h4⟩ := h (.vec [v]) ⟨rfl, Or.inr ⟨_, rfl, _, rfl, h1, fun w hw => by
                rw [List.mem_singleton.1 hw]; exact hv⟩⟩
              cases h3
              cases h4 with
              | cons h5 _ => exact ⟨_, h5⟩
            refine ⟨fun bs h2 => ?_, fun bs h2 h6 => ?_⟩
            · obtain ⟨len, items, vs, rfl, h2, -, -, h3, h4⟩ := h2
              cases h3
              cases h4 with
              | cons h5 h4 =>
                cases h4
                rw [List.length_append, h2, List.flatten_cons, List.flatten_nil, List.append_nil]
                have := k1 _ h5
                show 0 + (4 + fullSizeT t) ≤ _
                omega
            · obtain ⟨len, items, vs, rfl, h2, -, -, h3, h4⟩ := h2
              cases h3
              cases h4 with
              | cons h5 h4 =>
                cases h4
                rw [List.length_append, h2, List.flatten_cons, List.flatten_nil, List.append_nil] at h6
                have h6 : _ ≤ 0 + (4 + fullSizeT t) := h6
                exact ⟨hname, rfl, rfl, k2 _ h5 (by omega)⟩
      | false =>
        obtain ⟨bs₀, h0⟩ := h (lastT tn t) ⟨rfl, Or.inr ⟨_, rfl, hlt⟩⟩
        cases o' with
        | true =>
          obtain ⟨flag, body, -, -, ⟨-, -, h3⟩ | ⟨-, w, h3, -⟩⟩ := h0
          · exact absurd h3 (hn0 _ hlt).1
          · exact absurd h3 ((hn0 _ hlt).2.1 _)
        | false =>
          cases a' with
          | true =>
            obtain ⟨_, _, _, -, -, -, -, h3, -⟩ := h0
            exact absurd h3 ((hn0 _ hlt).2.2 _)
          | false =>
            obtain ⟨k1, k2⟩ := sub_type tn tn' t he hd.1 t' he' hd'.1 fun v hv => h v ⟨rfl, Or.inr ⟨_, rfl, hv⟩⟩
            refine ⟨fun bs h2 => ?_, fun bs h2 h3 => ⟨hname, rfl, rfl, k2 bs h2 ?_⟩⟩
            · have := k1 bs h2
              show 0 + (0 + fullSizeT t) ≤ _
              omega
            · have h3 : _ ≤ 0 + (0 + fullSizeT t) := h3
              omega
end
end

/-! ### the same bytes -/

mutual
/-- With enums of the same size, each value takes the same number of bytes. -/
theorem takes_length (tn tn' : Str) : (t : RType) → DefT P tn t → (t' : RType) → TakesT SameRepr tn tn' t t' → ∀ v, ValT lim tn t v → ∀ bs,
    HasT lib tn' t' bs v → bs.length = (encT lib t v).length
  | .builtin b, _, t', h, v, hv, bs, hb => by
    cases h
    unfold HasT at hb
    unfold encT
    cases hs : scalarOf b with
    | some sc =>
      rw [hs] at hb
      obtain ⟨h2, rfl⟩ := hb
      rw [h2]
      exact (lib.enc_len _ _).symm
    | none =>
      rw [hs] at hb
      obtain ⟨len, s, rfl, h2, -, rfl⟩ := hb
      show _ = (lib.enc .uint32 _ ++ _).length
      rw [List.length_append, List.length_append, h2, lib.enc_len]
      rfl
  | .enum e, _, t', h, v, hv, bs, hb => by
    obtain ⟨e', rfl, -, h2⟩ := h
    obtain ⟨w, hw, rfl⟩ := hv
    have h2 : e'.repr = e.repr := h2
    unfold encT
    cases hx : e.variants.find? fun x => x.name = w.name with
    | none => exact absurd (List.find?_eq_none.1 hx w hw) (by simp)
    | some w' =>
      simp only [hx]
      rw [lib.enc_len, hb.1, h2]
  | .struct fs, hd, t', h, v, hv, bs, hb => by
    obtain ⟨gs, rfl, h⟩ := h
    obtain ⟨ps, rfl, hv⟩ := hv
    obtain ⟨qs, h2, hb⟩ := hb
    cases h2
    exact takesFs_length fs hd.2 gs h ps hv bs hb
theorem takesFs_length : (fs : List (FieldOf RType)) → DefFs P fs → (gs : List (FieldOf RType)) → TakesFs SameRepr fs gs → ∀ vs, ValFs lim fs vs → ∀ bs,
    HasFs lib gs bs vs → bs.length = (encFs lib fs vs).length
  | [], _, gs, h, vs, hv, bs, hb => by
    cases h
    rw [hb.1]
    rfl
  | f :: fs, hd, gs, h, vs, hv, bs, hb => by
    obtain ⟨g, gs, rfl, h2, h3⟩ := h
    obtain ⟨⟨n, v⟩, qs, rfl, h4, h5⟩ := hv
    obtain ⟨b₁, b₂, v', qs', rfl, h6, h7, h8⟩ := hb
    obtain ⟨-, rfl, rfl⟩ := comp_inj h6
    show _ = (encF lib f v ++ encFs lib fs qs).length
    rw [List.length_append, List.length_append, takesF_length f hd.1 g h2 n v h4 b₁ h7, takesFs_length fs hd.2 gs h3 qs h5 b₂ h8]
theorem takesF_length : (f : FieldOf RType) → DefF P f → (g : FieldOf RType) → TakesF SameRepr f g → ∀ m v, ValF lim f (m, v) → ∀ bs,
    HasF lib g bs v → bs.length = (encF lib f v).length
  | ⟨n, tn, t, a, o⟩, hd, ⟨n', tn', t', a', o'⟩, h, m, v, hv, bs, hb => by
    have key := takes_length tn tn' t hd.1 t' h.2.2.2
    have ha : a' = a := h.2.1
    have ho : o' = o := h.2.2.1
    subst ha ho
    obtain ⟨-, hv⟩ := hv
    cases o' with
    | true =>
      cases a' with
      | true => exact absurd ⟨rfl, rfl⟩ hd.2
      | false =>
        obtain ⟨flag, body, rfl, h2, ⟨-, rfl, rfl⟩ | ⟨-, w, rfl, h3⟩⟩ := hb
        · show _ = (lib.enc .uint8 (.int 0)).length
          rw [List.append_nil, h2, lib.enc_len]
          rfl
        · show _ = (lib.enc .uint8 (.int 1) ++ encT lib t w).length
          obtain ⟨-, h4⟩ | ⟨w', h4, h5⟩ := hv
          · cases h4
          · cases h4
            rw [List.length_append, List.length_append, h2, lib.enc_len, key w h5 body h3]
            rfl
    | false =>
      obtain ⟨h4, -⟩ | ⟨w', h4, h5⟩ := hv
      · cases h4
      · have h4 : v = w' := h4
        subst h4
        cases a' with
        | true =>
          obtain ⟨ws, rfl, -, h5⟩ := h5
          obtain ⟨len, items, vs, rfl, h2, -, -, h3, h6⟩ := hb
          cases h3
          show _ = (lib.enc .uint32 (.int ws.length) ++ (ws.map fun x => encT lib t x).flatten).length
          rw [List.length_append, List.length_append, h2, lib.enc_len]
          congr 1
          clear h2 h4
          induction h6 with
          | nil => rfl
          | cons h7 _ ih =>
            rw [List.map_cons, List.flatten_cons, List.flatten_cons, List.length_append, List.length_append, key _ (h5 _ List.mem_cons_self) _ h7,
              ih fun w hw => h5 w (List.mem_cons_of_mem _ hw)]
        | false => exact key v h5 bs hb
end

theorem begins_of {e e' : REnum} (h : SoundEnum e) (h' : SoundEnum e') (hr : e'.repr = e.repr) (hs : ∀ w ∈ e.variants, w ∈ e'.variants) :
    Begins e e' := by
  obtain ⟨vs, -, hv⟩ := h
  obtain ⟨us, -, hu⟩ := h'
  refine ⟨hr, ?_⟩
  have hget : ∀ (e : REnum) vs, EnumResolved vs e → ∀ (i : Nat) (w : EnumVariant), e.variants[i]? = some w → w.value = i := by
    intro e vs hv i w hw
    have h1 := congrArg (fun l => l[i]?) hv.values
    simp only [List.getElem?_map, hw, Option.map_some] at h1
    by_cases hi : i < vs.length
    · rw [List.getElem?_range hi] at h1
      exact Option.some.inj h1
    · rw [List.getElem?_eq_none (by simpa using hi)] at h1
      cases h1
  rw [List.prefix_iff_getElem?]
  intro i hi
  have h1 := List.getElem?_eq_getElem hi
  obtain ⟨j, hj⟩ := List.mem_iff_getElem?.1 (hs _ (List.getElem_mem hi))
  have h2 := hget e vs hv i _ h1
  have h3 := hget e' us hu j _ hj
  have h4 : j = i := h3.symm.trans h2
  rw [← hj, h4]

section
variable (h1 : 1 < lim) (h2 : lim ≤ 2 ^ 32)
include h1 h2

mutual
/-- If the bytes of all values of the one type hold the same values of the other, with enums of the same size, then enums begin with the
same variants. -/
theorem begins_type (tn tn' : Str) : (t : RType) → EnumsT SoundEnum t → DefT P tn t → (t' : RType) → EnumsT SoundEnum t' →
    TakesT SameRepr tn tn' t t' → (∀ v, ValT lim tn t v → HasT lib tn' t' (encT lib t v) v) → TakesT Begins tn tn' t t'
  | .builtin b, _, _, t', _, h, _ => h
  | .enum e, he, _, t', he', h, hb => by
    obtain ⟨e', rfl, rfl, h3⟩ := h
    have h3 : e'.repr = e.repr := h3
    refine ⟨e', rfl, rfl, begins_of he he' h3 fun w hw => ?_⟩
    obtain ⟨-, w', hw', h4, h5⟩ := hb (.variant tn' w.name) ⟨w, hw, rfl⟩
    injection h5 with _ h5
    have hE : encT lib (.enum e) (.variant tn' w.name) = lib.enc (reprScalar e.repr) (.int (2 ^ w.value)) := by
      cases hx : e.variants.find? fun x => x.name = w.name with
      | none => exact absurd (List.find?_eq_none.1 hx w hw) (by simp)
      | some w' =>
        have hw' : w' ∈ e.variants := List.mem_of_find?_eq_some hx
        have hn : w'.name = w.name := by simpa using List.find?_some hx
        unfold encT
        simp only [hx]
        rw [sound_name_inj he hw' hw hn]
    rw [hE, h3, lib.dec_enc _ _ (ok_pow he hw)] at h4
    have h6 : (2 : Int) ^ w.value = 2 ^ w'.value := Num.int.inj h4
    have h7 : w.value = w'.value := Nat.pow_right_injective (le_refl 2) (by exact_mod_cast h6)
    have : w = w' := by
      obtain ⟨_, _⟩ := w
      obtain ⟨_, _⟩ := w'
      cases h5
      cases h7
      rfl
    rw [this]
    exact hw'
  | .struct fs, he, hd, t', he', h, hb => by
    obtain ⟨gs, rfl, h⟩ := h
    refine ⟨gs, rfl, begins_fields fs he hd.2 gs he' h fun vs hvs => ?_⟩
    obtain ⟨ps, h3, h4⟩ := hb (.struct vs) ⟨vs, rfl, hvs⟩
    cases h3
    exact h4
theorem begins_fields : (fs : List (FieldOf RType)) → EnumsFs SoundEnum fs → DefFs P fs → (gs : List (FieldOf RType)) → EnumsFs SoundEnum gs →
    TakesFs SameRepr fs gs → (∀ vs, ValFs lim fs vs → HasFs lib gs (encFs lib fs vs) vs) → TakesFs Begins fs gs
  | [], _, _, gs, _, h, _ => h
  | f :: fs, he, hd, gs, he', h, hb => by
    obtain ⟨g, gs, rfl, h3, h4⟩ := h
    have both : ∀ v vs, ValF lim f (f.name, v) → ValFs lim fs vs → HasF lib g (encF lib f v) v ∧ HasFs lib gs (encFs lib fs vs) vs := by
      intro v vs hv hvs
      obtain ⟨b₁, b₂, v', qs, h5, h6, h7, h8⟩ := hb ((f.name, v) :: vs) ⟨_, _, rfl, hv, hvs⟩
      obtain ⟨-, rfl, rfl⟩ := comp_inj h6
      have h5 : encF lib f v ++ encFs lib fs vs = b₁ ++ b₂ := h5
      obtain ⟨rfl, rfl⟩ := List.append_inj h5 (takesF_length f hd.1 g h3 _ v hv b₁ h7).symm
      exact ⟨h7, h8⟩
    exact ⟨g, gs, rfl, begins_field f he.1 hd.1 g he'.1 h3 fun v hv => (both v _ hv (lastFs_val h1 fs he.2 hd.2)).1,
      begins_fields fs he.2 hd.2 gs he'.2 h4 fun vs hvs => (both _ vs (lastF_val h1 f he.1 hd.1) hvs).2⟩
theorem begins_field : (f : FieldOf RType) → EnumsF SoundEnum f → DefF P f → (g : FieldOf RType) → EnumsF SoundEnum g →
    TakesF SameRepr f g → (∀ v, ValF lim f (f.name, v) → HasF lib g (encF lib f v) v) → TakesF Begins f g
  | ⟨n, tn, t, a, o⟩, he, hd, ⟨n', tn', t', a', o'⟩, he', h, hb => by
    have key := begins_type tn tn' t he hd.1 t' he' h.2.2.2
    have hl := takes_length (lib := lib) (lim := lim) tn tn' t hd.1 t' h.2.2.2
    refine ⟨h.1, h.2.1, h.2.2.1, key fun v hv => ?_⟩
    have ha : a' = a := h.2.1
    have ho : o' = o := h.2.2.1
    subst ha ho
    cases o' with
    | true =>
      cases a' with
      | true => exact absurd ⟨rfl, rfl⟩ hd.2
      | false =>
        obtain ⟨flag, body, h3, h4, ⟨-, -, h5⟩ | ⟨-, w, h5, h6⟩⟩ := hb (.some v) ⟨rfl, Or.inr ⟨v, rfl, hv⟩⟩
        · cases h5
        · cases h5
          have h3 : lib.enc .uint8 (.int 1) ++ encT lib t v = flag ++ body := h3
          rw [(List.append_inj h3 (by rw [h4, lib.enc_len]; rfl)).2]
          exact h6
    | false =>
      cases a' with
      | true =>
        obtain ⟨len, items, vs, h3, h4, -, -, h5, h6⟩ := hb (.vec [v]) ⟨rfl, Or.inr ⟨_, rfl, _, rfl, h1, fun w hw => by
          rw [List.mem_singleton.1 hw]; exact hv⟩⟩
        cases h5
        cases h6 with
        | cons h7 h6 =>
          cases h6
          have h3 : lib.enc .uint32 (.int 1) ++ (encT lib t v ++ []) = len ++ _ := h3
          have h8 := (List.append_inj h3 (by rw [h4, lib.enc_len]; rfl)).2
          rw [List.flatten_cons, List.flatten_nil, List.append_nil, List.append_nil] at h8
          rw [h8]
          exact h7
      | false => exact hb v ⟨rfl, Or.inr ⟨_, rfl, hv⟩⟩
end
end

mutual
/-- If enums begin with the same variants, bytes of a value of the one type hold the same value of the other. -/
theorem takes_has (tn tn' : Str) : (t : RType) → (t' : RType) → TakesT Begins tn tn' t t' → ∀ bs v, HasT lib tn t bs v → HasT lib tn' t' bs v
  | .builtin b, t', h, bs, v, hb => by
    cases h
    unfold HasT at hb ⊢
    exact hb
  | .enum e, t', h, bs, v, hb => by
    obtain ⟨e', rfl, rfl, h3, h4⟩ := h
    obtain ⟨h5, w, hw, h6, rfl⟩ := hb
    exact ⟨by rw [h3]; exact h5, w, h4.subset hw, by rw [h3]; exact h6, rfl⟩
  | .struct fs, t', h, bs, v, hb => by
    obtain ⟨gs, rfl, h⟩ := h
    obtain ⟨ps, rfl, hb⟩ := hb
    exact ⟨ps, rfl, takesFs_has fs gs h bs ps hb⟩
theorem takesFs_has : (fs : List (FieldOf RType)) → (gs : List (FieldOf RType)) → TakesFs Begins fs gs → ∀ bs vs, HasFs lib fs bs vs →
    HasFs lib gs bs vs
  | [], gs, h, bs, vs, hb => by
    cases h
    exact hb
  | f :: fs, gs, h, bs, vs, hb => by
    obtain ⟨g, gs, rfl, h2, h3⟩ := h
    obtain ⟨b₁, b₂, v, qs, rfl, rfl, h7, h8⟩ := hb
    have hn : g.name = f.name := by
      obtain ⟨_, _, _, _, _⟩ := f
      exact h2.1
    exact ⟨b₁, b₂, v, qs, rfl, by rw [hn], takesF_has f g h2 b₁ v h7, takesFs_has fs gs h3 b₂ qs h8⟩
theorem takesF_has : (f : FieldOf RType) → (g : FieldOf RType) → TakesF Begins f g → ∀ bs v, HasF lib f bs v → HasF lib g bs v
  | ⟨n, tn, t, a, o⟩, ⟨n', tn', t', a', o'⟩, h, bs, v, hb => by
    have key := takes_has tn tn' t t' h.2.2.2
    have ha : a' = a := h.2.1
    have ho : o' = o := h.2.2.1
    subst ha ho
    cases o' with
    | true =>
      obtain ⟨flag, body, h3, h4, h5 | ⟨h5, w, h6, h7⟩⟩ := hb
      · exact ⟨flag, body, h3, h4, Or.inl h5⟩
      · exact ⟨flag, body, h3, h4, Or.inr ⟨h5, w, h6, key _ _ h7⟩⟩
    | false =>
      cases a' with
      | true =>
        obtain ⟨len, items, vs, h3, h4, h5, h6, h7, h8⟩ := hb
        exact ⟨len, items, vs, h3, h4, h5, h6, h7, h8.imp fun _ _ => key _ _⟩
      | false => exact key _ _ hb
end

/-! ### schemas -/

theorem begins_spec {vs us : List Str} : Begins (enumSpec vs) (enumSpec us) ↔ vs <+: us ∧ enumBytes vs.length = enumBytes us.length := by
  have hb := Compat.enumSpec_bytes
  have hn : ∀ ws : List Str, (enumSpec ws).variants.map EnumVariant.name = ws := fun ws => by
    simp only [enumSpec, List.map_map]
    exact List.zipIdx_map_fst 0 ws
  constructor
  · rintro ⟨h1, h2⟩
    refine ⟨?_, by rw [← hb, ← hb, h1]⟩
    have := h2.map EnumVariant.name
    rwa [hn, hn] at this
  · rintro ⟨⟨ws, rfl⟩, h2⟩
    refine ⟨Compat.repr_of_size (by rw [hb, hb, h2]), ?_⟩
    simp only [enumSpec, List.zipIdx_append, List.map_append]
    exact List.prefix_append _ _

theorem takesFs_of {c₁ c₂ : TypeMap} {fs gs : List (Str × Unresolved)} {r₁ r₂ : List RField} (h₁ : List.Forall₂ (FieldOk c₁) fs r₁)
    (h₂ : List.Forall₂ (FieldOk c₂) gs r₂) (hs : List.Forall₂ SameSlot fs gs)
    (ih : ∀ p ∈ fs.zip gs, ∀ t t', c₁.get p.1.2.name = some (p.1.2.name, t) → c₂.get p.2.2.name = some (p.2.2.name, t') →
      TakesT Begins p.1.2.name p.2.2.name t t') :
    TakesFs Begins r₁ r₂ := by
  induction hs generalizing r₁ r₂ with
  | nil => cases h₁; cases h₂; rfl
  | cons s _ ih' =>
    cases h₁ with
    | cons a₁ b₁ =>
      cases h₂ with
      | cons a₂ b₂ =>
        rename_i f g fs gs _ rf rfs rg rgs
        refine ⟨rg, rgs, rfl, ?_, ih' b₁ b₂ fun p hp => ih p (List.mem_cons_of_mem _ hp)⟩
        have := ih (f, g) List.mem_cons_self _ _ a₁.ty a₂.ty
        dsimp only at this
        rw [← a₁.tyName, ← a₂.tyName] at this
        obtain ⟨n, tn, t, a, o⟩ := rf
        exact ⟨by rw [a₂.name, s.1]; exact a₁.name.symm, by rw [a₂.array, s.2.1]; exact a₁.array.symm,
          by rw [a₂.optional, s.2.2]; exact a₁.optional.symm, this⟩

theorem of_takesFs {c₁ c₂ : TypeMap} {fs gs : List (Str × Unresolved)} {r₁ r₂ : List RField} (h₁ : List.Forall₂ (FieldOk c₁) fs r₁)
    (h₂ : List.Forall₂ (FieldOk c₂) gs r₂) (h : TakesFs Begins r₁ r₂) : List.Forall₂ SameSlot fs gs ∧
      ∀ p ∈ fs.zip gs, ∃ rf ∈ r₁, ∃ t', c₁.get p.1.2.name = some (p.1.2.name, rf.ty) ∧ c₂.get p.2.2.name = some (p.2.2.name, t') ∧
        TakesT Begins p.1.2.name p.2.2.name rf.ty t' := by
  induction h₁ generalizing gs r₂ with
  | nil =>
    cases h
    cases h₂
    exact ⟨.nil, fun p hp => absurd hp List.not_mem_nil⟩
  | cons a₁ b₁ ih =>
    obtain ⟨rg, rgs, rfl, h1, h2⟩ := h
    cases h₂ with
    | cons a₂ b₂ =>
      rename_i f rf fs rfs g gs
      obtain ⟨i1, i2⟩ := ih b₂ h2
      obtain ⟨n, tn, t, a, o⟩ := rf
      obtain ⟨k1, k2, k3, k4⟩ := h1
      refine ⟨.cons ⟨?_, ?_, ?_⟩ i1, fun p hp => ?_⟩
      · rw [← a₂.name, k1]; exact a₁.name
      · rw [← a₂.array, k2]; exact a₁.array
      · rw [← a₂.optional, k3]; exact a₁.optional
      · rcases List.mem_cons.1 hp with rfl | hp
        · have htn : tn = f.2.name := a₁.tyName
          rw [htn, a₂.tyName] at k4
          exact ⟨_, List.mem_cons_self, rg.ty, a₁.ty, a₂.ty, k4⟩
        · obtain ⟨rf, hrf, h⟩ := i2 p hp
          exact ⟨rf, List.mem_cons_of_mem _ hrf, h⟩

section
variable {old new : AST} {c₁ c₂ : TypeMap} (F₁ : Final old c₁) (F₂ : Final new c₂) (o₁ : AllInOrder old) (o₂ : AllInOrder new)
include F₁ F₂ o₁ o₂

theorem takes_of_stands {n m : Str} (h : Stands old new n m) : Used old n → Used new m → ∀ t t', c₁.get n = some (n, t) →
    c₂.get m = some (m, t') → TakesT Begins n m t t' := by
  induction h with
  | @builtin n hb =>
    intro _ _ t t' ht ht'
    rw [F₁.builtin n hb] at ht
    rw [F₂.builtin n hb, ht] at ht'
    cases ht'
    obtain ⟨b, -, rfl⟩ := builtin_lookup ht
    rfl
  | @enum n vs us hv hu hle hw =>
    intro _ _ t t' ht ht'
    rw [(F₁.enum n vs hv).2] at ht
    rw [(F₂.enum n us hu).2] at ht'
    cases ht
    cases ht'
    exact ⟨_, rfl, rfl, begins_spec.2 ⟨hle, hw⟩⟩
  | @struct n m fs gs hf hg hs _ ih =>
    intro un um t t' ht ht'
    obtain ⟨r₁, g₁, k₁⟩ := F₁.inOrder hf (o₁ n fs un hf)
    obtain ⟨r₂, g₂, k₂⟩ := F₂.inOrder hg (o₂ m gs um hg)
    rw [g₁] at ht
    rw [g₂] at ht'
    cases ht
    cases ht'
    refine ⟨r₂, rfl, takesFs_of k₁ k₂ hs fun p hp => ih p hp (used_field un hf ?_) (used_field um hg ?_)⟩
    · exact (List.of_mem_zip hp).1
    · exact (List.of_mem_zip hp).2

theorem stands_of_takes (k : Nat) : ∀ n m t t', sizeOf t ≤ k → Used old n → Used new m → c₁.get n = some (n, t) →
    c₂.get m = some (m, t') → TakesT Begins n m t t' → Stands old new n m := by
  induction k with
  | zero =>
    intro n m t t' hk
    have : 0 < sizeOf t := by cases t <;> simp
    omega
  | succ k ih =>
    intro n m t t' hk un um ht ht' hc
    have h₂ := means F₂ o₂ um ht'
    cases means F₁ o₁ un ht with
    | builtin b hn =>
      cases hc
      generalize hx : RType.builtin b = x at h₂
      cases h₂ with
      | builtin b' hm =>
        cases hx
        rw [hn, hm]
        exact .builtin (builtinName_mem b)
      | enum => cases hx
      | struct => cases hx
    | enum vs hv ov =>
      obtain ⟨e', rfl, rfl, hl⟩ := hc
      generalize hx : RType.enum e' = x at h₂
      cases h₂ with
      | builtin => cases hx
      | struct => cases hx
      | enum us hu ou =>
        cases hx
        obtain ⟨h1, h2⟩ := begins_spec.1 hl
        exact .enum hv hu h1 h2
    | struct fs r₁ hf k₁ =>
      obtain ⟨r₂, rfl, hc⟩ := hc
      generalize hx : RType.struct r₂ = x at h₂
      cases h₂ with
      | builtin => cases hx
      | enum => cases hx
      | struct gs r hg k₂ =>
        cases hx
        obtain ⟨hs, hp⟩ := of_takesFs k₁ k₂ hc
        refine .struct hf hg hs fun p hpm => ?_
        obtain ⟨rf, hrf, t', h1, h2, h3⟩ := hp p hpm
        have := sizeOf_field hrf
        exact ih _ _ _ _ (by omega) (used_field un hf (List.of_mem_zip hpm).1) (used_field um hg (List.of_mem_zip hpm).2) h1 h2 h3
end

/-- For schemas in which no field can be overtaken. -/
theorem standsFor_iff {old new : AST} (o₁ : AllInOrder old) (o₂ : AllInOrder new) {e₁ e₂ : Js.Artifact} (hc₁ : Js.Compiled old e₁)
    (hc₂ : Js.Compiled new e₂) : StandsFor old new ↔ TakesFs Begins e₁.fields e₂.fields := by
  obtain ⟨v₁, t₁, r₁, f₁, -, p₁, -, c₁, x₁⟩ := hc₁
  obtain ⟨v₂, t₂, r₂, f₂, -, p₂, -, c₂, x₂⟩ := hc₂
  obtain ⟨m₁, F₁, n₁, g₁, -⟩ := Props.typeCheck_final f₁.1 (Props.parsed_noBuiltinDecl p₁) c₁
  obtain ⟨m₂, F₂, n₂, g₂, -⟩ := Props.typeCheck_final f₂.1 (Props.parsed_noBuiltinDecl p₂) c₂
  rw [x₁] at n₁ g₁
  rw [x₂] at n₂ g₂
  have u₁ : Used old e₁.name := ⟨_, n₁, .refl⟩
  have u₂ : Used new e₂.name := ⟨_, n₂, .refl⟩
  constructor
  · rintro ⟨x, y, hx, hy, hr⟩
    rw [n₁] at hx
    rw [n₂] at hy
    cases hx
    cases hy
    obtain ⟨gs, h, hc⟩ := takes_of_stands F₁ F₂ o₁ o₂ hr u₁ u₂ _ _ g₁ g₂
    cases h
    exact hc
  · intro h
    exact ⟨_, _, n₁, n₂, stands_of_takes F₁ F₂ o₁ o₂ _ _ _ _ _ (Nat.le_refl _) u₁ u₂ g₁ g₂ ⟨_, rfl, h⟩⟩

/-! ### both ways -/

theorem stands_of_equal {old new : AST} {n m : Str} (h : Equal old new n m) : Stands old new n m ∧ Stands new old m n := by
  induction h with
  | builtin hb => exact ⟨.builtin hb, .builtin hb⟩
  | enum hv hu => exact ⟨.enum hv hu (List.prefix_refl _) rfl, .enum hu hv (List.prefix_refl _) rfl⟩
  | struct hf hg hs _ ih =>
    refine ⟨.struct hf hg hs fun p hp => (ih p hp).1, .struct hg hf ?_ fun p hp => (ih p.swap (zip_swap_mem hp)).2⟩
    exact (hs.imp fun f g h => ⟨h.1.symm, h.2.1.symm, h.2.2.symm⟩).flip

theorem equal_of_stands {old new : AST} (d₁ : ((decls old).map Prod.fst).Nodup) (d₂ : ((decls new).map Prod.fst).Nodup)
    (b₁ : ∀ n t, (n, t) ∈ decls old → n ∉ builtinNames) {n m : Str}
    (h : Stands old new n m) : Stands new old m n → Equal old new n m := by
  induction h with
  | builtin hb => exact fun _ => .builtin hb
  | @enum n vs us hv hu hle hw =>
    intro h
    cases h with
    | builtin hb => exact absurd hb (b₁ _ _ hv)
    | enum hu' hv' hle' _ =>
      cases decl_unique d₁ hv hv'
      cases decl_unique d₂ hu hu'
      obtain rfl := hle.eq_of_length (Nat.le_antisymm hle.length_le hle'.length_le)
      exact .enum hv hu
    | struct _ hf' _ _ => cases decl_unique d₁ hv hf'
  | @struct n m fs gs hf hg hs _ ih =>
    intro h
    cases h with
    | builtin hb => exact absurd hb (b₁ _ _ hf)
    | enum _ hv' _ _ => cases decl_unique d₁ hf hv'
    | struct hg' hf' _ hp' =>
      cases decl_unique d₁ hf hf'
      cases decl_unique d₂ hg hg'
      exact .struct hf hg hs fun p hp => ih p hp (hp' p.swap (zip_swap_mem hp))

theorem equalExports_iff {old new : AST} {e₁ e₂ : Js.Artifact} (hc₁ : Js.Compiled old e₁) (hc₂ : Js.Compiled new e₂) :
    EqualExports old new ↔ StandsFor old new ∧ StandsFor new old := by
  obtain ⟨v₁, t₁, r₁, f₁, -, p₁, -, c₁, x₁⟩ := hc₁
  obtain ⟨v₂, t₂, r₂, f₂, -, p₂, -, c₂, x₂⟩ := hc₂
  have b₁ := Props.parsed_noBuiltinDecl p₁
  obtain ⟨m₁, F₁, -⟩ := Props.typeCheck_final f₁.1 b₁ c₁
  obtain ⟨m₂, F₂, -⟩ := Props.typeCheck_final f₂.1 (Props.parsed_noBuiltinDecl p₂) c₂
  constructor
  · rintro ⟨x, y, hx, hy, h⟩
    exact ⟨⟨x, y, hx, hy, (stands_of_equal h).1⟩, y, x, hy, hx, (stands_of_equal h).2⟩
  · rintro ⟨⟨x, y, hx, hy, h⟩, y', x', hy', hx', h'⟩
    rw [hx] at hx'
    rw [hy] at hy'
    cases hx'
    cases hy'
    exact ⟨x, y, hx, hy, equal_of_stands F₁.nodup F₂.nodup (fun n t h => b₁ n ⟨t, h⟩) h h'⟩

/-- What can be replaced in Rust can be replaced in TypeScript. -/
theorem replaces_of_stands {old new : AST} {n m : Str} (h : Stands old new n m) : Compat.Replaces old new n m := by
  induction h with
  | builtin hb => exact .builtin hb
  | enum hv hu hl hw => exact .enum hv hu hl.length_le hw
  | struct hf hg hs _ ih => exact .struct hf hg hs ih

end Packetc.Rs
