import Verif.Proof.JsAccept
import Verif.Proof.JsVars
/-!
# Packets with a chosen number in every enum (for C36)
-/

namespace Packetc.Js
open Ast Check WellFormed

/-- Enums of the resolved export are the used enums of the schema. -/
theorem final_enums {ast : AST} {c : TypeMap} (hf : Final ast c) (hnb : NoBuiltinDecl ast) (P : REnum → Prop) (k : Nat) :
    ∀ n m t, sizeOf t ≤ k → c.get n = some (m, t) →
      (EnumsT P t ↔ ∀ j vs, Relation.ReflTransGen (Refers ast) n j → .decl j (.enum vs) ∈ ast → P (enumSpec vs)) := by
  induction k with
  | zero =>
    intro n m t hk
    have : 0 < sizeOf t := by cases t <;> simp
    omega
  | succ k ih =>
    intro n m t hk hg
    have hstop : (∀ fs, .decl n (.struct fs) ∉ ast) → ∀ j, Relation.ReflTransGen (Refers ast) n j → j = n := by
      intro hn j hr
      rcases hr.cases_head with h | ⟨b, ⟨fs, h, -⟩, -⟩
      · exact h.symm
      · exact absurd (mem_decls.1 h) (hn fs)
    rcases final_entry hf hg with ⟨hb, b, rfl, -⟩ | ⟨vs, e, hd, rfl⟩ | ⟨fs, fs', rfs, hd, hperm, rfl, hR⟩
    · refine iff_of_true trivial fun j vs hr h => ?_
      rw [hstop (fun fs h => hnb n ⟨_, mem_decls.2 h⟩ hb) j hr] at h
      exact absurd hb (hnb n ⟨_, mem_decls.2 h⟩)
    · have he : e = enumSpec vs := by
        have := (hf.enum n vs (mem_decls.2 hd)).2
        rw [hg] at this
        cases this
        rfl
      show P e ↔ _
      rw [he]
      constructor
      · intro h j ws hr hj
        rw [hstop (fun fs h => by cases decl_once hf h hd) j hr] at hj
        cases decl_once hf hj hd
        exact h
      · intro h
        exact h n vs .refl hd
    · show EnumsFs P rfs ↔ _
      have hall : EnumsFs P rfs ↔ ∀ rf ∈ rfs, EnumsT P rf.ty := by
        clear hR hg hk
        induction rfs with
        | nil => simp [EnumsFs]
        | cons f fs ih =>
          have : EnumsF P f ↔ EnumsT P f.ty := by cases f; rfl
          simp [EnumsFs, ih, this]
      rw [hall]
      constructor
      · intro h j vs hr hj
        rcases hr.cases_head with rfl | ⟨b, ⟨gs, hgs, f, hfm, rfl⟩, hr'⟩
        · cases decl_once hf hj hd
        · cases decl_once hf (mem_decls.1 hgs) hd
          obtain ⟨rf, hrf, hok⟩ := forall2_left hR f (hperm.mem_iff.2 hfm)
          have hsz := sizeOf_field hrf
          exact (ih _ _ rf.ty (by omega) hok.ty).1 (h rf hrf) j vs hr' hj
      · intro h rf hrf
        obtain ⟨f, hfm, hok⟩ := forall2_right hR rf hrf
        have hsz := sizeOf_field hrf
        refine (ih _ _ rf.ty (by omega) hok.ty).2 fun j vs hr hj => h j vs ?_ hj
        exact .head ⟨fs, mem_decls.2 hd, f, hperm.mem_iff.1 hfm, rfl⟩ hr

/-- 3, if this is between the variants. -/
def pick (e : REnum) : Int := if e.variants.length ≤ 2 then 1 else 3

section
variable (rt : Runtime)

mutual
/-- A value of the type and its bytes: numbers are 0 or as decoded, strings empty, arrays have one item, optionals are
present, enums are as chosen by `pick`. -/
def sampleT : RType → List UInt8 × JVal
  | .builtin b =>
    match scalarOf b with
    | some sc => (List.replicate sc.width 0, .num (rt.dec sc (List.replicate sc.width 0)))
    | none => (rt.enc .uint32 (.int 0), .str (rt.decS []))
  | .enum e => (rt.enc (reprScalar e.repr) (.int (pick e)), .num (.int (pick e)))
  | .struct fs => ((sampleFs fs).1, .obj (sampleFs fs).2)
def sampleFs : List (FieldOf RType) → List UInt8 × List (PropOf JVal)
  | [] => ([], [])
  | f :: fs => ((sampleF f).1 ++ (sampleFs fs).1, (sampleF f).2 :: (sampleFs fs).2)
def sampleF : FieldOf RType → List UInt8 × PropOf JVal
  | ⟨name, _, ty, array, optional⟩ =>
    ((if optional then rt.enc .uint8 (.int 1) else []) ++
      (if array then rt.enc .uint32 (.int 1) ++ (sampleT ty).1 else (sampleT ty).1),
     ⟨name, if array then .arr [(sampleT ty).2] else (sampleT ty).2⟩)
end

theorem holdsNum_enc {s : Scalar} {n : Num} (h : s.Ok n) : HoldsNum rt (fun _ _ => True) s (rt.enc s n) n :=
  ⟨rt.enc_len s n, trivial, rt.dec_enc s n h⟩

theorem pick_ok {e : REnum} (hs : SoundEnum e) (h31 : e.variants.length ≤ 31) :
    (reprScalar e.repr).Ok (.int (pick e)) ∧ 1 ≤ pick e ∧ pick e ≤ jsShl1 (e.variants.length - 1) := by
  obtain ⟨k, h1, h2, h3, -, h5, -, -⟩ := sound_values hs
  rw [jsShl1_small (by omega)]
  refine ⟨?_, ?_, ?_⟩
  · unfold pick
    cases e.repr <;> split <;> exact ⟨by decide, by decide⟩
  · unfold pick
    split <;> decide
  · unfold pick
    split
    · exact_mod_cast Nat.one_le_two_pow
    · have : 2 ^ 2 ≤ 2 ^ (e.variants.length - 1) := Nat.pow_le_pow_right (by decide) (by omega)
      have h4 : (2 : Int) ^ 2 ≤ 2 ^ (e.variants.length - 1) := by exact_mod_cast this
      omega

mutual
theorem sampleT_holds : (t : RType) → EnumsT (fun e => SoundEnum e ∧ e.variants.length ≤ 31) t →
    HoldsT rt (fun _ _ => True) (fun _ => True) (fun _ => True) t (sampleT rt t).1 (sampleT rt t).2
  | .builtin b, _ => by
    unfold HoldsT sampleT
    cases scalarOf b with
    | some sc => exact ⟨_, ⟨List.length_replicate, trivial, rfl⟩, rfl⟩
    | none => exact ⟨_, [], (List.append_nil _).symm, holdsNum_enc rt ⟨by decide, by decide⟩, trivial, rfl⟩
  | .enum e, h => ⟨pick e, holdsNum_enc rt (pick_ok h.1 h.2).1, (pick_ok h.1 h.2).2.1, (pick_ok h.1 h.2).2.2, rfl⟩
  | .struct fs, h => ⟨_, rfl, sampleFs_holds fs h⟩
theorem sampleFs_holds : (fs : List (FieldOf RType)) → EnumsFs (fun e => SoundEnum e ∧ e.variants.length ≤ 31) fs →
    HoldsFs rt (fun _ _ => True) (fun _ => True) (fun _ => True) fs (sampleFs rt fs).1 (sampleFs rt fs).2
  | [], _ => ⟨rfl, rfl⟩
  | f :: fs, h => ⟨_, _, _, _, rfl, rfl, sampleF_holds f h.1, sampleFs_holds fs h.2⟩
theorem sampleF_holds : (f : FieldOf RType) → EnumsF (fun e => SoundEnum e ∧ e.variants.length ≤ 31) f →
    HoldsF rt (fun _ _ => True) (fun _ => True) (fun _ => True) f (sampleF rt f).1 (sampleF rt f).2
  | ⟨name, tn, ty, array, optional⟩, h => by
    have ih := sampleT_holds ty h
    refine ⟨rfl, Or.inr ⟨if optional then rt.enc .uint8 (.int 1) else [], _, rfl, ?_, ?_⟩⟩
    · cases optional
      · rfl
      · exact ⟨_, holdsNum_enc rt ⟨by decide, by decide⟩, by decide, trivial⟩
    · cases array
      · exact ih
      · exact ⟨rt.enc .uint32 (.int 1), [(sampleT rt ty).1], [(sampleT rt ty).2], by simp,
          holdsNum_enc rt ⟨by decide, by decide⟩, rfl, .cons ih .nil⟩
end

theorem three_no_variant {e : REnum} (hs : SoundEnum e) : ¬ IsVariant e (.int 3) := by
  rintro ⟨v, hv, h⟩
  obtain ⟨k, h1, h2, h3, h4, -⟩ := sound_values hs
  have hlt := h4 v hv
  have h5 : (3 : Int) = jsShl1 v.value := by
    injection h
  unfold jsShl1 at h5
  rw [Nat.mod_eq_of_lt (by omega)] at h5
  split at h5
  · omega
  · have h6 : 3 = 2 ^ v.value := by exact_mod_cast h5
    match hvv : v.value, h6 with
    | 0, h6 => omega
    | n + 1, h6 => rw [Nat.pow_succ] at h6; omega

mutual
theorem sampleT_typed : (t : RType) → EnumsT SoundEnum t → TypedT (fun _ => True) IsVariant t (sampleT rt t).2 →
    EnumsT (fun e => e.variants.length ≤ 2) t
  | .builtin b, _, _ => trivial
  | .enum e, hs, h => by
    show e.variants.length ≤ 2
    obtain ⟨n, h1, h2⟩ := h
    by_contra hc
    have hp : pick e = 3 := if_neg hc
    have h1' : JVal.num (.int (pick e)) = .num n := h1
    injection h1' with h1'
    subst h1'
    rw [hp] at h2
    exact three_no_variant hs h2
  | .struct fs, hs, h => by
    obtain ⟨ps, h1, h2⟩ := h
    have h1' : JVal.obj (sampleFs rt fs).2 = .obj ps := h1
    injection h1' with h1'
    subst h1'
    exact sampleFs_typed fs hs h2
theorem sampleFs_typed : (fs : List (FieldOf RType)) → EnumsFs SoundEnum fs → TypedFs (fun _ => True) IsVariant fs (sampleFs rt fs).2 →
    EnumsFs (fun e => e.variants.length ≤ 2) fs
  | [], _, _ => trivial
  | f :: fs, hs, h => by
    obtain ⟨p, qs, h1, h2, h3⟩ := h
    have h1' : (sampleF rt f).2 :: (sampleFs rt fs).2 = p :: qs := h1
    injection h1' with h4 h5
    subst h4 h5
    exact ⟨sampleF_typed f hs.1 h2, sampleFs_typed fs hs.2 h3⟩
theorem sampleF_typed : (f : FieldOf RType) → EnumsF SoundEnum f → TypedF (fun _ => True) IsVariant f (sampleF rt f).2 →
    EnumsF (fun e => e.variants.length ≤ 2) f
  | ⟨name, tn, ty, array, optional⟩, hs, h => by
    have ih := sampleT_typed ty hs
    show EnumsT _ ty
    have hne : ∀ t, EnumsT SoundEnum t → (sampleT rt t).2 ≠ .undef := by
      intro t ht h
      have h' : (sampleT rt t).2 = .undef := h
      cases t with
      | builtin b => unfold sampleT at h'; cases hb : scalarOf b <;> rw [hb] at h' <;> cases h'
      | enum e => cases h'
      | struct fs => cases h'
    rcases h.2 with ⟨-, h1⟩ | h1
    · cases array
      · exact absurd h1 (hne ty hs)
      · cases h1
    · cases array
      · exact ih h1
      · obtain ⟨js, h2, -, h3⟩ := h1
        have h2' : JVal.arr [(sampleT rt ty).2] = .arr js := h2
        injection h2' with h2'
        subst h2'
        exact ih (h3 _ List.mem_cons_self)
end

end

end Packetc.Js
