import Verif.Spec.SameVal
import Verif.Proof.Bridge
import Mathlib.Data.List.Nodup
/-!
# Rust values with the same TypeScript value (C131)
-/

namespace Packetc.Rs
open Check
open Js (Num Scalar JVal PropOf scalarOf jsShl1 canonF SoundEnum EnumsT EnumsFs EnumsF)

theorem jsShl1_inj {a b : Nat} (ha : a < 32) (hb : b < 32) (h : jsShl1 a = jsShl1 b) : a = b := by
  have key : ∀ a < 32, ∀ b < 32, jsShl1 a = jsShl1 b → a = b := by decide +kernel
  exact key a ha b hb h

theorem jsNum_same {n m : Num} (h : jsNum n = jsNum m) : SameVal (.num n) (.num m) := by
  cases n with
  | int i =>
    cases m with
    | int j => cases h; exact .refl _
    | f32 b => cases h
  | f32 a =>
    cases m with
    | int j => cases h
    | f32 b =>
      have h : canonF a = canonF b := Num.f32.inj h
      unfold canonF at h
      by_cases ha : IsNan a
      · by_cases hb : IsNan b
        · exact .nan ha hb
        · unfold IsNan at ha hb
          rw [if_pos ha, if_neg hb] at h
          subst h
          exact absurd (by decide) hb
      · by_cases hb : IsNan b
        · unfold IsNan at ha hb
          rw [if_neg ha, if_pos hb] at h
          subst h
          exact absurd (by decide) ha
        · unfold IsNan at ha hb
          rw [if_neg ha, if_neg hb] at h
          rw [h]
          exact .refl _

variable {lim lim' : Nat}

theorem variant_js {e : REnum} {tn : Str} {w : EnumVariant} (hw : w ∈ e.variants) :
    ∃ w' ∈ e.variants, w'.name = w.name ∧ jsT (.enum e) (.variant tn w.name) = .num (.int (jsShl1 w'.value)) := by
  cases hx : e.variants.find? fun x => x.name = w.name with
  | none => exact absurd (List.find?_eq_none.1 hx w hw) (by simp)
  | some w' =>
    refine ⟨w', List.mem_of_find?_eq_some hx, by simpa using List.find?_some hx, ?_⟩
    unfold jsT
    simp only [hx]

mutual
theorem js_same (tn : Str) : (t : RType) → EnumsT SoundEnum t → ∀ v w, ValT lim tn t v → ValT lim' tn t w → jsT t v = jsT t w → SameVal v w
  | .builtin b, _, v, w, hv, hw, h => by
    unfold ValT at hv hw
    cases hb : scalarOf b with
    | some sc =>
      rw [hb] at hv hw
      obtain ⟨n, rfl, -⟩ := hv
      obtain ⟨m, rfl, -⟩ := hw
      exact jsNum_same (JVal.num.inj h)
    | none =>
      rw [hb] at hv hw
      obtain ⟨n, rfl, -⟩ := hv
      obtain ⟨m, rfl, -⟩ := hw
      obtain rfl : n = m := JVal.str.inj h
      exact .refl _
  | .enum e, he, v, w, hv, hw, h => by
    obtain ⟨vs, ⟨-, h32, -⟩, hr⟩ := he
    obtain ⟨x, hx, rfl⟩ := hv
    obtain ⟨y, hy, rfl⟩ := hw
    obtain ⟨x', hx', hxn, ex⟩ := variant_js (tn := tn) hx
    obtain ⟨y', hy', hyn, ey⟩ := variant_js (tn := tn) hy
    rw [ex, ey] at h
    have lt : ∀ z ∈ e.variants, z.value < 32 := fun z hz => by
      have : z.value ∈ List.range vs.length := hr.values ▸ List.mem_map_of_mem hz
      have := List.mem_range.1 this
      omega
    have hval := jsShl1_inj (lt x' hx') (lt y' hy') (Num.int.inj (JVal.num.inj h))
    have hnd : (e.variants.map EnumVariant.value).Nodup := by rw [hr.values]; exact List.nodup_range
    have := List.inj_on_of_nodup_map hnd hx' hy' hval
    rw [← hxn, ← hyn, this]
    exact .refl _
  | .struct fs, he, v, w, hv, hw, h => by
    obtain ⟨ps, rfl, hps⟩ := hv
    obtain ⟨qs, rfl, hqs⟩ := hw
    obtain ⟨h1, h2⟩ := jsFs_same fs he ps qs hps hqs (JVal.obj.inj h)
    exact .struct h1 h2
theorem jsFs_same : (fs : List (FieldOf RType)) → EnumsFs SoundEnum fs → ∀ ps qs, ValFs lim fs ps → ValFs lim' fs qs → jsFs fs ps = jsFs fs qs →
    ps.map Prod.fst = qs.map Prod.fst ∧ List.Forall₂ SameVal (ps.map Prod.snd) (qs.map Prod.snd)
  | [], _, ps, qs, hp, hq, _ => by
    obtain rfl : ps = [] := hp
    obtain rfl : qs = [] := hq
    exact ⟨rfl, .nil⟩
  | f :: fs, he, ps, qs, hp, hq, h => by
    obtain ⟨p, ps, rfl, h1, h2⟩ := hp
    obtain ⟨q, qs, rfl, h3, h4⟩ := hq
    have h : (⟨p.1, jsF f p.2⟩ : PropOf JVal) :: jsFs fs ps = ⟨q.1, jsF f q.2⟩ :: jsFs fs qs := h
    obtain ⟨h5, h6⟩ := List.cons.inj h
    obtain ⟨h7, h8⟩ := PropOf.mk.inj h5
    obtain ⟨h9, h10⟩ := jsFs_same fs he.2 ps qs h2 h4 h6
    exact ⟨by rw [List.map_cons, List.map_cons, h7, h9], .cons (jsF_same f he.1 p q h1 h3 h8) h10⟩
theorem jsF_same : (f : FieldOf RType) → EnumsF SoundEnum f → ∀ p q, ValF lim f p → ValF lim' f q → jsF f p.2 = jsF f q.2 → SameVal p.2 q.2
  | ⟨name, tn, ty, array, optional⟩, he, ⟨pn, pv⟩, ⟨qn, qv⟩, hp, hq, h => by
    have ht := js_same tn ty he
    have hne : ∀ {l : Nat} v, ValT l tn ty v → jsT ty v ≠ .undef := by
      intro l v hv hu
      cases ty with
      | builtin b =>
        unfold ValT at hv
        cases hb : scalarOf b with
        | some sc => rw [hb] at hv; obtain ⟨n, rfl, -⟩ := hv; cases hu
        | none => rw [hb] at hv; obtain ⟨n, rfl, -⟩ := hv; cases hu
      | enum e =>
        obtain ⟨x, hx, rfl⟩ := hv
        obtain ⟨x', -, -, ex⟩ := variant_js (tn := tn) hx
        rw [ex] at hu
        cases hu
      | struct fs => obtain ⟨ps, rfl, -⟩ := hv; cases hu
    have hsome : ∀ v, jsF ⟨name, tn, ty, array, optional⟩ (if optional = true then Val.some v else v) =
        (if array then match v with | .vec vs => .arr (vs.map fun x => jsT ty x) | _ => .undef else jsT ty v) := by
      intro v
      cases optional <;> cases array <;> rfl
    have wrap : ∀ v w, SameVal v w → SameVal (if optional = true then Val.some v else v) (if optional = true then Val.some w else w) := by
      intro v w hs
      cases optional with
      | false => exact hs
      | true => exact .some hs
    obtain ⟨-, ⟨h1, h2⟩ | ⟨v, h1, h2⟩⟩ := hp <;> obtain ⟨-, ⟨h3, h4⟩ | ⟨w, h3, h4⟩⟩ := hq
    · simp only at h2 h4
      subst h2 h4
      exact .refl _
    · simp only at h2 h3 h
      subst h2 h3 h1
      rw [hsome] at h
      cases array with
      | true => obtain ⟨ws, rfl, -⟩ := h4; cases h
      | false => exact absurd h.symm (hne w h4)
    · simp only at h1 h4 h
      subst h1 h4 h3
      rw [hsome] at h
      cases array with
      | true => obtain ⟨ws, rfl, -⟩ := h2; cases h
      | false => exact absurd h (hne v h2)
    · simp only at h1 h3 h
      subst h1 h3
      rw [hsome, hsome] at h
      refine wrap v w ?_
      cases array with
      | false => exact ht v w h2 h4 h
      | true =>
        obtain ⟨vs, rfl, -, h5⟩ := h2
        obtain ⟨ws, rfl, -, h6⟩ := h4
        replace h : vs.map (fun x => jsT ty x) = ws.map fun x => jsT ty x := JVal.arr.inj h
        refine .vec ?_
        clear hsome wrap
        induction vs generalizing ws with
        | nil =>
          cases ws with
          | nil => exact .nil
          | cons w ws => cases h
        | cons v vs ih =>
          cases ws with
          | nil => cases h
          | cons w ws =>
            obtain ⟨h7, h8⟩ := List.cons.inj h
            exact .cons (ht v w (h5 v List.mem_cons_self) (h6 w List.mem_cons_self) h7)
              (ih (fun x hx => h5 x (List.mem_cons_of_mem _ hx)) ws (fun x hx => h6 x (List.mem_cons_of_mem _ hx)) h8)
end

end Packetc.Rs
