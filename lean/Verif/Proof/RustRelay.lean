import Verif.Spec.RustRelay
import Verif.Proof.RustEvolution
/-!
# When the bytes of a value are those that are written
-/

namespace Packetc.Rs
open Ast Check WellFormed RustGen Evolution
open Js (Num Scalar utf8Enc AllT AllFs AllF scalarOf EnumsT EnumsFs EnumsF SoundEnum reprScalar)

set_option linter.unusedSectionVars false

variable {lib : Lib}

section
variable (hl : OneCode lib)
include hl

theorem OneCode.of_dec {s : Scalar} {bs : List UInt8} {n : Num} (h : bs.length = s.width) (hd : lib.dec s bs = n) : bs = lib.enc s n := by
  rw [← hd, hl s bs h]

mutual
/-- With flags 0 and 1, there is only one way to write a value. -/
theorem neat_enc (tn : Str) : (t : RType) → EnumsT SoundEnum t → AllT NoOptArrays t → ∀ bs v, NeatT lib tn t bs v → bs = encT lib t v
  | .builtin b, _, _, bs, v, h => by
    unfold NeatT at h
    unfold encT
    cases hb : scalarOf b with
    | some sc =>
      rw [hb] at h
      obtain ⟨h1, rfl⟩ := h
      exact OneCode.of_dec hl h1 rfl
    | none =>
      rw [hb] at h
      obtain ⟨len, s, rfl, h1, h2, rfl⟩ := h
      show _ = lib.enc .uint32 _ ++ _
      rw [← OneCode.of_dec hl (s := .uint32) h1 h2]
  | .enum e, he, _, bs, v, h => by
    obtain ⟨h1, w, hw, h2, rfl⟩ := h
    cases hx : e.variants.find? fun x => x.name = w.name with
    | none => exact absurd (List.find?_eq_none.1 hx w hw) (by simp)
    | some w' =>
      have hw' : w' ∈ e.variants := List.mem_of_find?_eq_some hx
      have hn : w'.name = w.name := by simpa using List.find?_some hx
      obtain rfl := sound_name_inj he hw' hw hn
      unfold encT
      simp only [hx]
      exact OneCode.of_dec hl h1 h2
  | .struct fs, he, ha, bs, v, h => by
    obtain ⟨ps, rfl, h⟩ := h
    exact neatFs_enc fs he ha.1 ha.2 bs ps h
theorem neatFs_enc : (fs : List (FieldOf RType)) → EnumsFs SoundEnum fs → NoOptArrays fs → AllFs NoOptArrays fs → ∀ bs ps,
    NeatFs lib fs bs ps → bs = encFs lib fs ps
  | [], _, _, _, bs, ps, h => by rw [h.1]; rfl
  | f :: fs, he, hn, ha, bs, ps, h => by
    obtain ⟨b₁, b₂, v, qs, rfl, rfl, h1, h2⟩ := h
    show _ = encF lib f v ++ encFs lib fs qs
    rw [← neatF_enc f he.1 (hn f List.mem_cons_self) ha.1 b₁ v h1,
      ← neatFs_enc fs he.2 (fun g hg => hn g (List.mem_cons_of_mem _ hg)) ha.2 b₂ qs h2]
theorem neatF_enc : (f : FieldOf RType) → EnumsF SoundEnum f → ¬ (f.array = true ∧ f.optional = true) → AllF NoOptArrays f → ∀ bs v,
    NeatF lib f bs v → bs = encF lib f v
  | ⟨n, tn, t, a, o⟩, he, hn, ha, bs, v, h => by
    have key := neat_enc tn t he ha
    cases o with
    | true =>
      cases a with
      | true => exact absurd ⟨rfl, rfl⟩ hn
      | false =>
        obtain ⟨flag, body, rfl, h1, ⟨h2, rfl, rfl⟩ | ⟨h2, w, rfl, h3⟩⟩ := h
        · rw [List.append_nil]
          exact OneCode.of_dec hl (s := .uint8) h1 h2
        · show _ = lib.enc .uint8 (.int 1) ++ encT lib t w
          rw [← OneCode.of_dec hl (s := .uint8) h1 h2, ← key _ _ h3]
    | false =>
      cases a with
      | true =>
        obtain ⟨len, items, vs, rfl, h1, h2, -, rfl, h4⟩ := h
        show _ = lib.enc .uint32 (.int vs.length) ++ (vs.map fun x => encT lib t x).flatten
        rw [← OneCode.of_dec hl (s := .uint32) h1 h2]
        congr 2
        clear h1 h2
        induction h4 with
        | nil => rfl
        | cons h5 _ ih => rw [List.map_cons, ← ih, ← key _ _ h5]
      | false => exact key _ _ h
end
end

section
variable {P : Prog} {lim : Nat} (h1 : lim ≤ 2 ^ 32) (h2 : lim ≤ lib.maxItems + 1)
include h1 h2

mutual
/-- What is written has flags 0 and 1. -/
theorem enc_neat (tn : Str) : (t : RType) → EnumsT SoundEnum t → AllT NoOptArrays t →
    ∀ v, ValT lim tn t v → NeatT lib tn t (encT lib t v) v
  | .builtin b, _, _, v, hv => by
    cases hb : scalarOf b with
    | some sc =>
      unfold ValT at hv
      rw [hb] at hv
      obtain ⟨n, rfl, hn⟩ := hv
      unfold NeatT encT
      rw [hb]
      exact ⟨lib.enc_len _ _, by rw [lib.dec_enc _ _ hn]⟩
    | none =>
      unfold ValT at hv
      rw [hb] at hv
      obtain ⟨s, rfl, hs⟩ := hv
      unfold NeatT encT
      rw [hb]
      exact ⟨_, s, rfl, lib.enc_len _ _, dec_u32 lib hs, rfl⟩
  | .enum e, he, _, v, hv => by
    obtain ⟨w, hw, rfl⟩ := hv
    cases hx : e.variants.find? fun x => x.name = w.name with
    | none => exact absurd (List.find?_eq_none.1 hx w hw) (by simp)
    | some w' =>
      have hw' : w' ∈ e.variants := List.mem_of_find?_eq_some hx
      have hn : w'.name = w.name := by simpa using List.find?_some hx
      have hE : encT lib (.enum e) (.variant tn w.name) = lib.enc (reprScalar e.repr) (.int (2 ^ w'.value)) := by
        unfold encT
        simp only [hx]
      rw [hE]
      exact ⟨lib.enc_len _ _, w', hw', lib.dec_enc _ _ (ok_pow he hw'), by rw [hn]⟩
  | .struct fs, he, ha, v, hv => by
    obtain ⟨ps, rfl, hps⟩ := hv
    exact ⟨ps, rfl, encFs_neat fs he ha.1 ha.2 ps hps⟩
theorem encFs_neat : (fs : List (FieldOf RType)) → EnumsFs SoundEnum fs → NoOptArrays fs → AllFs NoOptArrays fs → ∀ ps,
    ValFs lim fs ps → NeatFs lib fs (encFs lib fs ps) ps
  | [], _, _, _, ps, hps => ⟨rfl, hps⟩
  | f :: fs, he, hn, ha, ps, hps => by
    obtain ⟨⟨n, v⟩, qs, rfl, hp, hqs⟩ := hps
    have hname : n = f.name := by
      obtain ⟨_, _, _, _, _⟩ := f
      exact hp.1
    subst hname
    exact ⟨_, _, v, qs, rfl, rfl, encF_neat f he.1 (hn f List.mem_cons_self) ha.1 v hp,
      encFs_neat fs he.2 (fun g hg => hn g (List.mem_cons_of_mem _ hg)) ha.2 qs hqs⟩
theorem encF_neat : (f : FieldOf RType) → EnumsF SoundEnum f → ¬ (f.array = true ∧ f.optional = true) → AllF NoOptArrays f → ∀ v,
    ValF lim f (f.name, v) → NeatF lib f (encF lib f v) v
  | ⟨n, tn, t, a, o⟩, he, hn, ha, v, hv => by
    have ht := enc_neat tn t he ha
    cases o with
    | true =>
      cases a with
      | true => exact absurd ⟨rfl, rfl⟩ hn
      | false =>
        obtain ⟨-, ⟨-, hv⟩ | ⟨w, hv, hw⟩⟩ := hv
        · have hv : v = .none := hv
          rw [hv]
          exact ⟨_, [], (List.append_nil _).symm, lib.enc_len _ _, Or.inl ⟨lib.dec_enc _ _ ⟨by decide, by decide⟩, rfl, rfl⟩⟩
        · have hv : v = .some w := hv
          rw [hv]
          exact ⟨_, _, rfl, lib.enc_len _ _, Or.inr ⟨lib.dec_enc .uint8 (.int 1) ⟨by decide, by decide⟩, w, rfl, ht w hw⟩⟩
    | false =>
      have hv' : if a = true then ∃ vs, v = .vec vs ∧ vs.length < lim ∧ ∀ w ∈ vs, ValT lim tn t w else ValT lim tn t v := by
        obtain ⟨-, ⟨h, -⟩ | ⟨w, hv, hw⟩⟩ := hv
        · cases h
        · have hv : v = w := hv
          rw [hv]
          exact hw
      cases a with
      | false => exact ht v hv'
      | true =>
        obtain ⟨vs, rfl, hl, hw⟩ := hv'
        refine ⟨_, vs.map fun x => encT lib t x, vs, rfl, lib.enc_len _ _, dec_u32 lib (by omega), by omega, rfl, ?_⟩
        clear hl hv
        induction vs with
        | nil => exact .nil
        | cons x vs ih => exact .cons (ht x (hw x (by simp))) (ih fun w h => hw w (by simp [h]))
end
end

/-- No field is optional. -/
abbrev NoOpts (fs : List (FieldOf RType)) : Prop := ∀ f ∈ fs, f.optional = false

mutual
/-- Without optional fields, there are no flags. -/
theorem has_neat (tn : Str) : (t : RType) → AllT NoOpts t → ∀ bs v, HasT lib tn t bs v → NeatT lib tn t bs v
  | .builtin b, _, bs, v, h => by
    unfold NeatT
    unfold HasT at h
    exact h
  | .enum e, _, bs, v, h => h
  | .struct fs, ha, bs, v, h => by
    obtain ⟨ps, rfl, h⟩ := h
    exact ⟨ps, rfl, hasFs_neat fs ha.1 ha.2 bs ps h⟩
theorem hasFs_neat : (fs : List (FieldOf RType)) → NoOpts fs → AllFs NoOpts fs → ∀ bs ps, HasFs lib fs bs ps → NeatFs lib fs bs ps
  | [], _, _, bs, ps, h => h
  | f :: fs, hn, ha, bs, ps, h => by
    obtain ⟨b₁, b₂, v, qs, rfl, rfl, h1, h2⟩ := h
    exact ⟨b₁, b₂, v, qs, rfl, rfl, hasF_neat f (hn f List.mem_cons_self) ha.1 b₁ v h1,
      hasFs_neat fs (fun g hg => hn g (List.mem_cons_of_mem _ hg)) ha.2 b₂ qs h2⟩
theorem hasF_neat : (f : FieldOf RType) → f.optional = false → AllF NoOpts f → ∀ bs v, HasF lib f bs v → NeatF lib f bs v
  | ⟨n, tn, t, a, o⟩, hn, ha, bs, v, h => by
    have key := has_neat tn t ha
    have hn : o = false := hn
    subst hn
    cases a with
    | true =>
      obtain ⟨len, items, vs, rfl, h1, h2, h3, rfl, h4⟩ := h
      exact ⟨len, items, vs, rfl, h1, h2, h3, rfl, h4.imp fun _ _ => key _ _⟩
    | false => exact key _ _ h
end

section
variable (lib)
mutual
/-- The bytes of the value with everything in it, but with flags 2. -/
def oddT (tn : Str) : RType → List UInt8
  | .builtin b => encT lib (.builtin b) (lastT tn (.builtin b))
  | .enum e => encT lib (.enum e) (lastT tn (.enum e))
  | .struct fs => oddFs fs
def oddFs : List (FieldOf RType) → List UInt8
  | [] => []
  | f :: fs => oddF f ++ oddFs fs
def oddF : FieldOf RType → List UInt8
  | ⟨_, tn, ty, array, optional⟩ =>
    if optional then lib.enc .uint8 (.int 2) ++ oddT tn ty
    else if array then lib.enc .uint32 (.int 1) ++ oddT tn ty
    else oddT tn ty
end
end

mutual
theorem sim_refl : (t : RType) → SimT (· = ·) (· = ·) (· = ·) t t
  | .builtin _ => rfl
  | .enum e => ⟨e, rfl, rfl⟩
  | .struct fs => ⟨fs, rfl, simFs_refl fs⟩
theorem simFs_refl : (fs : List (FieldOf RType)) → SimFs (· = ·) (· = ·) (· = ·) fs fs
  | [] => rfl
  | f :: fs => ⟨f, fs, rfl, simF_refl f, simFs_refl fs⟩
theorem simF_refl : (f : FieldOf RType) → SimF (· = ·) (· = ·) (· = ·) f f
  | ⟨_, _, t, _, _⟩ => ⟨rfl, rfl, rfl, rfl, sim_refl t⟩
end

section
variable {P : Prog} (hm : 1 ≤ lib.maxItems)
include hm

mutual
theorem odd_has (tn : Str) : (t : RType) → EnumsT SoundEnum t → DefT P tn t → HasT lib tn t (oddT lib tn t) (lastT tn t)
  | .builtin b, he, hd => by
    unfold oddT
    exact enc_has lib (lim := 2) (P := P) (by decide) (by omega) tn _ he hd _ (last_val (by decide) tn _ he hd)
  | .enum e, he, hd => by
    unfold oddT
    exact enc_has lib (lim := 2) (P := P) (by decide) (by omega) tn _ he hd _ (last_val (by decide) tn _ he hd)
  | .struct fs, he, hd => ⟨_, rfl, oddFs_has fs he hd.2⟩
theorem oddFs_has : (fs : List (FieldOf RType)) → EnumsFs SoundEnum fs → DefFs P fs → HasFs lib fs (oddFs lib fs) (lastFs fs)
  | [], _, _ => ⟨rfl, rfl⟩
  | f :: fs, he, hd => ⟨_, _, _, _, rfl, rfl, oddF_has f he.1 hd.1, oddFs_has fs he.2 hd.2⟩
theorem oddF_has : (f : FieldOf RType) → EnumsF SoundEnum f → DefF P f → HasF lib f (oddF lib f) (lastF f)
  | ⟨n, tn, t, a, o⟩, he, hd => by
    have key := odd_has tn t he hd.1
    cases o with
    | true =>
      refine ⟨_, _, rfl, lib.enc_len _ _, Or.inr ⟨?_, _, rfl, key⟩⟩
      rw [lib.dec_enc .uint8 (.int 2) ⟨by decide, by decide⟩]
      simp
    | false =>
      cases a with
      | true =>
        exact ⟨_, [oddT lib tn t], [lastT tn t], by simp only [List.flatten_cons, List.flatten_nil, List.append_nil]; rfl, lib.enc_len _ _,
          lib.dec_enc .uint32 (.int 1) ⟨by decide, by decide⟩, hm, rfl, .cons key .nil⟩
      | false => exact key
end

theorem odd_length {f : FieldOf RType} (he : EnumsF SoundEnum f) (hd : DefF P f) (hn : ¬ (f.array = true ∧ f.optional = true))
    (ha : AllF NoOptArrays f) : (oddF lib f).length = (encF lib f (lastF f)).length := by
  have h1 := oddF_has (lib := lib) hm f he hd
  have h2 := encF_has lib (lim := 2) (by decide) (by omega) f he hd _ (lastF_val (by decide) f he hd)
  have h3 := last_le_field f _ h1
  have h4 := last_le_field f _ h2
  have h5 := last_ge_field f hn ha f _ (simF_refl f) h1
  have h6 := last_ge_field f hn ha f _ (simF_refl f) h2
  omega

mutual
/-- They are what is written only if there are no optional fields. -/
theorem odd_opts (tn : Str) : (t : RType) → EnumsT SoundEnum t → DefT P tn t → AllT NoOptArrays t →
    oddT lib tn t = encT lib t (lastT tn t) → AllT NoOpts t
  | .builtin _, _, _, _, _ => True.intro
  | .enum _, _, _, _, _ => True.intro
  | .struct fs, he, hd, ha, h => oddFs_opts fs he hd.2 ha.1 ha.2 h
theorem oddFs_opts : (fs : List (FieldOf RType)) → EnumsFs SoundEnum fs → DefFs P fs → NoOptArrays fs → AllFs NoOptArrays fs →
    oddFs lib fs = encFs lib fs (lastFs fs) → NoOpts fs ∧ AllFs NoOpts fs
  | [], _, _, _, _, _ => ⟨fun _ h => absurd h (by simp), True.intro⟩
  | f :: fs, he, hd, hn, ha, h => by
    have hf := hn f List.mem_cons_self
    have h : oddF lib f ++ oddFs lib fs = encF lib f (lastF f) ++ encFs lib fs (lastFs fs) := h
    obtain ⟨h1, h2⟩ := List.append_inj h (odd_length hm he.1 hd.1 hf ha.1)
    obtain ⟨h3, h4⟩ := oddF_opts f he.1 hd.1 hf ha.1 h1
    obtain ⟨h5, h6⟩ := oddFs_opts fs he.2 hd.2 (fun g hg => hn g (List.mem_cons_of_mem _ hg)) ha.2 h2
    exact ⟨List.forall_mem_cons.2 ⟨h3, h5⟩, h4, h6⟩
theorem oddF_opts : (f : FieldOf RType) → EnumsF SoundEnum f → DefF P f → ¬ (f.array = true ∧ f.optional = true) → AllF NoOptArrays f →
    oddF lib f = encF lib f (lastF f) → f.optional = false ∧ AllF NoOpts f
  | ⟨n, tn, t, a, o⟩, he, hd, hn, ha, h => by
    have key := odd_opts tn t he hd.1 ha
    cases o with
    | true =>
      cases a with
      | true => exact absurd ⟨rfl, rfl⟩ hn
      | false =>
        have h : lib.enc .uint8 (.int 2) ++ oddT lib tn t = lib.enc .uint8 (.int 1) ++ encT lib t (lastT tn t) := h
        have h1 := (List.append_inj h (by rw [lib.enc_len, lib.enc_len])).1
        have h2 := congrArg (lib.dec .uint8) h1
        rw [lib.dec_enc .uint8 (.int 2) ⟨by decide, by decide⟩, lib.dec_enc .uint8 (.int 1) ⟨by decide, by decide⟩] at h2
        exact absurd h2 (by decide)
    | false =>
      refine ⟨rfl, ?_⟩
      cases a with
      | true =>
        have h : lib.enc .uint32 (.int 1) ++ oddT lib tn t = lib.enc .uint32 (.int 1) ++ (encT lib t (lastT tn t) ++ []) := h
        rw [List.append_nil] at h
        exact key (List.append_cancel_left h)
      | false => exact key h
end
end

end Packetc.Rs
