import Verif.Proof.RustTop
import Verif.Props.Exact
import Verif.Props.Names
/-!
# Exactly when the emitted Rust functions behave
-/

namespace Packetc.Rs
open Ast Check WellFormed
open Js (Num Scalar utf8Enc scalarOf reprScalar SoundEnum EnumsT EnumsFs EnumsF builtinName mem_decls final_all final_entry final_struct
  AllT AllFs AllF allFs_iff)

section
variable {ast : AST} {r : Resolved}

theorem Checked.compiled (hc : Checked ast r) : ∃ code, Js.Compiled ast ⟨r.export, code⟩ := by
  obtain ⟨ord, text, ho, hp, ht⟩ := hc
  exact ⟨_, Props.compiled_of hp ho ht rfl⟩

theorem checked_sound (hc : Checked ast r) : EnumsFs SoundEnum r.export.fields := by
  obtain ⟨code, h⟩ := hc.compiled
  exact Js.soundFs_enums _ (Props.compiled_sound h)

theorem checked_enums (hc : Checked ast r) (Q : Nat → Prop) : EnumsFs (fun e => Q e.variants.length) r.export.fields ↔
    ∀ n vs, Used ast n → .decl n (.enum vs) ∈ ast → Q vs.length := by
  obtain ⟨code, h⟩ := hc.compiled
  exact Props.compiled_enums h Q

theorem checked_small (hc : Checked ast r) : EnumsFs Small r.export.fields ↔
    ∀ n vs, Used ast n → .decl n (.enum vs) ∈ ast → vs.length ≤ 31 := by
  rw [← checked_enums hc (· ≤ 31)]
  constructor
  · exact fun h => Js.enumsFs_imp (fun e he => he.2) _ h
  · exact fun h => Js.enumsFs_and _ (checked_sound hc) h

/-- A property of all fields of the exported type, said of the schema. -/
theorem checked_fields (hc : Checked ast r) (Q : Str × Unresolved → Prop) :
    AllT (fun fs => ∀ f ∈ fs, Q (f.name, ⟨f.tyName, f.array, f.optional⟩)) (.struct r.export.fields) ↔
      ∀ n fs, Used ast n → .decl n (.struct fs) ∈ ast → ∀ f ∈ fs, Q f := by
  obtain ⟨ord, text, ho, hp, ht⟩ := hc
  have hnb := Props.parsed_noBuiltinDecl hp
  obtain ⟨c, hf, hex, hg, -, -, -⟩ := Props.typeCheck_final ho hnb ht
  refine (final_all hf hnb _ _ _ _ _ (Nat.le_refl _) hg).trans ?_
  have hiff : ∀ {fs' : List (Str × Unresolved)} {rfs : List (FieldOf RType)}, List.Forall₂ (FieldOk c) fs' rfs →
      ((∀ f ∈ rfs, Q (f.name, ⟨f.tyName, f.array, f.optional⟩)) ↔ ∀ f ∈ fs', Q f) := by
    intro fs' rfs h
    induction h with
    | nil => simp
    | @cons a b l l' hab _ ih =>
      have : (b.name, ⟨b.tyName, b.array, b.optional⟩) = a := by
        obtain ⟨n, u, ar, op⟩ := a
        rw [hab.name, hab.tyName, hab.array, hab.optional]
      simp only [List.forall_mem_cons, ih, this]
  constructor
  · rintro h n fs ⟨x, hx, hr⟩ hd
    rw [hex] at hx
    cases hx
    obtain ⟨_, rfs, p, h2, -⟩ := hf.struct n fs (mem_decls.2 hd)
    obtain ⟨fs', rfs', h3, h4, h5⟩ := final_struct hf hnb h2 hd
    cases h4
    exact fun f hfm => (hiff h5).1 (h n rfs n hr h2) f (h3.mem_iff.2 hfm)
  · intro h n rfs i hr hj
    rcases final_entry hf hj with ⟨-, b, h2, -⟩ | ⟨vs, e, -, h2⟩ | ⟨fs, fs', rfs', hd, h3, h2, h4⟩
    · cases h2
    · cases h2
    · cases h2
      exact (hiff h4).2 fun f hfm => h n fs ⟨_, hex, hr⟩ hd f (h3.mem_iff.1 hfm)

/-- There are no optional arrays. -/
theorem checked_plain (hc : Checked ast r) : ∀ n fs, Used ast n → .decl n (.struct fs) ∈ ast → ∀ f ∈ fs,
    ¬ (f.2.array = true ∧ f.2.optional = true) := by
  obtain ⟨ord, text, ho, hp, ht⟩ := hc
  exact fun n fs _ hd => ((Props.C12_text ho hp).1 ⟨r, ht⟩).noOptArray n fs (mem_decls.2 hd)

end

mutual
theorem allT_imp {Q R : List (FieldOf RType) → Prop} (h : ∀ fs, Q fs → R fs) : (t : RType) → AllT Q t → AllT R t
  | .builtin _, _ => True.intro
  | .enum _, _ => True.intro
  | .struct fs, ht => ⟨h fs ht.1, allFs_imp h fs ht.2⟩
theorem allFs_imp {Q R : List (FieldOf RType) → Prop} (h : ∀ fs, Q fs → R fs) : (fs : List (FieldOf RType)) → AllFs Q fs → AllFs R fs
  | [], _ => True.intro
  | f :: fs, ht => ⟨allF_imp h f ht.1, allFs_imp h fs ht.2⟩
theorem allF_imp {Q R : List (FieldOf RType) → Prop} (h : ∀ fs, Q fs → R fs) : (f : FieldOf RType) → AllF Q f → AllF R f
  | ⟨_, _, t, _, _⟩, ht => allT_imp h t ht
end

mutual
theorem valT_mono {a b : Nat} (h : a ≤ b) (tn : Str) : (t : RType) → ∀ v, ValT a tn t v → ValT b tn t v
  | .builtin _, v, hv => hv
  | .enum _, v, hv => hv
  | .struct fs, v, hv => by
    obtain ⟨ps, rfl, hps⟩ := hv
    exact ⟨ps, rfl, valFs_mono h fs ps hps⟩
theorem valFs_mono {a b : Nat} (h : a ≤ b) : (fs : List (FieldOf RType)) → ∀ ps, ValFs a fs ps → ValFs b fs ps
  | [], ps, hp => hp
  | f :: fs, ps, hp => by
    obtain ⟨p, qs, rfl, h1, h2⟩ := hp
    exact ⟨p, qs, rfl, valF_mono h f p h1, valFs_mono h fs qs h2⟩
theorem valF_mono {a b : Nat} (h : a ≤ b) : (f : FieldOf RType) → ∀ p, ValF a f p → ValF b f p
  | ⟨n, tn, t, ar, o⟩, p, hp => by
    obtain ⟨h1, h2⟩ := hp
    refine ⟨h1, h2.imp id ?_⟩
    rintro ⟨v, h3, h4⟩
    refine ⟨v, h3, ?_⟩
    cases ar with
    | true =>
      obtain ⟨vs, rfl, h5, h6⟩ := h4
      exact ⟨vs, rfl, by omega, fun w hw => valT_mono h tn t w (h6 w hw)⟩
    | false => exact valT_mono h tn t v h4
end

variable (lib : Lib) {P : Prog}

theorem rdNum_enc (sc : Scalar) {n : Num} (h : NumOk sc n) (rest : List UInt8) : rdNum lib sc (lib.enc sc n ++ rest) = .ok n rest :=
  (accepts_num lib sc _ _ _).2 ⟨_, rfl, lib.enc_len _ _, (lib.dec_enc _ _ h).symm⟩

theorem rdStr_enc (s : Str) (rest : List UInt8) : rdStr (utf8Enc s).length (utf8Enc s ++ rest) = .ok s rest :=
  (accepts_str _ _ _ _).2 ⟨_, rfl, rfl, rfl⟩

/-! ### Default values -/

mutual
theorem dflt_val {lim : Nat} (h : 0 < lim) (tn : Str) : (t : RType) → EnumsT SoundEnum t → ValT lim tn t (dfltT tn t)
  | .builtin b, _ => by
    cases b <;>
      first
      | exact ⟨_, rfl, by decide, by decide⟩
      | exact ⟨_, rfl, True.intro⟩
      | exact ⟨_, rfl, by decide⟩
  | .enum e, he => by
    obtain ⟨vs, ⟨h1, -, -⟩, hr⟩ := he
    obtain ⟨rp, variants⟩ := e
    cases variants with
    | nil =>
      have := hr.names
      simp at this
      subst this
      exact absurd h1 (by decide)
    | cons w ws => exact ⟨w, by simp, rfl⟩
  | .struct fs, he => ⟨_, rfl, dfltFs_val h fs he⟩
theorem dfltFs_val {lim : Nat} (h : 0 < lim) : (fs : List (FieldOf RType)) → EnumsFs SoundEnum fs → ValFs lim fs (dfltFs fs)
  | [], _ => rfl
  | f :: fs, he => ⟨_, _, rfl, dfltF_val h f he.1, dfltFs_val h fs he.2⟩
theorem dfltF_val {lim : Nat} (h : 0 < lim) : (f : FieldOf RType) → EnumsF SoundEnum f → ValF lim f (f.name, dfltF f)
  | ⟨n, tn, t, a, o⟩, he => by
    refine ⟨rfl, ?_⟩
    cases o with
    | true => exact Or.inl ⟨rfl, rfl⟩
    | false =>
      refine Or.inr ⟨_, rfl, ?_⟩
      cases a with
      | true => exact ⟨[], rfl, h, fun w hw => by cases hw⟩
      | false => exact dflt_val h tn t he
end

mutual
/-- The default value, or with one item in every array and all optionals present. -/
def fillT (b : Bool) (tn : Str) : RType → Val
  | .builtin x => dfltT tn (.builtin x)
  | .enum e => dfltT tn (.enum e)
  | .struct fs => .struct (fillFs b fs)
def fillFs (b : Bool) : List (FieldOf RType) → List (Str × Val)
  | [] => []
  | f :: fs => (f.name, fillF b f) :: fillFs b fs
def fillF (b : Bool) : FieldOf RType → Val
  | ⟨_, tn, ty, array, optional⟩ =>
    if optional then if b then .some (dfltT tn ty) else .none
    else if array then .vec (if b then [dfltT tn ty] else [])
    else fillT b tn ty
end

mutual
theorem fillT_false (tn : Str) : (t : RType) → fillT false tn t = dfltT tn t
  | .builtin _ => rfl
  | .enum _ => rfl
  | .struct fs => congrArg Val.struct (fillFs_false fs)
theorem fillFs_false : (fs : List (FieldOf RType)) → fillFs false fs = dfltFs fs
  | [] => rfl
  | f :: fs => by
    show (_, fillF false f) :: fillFs false fs = (_, dfltF f) :: dfltFs fs
    rw [fillF_false f, fillFs_false fs]
theorem fillF_false : (f : FieldOf RType) → fillF false f = dfltF f
  | ⟨n, tn, t, a, o⟩ => by
    cases o with
    | true => rfl
    | false =>
      cases a with
      | true => rfl
      | false => exact fillT_false tn t
end

mutual
theorem fill_val (b : Bool) {lim : Nat} (h : 1 < lim) (tn : Str) : (t : RType) → EnumsT SoundEnum t →
    AllT (fun fs => ∀ f ∈ fs, ¬ (f.array = true ∧ f.optional = true)) t → ValT lim tn t (fillT b tn t)
  | .builtin x, he, _ => dflt_val (by omega) tn (.builtin x) he
  | .enum e, he, _ => dflt_val (by omega) tn (.enum e) he
  | .struct fs, he, hb => ⟨_, rfl, fillFs_val b h fs he hb.1 hb.2⟩
theorem fillFs_val (b : Bool) {lim : Nat} (h : 1 < lim) : (fs : List (FieldOf RType)) → EnumsFs SoundEnum fs →
    (∀ f ∈ fs, ¬ (f.array = true ∧ f.optional = true)) →
    AllFs (fun fs => ∀ f ∈ fs, ¬ (f.array = true ∧ f.optional = true)) fs → ValFs lim fs (fillFs b fs)
  | [], _, _, _ => rfl
  | f :: fs, he, h1, h2 =>
    ⟨_, _, rfl, fillF_val b h f he.1 (h1 f (by simp)) h2.1, fillFs_val b h fs he.2 (fun g hg => h1 g (by simp [hg])) h2.2⟩
theorem fillF_val (b : Bool) {lim : Nat} (h : 1 < lim) : (f : FieldOf RType) → EnumsF SoundEnum f → ¬ (f.array = true ∧ f.optional = true) →
    AllF (fun fs => ∀ f ∈ fs, ¬ (f.array = true ∧ f.optional = true)) f → ValF lim f (f.name, fillF b f)
  | ⟨n, tn, t, a, o⟩, he, h1, h2 => by
    have hd := dflt_val (lim := lim) (by omega) tn t he
    refine ⟨rfl, ?_⟩
    cases o with
    | true =>
      cases a with
      | true => exact absurd ⟨rfl, rfl⟩ h1
      | false =>
        cases b with
        | true => exact Or.inr ⟨_, rfl, hd⟩
        | false => exact Or.inl ⟨rfl, rfl⟩
    | false =>
      refine Or.inr ⟨_, rfl, ?_⟩
      cases a with
      | true =>
        cases b with
        | false => exact ⟨[], rfl, by rw [List.length_nil]; omega, fun w hw => by cases hw⟩
        | true =>
          refine ⟨_, rfl, h, fun w hw => ?_⟩
          rw [List.mem_singleton.1 hw]
          exact hd
      | false => exact fill_val b h tn t he h2
end

theorem head_arm {e : REnum} (h : SoundEnum e) : ∃ w ws, e.variants = w :: ws ∧ w.value = 0 := by
  obtain ⟨vs, ⟨h1, -, -⟩, hr⟩ := h
  obtain ⟨rp, variants⟩ := e
  cases variants with
  | nil =>
    have := hr.names
    simp at this
    subst this
    exact absurd h1 (by decide)
  | cons w ws =>
    refine ⟨w, ws, rfl, ?_⟩
    have := hr.values
    cases vs with
    | nil => exact absurd h1 (by decide)
    | cons v vs =>
      rw [List.length_cons, List.range_succ_eq_map] at this
      exact (List.cons.inj this).1

mutual
/-- Reading the encoding of a default value leaves items and optionals as they are. -/
theorem rd_dflt (b : Bool) (hm : 1 ≤ lib.maxItems) (tn : Str) : (t : RType) → EnumsT SoundEnum t → ∀ rest,
    rdT lib tn t (fillT b tn t) (encT lib t (dfltT tn t) ++ rest) = .ok (fillT b tn t) rest
  | .builtin x, _, rest => by
    have hv := dflt_val (lim := 1) (by omega) tn (.builtin x) True.intro
    unfold ValT at hv
    unfold rdT encT
    cases hx : scalarOf x with
    | some sc =>
      rw [hx] at hv
      obtain ⟨n, h1, h2⟩ := hv
      show Got.bind (rdNum lib sc _) _ = .ok (dfltT tn (.builtin x)) rest
      rw [h1]
      dsimp only
      rw [rdNum_enc lib sc h2]
      rfl
    | none =>
      rw [hx] at hv
      obtain ⟨s, h1, h2⟩ := hv
      show Got.bind (rdNum lib .uint32 _) _ = .ok (dfltT tn (.builtin x)) rest
      rw [h1]
      dsimp only
      rw [List.append_assoc, rdNum_enc lib .uint32 (n := .int (utf8Enc s).length) ⟨by omega, by omega⟩]
      show Got.bind (rdStr (Int.toNat _) _) _ = _
      rw [show Int.toNat (toInt (.int ((utf8Enc s).length : Int))) = (utf8Enc s).length from Int.toNat_natCast _, rdStr_enc]
      rfl
  | .enum e, he, rest => by
    obtain ⟨w, ws, hw, h0⟩ := head_arm he
    have hE : encT lib (.enum e) (dfltT tn (.enum e)) = lib.enc (reprScalar e.repr) (.int (2 ^ w.value)) := by
      unfold encT dfltT
      rw [hw]
      simp
    rw [hE]
    unfold rdT
    rw [rdNum_enc lib _ (ok_pow he (by rw [hw]; simp))]
    unfold fillT dfltT
    rw [hw, List.map_cons, h0]
    rfl
  | .struct fs, he, rest => by
    have := rd_dfltFs b hm fs he rest
    show (rdFs lib fs (fillFs b fs) (encFs lib fs (dfltFs fs) ++ rest)).bind _ = _
    rw [this]
    rfl
theorem rd_dfltFs (b : Bool) (hm : 1 ≤ lib.maxItems) : (fs : List (FieldOf RType)) → EnumsFs SoundEnum fs → ∀ rest,
    rdFs lib fs (fillFs b fs) (encFs lib fs (dfltFs fs) ++ rest) = .ok (fillFs b fs) rest
  | [], _, _ => rfl
  | f :: fs, he, rest => by
    show (rdF lib f (fillF b f) ((encF lib f (dfltF f) ++ encFs lib fs (dfltFs fs)) ++ rest)).bind _ = _
    rw [List.append_assoc, rd_dfltF b hm f he.1]
    show (rdFs lib fs (fillFs b fs) _).bind _ = _
    rw [rd_dfltFs b hm fs he.2]
    rfl
theorem rd_dfltF (b : Bool) (hm : 1 ≤ lib.maxItems) : (f : FieldOf RType) → EnumsF SoundEnum f → ∀ rest,
    rdF lib f (fillF b f) (encF lib f (dfltF f) ++ rest) = .ok (fillF b f) rest
  | ⟨n, tn, t, a, o⟩, he, rest => by
    cases o with
    | true =>
      show Got.bind (rdNum lib .uint8 (lib.enc .uint8 (.int 0) ++ rest)) _ = _
      rw [rdNum_enc lib .uint8 (n := .int 0) ⟨by decide, by decide⟩]
      rfl
    | false =>
      cases a with
      | true =>
        show Got.bind (rdNum lib .uint32 ((lib.enc .uint32 (.int (([] : List Val).length : Nat)) ++ []) ++ rest)) _ = _
        rw [List.append_nil, rdNum_enc lib .uint32 (n := .int (([] : List Val).length : Nat)) ⟨by decide, by decide⟩]
        show (if _ then _ else _) = _
        rw [if_pos]
        · cases b <;> rfl
        · show List.length (if b = true then [dfltT tn t] else []) + 0 ≤ lib.maxItems
          cases b
          · exact Nat.zero_le _
          · exact hm
      | false => exact rd_dflt b hm tn t he rest
end

/-! ### Out of memory -/

theorem Got.bind_abort {α β} {x : Got α} {f : α → List UInt8 → Got β} (h : x.bind f = .abort) :
    x = .abort ∨ ∃ a r, x = .ok a r ∧ f a r = .abort := by
  cases x with
  | ok a r => exact Or.inr ⟨a, r, rfl, h⟩
  | err => cases h
  | abort => exact Or.inl rfl

theorem rdStr_not_abort {n : Nat} {r : List UInt8} : rdStr n r ≠ .abort := by
  unfold rdStr
  split
  · split <;> simp
  · simp

theorem rdItems_not_abort {one : List UInt8 → Got Val} (h : ∀ r, one r ≠ .abort) (n : Nat) : ∀ l r, rdItems one n l r ≠ .abort := by
  induction n with
  | zero => intro l r h; cases h
  | succ n ih =>
    intro l r ha
    rcases Got.bind_abort ha with h1 | ⟨a, r', -, h2⟩
    · exact h _ h1
    · exact ih _ _ h2

/-- The arrays do not run out of memory: there are none, or there is room. -/
def Roomy (fs : List (FieldOf RType)) : Prop := 2 ^ 32 - 1 ≤ lib.maxItems ∨ ∀ f ∈ fs, f.array = false

mutual
theorem rd_safe (tn : Str) : (t : RType) → AllT (Roomy lib) t → ∀ r, rdT lib tn t (dfltT tn t) r ≠ .abort
  | .builtin x, _, r, h => by
    unfold rdT at h
    cases hx : scalarOf x with
    | some sc =>
      rw [hx] at h
      rcases Got.bind_abort h with h | ⟨_, _, -, h⟩
      · exact rdNum_not_abort lib h
      · cases h
    | none =>
      rw [hx] at h
      rcases Got.bind_abort h with h | ⟨_, _, -, h⟩
      · exact rdNum_not_abort lib h
      · rcases Got.bind_abort h with h | ⟨_, _, -, h⟩
        · exact rdStr_not_abort h
        · cases h
  | .enum e, _, r, h => by
    unfold rdT at h
    rcases Got.bind_abort h with h | ⟨_, _, -, h⟩
    · exact rdNum_not_abort lib h
    · split at h <;> cases h
  | .struct fs, hs, r, h => by
    have h : (rdFs lib fs (dfltFs fs) r).bind _ = _ := h
    rcases Got.bind_abort h with h | ⟨_, _, -, h⟩
    · exact rdFs_safe fs hs.1 hs.2 r h
    · cases h
theorem rdFs_safe : (fs : List (FieldOf RType)) → Roomy lib fs → AllFs (Roomy lib) fs → ∀ r, rdFs lib fs (dfltFs fs) r ≠ .abort
  | [], _, _, r, h => by cases h
  | f :: fs, h1, h2, r, h => by
    have h : (rdF lib f (dfltF f) r).bind _ = _ := h
    rcases Got.bind_abort h with h | ⟨_, r', -, h⟩
    · exact rdF_safe f (h1.imp id fun h => h f (by simp)) h2.1 r h
    · have h : (rdFs lib fs (dfltFs fs) r').bind _ = _ := h
      rcases Got.bind_abort h with h | ⟨_, _, -, h⟩
      · exact rdFs_safe fs (h1.imp id fun h g hg => h g (by simp [hg])) h2.2 _ h
      · cases h
theorem rdF_safe : (f : FieldOf RType) → (2 ^ 32 - 1 ≤ lib.maxItems ∨ f.array = false) → AllF (Roomy lib) f → ∀ r, rdF lib f (dfltF f) r ≠ .abort
  | ⟨n, tn, t, a, o⟩, h1, h2, r, h => by
    have ht := rd_safe tn t h2
    cases o with
    | true =>
      have h : (rdNum lib .uint8 r).bind _ = _ := h
      rcases Got.bind_abort h with h | ⟨k, r', -, h⟩
      · exact rdNum_not_abort lib h
      · split at h
        · rcases Got.bind_abort h with h | ⟨_, _, -, h⟩
          · exact ht _ h
          · cases h
        · cases h
    | false =>
      cases a with
      | false => exact ht r h
      | true =>
        have h : (rdNum lib .uint32 r).bind _ = _ := h
        rcases Got.bind_abort h with h | ⟨k, r', hk, h⟩
        · exact rdNum_not_abort lib h
        · have hu := u32_range (rdNum_ok lib hk).1
          have h1 : 2 ^ 32 - 1 ≤ lib.maxItems := h1.resolve_right (by simp)
          have hle : ([] : List Val).length + (toInt k).toNat ≤ lib.maxItems := by
            simp only [List.length_nil]
            omega
          have h : (if ([] : List Val).length + (toInt k).toNat ≤ lib.maxItems then _ else _) = _ := h
          rw [if_pos hle] at h
          rcases Got.bind_abort h with h | ⟨_, _, -, h⟩
          · exact rdItems_not_abort ht _ _ _ h
          · cases h
end

abbrev NoArrays (fs : List (FieldOf RType)) : Prop := ∀ f ∈ fs, f.array = false

mutual
/-- Data that make it reserve memory for 2^32 - 1 items. -/
theorem bomb (hm : 1 ≤ lib.maxItems) (hb : lib.maxItems < 2 ^ 32 - 1) (tn : Str) : (t : RType) → EnumsT SoundEnum t → DefT P tn t →
    ¬ AllT NoArrays t → ∃ bs, rdT lib tn t (dfltT tn t) bs = .abort
  | .builtin _, _, _, h => absurd True.intro h
  | .enum _, _, _, h => absurd True.intro h
  | .struct fs, he, hd, h => by
    obtain ⟨bs, hbs⟩ := bombFs hm hb fs he hd.2 h
    refine ⟨bs, ?_⟩
    show (rdFs lib fs (dfltFs fs) bs).bind _ = _
    rw [hbs]
    rfl
theorem bombFs (hm : 1 ≤ lib.maxItems) (hb : lib.maxItems < 2 ^ 32 - 1) : (fs : List (FieldOf RType)) → EnumsFs SoundEnum fs → DefFs P fs →
    ¬ (NoArrays fs ∧ AllFs NoArrays fs) → ∃ bs, rdFs lib fs (dfltFs fs) bs = .abort
  | [], _, _, h => absurd ⟨fun f hf => (by cases hf), True.intro⟩ h
  | f :: fs, he, hd, h => by
    by_cases hf : f.array = false ∧ AllF NoArrays f
    · obtain ⟨bs, hbs⟩ := bombFs hm hb fs he.2 hd.2 fun hfs => h
        ⟨List.forall_mem_cons.2 ⟨hf.1, hfs.1⟩, hf.2, hfs.2⟩
      refine ⟨encF lib f (dfltF f) ++ bs, ?_⟩
      show (rdF lib f (dfltF f) _).bind _ = _
      have := rd_dfltF lib false hm f he.1 bs
      rw [fillF_false] at this
      rw [this]
      show (rdFs lib fs (dfltFs fs) bs).bind _ = _
      rw [hbs]
      rfl
    · obtain ⟨bs, hbs⟩ := bombF hm hb f he.1 hd.1 hf
      refine ⟨bs, ?_⟩
      show (rdF lib f (dfltF f) _).bind _ = _
      rw [hbs]
      rfl
theorem bombF (hm : 1 ≤ lib.maxItems) (hb : lib.maxItems < 2 ^ 32 - 1) : (f : FieldOf RType) → EnumsF SoundEnum f → DefF P f →
    ¬ (f.array = false ∧ AllF NoArrays f) → ∃ bs, rdF lib f (dfltF f) bs = .abort
  | ⟨n, tn, t, a, o⟩, he, hd, h => by
    cases a with
    | true =>
      cases o with
      | true => exact absurd ⟨rfl, rfl⟩ hd.2
      | false =>
        refine ⟨lib.enc .uint32 (.int (2 ^ 32 - 1)) ++ [], ?_⟩
        show (rdNum lib .uint32 _).bind _ = _
        rw [rdNum_enc lib .uint32 (n := .int (2 ^ 32 - 1)) ⟨by decide, by decide⟩]
        show (if 0 + Int.toNat (2 ^ 32 - 1) ≤ lib.maxItems then _ else _) = _
        rw [if_neg]
        omega
    | false =>
      have ht : ¬ AllT NoArrays t := fun h' => h ⟨rfl, h'⟩
      obtain ⟨bs, hbs⟩ := bomb hm hb tn t he hd.1 ht
      cases o with
      | false => exact ⟨bs, hbs⟩
      | true =>
        refine ⟨lib.enc .uint8 (.int 1) ++ bs, ?_⟩
        show (rdNum lib .uint8 _).bind _ = _
        rw [rdNum_enc lib .uint8 (n := .int 1) ⟨by decide, by decide⟩]
        show (rdT lib tn t (dfltT tn t) bs).bind _ = _
        rw [hbs]
        rfl
end

/-! ### What was there before -/

abbrev NoLeftovers (fs : List (FieldOf RType)) : Prop := ∀ f ∈ fs, f.array = false ∧ f.optional = false

mutual
theorem rd_fresh (tn : Str) : (t : RType) → AllT NoLeftovers t → ∀ v w, ShapeT t v → ShapeT t w → ∀ r, rdT lib tn t v r = rdT lib tn t w r
  | .builtin _, _, _, _, _, _, _ => rfl
  | .enum _, _, _, _, _, _, _ => rfl
  | .struct fs, h, v, w, hv, hw, r => by
    obtain ⟨ps, rfl, hps⟩ := hv
    obtain ⟨qs, rfl, hqs⟩ := hw
    show (rdFs lib fs ps r).bind _ = (rdFs lib fs qs r).bind _
    rw [rdFs_fresh fs h.1 h.2 ps qs hps hqs]
theorem rdFs_fresh : (fs : List (FieldOf RType)) → NoLeftovers fs → AllFs NoLeftovers fs → ∀ ps qs, ShapeFs fs ps → ShapeFs fs qs → ∀ r,
    rdFs lib fs ps r = rdFs lib fs qs r
  | [], _, _, _, _, _, _, _ => rfl
  | f :: fs, h1, h2, ps, qs, hp, hq, r => by
    obtain ⟨p, ps, rfl, hp1, hp2⟩ := hp
    obtain ⟨q, qs, rfl, hq1, hq2⟩ := hq
    show (rdF lib f p.2 r).bind _ = (rdF lib f q.2 r).bind _
    rw [rdF_fresh f (h1 f (by simp)) h2.1 p q hp1 hq1]
    congr 1
    funext v r'
    rw [rdFs_fresh fs (fun g hg => h1 g (by simp [hg])) h2.2 ps qs hp2 hq2]
theorem rdF_fresh : (f : FieldOf RType) → (f.array = false ∧ f.optional = false) → AllF NoLeftovers f → ∀ p q, ShapeF f p → ShapeF f q → ∀ r,
    rdF lib f p.2 r = rdF lib f q.2 r
  | ⟨n, tn, t, a, o⟩, h1, h2, p, q, hp, hq, r => by
    obtain ⟨ha, ho⟩ := h1
    cases ha
    cases ho
    exact rd_fresh tn t h2 _ _ (hp.2.resolve_left (by simp)) (hq.2.resolve_left (by simp)) r
end

mutual
theorem val_shape {lim : Nat} (tn : Str) : (t : RType) → ∀ v, ValT lim tn t v → ShapeT t v
  | .builtin _, _, _ => True.intro
  | .enum _, _, _ => True.intro
  | .struct fs, v, h => by
    obtain ⟨ps, rfl, hps⟩ := h
    exact ⟨ps, rfl, valFs_shape fs ps hps⟩
theorem valFs_shape {lim : Nat} : (fs : List (FieldOf RType)) → ∀ ps, ValFs lim fs ps → ShapeFs fs ps
  | [], _, h => h
  | f :: fs, ps, h => by
    obtain ⟨p, qs, rfl, hp, hq⟩ := h
    exact ⟨p, qs, rfl, valF_shape f p hp, valFs_shape fs qs hq⟩
theorem valF_shape {lim : Nat} : (f : FieldOf RType) → ∀ p, ValF lim f p → ShapeF f p
  | ⟨n, tn, t, a, o⟩, p, h => by
    refine ⟨h.1, ?_⟩
    cases o with
    | true => exact Or.inl rfl
    | false =>
      right
      obtain ⟨-, ⟨h, -⟩ | ⟨v, hv, hw⟩⟩ := h
      · cases h
      · have hv : p.2 = v := hv
        rw [hv]
        cases a with
        | true =>
          obtain ⟨vs, h, -⟩ := hw
          exact ⟨vs, h⟩
        | false => exact val_shape tn t v hw
end

mutual
theorem fill_eq (tn : Str) : (t : RType) → fillT true tn t = fillT false tn t → AllT NoLeftovers t
  | .builtin _, _ => True.intro
  | .enum _, _ => True.intro
  | .struct fs, h => fillFs_eq fs (Val.struct.inj h)
theorem fillFs_eq : (fs : List (FieldOf RType)) → fillFs true fs = fillFs false fs → NoLeftovers fs ∧ AllFs NoLeftovers fs
  | [], _ => ⟨fun f hf => (by cases hf), True.intro⟩
  | f :: fs, h => by
    obtain ⟨h1, h2⟩ := List.cons.inj h
    have h3 := fillF_eq f (Prod.mk.inj h1).2
    have h4 := fillFs_eq fs h2
    exact ⟨List.forall_mem_cons.2 ⟨h3.1, h4.1⟩, h3.2, h4.2⟩
theorem fillF_eq : (f : FieldOf RType) → fillF true f = fillF false f → (f.array = false ∧ f.optional = false) ∧ AllF NoLeftovers f
  | ⟨n, tn, t, a, o⟩, h => by
    cases o with
    | true => cases h
    | false =>
      cases a with
      | true => cases h
      | false => exact ⟨⟨rfl, rfl⟩, fill_eq tn t h⟩
end

/-! ### The last variant of each enum -/

def lastName (e : REnum) : Str := (e.variants.getLast?.map EnumVariant.name).getD []

mutual
/-- The last variant everywhere, one item in each array, all optionals present. -/
def lastT (tn : Str) : RType → Val
  | .builtin b => dfltT tn (.builtin b)
  | .enum e => .variant tn (lastName e)
  | .struct fs => .struct (lastFs fs)
def lastFs : List (FieldOf RType) → List (Str × Val)
  | [] => []
  | f :: fs => (f.name, lastF f) :: lastFs fs
def lastF : FieldOf RType → Val
  | ⟨_, tn, ty, array, optional⟩ =>
    if optional then .some (lastT tn ty) else if array then .vec [lastT tn ty] else lastT tn ty
end

theorem sound_name_inj {e : REnum} (h : SoundEnum e) {v w : EnumVariant} (hv : v ∈ e.variants) (hw : w ∈ e.variants)
    (hn : v.name = w.name) : v = w := by
  obtain ⟨vs, ⟨-, -, hnd⟩, hr⟩ := h
  rw [← hr.names] at hnd
  exact List.inj_on_of_nodup_map hnd hv hw hn

theorem last_variant {e : REnum} (h : SoundEnum e) : ∃ w ∈ e.variants, lastName e = w.name ∧ w.value + 1 = e.variants.length := by
  obtain ⟨vs, ⟨h1, -, -⟩, hr⟩ := h
  have hlen : e.variants.length = vs.length := by rw [← hr.names, List.length_map]
  have hne : e.variants ≠ [] := by
    intro h
    rw [h] at hlen
    simp at hlen
    omega
  refine ⟨e.variants.getLast hne, List.getLast_mem hne, ?_, ?_⟩
  · unfold lastName
    rw [List.getLast?_eq_getLast_of_ne_nil hne]
    rfl
  · have : (e.variants.map EnumVariant.value).getLast? = some (e.variants.getLast hne).value := by
      rw [List.getLast?_map, List.getLast?_eq_getLast_of_ne_nil hne]
      rfl
    rw [hr.values, List.getLast?_range] at this
    split at this
    · omega
    · have := Option.some.inj this
      omega

mutual
theorem last_val {lim : Nat} (h : 1 < lim) (tn : Str) : (t : RType) → EnumsT SoundEnum t → DefT P tn t → ValT lim tn t (lastT tn t)
  | .builtin b, he, _ => dflt_val (by omega) tn (.builtin b) he
  | .enum e, he, _ => by
    obtain ⟨w, hw, hn, -⟩ := last_variant he
    exact ⟨w, hw, by show Val.variant tn (lastName e) = _; rw [hn]⟩
  | .struct fs, he, hd => ⟨_, rfl, lastFs_val h fs he hd.2⟩
theorem lastFs_val {lim : Nat} (h : 1 < lim) : (fs : List (FieldOf RType)) → EnumsFs SoundEnum fs → DefFs P fs → ValFs lim fs (lastFs fs)
  | [], _, _ => rfl
  | f :: fs, he, hd => ⟨_, _, rfl, lastF_val h f he.1 hd.1, lastFs_val h fs he.2 hd.2⟩
theorem lastF_val {lim : Nat} (h : 1 < lim) : (f : FieldOf RType) → EnumsF SoundEnum f → DefF P f → ValF lim f (f.name, lastF f)
  | ⟨n, tn, t, a, o⟩, he, hd => by
    have ht := last_val h tn t he hd.1
    refine ⟨rfl, Or.inr ?_⟩
    cases o with
    | true =>
      cases a with
      | true => exact absurd ⟨rfl, rfl⟩ hd.2
      | false => exact ⟨_, rfl, ht⟩
    | false =>
      refine ⟨_, rfl, ?_⟩
      cases a with
      | true =>
        refine ⟨_, rfl, h, fun w hw => ?_⟩
        rw [List.mem_singleton.1 hw]
        exact ht
      | false => exact ht
end

theorem Got.bind_ok {α β} {x : Got α} {f : α → List UInt8 → Got β} {b : β} {r : List UInt8} (h : x.bind f = .ok b r) :
    ∃ a r', x = .ok a r' ∧ f a r' = .ok b r := by
  cases x with
  | ok a r' => exact ⟨a, r', rfl, h⟩
  | err => cases h
  | abort => cases h

theorem shl_all : ∀ k, k < 32 → (Gen.i32Shl1 k).getD 0 ≠ 2 ^ 31 := by decide

mutual
/-- If the encoding of these values can be read, then all enums are small. -/
theorem rd_last (hm : 1 ≤ lib.maxItems) (tn : Str) : (t : RType) → EnumsT SoundEnum t → DefT P tn t → ∀ rest v r,
    rdT lib tn t (dfltT tn t) (encT lib t (lastT tn t) ++ rest) = .ok v r → EnumsT Small t
  | .builtin _, _, _, _, _, _, _ => True.intro
  | .enum e, he, _, rest, v, r, h => by
    refine ⟨he, ?_⟩
    by_contra hlen
    obtain ⟨w, hw, hn, hval⟩ := last_variant he
    have hmax : w.value < 32 := Nat.lt_of_lt_of_le (sound_value he hw) (by cases e.repr <;> decide)
    have hk : w.value = 31 := by omega
    have hnd : ∀ w' ∈ e.variants, w'.name = w.name → w' = w := fun w' hw' hn' => sound_name_inj he hw' hw hn'
    have hE : encT lib (.enum e) (lastT tn (.enum e)) = lib.enc (reprScalar e.repr) (.int (2 ^ w.value)) := by
      unfold encT lastT
      cases hx : e.variants.find? fun x => x.name = lastName e with
      | none => exact absurd (List.find?_eq_none.1 hx w hw) (by simp [hn])
      | some w' =>
        have h1 : w' ∈ e.variants := List.mem_of_find?_eq_some hx
        have h2 : w'.name = lastName e := by simpa using List.find?_some hx
        rw [hn] at h2
        simp only [hx]
        rw [hnd w' h1 h2]
    rw [hE] at h
    unfold rdT at h
    rw [rdNum_enc lib _ (ok_pow he hw)] at h
    rw [hk] at h
    cases hx : (e.variants.map fun v => ((Gen.i32Shl1 v.value).getD 0, v.name)).lookup (2 ^ 31) with
    | none =>
      have h : (match (e.variants.map fun v => ((Gen.i32Shl1 v.value).getD 0, v.name)).lookup (2 ^ 31) with
        | some v => Got.ok (Val.variant tn v) rest | none => .err) = .ok v r := h
      rw [hx] at h
      cases h
    | some n =>
      obtain ⟨w', hw', he'⟩ := List.mem_map.1 (lookup_mem hx)
      exact shl_all w'.value (Nat.lt_of_lt_of_le (sound_value he hw') (by cases e.repr <;> decide)) (Prod.mk.inj he').1
  | .struct fs, he, hd, rest, v, r, h => by
    have h : (rdFs lib fs (dfltFs fs) (encFs lib fs (lastFs fs) ++ rest)).bind _ = _ := h
    obtain ⟨ps, r', h1, -⟩ := Got.bind_ok h
    exact rd_lastFs hm fs he hd.2 rest ps r' h1
theorem rd_lastFs (hm : 1 ≤ lib.maxItems) : (fs : List (FieldOf RType)) → EnumsFs SoundEnum fs → DefFs P fs → ∀ rest ps r,
    rdFs lib fs (dfltFs fs) (encFs lib fs (lastFs fs) ++ rest) = .ok ps r → EnumsFs Small fs
  | [], _, _, _, _, _, _ => True.intro
  | f :: fs, he, hd, rest, ps, r, h => by
    have h : (rdF lib f (dfltF f) ((encF lib f (lastF f) ++ encFs lib fs (lastFs fs)) ++ rest)).bind _ = _ := h
    rw [List.append_assoc] at h
    obtain ⟨v, r', h1, h2⟩ := Got.bind_ok h
    have hsm := rd_lastF hm f he.1 hd.1 _ v r' h1
    have hh := encF_has lib (lim := 2) (by decide) (by omega) f he.1 hd.1 _ (lastF_val (by decide) f he.1 hd.1)
    have h3 : rdF lib f (dfltF f) (encF lib f (lastF f) ++ (encFs lib fs (lastFs fs) ++ rest)) = .ok (lastF f) (encFs lib fs (lastFs fs) ++ rest) :=
      (accepts_field lib f hsm _ _ _).2 ⟨_, rfl, hh⟩
    rw [h3] at h1
    cases h1
    obtain ⟨qs, r'', h4, -⟩ := Got.bind_ok h2
    exact ⟨hsm, rd_lastFs hm fs he.2 hd.2 rest qs r'' h4⟩
theorem rd_lastF (hm : 1 ≤ lib.maxItems) : (f : FieldOf RType) → EnumsF SoundEnum f → DefF P f → ∀ rest v r,
    rdF lib f (dfltF f) (encF lib f (lastF f) ++ rest) = .ok v r → EnumsF Small f
  | ⟨n, tn, t, a, o⟩, he, hd, rest, v, r, h => by
    cases o with
    | true =>
      cases a with
      | true => exact absurd ⟨rfl, rfl⟩ hd.2
      | false =>
        have h : (rdNum lib .uint8 ((lib.enc .uint8 (.int 1) ++ encT lib t (lastT tn t)) ++ rest)).bind _ = _ := h
        rw [List.append_assoc, rdNum_enc lib .uint8 (n := .int 1) ⟨by decide, by decide⟩] at h
        have h : (rdT lib tn t (dfltT tn t) (encT lib t (lastT tn t) ++ rest)).bind _ = _ := h
        obtain ⟨v, r', h1, -⟩ := Got.bind_ok h
        exact rd_last hm tn t he hd.1 _ _ _ h1
    | false =>
      cases a with
      | true =>
        have h : (rdNum lib .uint32 ((lib.enc .uint32 (.int 1) ++ (encT lib t (lastT tn t) ++ [])) ++ rest)).bind _ = _ := h
        rw [List.append_nil, List.append_assoc, rdNum_enc lib .uint32 (n := .int 1) ⟨by decide, by decide⟩] at h
        have h : (if 0 + 1 ≤ lib.maxItems then (rdItems _ 1 [] (encT lib t (lastT tn t) ++ rest)).bind _ else _) = _ := h
        rw [if_pos (by omega)] at h
        obtain ⟨l, r', h1, -⟩ := Got.bind_ok h
        have h1 : (rdT lib tn t (dfltT tn t) (encT lib t (lastT tn t) ++ rest)).bind _ = _ := h1
        obtain ⟨v, r', h2, -⟩ := Got.bind_ok h1
        exact rd_last hm tn t he hd.1 _ _ _ h2
      | false => exact rd_last hm tn t he hd.1 _ _ _ h
end

end Packetc.Rs
