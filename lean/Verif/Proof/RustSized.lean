import Verif.Proof.RustExact
import Verif.Proof.Sized
/-!
# How many bytes the emitted Rust functions write and consume (for C114)
-/

namespace Packetc.Rs
open Ast Check WellFormed
open Js (Num Scalar utf8Enc scalarOf reprScalar SoundEnum EnumsT EnumsFs EnumsF minT minFs minF sizedT sizedFs sizedF flagsT flagsFs
  flagsF sized_of_zero reprSize)

/-- Of the data, at least `k` bytes have been taken, and no more if `sz`. -/
def Takes (k : Nat) (sz : Prop) (data rest : List UInt8) : Prop :=
  ∃ used, data = used ++ rest ∧ k ≤ used.length ∧ (sz → used.length = k)

theorem Takes.none {sz : Prop} (data : List UInt8) : Takes 0 sz data data := ⟨[], rfl, Nat.le_refl _, fun _ => rfl⟩

theorem Takes.trans {k l : Nat} {sz tz : Prop} {a b c : List UInt8} (h1 : Takes k sz a b) (h2 : Takes l tz b c) :
    Takes (k + l) (sz ∧ tz) a c := by
  obtain ⟨u, rfl, h3, h4⟩ := h1
  obtain ⟨w, rfl, h5, h6⟩ := h2
  refine ⟨u ++ w, (List.append_assoc _ _ _).symm, ?_, fun h => ?_⟩
  · rw [List.length_append]; omega
  · rw [List.length_append, h4 h.1, h6 h.2]

theorem Takes.weaken {k l : Nat} {sz tz : Prop} {a b : List UInt8} (h : Takes k sz a b) (h1 : l ≤ k) (h2 : tz → sz ∧ k = l) :
    Takes l tz a b := by
  obtain ⟨u, h3, h4, h5⟩ := h
  exact ⟨u, h3, by omega, fun h => by rw [h5 (h2 h).1, (h2 h).2]⟩

variable (lib : Lib)

theorem rdNum_takes {sc : Scalar} {r r' : List UInt8} {n : Num} (h : rdNum lib sc r = .ok n r') : Takes sc.width True r r' := by
  unfold rdNum at h
  split at h
  next hl =>
    cases h
    refine ⟨r.take sc.width, (List.take_append_drop _ _).symm, ?_, fun _ => ?_⟩ <;> rw [List.length_take] <;> omega
  · cases h

theorem rdStr_takes {n : Nat} {r r' : List UInt8} {t : Str} (h : rdStr n r = .ok t r') : Takes 0 False r r' := by
  unfold rdStr at h
  split at h
  next hl =>
    split at h
    · cases h
      exact ⟨r.take n, (List.take_append_drop _ _).symm, Nat.zero_le _, fun h => h.elim⟩
    · cases h
  · cases h

theorem rdItems_takes {one : List UInt8 → Got Val} {sz : Prop} (h : ∀ r v r', one r = .ok v r' → Takes 0 sz r r') (n : Nat) :
    ∀ l r l' r', rdItems one n l r = .ok l' r' → Takes 0 sz r r' := by
  induction n with
  | zero =>
    intro l r l' r' h1
    cases h1
    exact .none _
  | succ n ih =>
    intro l r l' r' h1
    obtain ⟨v, m, h2, h3⟩ := Got.bind_ok h1
    exact ((h _ _ _ h2).trans (ih _ _ _ _ h3)).weaken (Nat.le_refl _) fun h => ⟨⟨h, h⟩, rfl⟩

theorem repr_width (r : EnumRepr) : (reprScalar r).width = reprSize r := by cases r <;> rfl

mutual
theorem rdT_takes (tn : Str) : (t : RType) → flagsT t → ∀ old data v rest, rdT lib tn t old data = .ok v rest →
    Takes (minT t) (sizedT t) data rest
  | .builtin b, _, old, data, v, rest, h => by
    unfold rdT at h
    unfold minT
    cases hs : scalarOf b with
    | some sc =>
      rw [hs] at h
      obtain ⟨n, r', h1, h2⟩ := Got.bind_ok h
      cases h2
      exact (rdNum_takes lib h1).weaken (Nat.le_refl _) fun _ => ⟨True.intro, rfl⟩
    | none =>
      rw [hs] at h
      obtain ⟨n, r', h1, h2⟩ := Got.bind_ok h
      obtain ⟨s, r'', h3, h4⟩ := Got.bind_ok h2
      cases h4
      refine ((rdNum_takes lib h1).trans (rdStr_takes h3)).weaken (Nat.le_refl _) fun hz => ?_
      have : b = .string := by cases b <;> first | rfl | cases hs
      exact absurd this hz
  | .enum e, _, old, data, v, rest, h => by
    obtain ⟨n, r', h1, h2⟩ := Got.bind_ok h
    have h3 := rdNum_takes lib h1
    rw [repr_width] at h3
    split at h2
    · cases h2
      exact h3
    · cases h2
  | .struct fs, hf, old, data, v, rest, h => by
    obtain ⟨n, r', h1, h2⟩ := Got.bind_ok h
    cases h2
    exact rdFs_takes fs hf _ _ _ _ h1
theorem rdFs_takes : (fs : List (FieldOf RType)) → flagsFs fs → ∀ old data ps rest, rdFs lib fs old data = .ok ps rest →
    Takes (minFs fs) (sizedFs fs) data rest
  | [], _, old, data, ps, rest, h => by
    cases h
    exact .none _
  | f :: fs, hf, old, data, ps, rest, h => by
    cases old with
    | nil => cases h
    | cons p old =>
      obtain ⟨v, r', h1, h2⟩ := Got.bind_ok h
      obtain ⟨qs, r'', h3, h4⟩ := Got.bind_ok h2
      cases h4
      exact (rdF_takes f hf.1 _ _ _ _ h1).trans (rdFs_takes fs hf.2 _ _ _ _ h3)
theorem rdF_takes : (f : FieldOf RType) → flagsF f → ∀ old data v rest, rdF lib f old data = .ok v rest →
    Takes (minF f) (sizedF f) data rest
  | ⟨n, tn, t, a, o⟩, hf, old, data, v, rest, h => by
    have key := rdT_takes tn t hf.2
    have hz := sized_of_zero t hf.2
    cases o with
    | true =>
      obtain ⟨k, r', h1, h2⟩ := Got.bind_ok h
      have hn := rdNum_takes lib h1
      show Takes 1 (if true = true ∨ a = true then minT t = 0 else sizedT t) data rest
      rw [if_pos (.inl rfl)]
      split at h2
      · obtain ⟨w, r'', h3, h4⟩ := Got.bind_ok h2
        cases h4
        refine (hn.trans (key _ _ _ _ h3)).weaken (Nat.le_add_right _ _) fun h0 => ⟨⟨True.intro, hz h0⟩, ?_⟩
        rw [h0]
        rfl
      · cases h2
        exact hn.weaken (Nat.le_refl _) fun _ => ⟨True.intro, rfl⟩
    | false =>
      cases a with
      | true =>
        obtain ⟨k, r', h1, h2⟩ := Got.bind_ok h
        have hn := rdNum_takes lib h1
        show Takes 4 (if false = true ∨ true = true then minT t = 0 else sizedT t) data rest
        rw [if_pos (.inr rfl)]
        have fin : ∀ l, (rdItems (fun r => rdT lib tn t (dfltT tn t) r) (toInt k).toNat l r').bind (fun l' r'' => Got.ok (Val.vec l') r'') =
            .ok v rest → Takes 4 (minT t = 0) data rest := by
          intro l h2
          obtain ⟨w, r'', h3, h4⟩ := Got.bind_ok h2
          cases h4
          have h5 := rdItems_takes (sz := minT t = 0) (fun r v r' h => (key _ _ _ _ h).weaken (Nat.zero_le _) fun h0 => ⟨hz h0, h0⟩) _ _ _ _ _ h3
          exact (hn.trans h5).weaken (Nat.le_refl _) fun h0 => ⟨⟨True.intro, h0⟩, rfl⟩
        split at h2 <;> split at h2 <;> first | exact fin _ h2 | cases h2
      | false =>
        show Takes (minT t) (if false = true ∨ false = true then minT t = 0 else sizedT t) data rest
        rw [if_neg (by decide)]
        exact key _ _ _ _ h
end

/-! ### Writing -/

theorem encEnum_length {e : REnum} {tn : Str} {w : EnumVariant} (hw : w ∈ e.variants) :
    (encT lib (.enum e) (.variant tn w.name)).length = reprSize e.repr := by
  cases hx : e.variants.find? (fun x => x.name = w.name) with
  | none => exact absurd (List.find?_eq_none.1 hx w hw) (by simp)
  | some w' =>
    have hE : encT lib (.enum e) (.variant tn w.name) = lib.enc (reprScalar e.repr) (.int (2 ^ w'.value)) := by
      unfold encT
      simp only [hx]
    rw [hE, lib.enc_len, repr_width]

mutual
theorem enc_length {lim : Nat} (tn : Str) : (t : RType) → flagsT t → ∀ v, ValT lim tn t v →
    minT t ≤ (encT lib t v).length ∧ (sizedT t → (encT lib t v).length = minT t)
  | .builtin b, _, v, h => by
    unfold ValT at h
    unfold minT encT
    cases hs : scalarOf b with
    | some sc =>
      rw [hs] at h
      obtain ⟨n, rfl, -⟩ := h
      dsimp only
      rw [lib.enc_len]
      exact ⟨Nat.le_refl _, fun _ => rfl⟩
    | none =>
      rw [hs] at h
      obtain ⟨s, rfl, -⟩ := h
      dsimp only
      rw [List.length_append, lib.enc_len]
      refine ⟨Nat.le_add_right _ _, fun hz => ?_⟩
      have : b = .string := by cases b <;> first | rfl | cases hs
      exact absurd this hz
  | .enum e, _, v, h => by
    obtain ⟨w, hw, rfl⟩ := h
    rw [encEnum_length lib hw]
    exact ⟨Nat.le_refl _, fun _ => rfl⟩
  | .struct fs, hf, v, h => by
    obtain ⟨ps, rfl, h⟩ := h
    exact encFs_length fs hf ps h
theorem encFs_length {lim : Nat} : (fs : List (FieldOf RType)) → flagsFs fs → ∀ ps, ValFs lim fs ps →
    minFs fs ≤ (encFs lib fs ps).length ∧ (sizedFs fs → (encFs lib fs ps).length = minFs fs)
  | [], _, ps, h => ⟨Nat.zero_le _, fun _ => rfl⟩
  | f :: fs, hf, ps, h => by
    obtain ⟨p, qs, rfl, h1, h2⟩ := h
    obtain ⟨h3, h4⟩ := encF_length f hf.1 p h1
    obtain ⟨h5, h6⟩ := encFs_length fs hf.2 qs h2
    show minF f + minFs fs ≤ (encF lib f p.2 ++ encFs lib fs qs).length ∧
      (sizedF f ∧ sizedFs fs → (encF lib f p.2 ++ encFs lib fs qs).length = minF f + minFs fs)
    rw [List.length_append]
    exact ⟨Nat.add_le_add h3 h5, fun h => by rw [h4 h.1, h6 h.2]⟩
theorem encF_length {lim : Nat} : (f : FieldOf RType) → flagsF f → ∀ p, ValF lim f p →
    minF f ≤ (encF lib f p.2).length ∧ (sizedF f → (encF lib f p.2).length = minF f)
  | ⟨n, tn, t, a, o⟩, hf, ⟨pn, v⟩, h => by
    have key := enc_length (lim := lim) tn t hf.2
    have hz := sized_of_zero t hf.2
    obtain ⟨-, h⟩ := h
    have h : (o = true ∧ v = .none) ∨ ∃ w, v = (if o then Val.some w else w) ∧
        if a then ∃ vs, w = .vec vs ∧ vs.length < lim ∧ ∀ w ∈ vs, ValT lim tn t w else ValT lim tn t w := h
    cases o with
    | true =>
      have ha : a = false := by
        cases a
        · rfl
        · exact absurd ⟨rfl, rfl⟩ hf.1
      subst ha
      show 1 ≤ _ ∧ ((if true = true ∨ false = true then minT t = 0 else sizedT t) → _ = 1)
      rw [if_pos (.inl rfl)]
      rcases h with ⟨-, rfl⟩ | ⟨w, rfl, hw⟩
      · show 1 ≤ (lib.enc .uint8 _).length ∧ (_ → (lib.enc .uint8 _).length = 1)
        rw [lib.enc_len]
        exact ⟨Nat.le_refl _, fun _ => rfl⟩
      · obtain ⟨h1, h2⟩ := key w hw
        show 1 ≤ (lib.enc .uint8 _ ++ encT lib t w).length ∧ (_ → (lib.enc .uint8 _ ++ encT lib t w).length = 1)
        rw [List.length_append, lib.enc_len]
        refine ⟨Nat.le_add_right _ _, fun h0 => ?_⟩
        rw [h2 (hz h0), h0]
        rfl
    | false =>
      rcases h with ⟨h, -⟩ | ⟨w, rfl, hw⟩
      · cases h
      · cases a with
        | true =>
          obtain ⟨vs, rfl, -, hvs⟩ := hw
          show 4 ≤ (lib.enc .uint32 _ ++ (vs.map fun x => encT lib t x).flatten).length ∧
            ((if false = true ∨ true = true then minT t = 0 else sizedT t) →
              (lib.enc .uint32 _ ++ (vs.map fun x => encT lib t x).flatten).length = 4)
          rw [if_pos (.inr rfl), List.length_append, lib.enc_len]
          refine ⟨Nat.le_add_right _ _, fun h0 => ?_⟩
          have : (vs.map fun x => encT lib t x).flatten = [] := by
            rw [List.flatten_eq_nil_iff]
            intro b hb
            obtain ⟨x, hx, rfl⟩ := List.mem_map.1 hb
            have := (key x (hvs x hx)).2 (hz h0)
            rw [h0] at this
            exact List.length_eq_zero_iff.1 this
          rw [this]
          rfl
        | false =>
          show minT t ≤ (encT lib t v).length ∧ ((if false = true ∨ false = true then minT t = 0 else sizedT t) →
            (encT lib t v).length = minT t)
          rw [if_neg (by decide)]
          exact key v hw
end

theorem sound_head {e : REnum} (h : SoundEnum e) : ∃ w ∈ e.variants, ((e.variants.head?.map EnumVariant.name).getD []) = w.name := by
  obtain ⟨k, -, -, -, -, -, ⟨v, hv, -⟩, -⟩ := Js.sound_values h
  exact ⟨v, List.mem_of_mem_head? hv, by rw [hv]; rfl⟩

mutual
theorem dflt_length (tn : Str) : (t : RType) → EnumsT SoundEnum t → (encT lib t (dfltT tn t)).length = minT t
  | .builtin b, _ => by
    cases b
    case string =>
      show (lib.enc .uint32 _ ++ utf8Enc []).length = 4
      rw [List.length_append, lib.enc_len]
      rfl
    all_goals
      show (lib.enc _ _).length = _
      rw [lib.enc_len]
      rfl
  | .enum e, he => by
    obtain ⟨w, hw, h⟩ := sound_head he
    show (encT lib (.enum e) (.variant tn ((e.variants.head?.map EnumVariant.name).getD []))).length = reprSize e.repr
    rw [h, encEnum_length lib hw]
  | .struct fs, he => dfltFs_length fs he
theorem dfltFs_length : (fs : List (FieldOf RType)) → EnumsFs SoundEnum fs → (encFs lib fs (dfltFs fs)).length = minFs fs
  | [], _ => rfl
  | f :: fs, he => by
    show (encF lib f (dfltF f) ++ encFs lib fs (dfltFs fs)).length = minF f + minFs fs
    rw [List.length_append, dfltF_length f he.1, dfltFs_length fs he.2]
theorem dfltF_length : (f : FieldOf RType) → EnumsF SoundEnum f → (encF lib f (dfltF f)).length = minF f
  | ⟨n, tn, t, a, o⟩, he => by
    cases o with
    | true => exact lib.enc_len _ _
    | false =>
      cases a with
      | true =>
        show (lib.enc .uint32 _ ++ []).length = 4
        rw [List.append_nil, lib.enc_len]
        rfl
      | false => exact dflt_length tn t he
end

mutual
/-- Types that are not sized have a value that is bigger than the default one. -/
theorem larger {lim : Nat} (hl : 1 < lim) (tn : Str) : (t : RType) → EnumsT SoundEnum t → flagsT t → ¬ sizedT t →
    ∃ v, ValT lim tn t v ∧ minT t < (encT lib t v).length
  | .builtin b, _, _, hs => by
    have : b = .string := by
      by_contra h
      exact hs h
    subst this
    refine ⟨.str ['a'], ⟨_, rfl, by decide⟩, ?_⟩
    show 4 < (lib.enc .uint32 _ ++ utf8Enc ['a']).length
    rw [List.length_append, lib.enc_len]
    decide
  | .enum e, _, _, hs => absurd True.intro hs
  | .struct fs, he, hf, hs => by
    obtain ⟨ps, h1, h2⟩ := largerFs hl fs he hf hs
    exact ⟨.struct ps, ⟨_, rfl, h1⟩, h2⟩
theorem largerFs {lim : Nat} (hl : 1 < lim) : (fs : List (FieldOf RType)) → EnumsFs SoundEnum fs → flagsFs fs → ¬ sizedFs fs →
    ∃ ps, ValFs lim fs ps ∧ minFs fs < (encFs lib fs ps).length
  | [], _, _, hs => absurd True.intro hs
  | f :: fs, he, hf, hs => by
    by_cases h : sizedF f
    · obtain ⟨ps, h1, h2⟩ := largerFs hl fs he.2 hf.2 (fun h' => hs ⟨h, h'⟩)
      refine ⟨(f.name, dfltF f) :: ps, ⟨_, _, rfl, dfltF_val (by omega) f he.1, h1⟩, ?_⟩
      show minF f + minFs fs < (encF lib f (dfltF f) ++ encFs lib fs ps).length
      rw [List.length_append, dfltF_length lib f he.1]
      omega
    · obtain ⟨v, h1, h2⟩ := largerF hl f he.1 hf.1 h
      refine ⟨(f.name, v) :: dfltFs fs, ⟨_, _, rfl, h1, dfltFs_val (by omega) fs he.2⟩, ?_⟩
      show minF f + minFs fs < (encF lib f v ++ encFs lib fs (dfltFs fs)).length
      rw [List.length_append, dfltFs_length lib fs he.2]
      omega
theorem largerF {lim : Nat} (hl : 1 < lim) : (f : FieldOf RType) → EnumsF SoundEnum f → flagsF f → ¬ sizedF f →
    ∃ v, ValF lim f (f.name, v) ∧ minF f < (encF lib f v).length
  | ⟨n, tn, t, a, o⟩, he, hf, hs => by
    have key := larger hl tn t he hf.2
    have hd := dflt_length lib tn t he
    have hv : ValT lim tn t (dfltT tn t) := dflt_val (by omega) tn t he
    have hs : ¬ if o = true ∨ a = true then minT t = 0 else sizedT t := hs
    cases o with
    | true =>
      rw [if_pos (.inl rfl)] at hs
      have ha : a = false := by
        cases a
        · rfl
        · exact absurd ⟨rfl, rfl⟩ hf.1
      subst ha
      refine ⟨.some (dfltT tn t), ⟨rfl, .inr ⟨_, rfl, hv⟩⟩, ?_⟩
      show 1 < (lib.enc .uint8 _ ++ encT lib t (dfltT tn t)).length
      rw [List.length_append, lib.enc_len, hd]
      show 1 < 1 + _
      omega
    | false =>
      cases a with
      | true =>
        rw [if_pos (.inr rfl)] at hs
        refine ⟨.vec [dfltT tn t], ⟨rfl, .inr ⟨_, rfl, _, rfl, hl, fun w hw => List.mem_singleton.1 hw ▸ hv⟩⟩, ?_⟩
        show 4 < (lib.enc .uint32 _ ++ (encT lib t (dfltT tn t) ++ [])).length
        rw [List.append_nil, List.length_append, lib.enc_len, hd]
        show 4 < 4 + _
        omega
      | false =>
        rw [if_neg (by decide)] at hs
        obtain ⟨v, h1, h2⟩ := key hs
        exact ⟨v, ⟨rfl, .inr ⟨_, rfl, h1⟩⟩, h2⟩
end

end Packetc.Rs
