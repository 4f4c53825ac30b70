import Verif.Spec.Bridge
import Verif.Proof.RustExact
import Verif.Proof.JsAccept
/-!
# The bytes that Rust understands are those that TypeScript understands, except for what Rust is stricter about
-/

namespace Packetc.Rs
open Ast Check Gen WellFormed RustGen Js
open Js (Num Scalar JVal PropOf)

variable {rt : Runtime} {lib : Lib}

theorem jsNum_int {n : Num} {i : Int} : jsNum n = .int i ↔ n = .int i := by
  cases n <;> simp [jsNum]

theorem Agree.int (ha : Agree rt lib) {s : Scalar} {bs : List UInt8} (h : bs.length = s.width) (i : Int) :
    rt.dec s bs = .int i ↔ lib.dec s bs = .int i := by
  rw [ha.num s bs h, jsNum_int]

/-- What both understand: TypeScript does, texts are UTF-8, enums are one variant, arrays fit in the memory of the Rust program. -/
def Both (rt : Runtime) (lib : Lib) (t : RType) (bs : List UInt8) (j : JVal) : Prop :=
  HoldsT rt (fun _ _ => True) (fun _ => True) IsText t bs j ∧ TypedT (fun _ => True) IsVariant t j ∧ Few lib.maxItems j
def BothFs (rt : Runtime) (lib : Lib) (fs : List (FieldOf RType)) (bs : List UInt8) (ps : List (PropOf JVal)) : Prop :=
  HoldsFs rt (fun _ _ => True) (fun _ => True) IsText fs bs ps ∧ TypedFs (fun _ => True) IsVariant fs ps ∧ FewProps lib.maxItems ps
def BothF (rt : Runtime) (lib : Lib) (f : FieldOf RType) (bs : List UInt8) (p : PropOf JVal) : Prop :=
  HoldsF rt (fun _ _ => True) (fun _ => True) IsText f bs p ∧ TypedF (fun _ => True) IsVariant f p ∧ FewProp lib.maxItems p

abbrev NoOptArrays (fs : List (FieldOf RType)) : Prop := ∀ f ∈ fs, ¬ (f.array = true ∧ f.optional = true)

theorem both_items {R : List UInt8 → Val → Prop} {g : Val → JVal} {S : List UInt8 → JVal → Prop} {T : JVal → Prop} {k : Nat}
    (h : ∀ b j, (∃ v, R b v ∧ g v = j) ↔ S b j ∧ T j ∧ Few k j) : ∀ (items : List (List UInt8)) (js : List JVal),
    (∃ vs, List.Forall₂ R items vs ∧ vs.map g = js) ↔ List.Forall₂ S items js ∧ (∀ j ∈ js, T j) ∧ FewItems k js := by
  intro items
  induction items with
  | nil =>
    intro js
    constructor
    · rintro ⟨vs, h1, rfl⟩
      cases h1
      exact ⟨.nil, by simp, True.intro⟩
    · rintro ⟨h1, -, -⟩
      cases h1
      exact ⟨[], .nil, rfl⟩
  | cons b items ih =>
    intro js
    constructor
    · rintro ⟨vs, h1, rfl⟩
      cases h1 with
      | cons h2 h3 =>
        obtain ⟨a1, a2, a3⟩ := (h _ _).1 ⟨_, h2, rfl⟩
        obtain ⟨b1, b2, b3⟩ := (ih _).1 ⟨_, h3, rfl⟩
        refine ⟨.cons a1 b1, ?_, a3, b3⟩
        intro j hj
        rcases List.mem_cons.1 hj with rfl | hj
        · exact a2
        · exact b2 j hj
    · rintro ⟨h1, h2, h3⟩
      cases h1 with
      | cons h4 h5 =>
        obtain ⟨v, a1, a2⟩ := (h _ _).2 ⟨h4, h2 _ List.mem_cons_self, h3.1⟩
        obtain ⟨vs, b1, b2⟩ := (ih _).2 ⟨h5, fun j hj => h2 j (List.mem_cons_of_mem _ hj), h3.2⟩
        exact ⟨v :: vs, .cons a1 b1, by rw [List.map_cons, a2, b2]⟩

theorem js_variant {e : REnum} (h : Small e) {w : EnumVariant} (hw : w ∈ e.variants) (tn : Str) :
    jsT (.enum e) (.variant tn w.name) = .num (.int (2 ^ w.value)) := by
  cases hx : e.variants.find? fun x => x.name = w.name with
  | none => exact absurd (List.find?_eq_none.1 hx w hw) (by simp)
  | some w' =>
    have hw' : w' ∈ e.variants := List.mem_of_find?_eq_some hx
    have hn : w'.name = w.name := by simpa using List.find?_some hx
    obtain rfl := sound_name_inj h.1 hw' hw hn
    unfold jsT
    simp only [hx]
    rw [jsShl1_small (small_value h hw)]

theorem small_bound {e : REnum} (h : Small e) {w : EnumVariant} (hw : w ∈ e.variants) :
    (1 : Int) ≤ 2 ^ w.value ∧ (2 : Int) ^ w.value ≤ jsShl1 (e.variants.length - 1) := by
  have h1 := small_value h hw
  obtain ⟨⟨vs, hv, hr⟩, hl⟩ := h
  have h2 : w.value ∈ e.variants.map EnumVariant.value := List.mem_map_of_mem hw
  rw [hr.values, List.mem_range] at h2
  have h3 : vs.length = e.variants.length := by rw [← hr.names, List.length_map]
  rw [jsShl1_small (by omega)]
  refine ⟨?_, ?_⟩
  · have : (0 : Int) < 2 ^ w.value := by positivity
    omega
  · exact_mod_cast Nat.pow_le_pow_right (by decide) (by omega)

mutual
theorem both_type (ha : Agree rt lib) (tn : Str) : (t : RType) → EnumsT Small t → AllT NoOptArrays t → ∀ bs j,
    (∃ v, HasT lib tn t bs v ∧ jsT t v = j) ↔ Both rt lib t bs j
  | .builtin b, _, _, bs, j => by
    cases hb : scalarOf b with
    | some sc =>
      constructor
      · rintro ⟨v, h, rfl⟩
        unfold HasT at h
        rw [hb] at h
        obtain ⟨h1, rfl⟩ := h
        have hj : jsT (.builtin b) (.num (lib.dec sc bs)) = .num (rt.dec sc bs) := by
          rw [ha.num _ _ h1]
          rfl
        rw [hj]
        refine ⟨?_, ?_, True.intro⟩
        · unfold HoldsT
          rw [hb]
          exact ⟨_, ⟨h1, True.intro, rfl⟩, rfl⟩
        · unfold TypedT
          rw [hb]
          exact ⟨_, rfl, rt.dec_ok _ _⟩
      · rintro ⟨h, -, -⟩
        unfold HoldsT at h
        rw [hb] at h
        obtain ⟨n, ⟨h1, -, rfl⟩, rfl⟩ := h
        refine ⟨.num (lib.dec sc bs), ?_, ?_⟩
        · unfold HasT
          rw [hb]
          exact ⟨h1, rfl⟩
        · rw [ha.num _ _ h1]
          rfl
    | none =>
      constructor
      · rintro ⟨v, h, rfl⟩
        unfold HasT at h
        rw [hb] at h
        obtain ⟨len, s, rfl, h1, h2, rfl⟩ := h
        refine ⟨?_, ?_, True.intro⟩
        · unfold HoldsT
          rw [hb]
          refine ⟨len, utf8Enc s, rfl, ⟨h1, True.intro, (ha.int (s := .uint32) h1 _).2 h2⟩, ⟨s, rfl⟩, ?_⟩
          rw [← ha.text, rt.decS_encS]
          rfl
        · unfold TypedT
          rw [hb]
          exact ⟨_, rfl, True.intro⟩
      · rintro ⟨h, -, -⟩
        unfold HoldsT at h
        rw [hb] at h
        obtain ⟨len, text, rfl, ⟨h1, -, h2⟩, ⟨s, rfl⟩, rfl⟩ := h
        refine ⟨.str s, ?_, ?_⟩
        · unfold HasT
          rw [hb]
          exact ⟨len, s, rfl, h1, (ha.int (s := .uint32) h1 _).1 h2, rfl⟩
        · rw [← ha.text, rt.decS_encS]
          rfl
  | .enum e, he, _, bs, j => by
    constructor
    · rintro ⟨v, ⟨h1, w, hw, h2, rfl⟩, rfl⟩
      rw [js_variant he hw]
      refine ⟨⟨_, ⟨h1, True.intro, (ha.int h1 _).2 h2⟩, (small_bound he hw).1, (small_bound he hw).2, rfl⟩, ⟨_, rfl, w, hw, ?_⟩,
        True.intro⟩
      rw [jsShl1_small (small_value he hw)]
    · rintro ⟨⟨i, ⟨h1, -, h2⟩, -, -, rfl⟩, ⟨n, hn, w, hw, rfl⟩, -⟩
      rw [jsShl1_small (small_value he hw)] at hn
      obtain rfl : i = 2 ^ w.value := Num.int.inj (JVal.num.inj hn)
      exact ⟨.variant tn w.name, ⟨h1, w, hw, (ha.int h1 _).1 h2, rfl⟩, js_variant he hw tn⟩
  | .struct fs, he, hp, bs, j => by
    constructor
    · rintro ⟨v, ⟨vs, rfl, h⟩, rfl⟩
      obtain ⟨a, b, c⟩ := (both_fields ha fs he hp.1 hp.2 bs _).1 ⟨vs, h, rfl⟩
      exact ⟨⟨_, rfl, a⟩, ⟨_, rfl, b⟩, c⟩
    · rintro ⟨⟨ps, rfl, a⟩, ⟨ps', hps, b⟩, c⟩
      obtain rfl := JVal.obj.inj hps
      obtain ⟨vs, h, hj⟩ := (both_fields ha fs he hp.1 hp.2 bs _).2 ⟨a, b, c⟩
      exact ⟨.struct vs, ⟨vs, rfl, h⟩, congrArg JVal.obj hj⟩
theorem both_fields (ha : Agree rt lib) : (fs : List (FieldOf RType)) → EnumsFs Small fs → NoOptArrays fs → AllFs NoOptArrays fs → ∀ bs ps,
    (∃ vs, HasFs lib fs bs vs ∧ jsFs fs vs = ps) ↔ BothFs rt lib fs bs ps
  | [], _, _, _, bs, ps => by
    constructor
    · rintro ⟨vs, ⟨rfl, rfl⟩, rfl⟩
      exact ⟨⟨rfl, rfl⟩, rfl, True.intro⟩
    · rintro ⟨⟨rfl, rfl⟩, -, -⟩
      exact ⟨[], ⟨rfl, rfl⟩, rfl⟩
  | f :: fs, he, hn, hp, bs, ps => by
    have h1 := both_field ha f he.1 (hn f List.mem_cons_self) hp.1
    have h2 := both_fields ha fs he.2 (fun g hg => hn g (List.mem_cons_of_mem _ hg)) hp.2
    constructor
    · rintro ⟨_, ⟨b₁, b₂, v, qs, rfl, rfl, hf, hfs⟩, rfl⟩
      obtain ⟨a1, a2, a3⟩ := (h1 b₁ ⟨f.name, jsF f v⟩).1 ⟨v, hf, rfl⟩
      obtain ⟨c1, c2, c3⟩ := (h2 b₂ _).1 ⟨qs, hfs, rfl⟩
      exact ⟨⟨b₁, b₂, _, _, rfl, rfl, a1, c1⟩, ⟨_, _, rfl, a2, c2⟩, a3, c3⟩
    · rintro ⟨⟨b₁, b₂, p, qs, rfl, rfl, a1, c1⟩, ⟨p', qs', hps, a2, c2⟩, a3, c3⟩
      obtain ⟨rfl, rfl⟩ := List.cons.inj hps
      obtain ⟨v, hv, rfl⟩ := (h1 b₁ p).2 ⟨a1, a2, a3⟩
      obtain ⟨vs, hvs, rfl⟩ := (h2 b₂ qs).2 ⟨c1, c2, c3⟩
      exact ⟨(f.name, v) :: vs, ⟨b₁, b₂, v, vs, rfl, rfl, hv, hvs⟩, rfl⟩
theorem both_field (ha : Agree rt lib) : (f : FieldOf RType) → EnumsF Small f → ¬ (f.array = true ∧ f.optional = true) → AllF NoOptArrays f →
    ∀ bs p, (∃ v, HasF lib f bs v ∧ (⟨f.name, jsF f v⟩ : PropOf JVal) = p) ↔ BothF rt lib f bs p
  | ⟨name, tn, t, a, o⟩, he, hn, hp, bs, p => by
    have ht := both_type ha tn t he hp
    obtain ⟨pn, pj⟩ := p
    cases o with
    | true =>
      cases a with
      | true => exact absurd ⟨rfl, rfl⟩ hn
      | false =>
        constructor
        · rintro ⟨v, ⟨flag, body, rfl, h1, h2⟩, hpj⟩
          cases hpj
          rcases h2 with ⟨h3, rfl, rfl⟩ | ⟨h3, w, rfl, h4⟩
          · refine ⟨⟨rfl, Or.inl ⟨rfl, rfl, ?_⟩⟩, ⟨rfl, Or.inl ⟨rfl, rfl⟩⟩, True.intro⟩
            rw [List.append_nil]
            exact ⟨h1, True.intro, (ha.int (s := .uint8) h1 _).2 h3⟩
          · obtain ⟨b1, b2, b3⟩ := (ht body _).1 ⟨w, h4, rfl⟩
            refine ⟨⟨rfl, Or.inr ⟨flag, body, rfl, ⟨_, ⟨h1, True.intro, rfl⟩, ?_, True.intro⟩, b1⟩⟩, ⟨rfl, Or.inr b2⟩, b3⟩
            exact fun h => h3 ((ha.int (s := .uint8) h1 _).1 h)
        · rintro ⟨⟨hname, h⟩, ⟨-, h'⟩, hfew⟩
          have hname : pn = name := hname
          subst hname
          rcases h with ⟨-, hv, h1, -, h2⟩ | ⟨flag, body, rfl, ⟨n, ⟨h1, -, h2⟩, h3, -⟩, h4⟩
          · have hv : pj = .undef := hv
            subst hv
            exact ⟨.none, ⟨bs, [], (List.append_nil _).symm, h1, Or.inl ⟨(ha.int (s := .uint8) h1 _).1 h2, rfl, rfl⟩⟩, rfl⟩
          · have h4 : HoldsT rt (fun _ _ => True) (fun _ => True) IsText t body pj := h4
            have h5 : TypedT (fun _ => True) IsVariant t pj := by
              rcases h' with ⟨-, h'⟩ | h'
              · have h' : pj = .undef := h'
                subst h'
                exfalso
                cases t with
                | builtin b =>
                  unfold HoldsT at h4
                  cases hb : scalarOf b with
                  | some sc =>
                    rw [hb] at h4
                    obtain ⟨_, -, h⟩ := h4
                    cases h
                  | none =>
                    rw [hb] at h4
                    obtain ⟨_, _, -, -, -, h⟩ := h4
                    cases h
                | enum e =>
                  obtain ⟨_, -, -, -, h⟩ := h4
                  cases h
                | struct fs =>
                  obtain ⟨_, h, -⟩ := h4
                  cases h
              · exact h'
            obtain ⟨v, hv, rfl⟩ := (ht body pj).2 ⟨h4, h5, hfew⟩
            refine ⟨.some v, ⟨flag, body, rfl, h1, Or.inr ⟨fun h => h3 ?_, v, rfl, hv⟩⟩, rfl⟩
            rw [← h2]
            exact (ha.int (s := .uint8) h1 _).2 h
    | false =>
      cases a with
      | false =>
        constructor
        · rintro ⟨v, h, hpj⟩
          cases hpj
          obtain ⟨b1, b2, b3⟩ := (ht bs _).1 ⟨v, h, rfl⟩
          exact ⟨⟨rfl, Or.inr ⟨[], bs, rfl, rfl, b1⟩⟩, ⟨rfl, Or.inr b2⟩, b3⟩
        · rintro ⟨⟨hname, h⟩, ⟨-, h'⟩, hfew⟩
          have hname : pn = name := hname
          subst hname
          rcases h with ⟨h, -⟩ | ⟨flag, body, rfl, hf, h4⟩
          · cases h
          · have hf : flag = [] := hf
            subst hf
            rcases h' with ⟨h, -⟩ | h'
            · cases h
            · obtain ⟨v, hv, rfl⟩ := (ht body pj).2 ⟨h4, h', hfew⟩
              exact ⟨v, hv, rfl⟩
      | true =>
        have hi := both_items (R := HasT lib tn t) (g := jsT t) ht
        constructor
        · rintro ⟨v, ⟨len, items, vs, rfl, h1, h2, h3, rfl, h4⟩, hpj⟩
          cases hpj
          obtain ⟨b1, b2, b3⟩ := (hi items _).1 ⟨vs, h4, rfl⟩
          have hlen : (vs.map fun x => jsT t x).length = vs.length := List.length_map _
          have hlt : vs.length < 2 ^ 32 := by
            have := lib.dec_ok .uint32 len
            rw [h2] at this
            have := this.2
            omega
          refine ⟨⟨rfl, Or.inr ⟨[], _, rfl, rfl, len, items, vs.map fun x => jsT t x, rfl, ⟨h1, True.intro, ?_⟩, rfl, b1⟩⟩,
            ⟨rfl, Or.inr ⟨_, rfl, by rw [hlen]; exact hlt, b2⟩⟩, by rw [hlen]; exact h3, b3⟩
          rw [hlen]
          exact (ha.int (s := .uint32) h1 _).2 h2
        · rintro ⟨⟨hname, h⟩, ⟨-, h'⟩, hfew⟩
          have hname : pn = name := hname
          subst hname
          rcases h with ⟨h, -⟩ | ⟨flag, body, rfl, hf, len, items, js, rfl, ⟨h1, -, h2⟩, hv, h4⟩
          · cases h
          · have hf : flag = [] := hf
            subst hf
            have hv : pj = .arr js := hv
            subst hv
            rcases h' with ⟨h, -⟩ | ⟨js', hjs, hlt, hty⟩
            · cases h
            · obtain rfl := JVal.arr.inj hjs
              obtain ⟨vs, hvs, hmap⟩ := (hi items js).2 ⟨h4, hty, hfew.2⟩
              have hlen : js.length = vs.length := by rw [← hmap, List.length_map]
              refine ⟨.vec vs, ⟨len, items, vs, rfl, h1, ?_, ?_, rfl, hvs⟩, ?_⟩
              · rw [← hlen]
                exact (ha.int (s := .uint32) h1 _).1 h2
              · rw [← hlen]
                exact hfew.1
              · rw [← hmap]
                rfl
end

/-! ### What TypeScript writes -/

mutual
/-- If the bytes written for a value hold this value with UTF-8 texts, then its strings have as many bytes as UTF-16 units. -/
theorem align_T (ht8 : ∀ s, rt.encS s = utf8Enc s) : (t : RType) → (bs : List UInt8) → (j : JVal) → (x y : List UInt8) →
    HoldsT rt (fun _ _ => True) (fun _ => True) IsText t bs j →
    TypedT ShortStr (fun _ _ => True) t j → encode rt t j ++ x = bs ++ y →
    TypedT (FaithfulStr rt) (fun _ _ => True) t j ∧ x = y
  | .builtin b, bs, j, x, y, h, ht, e => by
    simp only [HoldsT, TypedT] at h ht ⊢
    cases hs : scalarOf b with
    | some sc =>
      rw [hs] at h ht
      simp only at h ht ⊢
      obtain ⟨n, h1, rfl⟩ := h
      simp only [encode, hs] at e
      obtain ⟨e1, e2⟩ := List.append_inj e (by rw [rt.enc_len, h1.width])
      exact ⟨ht, e2⟩
    | none =>
      rw [hs] at h ht
      simp only at h ht ⊢
      obtain ⟨len, _, rfl, h1, ⟨s, rfl⟩, rfl⟩ := h
      rw [← ht8, rt.decS_encS] at ht e
      rw [← ht8] at h1
      obtain ⟨_, h2, h3⟩ := ht
      cases h2
      simp only [encode, hs, List.append_assoc] at e
      obtain ⟨e1, e2⟩ := List.append_inj e (by rw [rt.enc_len, h1.width])
      have h5 : utf16Length s = (rt.encS s).length := by
        have := h1.value
        rw [← e1, rt.dec_enc .uint32 (.int (utf16Length s)) ⟨by omega, by omega⟩] at this
        injection this with this
        omega
      rw [← ht8, rt.decS_encS]
      exact ⟨⟨s, rfl, h3, h5.symm⟩, (List.append_inj e2 rfl).2⟩
  | .enum en, bs, j, x, y, ⟨i, h1, h2, h3, h4⟩, ht, e => by
    subst h4
    simp only [encode] at e
    obtain ⟨e1, e2⟩ := List.append_inj e (by rw [rt.enc_len, h1.width])
    exact ⟨ht, e2⟩
  | .struct fs, bs, j, x, y, ⟨ps, h1, h2⟩, ⟨qs, h3, h4⟩, e => by
    subst h1
    cases h3
    simp only [encode] at e
    obtain ⟨e1, e2⟩ := align_Fs ht8 fs bs ps x y h2 h4 e
    exact ⟨⟨ps, rfl, e1⟩, e2⟩
theorem align_Fs (ht8 : ∀ s, rt.encS s = utf8Enc s) : (fs : List (FieldOf RType)) → (bs : List UInt8) → (ps : List (PropOf JVal)) →
    (x y : List UInt8) → HoldsFs rt (fun _ _ => True) (fun _ => True) IsText fs bs ps →
    TypedFs ShortStr (fun _ _ => True) fs ps → encodeFields rt fs ps ++ x = bs ++ y →
    TypedFs (FaithfulStr rt) (fun _ _ => True) fs ps ∧ x = y
  | [], _, _, x, y, h, _, e => by
    obtain ⟨rfl, rfl⟩ := h
    exact ⟨rfl, e⟩
  | f :: fs, bs, ps, x, y, ⟨b1, b2, p, qs, h1, h2, h3, h4⟩, ⟨p', qs', h5, h6, h7⟩, e => by
    subst h1 h2
    cases h5
    simp only [encodeFields, List.append_assoc] at e
    obtain ⟨e1, e2⟩ := align_F ht8 f b1 p _ _ h3 h6 e
    obtain ⟨e3, e4⟩ := align_Fs ht8 fs b2 qs _ _ h4 h7 e2
    exact ⟨⟨p, qs, rfl, e1, e3⟩, e4⟩
theorem align_F (ht8 : ∀ s, rt.encS s = utf8Enc s) : (f : FieldOf RType) → (bs : List UInt8) → (p : PropOf JVal) → (x y : List UInt8) →
    HoldsF rt (fun _ _ => True) (fun _ => True) IsText f bs p →
    TypedF ShortStr (fun _ _ => True) f p → encodeField rt f p.value ++ x = bs ++ y →
    TypedF (FaithfulStr rt) (fun _ _ => True) f p ∧ x = y
  | ⟨name, tn, ty, array, optional⟩, bs, ⟨pn, j⟩, x, y, h, ht, e => by
    obtain ⟨h0, ⟨h1, h2, h3⟩ | ⟨flag, body, h1, h2, h3⟩⟩ := h
    · simp only at h0 h1 h2 e
      subst h1 h2
      rw [encodeField_undef] at e
      obtain ⟨e1, e2⟩ := List.append_inj e (by rw [rt.enc_len, h3.width])
      exact ⟨⟨h0, Or.inl ⟨rfl, rfl⟩⟩, e2⟩
    · simp only at h3 e
      subst h1
      have hj : j ≠ .undef := by
        rintro rfl
        cases array with
        | false => exact holdsT_ne_undef rt ty h3
        | true =>
          obtain ⟨len, items, js, -, -, h, -⟩ := h3
          cases h
      obtain ⟨-, ⟨-, h8⟩ | ht⟩ := ht
      · exact absurd h8 hj
      rw [encodeField_present rt _ _ _ _ _ hj, List.append_assoc, List.append_assoc] at e
      have hflag : encodeB rt ty array j ++ x = body ++ y := by
        cases optional with
        | false =>
          simp only [Bool.false_eq_true, if_false] at h2 e ⊢
          subst h2
          exact e
        | true =>
          simp only [if_true] at h2 e ⊢
          obtain ⟨n, h2, h4, -⟩ := h2
          exact (List.append_inj e (by rw [rt.enc_len, h2.width])).2
      have hbody : (if array = true then ∃ js, j = .arr js ∧ js.length < 2 ^ 32 ∧ ∀ j ∈ js, TypedT (FaithfulStr rt) (fun _ _ => True) ty j
          else TypedT (FaithfulStr rt) (fun _ _ => True) ty j) ∧ x = y := by
        replace e := hflag
        cases array with
        | false => exact align_T ht8 ty body j x y h3 ht e
        | true =>
          obtain ⟨len, items, js, rfl, h5, rfl, h7⟩ := h3
          obtain ⟨js', h8, hlt, h9⟩ := ht
          cases h8
          simp only [encodeB, if_true, List.append_assoc] at e ⊢
          obtain ⟨e1, e2⟩ := List.append_inj e (by rw [rt.enc_len, h5.width])
          have : (∀ j ∈ js, TypedT (FaithfulStr rt) (fun _ _ => True) ty j) ∧ x = y := by
            clear h5 hj e hflag e1 h0 hlt
            induction h7 with
            | nil => exact ⟨by simp, e2⟩
            | cons hh ht ih =>
              simp only [List.map_cons, List.flatten_cons, List.append_assoc] at e2
              obtain ⟨e3, e4⟩ := align_T ht8 ty _ _ _ _ hh (h9 _ List.mem_cons_self) e2
              obtain ⟨e5, e6⟩ := ih (fun j hj => h9 j (List.mem_cons_of_mem _ hj)) e4
              refine ⟨fun j hj => ?_, e6⟩
              rcases List.mem_cons.1 hj with rfl | hj
              · exact e3
              · exact e5 j hj
          exact ⟨⟨js, rfl, hlt, this.1⟩, this.2⟩
      exact ⟨⟨h0, Or.inr hbody.1⟩, hbody.2⟩
end

/-! ### Enums with 32 variants -/

theorem js_last_ne (tn : Str) : (t : RType) → EnumsT SoundEnum t → jsT t (lastT tn t) ≠ .undef
  | .builtin b, _ => by cases b <;> (intro h; cases h)
  | .enum e, he => by
    obtain ⟨w, hw, hn, -⟩ := last_variant he
    show jsT (.enum e) (.variant tn (lastName e)) ≠ .undef
    rw [hn]
    cases hx : e.variants.find? fun x => x.name = w.name with
    | none => exact absurd (List.find?_eq_none.1 hx w hw) (by simp)
    | some w' =>
      unfold jsT
      simp only [hx]
      intro h
      cases h
  | .struct fs, _ => by intro h; cases h

mutual
theorem last_small (tn : Str) : (t : RType) → EnumsT SoundEnum t → AllT NoOptArrays t → ∀ bs,
    HoldsT rt (fun _ _ => True) (fun _ => True) (fun _ => True) t bs (jsT t (lastT tn t)) → EnumsT Small t
  | .builtin _, _, _, _, _ => True.intro
  | .enum e, he, _, bs, ⟨i, _, h2, h3, _⟩ => by
    refine ⟨he, ?_⟩
    by_contra hl
    obtain ⟨vs, ⟨-, h32, -⟩, hr⟩ := he
    have : vs.length = e.variants.length := by rw [← hr.names, List.length_map]
    have : e.variants.length - 1 = 31 := by omega
    rw [this] at h3
    have : jsShl1 31 = -2 ^ 31 := rfl
    omega
  | .struct fs, he, hp, bs, h => by
    obtain ⟨ps, h1, h2⟩ := h
    obtain rfl := JVal.obj.inj h1
    exact lastFs_small fs he hp.1 hp.2 bs h2
theorem lastFs_small : (fs : List (FieldOf RType)) → EnumsFs SoundEnum fs → NoOptArrays fs → AllFs NoOptArrays fs → ∀ bs,
    HoldsFs rt (fun _ _ => True) (fun _ => True) (fun _ => True) fs bs (jsFs fs (lastFs fs)) → EnumsFs Small fs
  | [], _, _, _, _, _ => True.intro
  | f :: fs, he, hn, hp, bs, h => by
    obtain ⟨b1, b2, p, qs, -, h1, h2, h3⟩ := h
    obtain ⟨rfl, rfl⟩ := List.cons.inj h1
    exact ⟨lastF_small f he.1 (hn f List.mem_cons_self) hp.1 b1 h2,
      lastFs_small fs he.2 (fun g hg => hn g (List.mem_cons_of_mem _ hg)) hp.2 b2 h3⟩
theorem lastF_small : (f : FieldOf RType) → EnumsF SoundEnum f → ¬ (f.array = true ∧ f.optional = true) → AllF NoOptArrays f → ∀ bs,
    HoldsF rt (fun _ _ => True) (fun _ => True) (fun _ => True) f bs ⟨f.name, jsF f (lastF f)⟩ → EnumsF Small f
  | ⟨n, tn, t, a, o⟩, he, hn, hp, bs, h => by
    have ht := last_small tn t he hp
    have hu := js_last_ne tn t he
    cases o with
    | true =>
      cases a with
      | true => exact absurd ⟨rfl, rfl⟩ hn
      | false =>
        obtain ⟨-, ⟨-, h2, -⟩ | ⟨flag, body, -, -, h2⟩⟩ := h
        · exact absurd h2 hu
        · exact ht body h2
    | false =>
      cases a with
      | false =>
        obtain ⟨-, ⟨h2, -⟩ | ⟨flag, body, -, -, h2⟩⟩ := h
        · cases h2
        · exact ht body h2
      | true =>
        obtain ⟨-, ⟨h2, -⟩ | ⟨flag, body, -, -, len, items, js, -, -, h2, h3⟩⟩ := h
        · cases h2
        · obtain rfl : [jsT t (lastT tn t)] = js := JVal.arr.inj h2
          cases h3 with
          | cons h4 _ => exact ht _ h4
end

/-! ### Shapes -/

mutual
theorem js_shaped (ha : Agree rt lib) {lim : Nat} (hl : lim ≤ 2 ^ 32) (tn : Str) : (t : RType) → ∀ v, ValT lim tn t v →
    TypedT (fun _ => True) (fun _ _ => True) t (jsT t v)
  | .builtin b, v, h => by
    unfold ValT at h
    unfold TypedT
    cases hb : scalarOf b with
    | some sc =>
      rw [hb] at h
      obtain ⟨n, rfl, hn⟩ := h
      refine ⟨jsNum n, rfl, ?_⟩
      have h1 := rt.dec_ok sc (lib.enc sc n)
      rwa [ha.num _ _ (lib.enc_len sc n), lib.dec_enc sc n hn] at h1
    | none =>
      rw [hb] at h
      obtain ⟨s, rfl, -⟩ := h
      exact ⟨s, rfl, True.intro⟩
  | .enum e, v, h => by
    obtain ⟨w, hw, rfl⟩ := h
    cases hx : e.variants.find? fun x => x.name = w.name with
    | none => exact absurd (List.find?_eq_none.1 hx w hw) (by simp)
    | some w' =>
      unfold jsT
      simp only [hx]
      exact ⟨_, rfl, True.intro⟩
  | .struct fs, v, h => by
    obtain ⟨ps, rfl, hps⟩ := h
    exact ⟨_, rfl, jsFs_shaped ha hl fs ps hps⟩
theorem jsFs_shaped (ha : Agree rt lib) {lim : Nat} (hl : lim ≤ 2 ^ 32) : (fs : List (FieldOf RType)) → ∀ vs, ValFs lim fs vs →
    TypedFs (fun _ => True) (fun _ _ => True) fs (jsFs fs vs)
  | [], _, _ => rfl
  | f :: fs, vs, h => by
    obtain ⟨p, qs, rfl, h1, h2⟩ := h
    exact ⟨_, _, rfl, jsF_shaped ha hl f p h1, jsFs_shaped ha hl fs qs h2⟩
theorem jsF_shaped (ha : Agree rt lib) {lim : Nat} (hl : lim ≤ 2 ^ 32) : (f : FieldOf RType) → ∀ p, ValF lim f p →
    TypedF (fun _ => True) (fun _ _ => True) f ⟨p.1, jsF f p.2⟩
  | ⟨name, tn, ty, array, optional⟩, ⟨pn, pv⟩, h => by
    have ht := js_shaped ha hl tn ty
    obtain ⟨h0, ⟨h1, h2⟩ | ⟨v, h1, h2⟩⟩ := h
    · simp only at h1 h2
      subst h1 h2
      exact ⟨h0, Or.inl ⟨rfl, rfl⟩⟩
    · refine ⟨h0, Or.inr ?_⟩
      simp only at h1
      subst h1
      cases array with
      | true =>
        obtain ⟨vs, rfl, h3, h4⟩ := h2
        have hx : jsF ⟨name, tn, ty, true, optional⟩ (if optional = true then Val.some (.vec vs) else .vec vs) =
            .arr (vs.map fun x => jsT ty x) := by cases optional <;> rfl
        simp only [hx]
        refine ⟨_, rfl, by rw [List.length_map]; omega, fun j hj => ?_⟩
        obtain ⟨w, hw, rfl⟩ := List.mem_map.1 hj
        exact ht w (h4 w hw)
      | false =>
        have hx : jsF ⟨name, tn, ty, false, optional⟩ (if optional = true then Val.some v else v) = jsT ty v := by
          cases optional <;> rfl
        simp only [hx]
        exact ht v h2
end

mutual
theorem typedT_and {S S' : Str → Prop} {E E' : REnum → Num → Prop} : (t : RType) → ∀ j, TypedT S E t j → TypedT S' E' t j →
    TypedT (fun s => S s ∧ S' s) (fun e n => E e n ∧ E' e n) t j
  | .builtin b, j, h, h' => by
    cases hs : scalarOf b with
    | some s =>
      simp only [TypedT, hs] at h h' ⊢
      exact h
    | none =>
      simp only [TypedT, hs] at h h' ⊢
      obtain ⟨s, rfl, h2⟩ := h
      obtain ⟨s', h3, h4⟩ := h'
      obtain rfl := JVal.str.inj h3
      exact ⟨s, rfl, h2, h4⟩
  | .enum e, j, h, h' => by
    obtain ⟨n, rfl, h2⟩ := h
    obtain ⟨n', h3, h4⟩ := h'
    obtain rfl := JVal.num.inj h3
    exact ⟨n, rfl, h2, h4⟩
  | .struct fs, j, h, h' => by
    obtain ⟨ps, rfl, h2⟩ := h
    obtain ⟨ps', h3, h4⟩ := h'
    obtain rfl := JVal.obj.inj h3
    exact ⟨ps, rfl, typedFs_and fs ps h2 h4⟩
theorem typedFs_and {S S' : Str → Prop} {E E' : REnum → Num → Prop} : (fs : List (FieldOf RType)) → ∀ ps, TypedFs S E fs ps →
    TypedFs S' E' fs ps → TypedFs (fun s => S s ∧ S' s) (fun e n => E e n ∧ E' e n) fs ps
  | [], _, h, _ => h
  | f :: fs, ps, h, h' => by
    obtain ⟨p, qs, rfl, h2, h3⟩ := h
    obtain ⟨p', qs', h1, h4, h5⟩ := h'
    obtain ⟨rfl, rfl⟩ := List.cons.inj h1
    exact ⟨p, qs, rfl, typedF_and f p h2 h4, typedFs_and fs qs h3 h5⟩
theorem typedF_and {S S' : Str → Prop} {E E' : REnum → Num → Prop} : (f : FieldOf RType) → ∀ p, TypedF S E f p →
    TypedF S' E' f p → TypedF (fun s => S s ∧ S' s) (fun e n => E e n ∧ E' e n) f p
  | ⟨n, tn, t, a, o⟩, p, h, h' => by
    obtain ⟨h0, h1 | h1⟩ := h
    · exact ⟨h0, Or.inl h1⟩
    · obtain ⟨-, h2 | h2⟩ := h'
      · exact ⟨h0, Or.inl h2⟩
      · refine ⟨h0, Or.inr ?_⟩
        cases a with
        | false => exact typedT_and t _ h1 h2
        | true =>
          obtain ⟨js, h3, h4, h5⟩ := h1
          obtain ⟨js', h6, h7, h8⟩ := h2
          rw [h3] at h6
          obtain rfl := JVal.arr.inj h6
          exact ⟨js, h3, h4, fun x hx => typedT_and t x (h5 x hx) (h8 x hx)⟩
end

end Packetc.Rs
