import Verif.Proof.JsPlain
import Verif.Proof.JsWrite
import Verif.Spec.Behaviour
/-!
# Objects determine packet values; sizes and injectivity of the encoding
-/

namespace Packetc.Js
open Check Gen

/-! ### an object in a heap holds at most one value of a type -/

section
variable {S : Str → Prop} {N : Scalar → Num → Prop} {E : REnum → Num → Prop} {heap : List Obj} {lo : Nat}

mutual
theorem declT_unique : (t : RType) → ∀ j j' v, DeclaredT S N E t j → DeclaredT S N E t j' → RepFrom heap lo j v →
    RepFrom heap lo j' v → j = j'
  | .builtin b, j, j', v, h, h', r, r' => by
    unfold DeclaredT at h h'
    cases hs : scalarOf b with
    | none =>
      rw [hs] at h h'
      obtain ⟨s, rfl, -⟩ := h
      obtain ⟨s', rfl, -⟩ := h'
      have r : v = .str s := r
      have r' : v = .str s' := r'
      rw [r] at r'
      cases r'
      rfl
    | some sc =>
      rw [hs] at h h'
      obtain ⟨s, rfl, -⟩ := h
      obtain ⟨s', rfl, -⟩ := h'
      have r : v = .num s := r
      have r' : v = .num s' := r'
      rw [r] at r'
      cases r'
      rfl
  | .enum e, j, j', v, h, h', r, r' => by
    obtain ⟨s, rfl, -⟩ := h
    obtain ⟨s', rfl, -⟩ := h'
    have r : v = .num s := r
    have r' : v = .num s' := r'
    rw [r] at r'
    cases r'
    rfl
  | .struct fs, j, j', v, h, h', r, r' => by
    obtain ⟨ps, rfl, h⟩ := h
    obtain ⟨ps', rfl, h'⟩ := h'
    obtain ⟨i, pr, props, rfl, -, hg, r⟩ := r
    obtain ⟨i', pr', props', hi, -, hg', r'⟩ := r'
    cases hi
    rw [hg] at hg'
    cases hg'
    rw [declFs_unique fs ps ps' _ h h' r r']
theorem declFs_unique : (fs : List (FieldOf RType)) → ∀ ps ps' o, DeclaredFs S N E fs ps → DeclaredFs S N E fs ps' →
    RepProps heap lo ps o → RepProps heap lo ps' o → ps = ps'
  | [], ps, ps', o, h, h', _, _ => by
    have h : ps = [] := h
    have h' : ps' = [] := h'
    rw [h, h']
  | f :: fs, ps, ps', o, h, h', r, r' => by
    obtain ⟨p, qs, rfl, h1, h2⟩ := h
    obtain ⟨p', qs', rfl, h1', h2'⟩ := h'
    rw [declF_unique f p p' o h1 h1' r.1 r'.1, declFs_unique fs qs qs' o h2 h2' r.2 r'.2]
theorem declF_unique : (f : FieldOf RType) → ∀ p p' o, DeclaredF S N E f p → DeclaredF S N E f p' →
    RepProp heap lo p o → RepProp heap lo p' o → p = p'
  | ⟨n, tn, t, a, opt⟩, ⟨pn, j⟩, ⟨pn', j'⟩, o, h, h', r, r' => by
    obtain ⟨hn, h⟩ := h
    obtain ⟨hn', h'⟩ := h'
    simp only at hn hn' h h'
    subst hn
    subst hn'
    obtain ⟨w, hw, r⟩ := r
    obtain ⟨w', hw', r'⟩ := r'
    rw [hw] at hw'
    cases hw'
    have key : ∀ j j', DeclaredT S N E t j → DeclaredT S N E t j' → ∀ v, RepFrom heap lo j v → RepFrom heap lo j' v → j = j' :=
      fun j j' h h' v r r' => declT_unique t j j' v h h' r r'
    have nu : ∀ j, (if a = true then ∃ js, j = JVal.arr js ∧ js.length < 2 ^ 32 ∧ ∀ j ∈ js, DeclaredT S N E t j
        else DeclaredT S N E t j) → RepFrom heap lo j w → ¬ (w = .undef ∨ w = .null) := by
      intro j hj hr
      cases j with
      | undef =>
        cases a with
        | true => obtain ⟨js, h, -⟩ := hj; cases h
        | false =>
          cases t with
          | builtin b =>
            simp only [Bool.false_eq_true, if_false] at hj
            unfold DeclaredT at hj
            cases hs : scalarOf b with
            | none => rw [hs] at hj; obtain ⟨s, h, -⟩ := hj; cases h
            | some sc => rw [hs] at hj; obtain ⟨s, h, -⟩ := hj; cases h
          | enum e => obtain ⟨s, h, -⟩ := hj; cases h
          | struct fs => obtain ⟨s, h, -⟩ := hj; cases h
      | num n => have hr : w = .num n := hr; rw [hr]; simp
      | str n => have hr : w = .str n := hr; rw [hr]; simp
      | arr n => obtain ⟨i, x, hr, -⟩ := hr; rw [hr]; simp
      | obj n => obtain ⟨i, x, y, hr, -⟩ := hr; rw [hr]; simp
    congr 1
    rcases h with ⟨-, hu⟩ | h
    · rcases h' with ⟨-, hu'⟩ | h'
      · rw [hu, hu']
      · rw [hu] at r
        exact absurd r (nu _ h' r')
    · rcases h' with ⟨-, hu'⟩ | h'
      · rw [hu'] at r'
        exact absurd r' (nu _ h r)
      · cases a with
        | false => exact key j j' h h' w r r'
        | true =>
          obtain ⟨js, rfl, -, h⟩ := h
          obtain ⟨js', rfl, -, h'⟩ := h'
          obtain ⟨i, items, rfl, -, hg, r⟩ := r
          obtain ⟨i', items', hi, -, hg', r'⟩ := r'
          cases hi
          rw [hg] at hg'
          cases hg'
          congr 1
          clear hg hw nu
          induction js generalizing js' items with
          | nil =>
            have r : items = [] := r
            cases js' with
            | nil => rfl
            | cons j' js' =>
              obtain ⟨w, ws, hh, -⟩ := r'
              rw [r] at hh
              cases hh
          | cons j js ih =>
            obtain ⟨w, ws, rfl, r1, r2⟩ := r
            cases js' with
            | nil =>
              have r' : w :: ws = [] := r'
              cases r'
            | cons j' js' =>
              obtain ⟨w', ws', hh, r1', r2'⟩ := r'
              cases hh
              rw [key j j' (h j List.mem_cons_self) (h' j' List.mem_cons_self) w r1 r1',
                ih (fun x hx => h x (List.mem_cons_of_mem _ hx)) js' (fun x hx => h' x (List.mem_cons_of_mem _ hx)) ws r2 r2']
end
end

theorem repT_unique {S : Str → Prop} {E : REnum → Num → Prop} {heap : List Obj} {lo : Nat} (t : RType) (j j' : JVal) (v : Val)
    (h : TypedT S E t j) (h' : TypedT S E t j') (r : RepFrom heap lo j v) (r' : RepFrom heap lo j' v) : j = j' :=
  declT_unique t j j' v (typedT_declared t j h) (typedT_declared t j' h') r r'

/-! ### every value is held by some object -/

mutual
/-- At any depth the components of an object have different names. -/
def DistinctJ : JVal → Prop
  | .undef => True
  | .num _ => True
  | .str _ => True
  | .arr js => DistinctJs js
  | .obj ps => (ps.map PropOf.name).Nodup ∧ DistinctPs ps
def DistinctJs : List JVal → Prop
  | [] => True
  | j :: js => DistinctJ j ∧ DistinctJs js
def DistinctPs : List (PropOf JVal) → Prop
  | [] => True
  | p :: ps => DistinctP p ∧ DistinctPs ps
def DistinctP : PropOf JVal → Prop
  | ⟨_, j⟩ => DistinctJ j
end

theorem append_keep {h ext : List Obj} (k : Nat) (o : Obj) (he : h[k]? = some o) : (h ++ ext)[k]? = some o := by
  rw [List.getElem?_append_left (List.getElem?_eq_some_iff.1 he).1]
  exact he

mutual
theorem repJ_exists : (j : JVal) → DistinctJ j → ∀ heap, ∃ ext v, RepFrom (heap ++ ext) 0 j v
  | .undef, _, heap => ⟨[], .undef, Or.inl rfl⟩
  | .num n, _, heap => ⟨[], .num n, rfl⟩
  | .str s, _, heap => ⟨[], .str s, rfl⟩
  | .arr js, h, heap => by
    obtain ⟨ext, vs, hr⟩ := repJs_exists js h heap
    refine ⟨ext ++ [.arr vs], .ref (heap ++ ext).length, _, vs, rfl, Nat.zero_le _, ?_, ?_⟩
    · rw [← List.append_assoc]
      simp
    · rw [← List.append_assoc]
      exact repItems_mono (Nat.le_refl _) (fun k o _ => append_keep k o) js vs hr
  | .obj ps, h, heap => by
    obtain ⟨ext, vs, hl, hr⟩ := repPs_exists ps h.2 heap
    refine ⟨ext ++ [.obj .inst ((ps.map PropOf.name).zip vs)], .ref (heap ++ ext).length, _, .inst, ((ps.map PropOf.name).zip vs), rfl, Nat.zero_le _, ?_, ?_⟩
    · rw [← List.append_assoc]
      simp
    · rw [← List.append_assoc]
      refine repProps_mono (Nat.le_refl _) (fun k o _ => append_keep k o) ps _ (hr _ ?_)
      have hn := h.1
      clear hr h hl
      generalize ps.map PropOf.name = ns at hn
      intro i n v h1 h2
      induction ns generalizing i vs with
      | nil => simp at h1
      | cons m ns ih =>
        cases vs with
        | nil => simp at h2
        | cons w vs =>
          obtain ⟨hm, hn⟩ := List.nodup_cons.1 hn
          cases i with
          | zero =>
            simp only [List.getElem?_cons_zero, Option.some.injEq] at h1 h2
            subst h1
            subst h2
            simp [Map.get]
          | succ i =>
            simp only [List.getElem?_cons_succ] at h1 h2
            have hne : m ≠ n := by
              rintro rfl
              exact hm (List.mem_of_getElem? h1)
            have := ih vs hn i h1 h2
            simp only [List.zip_cons_cons, Map.get, if_neg hne]
            exact this
theorem repJs_exists : (js : List JVal) → DistinctJs js → ∀ heap, ∃ ext vs, RepItems (heap ++ ext) 0 js vs
  | [], _, heap => ⟨[], [], rfl⟩
  | j :: js, h, heap => by
    obtain ⟨ext, v, hr⟩ := repJ_exists j h.1 heap
    obtain ⟨ext', vs, hr'⟩ := repJs_exists js h.2 (heap ++ ext)
    refine ⟨ext ++ ext', v :: vs, v, vs, rfl, ?_, ?_⟩
    · rw [← List.append_assoc]
      exact repFrom_mono (Nat.le_refl _) (fun k o _ => append_keep k o) j v hr
    · rw [← List.append_assoc]
      exact hr'
theorem repPs_exists : (ps : List (PropOf JVal)) → DistinctPs ps → ∀ heap, ∃ (ext : List Obj) (vs : List Val), vs.length = ps.length ∧
    ∀ props : Map Val, (∀ (i : Nat) n v, (ps.map PropOf.name)[i]? = some n → vs[i]? = some v → props.get n = some v) →
      RepProps (heap ++ ext) 0 ps (.obj .inst props)
  | [], _, heap => ⟨[], [], rfl, fun _ _ => trivial⟩
  | ⟨n, j⟩ :: ps, h, heap => by
    obtain ⟨ext, v, hr⟩ := repJ_exists j h.1 heap
    obtain ⟨ext', vs, hl, hr'⟩ := repPs_exists ps h.2 (heap ++ ext)
    refine ⟨ext ++ ext', v :: vs, by simp [hl], ?_⟩
    intro props hp
    rw [← List.append_assoc]
    refine ⟨⟨v, ?_, repFrom_mono (Nat.le_refl _) (fun k o _ => append_keep k o) j v hr⟩, hr' props ?_⟩
    · have := hp 0 n v rfl rfl
      simp only [Obj.get, this]
    · intro i m w h1 h2
      exact hp (i + 1) m w h1 h2
end

theorem distinctJs_of {js : List JVal} (h : ∀ j ∈ js, DistinctJ j) : DistinctJs js := by
  induction js with
  | nil => trivial
  | cons j js ih => exact ⟨h j List.mem_cons_self, ih fun j hj => h j (List.mem_cons_of_mem _ hj)⟩

section
variable {S : Str → Prop} {N : Scalar → Num → Prop} {E : REnum → Num → Prop}

theorem declared_names : ∀ {fs : List (FieldOf RType)} {ps}, DeclaredFs S N E fs ps → ps.map PropOf.name = fs.map FieldOf.name
  | [], ps, h => by
    have h : ps = [] := h
    rw [h]
    rfl
  | ⟨n, tn, t, a, o⟩ :: fs, ps, h => by
    obtain ⟨p, qs, rfl, h1, h2⟩ := h
    rw [List.map_cons, List.map_cons, declared_names h2, h1.1]

mutual
theorem distinctD_type : (t : RType) → OrdinaryT t → ∀ j, DeclaredT S N E t j → DistinctJ j
  | .builtin b, _, j, h => by
    unfold DeclaredT at h
    cases hs : scalarOf b with
    | none => rw [hs] at h; obtain ⟨s, rfl, -⟩ := h; trivial
    | some sc => rw [hs] at h; obtain ⟨s, rfl, -⟩ := h; trivial
  | .enum e, _, j, h => by
    obtain ⟨n, rfl, -⟩ := h
    trivial
  | .struct fs, ho, j, h => by
    obtain ⟨ps, rfl, h⟩ := h
    exact ⟨by rw [declared_names h]; exact ho.1, distinctD_fields fs ho.2 ps h⟩
theorem distinctD_fields : (fs : List (FieldOf RType)) → OrdinaryFs fs → ∀ ps, DeclaredFs S N E fs ps → DistinctPs ps
  | [], _, ps, h => by
    have h : ps = [] := h
    rw [h]
    trivial
  | f :: fs, ho, ps, h => by
    obtain ⟨p, qs, rfl, h1, h2⟩ := h
    exact ⟨distinctD_field f ho.1 p h1, distinctD_fields fs ho.2 qs h2⟩
theorem distinctD_field : (f : FieldOf RType) → OrdinaryF f → ∀ p, DeclaredF S N E f p → DistinctP p
  | ⟨n, tn, t, a, o⟩, ho, ⟨pn, j⟩, h => by
    have key : ∀ j, DeclaredT S N E t j → DistinctJ j := distinctD_type t ho.2
    obtain ⟨-, h⟩ := h
    simp only at h
    show DistinctJ j
    rcases h with ⟨-, rfl⟩ | h
    · trivial
    · cases a with
      | false => exact key j h
      | true =>
        obtain ⟨js, rfl, -, h⟩ := h
        exact distinctJs_of fun j hj => key j (h j hj)
end
end

theorem typed_names {S : Str → Prop} {E : REnum → Num → Prop} {fs : List (FieldOf RType)} {ps} (h : TypedFs S E fs ps) :
    ps.map PropOf.name = fs.map FieldOf.name :=
  declared_names (typedFs_declared fs ps h)

theorem distinct_fields {S : Str → Prop} {E : REnum → Num → Prop} (fs : List (FieldOf RType)) (ho : OrdinaryFs fs) (ps)
    (h : TypedFs S E fs ps) : DistinctPs ps :=
  distinctD_fields fs ho ps (typedFs_declared fs ps h)

/-! ### size -/

variable (rt : Runtime)
section
variable {S : Str → Prop} {E : REnum → Num → Prop}

mutual
theorem size_type : (t : RType) → ∀ j, TypedT S E t j → (encode rt t j).length = sizeT rt t j
  | .builtin b, j, h => by
    unfold TypedT at h
    unfold encode sizeT
    cases hs : scalarOf b with
    | none =>
      rw [hs] at h
      obtain ⟨s, rfl, -⟩ := h
      simp only [List.length_append, rt.enc_len, Scalar.width]
    | some sc =>
      rw [hs] at h
      obtain ⟨s, rfl, -⟩ := h
      simp only [rt.enc_len]
  | .enum e, j, h => by
    obtain ⟨n, rfl, -⟩ := h
    show (rt.enc (reprScalar e.repr) n).length = match e.repr with | .u8 => 1 | .u16 => 2 | .u32 => 4
    rw [rt.enc_len]
    cases e.repr <;> rfl
  | .struct fs, j, h => by
    obtain ⟨ps, rfl, h⟩ := h
    exact size_fields fs ps h
theorem size_fields : (fs : List (FieldOf RType)) → ∀ ps, TypedFs S E fs ps → (encodeFields rt fs ps).length = sizeFs rt fs ps
  | [], _, _ => rfl
  | f :: fs, ps, h => by
    obtain ⟨p, qs, rfl, h1, h2⟩ := h
    show (encodeField rt f p.value ++ encodeFields rt fs qs).length = sizeF rt f p.value + sizeFs rt fs qs
    rw [List.length_append, size_fields fs qs h2, size_field f p h1]
theorem size_field : (f : FieldOf RType) → ∀ p, TypedF S E f p → (encodeField rt f p.value).length = sizeF rt f p.value
  | ⟨n, tn, t, a, o⟩, ⟨pn, j⟩, h => by
    have key : ∀ j, TypedT S E t j → (encode rt t j).length = sizeT rt t j := size_type t
    obtain ⟨-, h⟩ := h
    simp only at h
    rcases h with ⟨rfl, rfl⟩ | h
    · simp only [encodeField, sizeF, if_true, rt.enc_len, Scalar.width, and_self]
    · cases a with
      | true =>
        obtain ⟨js, rfl, -, h⟩ := h
        simp only [encodeField, sizeF, if_true, Bool.false_eq_true, and_false, if_false, List.length_append, rt.enc_len,
          Scalar.width, List.length_flatten, List.map_map]
        have : (js.map (List.length ∘ fun x => encode rt t x)) = js.map fun x => sizeT rt t x :=
          List.map_congr_left fun x hx => key x (h x hx)
        rw [this]
        cases o <;> simp [rt.enc_len, Scalar.width]
      | false =>
        simp only [Bool.false_eq_true, if_false] at h
        have hk := key j h
        have hnu : j ≠ .undef := by
          rintro rfl
          cases t with
          | builtin b =>
            unfold TypedT at h
            cases hs : scalarOf b with
            | none => rw [hs] at h; obtain ⟨s, h, -⟩ := h; cases h
            | some sc => rw [hs] at h; obtain ⟨s, h, -⟩ := h; cases h
          | enum e => obtain ⟨s, h, -⟩ := h; cases h
          | struct fs => obtain ⟨s, h, -⟩ := h; cases h
        have hna : ∀ js, j ≠ .arr js := by
          rintro js rfl
          cases t with
          | builtin b =>
            unfold TypedT at h
            cases hs : scalarOf b with
            | none => rw [hs] at h; obtain ⟨s, h, -⟩ := h; cases h
            | some sc => rw [hs] at h; obtain ⟨s, h, -⟩ := h; cases h
          | enum e => obtain ⟨s, h, -⟩ := h; cases h
          | struct fs => obtain ⟨s, h, -⟩ := h; cases h
        cases j with
        | undef => exact absurd rfl hnu
        | arr js => exact absurd rfl (hna js)
        | num n =>
          simp only [encodeField, sizeF, Bool.false_eq_true, and_false, if_false, List.length_append]
          rw [hk]
          cases o <;> simp [rt.enc_len, Scalar.width]
        | str n =>
          simp only [encodeField, sizeF, Bool.false_eq_true, and_false, if_false, List.length_append]
          rw [hk]
          cases o <;> simp [rt.enc_len, Scalar.width]
        | obj n =>
          simp only [encodeField, sizeF, Bool.false_eq_true, and_false, if_false, List.length_append]
          rw [hk]
          cases o <;> simp [rt.enc_len, Scalar.width]
end
end

/-! ### injectivity -/

theorem enc_inj {s : Scalar} {a b : Num} (ha : s.Ok a) (hb : s.Ok b) (h : rt.enc s a = rt.enc s b) : a = b := by
  rw [← rt.dec_enc s a ha, h, rt.dec_enc s b hb]

theorem enc_append_inj {s : Scalar} {a b : Num} {t t' : List UInt8} (h : rt.enc s a ++ t = rt.enc s b ++ t') :
    rt.enc s a = rt.enc s b ∧ t = t' := List.append_inj h (by rw [rt.enc_len, rt.enc_len])

theorem ok_uint32 {k : Nat} (h : k < 2 ^ 32) : Scalar.uint32.Ok (.int k) :=
  ⟨by omega, by exact_mod_cast h⟩

theorem jsShl1_range (v : Nat) : -2 ^ 31 ≤ jsShl1 v ∧ jsShl1 v < 2 ^ 31 := by
  unfold jsShl1
  split
  · decide
  · have : v % 32 < 31 := by omega
    have h : (2 : Int) ^ (v % 32) < 2 ^ 31 := pow_lt_bits this
    have h0 : (0 : Int) < 2 ^ (v % 32) := Int.pow_pos (by decide)
    constructor
    · omega
    · exact h

theorem variant_inj (hd : Delimiting rt) {e : REnum} (hs : SoundEnum e) {a b : Num} (ha : IsVariant e a) (hb : IsVariant e b)
    (h : rt.enc (reprScalar e.repr) a = rt.enc (reprScalar e.repr) b) : a = b := by
  obtain ⟨k, h1, h2, h3, h4, h5, -, -⟩ := sound_values hs
  by_cases h31 : e.variants.length ≤ 31
  · exact enc_inj rt (variant_faithful hs h31 ha).1 (variant_faithful hs h31 hb).1 h
  · have hr : e.repr = .u32 := by
      cases hr : e.repr with
      | u8 => rw [hr] at h5; have : WellFormed.reprBits .u8 = 8 := rfl; omega
      | u16 => rw [hr] at h5; have : WellFormed.reprBits .u16 = 16 := rfl; omega
      | u32 => rfl
    obtain ⟨v, -, rfl⟩ := ha
    obtain ⟨w, -, rfl⟩ := hb
    rw [hr] at h
    have h : rt.enc .uint32 (.int (jsShl1 v.value)) = rt.enc .uint32 (.int (jsShl1 w.value)) := h
    rw [hd.wraps, hd.wraps (jsShl1 w.value)] at h
    have ok : ∀ i : Int, Scalar.uint32.Ok (.int (i % 2 ^ 32)) := fun i =>
      ⟨Int.emod_nonneg _ (by decide), Int.emod_lt_of_pos _ (by decide)⟩
    have := enc_inj rt (s := .uint32) (ok _) (ok _) h
    have h6 : jsShl1 v.value % 2 ^ 32 = jsShl1 w.value % 2 ^ 32 := Num.int.inj this
    have h7 := jsShl1_range v.value
    have h8 := jsShl1_range w.value
    congr 1
    omega

/-- The bytes of a field that is present. -/
def encBody (t : RType) (a : Bool) (j : JVal) : List UInt8 :=
  if a then match j with
    | .arr js => rt.enc .uint32 (.int js.length) ++ (js.map fun x => encode rt t x).flatten | _ => []
  else encode rt t j

theorem encodeField_some (n tn : Str) (t : RType) (a o : Bool) (j : JVal) (h : ¬ (j matches .undef)) :
    encodeField rt ⟨n, tn, t, a, o⟩ j = (if o then rt.enc .uint8 (.int 1) else []) ++
      encBody rt t a j := by
  unfold encodeField encBody
  rw [if_neg (fun h' => h h'.2)]
  rfl

set_option linter.unusedSectionVars false
section
variable {rt} (hd : Delimiting rt)
include hd

mutual
theorem inj_type : (t : RType) → EnumsT SoundEnum t → ∀ j j' x x', HasType t j → HasType t j' →
    encode rt t j ++ x = encode rt t j' ++ x' → j = j' ∧ x = x'
  | .builtin b, _, j, j', x, x', h, h', he => by
    unfold HasType TypedT at h h'
    unfold encode at he
    cases hs : scalarOf b with
    | none =>
      rw [hs] at h h'
      obtain ⟨s, rfl, h1⟩ := h
      obtain ⟨s', rfl, h1'⟩ := h'
      simp only [hs, List.append_assoc] at he
      obtain ⟨e1, e2⟩ := enc_append_inj rt he
      have := enc_inj rt (ok_uint32 h1) (ok_uint32 h1') e1
      have hl : utf16Length s = utf16Length s' := Int.ofNat.inj (Num.int.inj this)
      obtain rfl := hd.text s s' _ _ hl e2
      exact ⟨rfl, List.append_cancel_left e2⟩
    | some sc =>
      rw [hs] at h h'
      obtain ⟨s, rfl, h1⟩ := h
      obtain ⟨s', rfl, h1'⟩ := h'
      simp only [hs] at he
      obtain ⟨e1, e2⟩ := enc_append_inj rt he
      rw [enc_inj rt h1 h1' e1]
      exact ⟨rfl, e2⟩
  | .enum e, hE, j, j', x, x', h, h', he => by
    obtain ⟨n, rfl, h1⟩ := h
    obtain ⟨n', rfl, h1'⟩ := h'
    obtain ⟨e1, e2⟩ := enc_append_inj rt (show rt.enc (reprScalar e.repr) n ++ x = rt.enc (reprScalar e.repr) n' ++ x' from he)
    rw [variant_inj rt hd hE h1 h1' e1]
    exact ⟨rfl, e2⟩
  | .struct fs, hE, j, j', x, x', h, h', he => by
    obtain ⟨ps, rfl, h1⟩ := h
    obtain ⟨ps', rfl, h1'⟩ := h'
    obtain ⟨e1, e2⟩ := inj_fields fs hE ps ps' x x' h1 h1' he
    exact ⟨by rw [e1], e2⟩
theorem inj_fields : (fs : List (FieldOf RType)) → EnumsFs SoundEnum fs → ∀ ps ps' x x', HasFields fs ps →
    HasFields fs ps' → encodeFields rt fs ps ++ x = encodeFields rt fs ps' ++ x' → ps = ps' ∧ x = x'
  | [], _, ps, ps', x, x', h, h', he => by
    have h : ps = [] := h
    have h' : ps' = [] := h'
    subst h
    subst h'
    exact ⟨rfl, he⟩
  | f :: fs, hE, ps, ps', x, x', h, h', he => by
    obtain ⟨p, qs, rfl, h1, h2⟩ := h
    obtain ⟨p', qs', rfl, h1', h2'⟩ := h'
    have he : (encodeField rt f p.value ++ encodeFields rt fs qs) ++ x =
      (encodeField rt f p'.value ++ encodeFields rt fs qs') ++ x' := he
    rw [List.append_assoc, List.append_assoc] at he
    obtain ⟨e1, e2⟩ := inj_field f hE.1 p p' _ _ h1 h1' he
    obtain ⟨e3, e4⟩ := inj_fields fs hE.2 qs qs' x x' h2 h2' e2
    exact ⟨by rw [e1, e3], e4⟩
theorem inj_field : (f : FieldOf RType) → EnumsF SoundEnum f → ∀ p p' x x', TypedF ShortStr IsVariant f p →
    TypedF ShortStr IsVariant f p' → encodeField rt f p.value ++ x = encodeField rt f p'.value ++ x' → p = p' ∧ x = x'
  | ⟨n, tn, t, a, o⟩, hE, ⟨pn, j⟩, ⟨pn', j'⟩, x, x', h, h', he => by
    have key := inj_type t hE
    obtain ⟨hn, g⟩ := h
    obtain ⟨hn', g'⟩ := h'
    simp only at hn hn' g g' he
    subst hn
    subst hn'
    suffices h : j = j' ∧ x = x' by rw [h.1, h.2]; exact ⟨rfl, rfl⟩
    have hB : ∀ x x', (if a = true then ∃ js, j = JVal.arr js ∧ js.length < 2 ^ 32 ∧ ∀ j ∈ js, HasType t j else HasType t j) →
        (if a = true then ∃ js, j' = JVal.arr js ∧ js.length < 2 ^ 32 ∧ ∀ j ∈ js, HasType t j else HasType t j') →
        encBody rt t a j ++ x = encBody rt t a j' ++ x' → j = j' ∧ x = x' := by
      clear he g g'
      intro x x' h h' he
      cases a with
      | false => exact key j j' x x' h h' he
      | true =>
        obtain ⟨js, rfl, hl, h⟩ := h
        obtain ⟨js', rfl, hl', h'⟩ := h'
        simp only [encBody, if_true, List.append_assoc] at he
        obtain ⟨e1, e2⟩ := enc_append_inj rt he
        have hlen : js.length = js'.length :=
          Int.ofNat.inj (Num.int.inj (enc_inj rt (ok_uint32 hl) (ok_uint32 hl') e1))
        clear he e1 hl hl'
        suffices h : js = js' ∧ x = x' by rw [h.1, h.2]; exact ⟨rfl, rfl⟩
        induction js generalizing js' with
        | nil =>
          cases js' with
          | nil => exact ⟨rfl, e2⟩
          | cons _ _ => cases hlen
        | cons j js ih =>
          cases js' with
          | nil => cases hlen
          | cons j' js' =>
            simp only [List.map_cons, List.flatten_cons, List.append_assoc] at e2
            obtain ⟨e3, e4⟩ := key j j' _ _ (h j List.mem_cons_self) (h' j' List.mem_cons_self) e2
            obtain ⟨e5, e6⟩ := ih (fun x hx => h x (List.mem_cons_of_mem _ hx)) js'
              (fun x hx => h' x (List.mem_cons_of_mem _ hx)) e4 (Nat.succ.inj hlen)
            exact ⟨by rw [e3, e5], e6⟩
    have nu : ∀ j : JVal, (if a = true then ∃ js, j = JVal.arr js ∧ js.length < 2 ^ 32 ∧ ∀ j ∈ js, HasType t j
        else HasType t j) → ¬ (j matches .undef) := by
      intro j hj hu
      cases j with
      | undef =>
        cases a with
        | true => obtain ⟨js, h, -⟩ := hj; cases h
        | false =>
          cases t with
          | builtin b =>
            simp only [Bool.false_eq_true, if_false] at hj
            unfold HasType TypedT at hj
            cases hs : scalarOf b with
            | none => rw [hs] at hj; obtain ⟨s, h, -⟩ := hj; cases h
            | some sc => rw [hs] at hj; obtain ⟨s, h, -⟩ := hj; cases h
          | enum e => obtain ⟨s, h, -⟩ := hj; cases h
          | struct fs => obtain ⟨s, h, -⟩ := hj; cases h
      | _ => cases hu
    have z1 : ∀ y y', rt.enc .uint8 (.int 0) ++ y ≠ rt.enc .uint8 (.int 1) ++ y' := by
      intro y y' h
      have := enc_inj rt (s := .uint8) (a := .int 0) (b := .int 1) ⟨by decide, by decide⟩ ⟨by decide, by decide⟩ (enc_append_inj rt h).1
      cases this
    have eu : encodeField rt ⟨pn', tn, t, a, true⟩ .undef = rt.enc .uint8 (.int 0) := rfl
    rcases g with ⟨ho, hu⟩ | h
    · subst ho
      subst hu
      rcases g' with ⟨-, hu'⟩ | h'
      · subst hu'
        exact ⟨rfl, List.append_cancel_left he⟩
      · rw [eu, encodeField_some rt _ _ _ _ _ _ (nu _ h'), if_pos rfl, List.append_assoc] at he
        exact absurd he (z1 _ _)
    · rcases g' with ⟨ho, hu'⟩ | h'
      · subst ho
        subst hu'
        rw [eu, encodeField_some rt _ _ _ _ _ _ (nu _ h), if_pos rfl, List.append_assoc] at he
        exact absurd he.symm (z1 _ _)
      · rw [encodeField_some rt _ _ _ _ _ _ (nu _ h), encodeField_some rt _ _ _ _ _ _ (nu _ h'), List.append_assoc,
          List.append_assoc] at he
        exact hB x x' h h' (List.append_cancel_left he)
end
end

/-! ### UTF-8 -/

theorem utf8Char_prefix {c d : Char} {t t' : List UInt8}
    (h : String.utf8EncodeChar c ++ t = String.utf8EncodeChar d ++ t') : c = d := by
  have h1 := ByteArray.utf8DecodeChar?_utf8EncodeChar_append (b := t.toByteArray) (c := c)
  have h2 := ByteArray.utf8DecodeChar?_utf8EncodeChar_append (b := t'.toByteArray) (c := d)
  rw [← List.toByteArray_append] at h1 h2
  rw [h, h2] at h1
  exact (Option.some.inj h1).symm

/-- UTF-8 and little endian integers meet the further assumptions. -/
theorem leUtf8_delimiting : Delimiting leUtf8 where
  text := by
    intro s
    induction s with
    | nil =>
      intro s' t t' hl _
      cases s' with
      | nil => rfl
      | cons c s' =>
        unfold utf16Length at hl
        split at hl <;> omega
    | cons c s ih =>
      intro s' t t' hl h
      cases s' with
      | nil =>
        unfold utf16Length at hl
        split at hl <;> omega
      | cons d s' =>
        have h : (String.utf8EncodeChar c ++ utf8Enc s) ++ t = (String.utf8EncodeChar d ++ utf8Enc s') ++ t' := h
        rw [List.append_assoc, List.append_assoc] at h
        obtain rfl := utf8Char_prefix h
        have h := List.append_cancel_left h
        have hl : utf16Length s = utf16Length s' := by
          unfold utf16Length at hl
          omega
        rw [ih s' t t' hl h]
  wraps := by
    intro i
    show leBytes 4 _ = leBytes 4 _
    congr 1
    show (i % ((256 ^ 4 : Nat) : Int)).toNat = ((i % 2 ^ 32) % ((256 ^ 4 : Nat) : Int)).toNat
    congr 1
    norm_num

/-- In UTF-8 exactly the ASCII strings have as many bytes as UTF-16 units. -/
theorem faithful_utf8 (s : Str) :
    FaithfulStr leUtf8 s ↔ utf16Length s < 2 ^ 32 ∧ ∀ c ∈ s, c.toNat < 128 := by
  refine and_congr Iff.rfl ?_
  show (utf8Enc s).length = utf16Length s ↔ _
  have hc : ∀ c : Char, (if c.toNat < 0x10000 then 1 else 2) ≤ c.utf8Size ∧
      (c.utf8Size = (if c.toNat < 0x10000 then 1 else 2) ↔ c.toNat < 128) := by
    intro c
    have e : c.toNat = c.val.toNat := rfl
    unfold Char.utf8Size
    simp only [UInt32.le_iff_toNat_le, e, UInt32.toNat_ofNatLT]
    split <;> split <;> (try split) <;> (try split) <;> omega
  have hle : ∀ s, utf16Length s ≤ (utf8Enc s).length := by
    intro s
    induction s with
    | nil => exact Nat.le_refl _
    | cons c s ih =>
      have := (hc c).1
      show (if c.toNat < 0x10000 then 1 else 2) + utf16Length s ≤ (String.utf8EncodeChar c ++ utf8Enc s).length
      rw [List.length_append, String.length_utf8EncodeChar]
      omega
  induction s with
  | nil => simp [utf8Enc, utf16Length]
  | cons c s ih =>
    have h1 := (hc c).1
    have h2 := (hc c).2
    have h3 := hle s
    show (String.utf8EncodeChar c ++ utf8Enc s).length = (if c.toNat < 0x10000 then 1 else 2) + utf16Length s ↔ _
    have ih' : (utf8Enc s).length = utf16Length s ↔ ∀ c ∈ s, c.toNat < 128 := ih
    rw [List.length_append, String.length_utf8EncodeChar, List.forall_mem_cons, ← ih', ← h2]
    omega

end Packetc.Js
