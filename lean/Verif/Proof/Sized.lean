import Verif.Spec.Sized
import Verif.Proof.JsAccept
import Verif.Proof.JsVars
/-!
# Sizes of packets (for C85 and C86)
-/

namespace Packetc.Js
open Ast Check WellFormed

/-! ### of resolved types -/

def reprSize : EnumRepr → Nat
  | .u8 => 1 | .u16 => 2 | .u32 => 4

mutual
/-- Bytes of the smallest value. -/
def minT : RType → Nat
  | .builtin b => match scalarOf b with | some sc => sc.width | none => 4
  | .enum e => reprSize e.repr
  | .struct fs => minFs fs
def minFs : List (FieldOf RType) → Nat
  | [] => 0
  | f :: fs => minF f + minFs fs
def minF : FieldOf RType → Nat
  | ⟨_, _, ty, array, optional⟩ => if optional then 1 else if array then 4 else minT ty
end

mutual
/-- All values have the same size. -/
def sizedT : RType → Prop
  | .builtin b => b ≠ .string
  | .enum _ => True
  | .struct fs => sizedFs fs
def sizedFs : List (FieldOf RType) → Prop
  | [] => True
  | f :: fs => sizedF f ∧ sizedFs fs
def sizedF : FieldOf RType → Prop
  | ⟨_, _, ty, array, optional⟩ => if optional = true ∨ array = true then minT ty = 0 else sizedT ty
end

mutual
/-- No optional arrays. -/
def flagsT : RType → Prop
  | .builtin _ => True
  | .enum _ => True
  | .struct fs => flagsFs fs
def flagsFs : List (FieldOf RType) → Prop
  | [] => True
  | f :: fs => flagsF f ∧ flagsFs fs
def flagsF : FieldOf RType → Prop
  | ⟨_, _, ty, array, optional⟩ => ¬ (array = true ∧ optional = true) ∧ flagsT ty
end

mutual
/-- A smallest value. -/
def leastT : RType → JVal
  | .builtin b => match scalarOf b with
    | some .float => .num (.f32 0#32)
    | some _ => .num (.int 0)
    | none => .str []
  | .enum _ => .num (.int 1)
  | .struct fs => .obj (leastFs fs)
def leastFs : List (FieldOf RType) → List (PropOf JVal)
  | [] => []
  | f :: fs => leastF f :: leastFs fs
def leastF : FieldOf RType → PropOf JVal
  | ⟨n, _, ty, array, optional⟩ => ⟨n, if optional then .undef else if array then .arr [] else leastT ty⟩
end

variable (rt : Runtime)

theorem sizeF_plain (n tn : Str) (t : RType) {j : JVal} {S E} (h : TypedT S E t j) :
    sizeF rt ⟨n, tn, t, false, false⟩ j = sizeT rt t j := by
  cases t with
  | builtin b =>
    unfold TypedT at h
    cases hs : scalarOf b with
    | none => rw [hs] at h; obtain ⟨s, rfl, -⟩ := h; exact Nat.zero_add _
    | some sc => rw [hs] at h; obtain ⟨s, rfl, -⟩ := h; exact Nat.zero_add _
  | enum e => obtain ⟨m, rfl, -⟩ := h; exact Nat.zero_add _
  | struct fs => obtain ⟨ps, rfl, -⟩ := h; exact Nat.zero_add _

theorem sizeF_present (n tn : Str) (t : RType) {j : JVal} {S E} (h : TypedT S E t j) :
    sizeF rt ⟨n, tn, t, false, true⟩ j = 1 + sizeT rt t j := by
  cases t with
  | builtin b =>
    unfold TypedT at h
    cases hs : scalarOf b with
    | none => rw [hs] at h; obtain ⟨s, rfl, -⟩ := h; rfl
    | some sc => rw [hs] at h; obtain ⟨s, rfl, -⟩ := h; rfl
  | enum e => obtain ⟨m, rfl, -⟩ := h; rfl
  | struct fs => obtain ⟨ps, rfl, -⟩ := h; rfl

mutual
theorem min_le_type {S E} : (t : RType) → ∀ j, TypedT S E t j → minT t ≤ sizeT rt t j
  | .builtin b, j, h => by
    unfold TypedT at h
    unfold minT sizeT
    cases hs : scalarOf b with
    | none =>
      rw [hs] at h
      obtain ⟨s, rfl, -⟩ := h
      exact Nat.le_add_right _ _
    | some sc => exact Nat.le_refl _
  | .enum e, j, h => by
    show reprSize e.repr ≤ match e.repr with | .u8 => 1 | .u16 => 2 | .u32 => 4
    cases e.repr <;> exact Nat.le_refl _
  | .struct fs, j, h => by
    obtain ⟨ps, rfl, h⟩ := h
    exact min_le_fields fs ps h
theorem min_le_fields {S E} : (fs : List (FieldOf RType)) → ∀ ps, TypedFs S E fs ps → minFs fs ≤ sizeFs rt fs ps
  | [], _, _ => Nat.le_refl _
  | f :: fs, ps, h => by
    obtain ⟨p, qs, rfl, h1, h2⟩ := h
    exact Nat.add_le_add (min_le_field f p h1) (min_le_fields fs qs h2)
theorem min_le_field {S E} : (f : FieldOf RType) → ∀ p, TypedF S E f p → minF f ≤ sizeF rt f p.value
  | ⟨n, tn, t, a, o⟩, ⟨pn, j⟩, h => by
    have key : ∀ j, TypedT S E t j → minT t ≤ sizeT rt t j := min_le_type t
    obtain ⟨-, h⟩ := h
    show minF ⟨n, tn, t, a, o⟩ ≤ sizeF rt ⟨n, tn, t, a, o⟩ j
    cases o with
    | true => exact Nat.le_add_right 1 _
    | false =>
      rcases h with ⟨h, -⟩ | h
      · cases h
      · cases a with
        | true =>
          obtain ⟨js, hj, -, -⟩ := h
          have hj : j = .arr js := hj
          subst hj
          show 4 ≤ 0 + (4 + _)
          omega
        | false =>
          have h : TypedT S E t j := h
          rw [sizeF_plain rt n tn t h]
          exact key j h
end

theorem sound_one {e : REnum} (h : SoundEnum e) : IsVariant e (.int 1) := by
  obtain ⟨k, -, -, -, -, -, ⟨v, hv, h0⟩, -⟩ := sound_values h
  exact ⟨v, List.mem_of_mem_head? hv, by rw [h0]; rfl⟩

mutual
theorem least_type : (t : RType) → EnumsT SoundEnum t → HasType t (leastT t)
  | .builtin b, _ => by
    unfold TypedT leastT
    cases b <;> first | exact ⟨_, rfl, by decide, by decide⟩ | skip
    · refine ⟨_, rfl, ?_⟩
      intro h
      exact absurd h.1 (by decide)
    · exact ⟨_, rfl, by decide⟩
  | .enum e, h => ⟨_, rfl, sound_one h⟩
  | .struct fs, h => ⟨_, rfl, least_fields fs h⟩
theorem least_fields : (fs : List (FieldOf RType)) → EnumsFs SoundEnum fs → HasFields fs (leastFs fs)
  | [], _ => rfl
  | f :: fs, h => ⟨_, _, rfl, least_field f h.1, least_fields fs h.2⟩
theorem least_field : (f : FieldOf RType) → EnumsF SoundEnum f → TypedF ShortStr IsVariant f (leastF f)
  | ⟨n, tn, t, a, o⟩, h => by
    refine ⟨rfl, ?_⟩
    cases o with
    | true => exact .inl ⟨rfl, rfl⟩
    | false =>
      refine .inr ?_
      cases a with
      | true => exact ⟨[], rfl, by decide, fun _ h => absurd h List.not_mem_nil⟩
      | false => exact least_type t h
end

section
set_option linter.unusedSectionVars false
variable {rt} (hrt : rt.encS [] = [])
include hrt

mutual
theorem size_least_type : (t : RType) → EnumsT SoundEnum t → sizeT rt t (leastT t) = minT t
  | .builtin b, _ => by
    cases b <;> first | rfl | skip
    show 4 + (rt.encS []).length = 4
    rw [hrt]
    rfl
  | .enum e, h => by
    show (match e.repr with | .u8 => 1 | .u16 => 2 | .u32 => 4) = reprSize e.repr
    cases e.repr <;> rfl
  | .struct fs, h => size_least_fields fs h
theorem size_least_fields : (fs : List (FieldOf RType)) → EnumsFs SoundEnum fs → sizeFs rt fs (leastFs fs) = minFs fs
  | [], _ => rfl
  | f :: fs, h => by
    show sizeF rt f (leastF f).value + sizeFs rt fs (leastFs fs) = minF f + minFs fs
    rw [size_least_field f h.1, size_least_fields fs h.2]
theorem size_least_field : (f : FieldOf RType) → EnumsF SoundEnum f → sizeF rt f (leastF f).value = minF f
  | ⟨n, tn, t, a, o⟩, h => by
    cases o with
    | true => rfl
    | false =>
      cases a with
      | true => rfl
      | false => exact (sizeF_plain rt n tn t (least_type t h)).trans (size_least_type t h)
end
end

mutual
theorem sized_of_zero : (t : RType) → flagsT t → minT t = 0 → sizedT t
  | .builtin b, _, h => by
    cases b <;> exact absurd h (by decide)
  | .enum e, _, h => True.intro
  | .struct fs, hf, h => sizedFs_of_zero fs hf h
theorem sizedFs_of_zero : (fs : List (FieldOf RType)) → flagsFs fs → minFs fs = 0 → sizedFs fs
  | [], _, _ => True.intro
  | f :: fs, hf, h => by
    have h : minF f + minFs fs = 0 := h
    exact ⟨sizedF_of_zero f hf.1 (by omega), sizedFs_of_zero fs hf.2 (by omega)⟩
theorem sizedF_of_zero : (f : FieldOf RType) → flagsF f → minF f = 0 → sizedF f
  | ⟨n, tn, t, a, o⟩, hf, h => by
    cases o with
    | true => exact absurd (show 1 = 0 from h) (by decide)
    | false =>
      cases a with
      | true => exact absurd (show 4 = 0 from h) (by decide)
      | false =>
        show if false = true ∨ false = true then minT t = 0 else sizedT t
        rw [if_neg (by decide)]
        exact sized_of_zero t hf.2 h
end

mutual
theorem size_sized_type {S E} : (t : RType) → flagsT t → sizedT t → ∀ j, TypedT S E t j → sizeT rt t j = minT t
  | .builtin b, _, hs, j, h => by
    cases b <;> first | rfl | exact absurd rfl hs
  | .enum e, _, _, j, h => by
    show (match e.repr with | .u8 => 1 | .u16 => 2 | .u32 => 4) = reprSize e.repr
    cases e.repr <;> rfl
  | .struct fs, hf, hs, j, h => by
    obtain ⟨ps, rfl, h⟩ := h
    exact size_sized_fields fs hf hs ps h
theorem size_sized_fields {S E} : (fs : List (FieldOf RType)) → flagsFs fs → sizedFs fs →
    ∀ ps, TypedFs S E fs ps → sizeFs rt fs ps = minFs fs
  | [], _, _, _, _ => rfl
  | f :: fs, hf, hs, ps, h => by
    obtain ⟨p, qs, rfl, h1, h2⟩ := h
    show sizeF rt f p.value + sizeFs rt fs qs = minF f + minFs fs
    rw [size_sized_field f hf.1 hs.1 p h1, size_sized_fields fs hf.2 hs.2 qs h2]
theorem size_sized_field {S E} : (f : FieldOf RType) → flagsF f → sizedF f → ∀ p, TypedF S E f p →
    sizeF rt f p.value = minF f
  | ⟨n, tn, t, a, o⟩, hf, hs, ⟨pn, j⟩, h => by
    have key : sizedT t → ∀ j, TypedT S E t j → sizeT rt t j = minT t := size_sized_type t hf.2
    have hz := sized_of_zero t hf.2
    obtain ⟨-, h⟩ := h
    show sizeF rt ⟨n, tn, t, a, o⟩ j = minF ⟨n, tn, t, a, o⟩
    have hs : if o = true ∨ a = true then minT t = 0 else sizedT t := hs
    cases o with
    | true =>
      rw [if_pos (.inl rfl)] at hs
      have ha : a = false := by
        cases a
        · rfl
        · exact absurd ⟨rfl, rfl⟩ hf.1
      subst ha
      rcases h with ⟨-, h⟩ | h
      · have h : j = .undef := h
        subst h
        rfl
      · have h : TypedT S E t j := h
        rw [sizeF_present rt n tn t h, key (hz hs) j h, hs]
        rfl
    | false =>
      rcases h with ⟨h, -⟩ | h
      · cases h
      · cases a with
        | true =>
          rw [if_pos (.inr rfl)] at hs
          obtain ⟨js, hj, -, hjs⟩ := h
          have hj : j = .arr js := hj
          subst hj
          show 0 + (4 + (js.map fun x => sizeT rt t x).sum) = 4
          have : (js.map fun x => sizeT rt t x).sum = 0 := by
            rw [List.sum_eq_zero_iff_forall_eq_nat]
            intro x hx
            obtain ⟨y, hy, rfl⟩ := List.mem_map.1 hx
            rw [key (hz hs) y (hjs y hy), hs]
          omega
        | false =>
          rw [if_neg (by simp)] at hs
          have h : TypedT S E t j := h
          rw [sizeF_plain rt n tn t h]
          exact key hs j h
end

section
variable {rt} (hrt : rt.encS [] = [])
include hrt

mutual
/-- Types that are not sized have a value that is bigger than the smallest one. -/
theorem bigger_type : (t : RType) → EnumsT SoundEnum t → flagsT t → ¬ sizedT t → ∃ j, HasType t j ∧ minT t < sizeT rt t j
  | .builtin b, _, _, hs => by
    have : b = .string := by
      by_contra h
      exact hs h
    subst this
    refine ⟨.str ['a'], ⟨_, rfl, by decide⟩, ?_⟩
    show 4 < 4 + (rt.encS ['a']).length
    have : rt.encS ['a'] ≠ [] := by
      intro h
      have h1 := rt.decS_encS ['a']
      rw [h, ← hrt, rt.decS_encS] at h1
      cases h1
    have := List.length_pos_iff.2 this
    omega
  | .enum e, _, _, hs => absurd True.intro hs
  | .struct fs, he, hf, hs => by
    obtain ⟨ps, h1, h2⟩ := bigger_fields fs he hf hs
    exact ⟨.obj ps, ⟨_, rfl, h1⟩, h2⟩
theorem bigger_fields : (fs : List (FieldOf RType)) → EnumsFs SoundEnum fs → flagsFs fs → ¬ sizedFs fs →
    ∃ ps, HasFields fs ps ∧ minFs fs < sizeFs rt fs ps
  | [], _, _, hs => absurd True.intro hs
  | f :: fs, he, hf, hs => by
    by_cases h : sizedF f
    · obtain ⟨ps, h1, h2⟩ := bigger_fields fs he.2 hf.2 (fun h' => hs ⟨h, h'⟩)
      refine ⟨leastF f :: ps, ⟨_, _, rfl, least_field f he.1, h1⟩, ?_⟩
      show minF f + minFs fs < sizeF rt f (leastF f).value + sizeFs rt fs ps
      rw [size_least_field hrt f he.1]
      omega
    · obtain ⟨p, h1, h2⟩ := bigger_field f he.1 hf.1 h
      refine ⟨p :: leastFs fs, ⟨_, _, rfl, h1, least_fields fs he.2⟩, ?_⟩
      show minF f + minFs fs < sizeF rt f p.value + sizeFs rt fs (leastFs fs)
      rw [size_least_fields hrt fs he.2]
      omega
theorem bigger_field : (f : FieldOf RType) → EnumsF SoundEnum f → flagsF f → ¬ sizedF f →
    ∃ p, TypedF ShortStr IsVariant f p ∧ minF f < sizeF rt f p.value
  | ⟨n, tn, t, a, o⟩, he, hf, hs => by
    have key : ¬ sizedT t → ∃ j, HasType t j ∧ minT t < sizeT rt t j := bigger_type t he hf.2
    have hl := least_type t he
    have hls := size_least_type hrt t he
    have hs : ¬ if o = true ∨ a = true then minT t = 0 else sizedT t := hs
    cases o with
    | true =>
      rw [if_pos (.inl rfl)] at hs
      have ha : a = false := by
        cases a
        · rfl
        · exact absurd ⟨rfl, rfl⟩ hf.1
      subst ha
      refine ⟨⟨n, leastT t⟩, ⟨rfl, .inr hl⟩, ?_⟩
      show 1 < sizeF rt ⟨n, tn, t, false, true⟩ (leastT t)
      rw [sizeF_present rt n tn t hl, hls]
      omega
    | false =>
      cases a with
      | true =>
        rw [if_pos (.inr rfl)] at hs
        refine ⟨⟨n, .arr [leastT t]⟩, ⟨rfl, .inr ⟨_, rfl, show 1 < 2 ^ 32 by decide, ?_⟩⟩, ?_⟩
        · intro j hj
          rw [List.mem_singleton.1 hj]
          exact hl
        · show 4 < 0 + (4 + (sizeT rt t (leastT t) + 0))
          rw [hls]
          omega
      | false =>
        rw [if_neg (by simp)] at hs
        obtain ⟨j, h1, h2⟩ := key hs
        refine ⟨⟨n, j⟩, ⟨rfl, .inr h1⟩, ?_⟩
        show minT t < sizeF rt ⟨n, tn, t, false, false⟩ j
        rw [sizeF_plain rt n tn t h1]
        exact h2
end
end

/-! ### of the types of a schema -/

/-- The share of one field in `LeastFields`. -/
inductive LeastField (ast : AST) (f : Str × Unresolved) : Nat → Prop
  | optional : f.2.optional = true → LeastField ast f 1
  | array : f.2.array = true → LeastField ast f 4
  | plain {l} : f.2.optional = false → f.2.array = false → Least ast f.2.name l → LeastField ast f l

theorem leastFields_cons {ast : AST} {f fs k} :
    LeastFields ast (f :: fs) k ↔ ∃ l m, LeastField ast f l ∧ LeastFields ast fs m ∧ k = l + m := by
  constructor
  · intro h
    cases h with
    | optional h1 h2 => exact ⟨_, _, .optional h1, h2, rfl⟩
    | array h1 h2 => exact ⟨_, _, .array h1, h2, rfl⟩
    | plain h1 h2 h3 h4 => exact ⟨_, _, .plain h1 h2 h3, h4, rfl⟩
  · rintro ⟨l, m, h, hm, rfl⟩
    cases h with
    | optional h1 => exact .optional h1 hm
    | array h1 => exact .array h1 hm
    | plain h1 h2 h3 => exact .plain h1 h2 h3 hm

theorem leastFields_perm {ast : AST} {fs gs : List (Str × Unresolved)} (h : fs.Perm gs) :
    ∀ k, LeastFields ast fs k → LeastFields ast gs k := by
  induction h with
  | nil => exact fun _ h => h
  | cons f _ ih =>
    intro k h
    obtain ⟨l, m, h1, h2, rfl⟩ := leastFields_cons.1 h
    exact leastFields_cons.2 ⟨l, m, h1, ih m h2, rfl⟩
  | swap f g fs =>
    intro k h
    obtain ⟨l, m, h1, h2, rfl⟩ := leastFields_cons.1 h
    obtain ⟨l', m', h3, h4, rfl⟩ := leastFields_cons.1 h2
    exact leastFields_cons.2 ⟨l', l + m', h3, leastFields_cons.2 ⟨l, m', h1, h4, rfl⟩, by omega⟩
  | trans _ _ ih1 ih2 => exact fun k h => ih2 k (ih1 k h)

theorem reprSize_enumSpec {vs : List Str} : reprSize (enumSpec vs).repr =
    if vs.length ≤ 8 then 1 else if vs.length ≤ 16 then 2 else 4 := by
  show reprSize (smallestRepr vs.length) = _
  unfold smallestRepr
  split
  · rfl
  · split <;> rfl

theorem least_fields_iff {ast : AST} {c : TypeMap} {fs : List (Str × Unresolved)} {rfs : List RField}
    (h : List.Forall₂ (FieldOk c) fs rfs) (ih : ∀ rf ∈ rfs, ∀ k, Least ast rf.tyName k ↔ minT rf.ty = k) :
    ∀ k, LeastFields ast fs k ↔ minFs rfs = k := by
  induction h with
  | nil =>
    intro k
    constructor
    · intro h
      cases h
      rfl
    · intro h
      have h : 0 = k := h
      subst h
      exact .nil
  | @cons f rf fs rfs hok _ ih' =>
    intro k
    have ih' := ih' (fun rf h => ih rf (List.mem_cons_of_mem _ h))
    have hr := ih rf List.mem_cons_self
    have hone : ∀ l, LeastField ast f l ↔ minF rf = l := by
      obtain ⟨n, tn, t, a, o⟩ := rf
      have h2 : tn = f.2.name := hok.tyName
      have h3 : a = f.2.array := hok.array
      have h4 : o = f.2.optional := hok.optional
      have hflags := hok.flags
      intro l
      have hr : ∀ k, Least ast tn k ↔ minT t = k := hr
      show LeastField ast f l ↔ (if o = true then 1 else if a = true then 4 else minT t) = l
      rw [← h3, ← h4] at hflags
      constructor
      · intro h
        cases h with
        | optional h => rw [if_pos (h4.trans h)]
        | array h =>
          have h : a = true := h3.trans h
          rw [if_neg (fun h' => hflags ⟨h, h'⟩), if_pos h]
        | plain h1 h2' h3' =>
          rw [if_neg (by rw [h4, h1]; decide), if_neg (by rw [h3, h2']; decide)]
          exact (hr l).1 (h2 ▸ h3')
      · intro h
        cases o with
        | true => rw [if_pos rfl] at h; subst h; exact .optional h4.symm
        | false =>
          rw [if_neg (by decide)] at h
          cases a with
          | true => rw [if_pos rfl] at h; subst h; exact .array h3.symm
          | false =>
            rw [if_neg (by decide)] at h
            exact .plain h4.symm h3.symm (h2 ▸ (hr l).2 h)
    rw [leastFields_cons]
    show _ ↔ minF rf + minFs rfs = k
    constructor
    · rintro ⟨l, m, h1, h2, rfl⟩
      rw [(hone l).1 h1, (ih' m).1 h2]
    · intro h
      exact ⟨_, _, (hone _).2 rfl, (ih' _).2 rfl, h.symm⟩

theorem builtinSizes_iff (b : Builtin) (k : Nat) :
    (builtinName b, k) ∈ builtinSizes ↔ minT (.builtin b) = k := by
  cases b <;> constructor
  all_goals first
    | (intro h; simp [builtinSizes, builtinName] at h; exact h.symm)
    | (intro h; subst h; decide)

theorem builtinSizes_names {n : Str} {k : Nat} (h : (n, k) ∈ builtinSizes) : n ∈ builtinNames := by
  have : n ∈ builtinSizes.map Prod.fst := List.mem_map.2 ⟨_, h, rfl⟩
  exact this

theorem final_least {ast : AST} {c : TypeMap} (hf : Final ast c) (hnb : NoBuiltinDecl ast) (s : Nat) :
    ∀ n m t, sizeOf t ≤ s → c.get n = some (m, t) → ∀ k, Least ast n k ↔ minT t = k := by
  induction s with
  | zero =>
    intro n m t hk
    have : 0 < sizeOf t := by cases t <;> simp
    omega
  | succ s ih =>
    intro n m t hk hg k
    rcases final_entry hf hg with ⟨hb, b, rfl, rfl⟩ | ⟨vs, e, hd, rfl⟩ | ⟨fs, fs', rfs, hd, hperm, rfl, hR⟩
    · rw [← builtinSizes_iff]
      constructor
      · intro h
        cases h with
        | builtin h => exact h
        | enum8 h => exact absurd hb (hnb _ ⟨_, mem_decls.2 h⟩)
        | enum16 h => exact absurd hb (hnb _ ⟨_, mem_decls.2 h⟩)
        | enum32 h => exact absurd hb (hnb _ ⟨_, mem_decls.2 h⟩)
        | struct h => exact absurd hb (hnb _ ⟨_, mem_decls.2 h⟩)
      · exact .builtin
    · have he : e = enumSpec vs := by
        have := (hf.enum n vs (mem_decls.2 hd)).2
        rw [hg] at this
        cases this
        rfl
      show _ ↔ reprSize e.repr = k
      rw [he, reprSize_enumSpec]
      constructor
      · intro h
        cases h with
        | builtin h => exact absurd (builtinSizes_names h) (hnb _ ⟨_, mem_decls.2 hd⟩)
        | enum8 h h1 => cases decl_once hf h hd; rw [if_pos h1]
        | enum16 h h1 h2 => cases decl_once hf h hd; rw [if_neg (by omega), if_pos h2]
        | enum32 h h1 => cases decl_once hf h hd; rw [if_neg (by omega), if_neg (by omega)]
        | struct h => cases decl_once hf h hd
      · intro h
        split at h
        · subst h; exact .enum8 hd ‹_›
        · split at h
          · subst h; exact .enum16 hd (by omega) ‹_›
          · subst h; exact .enum32 hd (by omega)
    · show _ ↔ minFs rfs = k
      rw [← least_fields_iff hR (fun rf hrf k => ?_) k]
      · constructor
        · intro h
          cases h with
          | builtin h => exact absurd (builtinSizes_names h) (hnb _ ⟨_, mem_decls.2 hd⟩)
          | enum8 h => cases decl_once hf h hd
          | enum16 h => cases decl_once hf h hd
          | enum32 h => cases decl_once hf h hd
          | struct h h1 =>
            cases decl_once hf h hd
            exact leastFields_perm hperm.symm _ h1
        · intro h
          exact .struct hd (leastFields_perm hperm _ h)
      · obtain ⟨f, hfm, hok⟩ := forall2_right hR rf hrf
        have hsz := sizeOf_field hrf
        rw [hok.tyName]
        exact ih _ _ rf.ty (by omega) hok.ty k

theorem sizedFs_iff {fs : List RField} : sizedFs fs ↔ ∀ f ∈ fs, sizedF f := by
  induction fs with
  | nil => simp [sizedFs]
  | cons f fs ih => simp [sizedFs, ih]

theorem flagsFs_iff {fs : List RField} : flagsFs fs ↔ ∀ f ∈ fs, flagsF f := by
  induction fs with
  | nil => simp [flagsFs]
  | cons f fs ih => simp [flagsFs, ih]

theorem final_flags {ast : AST} {c : TypeMap} (hf : Final ast c) (s : Nat) :
    ∀ n m t, sizeOf t ≤ s → c.get n = some (m, t) → flagsT t := by
  induction s with
  | zero =>
    intro n m t hk
    have : 0 < sizeOf t := by cases t <;> simp
    omega
  | succ s ih =>
    intro n m t hk hg
    rcases final_entry hf hg with ⟨hb, b, rfl, rfl⟩ | ⟨vs, e, hd, rfl⟩ | ⟨fs, fs', rfs, hd, hperm, rfl, hR⟩
    · exact True.intro
    · exact True.intro
    · refine flagsFs_iff.2 fun rf hrf => ?_
      obtain ⟨f, hfm, hok⟩ := forall2_right hR rf hrf
      have hsz := sizeOf_field hrf
      have h := ih _ _ rf.ty (by omega) hok.ty
      have h3 := hok.array
      have h4 := hok.optional
      have h5 := hok.flags
      rw [← h3, ← h4] at h5
      obtain ⟨n, tn, t, a, o⟩ := rf
      exact ⟨h5, h⟩

theorem final_sized {ast : AST} {c : TypeMap} (hf : Final ast c) (hnb : NoBuiltinDecl ast) (s : Nat) :
    ∀ n m t, sizeOf t ≤ s → c.get n = some (m, t) → (Sized ast n ↔ sizedT t) := by
  induction s with
  | zero =>
    intro n m t hk
    have : 0 < sizeOf t := by cases t <;> simp
    omega
  | succ s ih =>
    intro n m t hk hg
    rcases final_entry hf hg with ⟨hb, b, rfl, rfl⟩ | ⟨vs, e, hd, rfl⟩ | ⟨fs, fs', rfs, hd, hperm, rfl, hR⟩
    · have : builtinName b ≠ "string".toList ↔ b ≠ .string := by cases b <;> decide
      show _ ↔ b ≠ .string
      rw [← this]
      constructor
      · intro h
        cases h with
        | builtin _ h => exact h
        | enum h => exact absurd hb (hnb _ ⟨_, mem_decls.2 h⟩)
        | struct h => exact absurd hb (hnb _ ⟨_, mem_decls.2 h⟩)
      · exact .builtin hb
    · exact iff_of_true (.enum hd) True.intro
    · show _ ↔ sizedFs rfs
      rw [sizedFs_iff]
      have hone : ∀ f rf, rf ∈ rfs → FieldOk c f rf → (sizedF rf ↔
          (f.2.optional = true ∨ f.2.array = true → Least ast f.2.name 0) ∧
          (f.2.optional = false → f.2.array = false → Sized ast f.2.name)) := by
        intro f rf hrf hok
        have hsz := sizeOf_field hrf
        have h := ih _ _ rf.ty (by omega) hok.ty
        have h2 := final_least hf hnb _ _ _ rf.ty (Nat.le_refl _) hok.ty 0
        rw [h, h2, ← hok.array, ← hok.optional]
        obtain ⟨n, tn, t, a, o⟩ := rf
        show (if o = true ∨ a = true then minT t = 0 else sizedT t) ↔ (o = true ∨ a = true → minT t = 0) ∧
          (o = false → a = false → sizedT t)
        cases o <;> cases a <;> simp
      constructor
      · intro h rf hrf
        obtain ⟨f, hfm, hok⟩ := forall2_right hR rf hrf
        cases h with
        | builtin h => exact absurd h (hnb _ ⟨_, mem_decls.2 hd⟩)
        | enum h => cases decl_once hf h hd
        | struct h h1 h2 =>
          cases decl_once hf h hd
          exact (hone f rf hrf hok).2 ⟨h1 f (hperm.mem_iff.1 hfm), h2 f (hperm.mem_iff.1 hfm)⟩
      · intro h
        have key : ∀ f ∈ fs, (f.2.optional = true ∨ f.2.array = true → Least ast f.2.name 0) ∧
            (f.2.optional = false → f.2.array = false → Sized ast f.2.name) := by
          intro f hfm
          obtain ⟨rf, hrf, hok⟩ := forall2_left hR f (hperm.mem_iff.2 hfm)
          exact (hone f rf hrf hok).1 (h rf hrf)
        exact .struct hd (fun f hf => (key f hf).1) (fun f hf => (key f hf).2)

end Packetc.Js
