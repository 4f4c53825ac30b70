import Verif.Spec.Shrink
import Verif.Proof.Sized
import Verif.Proof.JsRep
import Mathlib.Data.Set.Finite.List
/-!
# Codes that cannot be shrunk (for C102)

First for any set of values `V` with an encoding `enc`.
-/

namespace Packetc.Shrink
open Js Check

mutual
/-- The kind of a resolved type. -/
def kindT : RType → Kind
  | .builtin .string => .loose
  | .builtin .float => .loose
  | .builtin _ => .dense
  | .enum e => if e.variants.length = 1 then .loose else match e.repr with | .u8 => .choice | _ => .loose
  | .struct fs => kindFs fs
def kindFs : List (FieldOf RType) → Kind
  | [] => .none
  | f :: fs => (kindF f).and (kindFs fs)
def kindF : FieldOf RType → Kind
  | ⟨_, _, ty, array, optional⟩ => (kindT ty).field array optional
end

section
variable {α β : Type}

/-- No word is the beginning of another one. -/
def Free (V : α → Prop) (c : α → List UInt8) : Prop := ∀ x y, V x → V y → c x <+: c y → x = y

/-- There is a better code. -/
def Loose (V : α → Prop) (enc : α → List UInt8) : Prop :=
  ∃ c, Free V c ∧ (∀ x, V x → (c x).length ≤ (enc x).length) ∧ ∃ x, V x ∧ (c x).length < (enc x).length

def Dense (V : α → Prop) (enc : α → List UInt8) : Prop :=
  (∃ x, V x ∧ enc x ≠ []) ∧ ∃ N, (∀ x, V x → (enc x).length ≤ N) ∧ ∀ s : List UInt8, N ≤ s.length → ∃ x, V x ∧ enc x <+: s

def Choice (V : α → Prop) (enc : α → List UInt8) : Prop :=
  (∀ x, V x → (enc x).length = 1) ∧ (∃ x y, V x ∧ V y ∧ x ≠ y) ∧
    ∃ k : α → UInt8, (∀ x y, V x → V y → k x = k y → x = y) ∧ ∀ x, V x → k x ≠ 255

/-- What each kind says. -/
def Is : Kind → (α → Prop) → (α → List UInt8) → Prop
  | .none, V, enc => ∀ x, V x → enc x = []
  | .dense, V, enc => Dense V enc
  | .choice, V, enc => Choice V enc
  | .loose, V, enc => Loose V enc

theorem comparable {a b s : List UInt8} (h1 : a <+: s) (h2 : b <+: s) : a <+: b ∨ b <+: a :=
  List.prefix_or_prefix_of_prefix h1 h2

theorem Free.eq {V : α → Prop} {c : α → List UInt8} (h : Free V c) {x y : α} (hx : V x) (hy : V y) {s : List UInt8}
    (h1 : c x <+: s) (h2 : c y <+: s) : x = y := by
  rcases comparable h1 h2 with h' | h'
  · exact h x y hx hy h'
  · exact (h y x hy hx h').symm

instance : Finite UInt8 := Finite.of_injective UInt8.toFin fun a b h => by
  rw [← UInt8.toFin_inj]
  exact h

instance (N : Nat) : Finite {s : List UInt8 // s.length = N} := (List.finite_length_eq UInt8 N).to_subtype

/-! ### these kinds cannot be shrunk -/

theorem dense_tight {V : α → Prop} {enc : α → List UInt8} (h : Dense V enc) : ¬ Loose V enc := by
  rintro ⟨c, hfree, hle, x₀, hx₀, hlt⟩
  obtain ⟨-, N, hN, hall⟩ := h
  have hall' : ∀ s : {s : List UInt8 // s.length = N}, ∃ x t, V x ∧ enc x ++ t = s.1 := fun s => by
    obtain ⟨x, hx, t, ht⟩ := hall s.1 (by rw [s.2])
    exact ⟨x, t, hx, ht⟩
  choose X T hV hT using hall'
  let F : {s : List UInt8 // s.length = N} → {s : List UInt8 // s.length = N} := fun s =>
    ⟨c (X s) ++ (List.replicate ((enc (X s)).length - (c (X s)).length) 0 ++ T s), by
      have h1 := congrArg List.length (hT s)
      have h2 := hle _ (hV s)
      have h3 := s.2
      simp only [List.length_append, List.length_replicate] at h1 ⊢
      omega⟩
  have hF : ∀ s, (F s).1 = c (X s) ++ (List.replicate ((enc (X s)).length - (c (X s)).length) 0 ++ T s) := fun s => rfl
  have hinj : Function.Injective F := by
    intro s t h
    have h1 := congrArg Subtype.val h
    rw [hF, hF] at h1
    have hx : X s = X t := hfree.eq (hV s) (hV t) (List.prefix_append _ _) (h1.symm ▸ List.prefix_append _ _)
    rw [hx] at h1
    have h2 := List.append_cancel_left (List.append_cancel_left h1)
    apply Subtype.ext
    rw [← hT s, ← hT t, hx, h2]
  have hsurj := Finite.surjective_of_injective hinj
  have hl := hN _ hx₀
  obtain ⟨s, hs⟩ := hsurj ⟨c x₀ ++ (1 :: List.replicate (N - (c x₀).length - 1) 0), by
    simp only [List.length_append, List.length_cons, List.length_replicate]
    omega⟩
  have h1 : c (X s) ++ _ = c x₀ ++ _ := (hF s).symm.trans (congrArg Subtype.val hs)
  have hx : X s = x₀ := hfree.eq (hV s) hx₀ (List.prefix_append _ _) (h1.symm ▸ List.prefix_append _ _)
  rw [hx] at h1
  have h2 := List.append_cancel_left h1
  obtain ⟨m, hm⟩ : ∃ m, (enc x₀).length - (c x₀).length = m + 1 := ⟨(enc x₀).length - (c x₀).length - 1, by omega⟩
  rw [hm, List.replicate_succ, List.cons_append] at h2
  exact absurd (List.cons.inj h2).1 (by decide)

theorem choice_tight {V : α → Prop} {enc : α → List UInt8} (h : Choice V enc) : ¬ Loose V enc := by
  rintro ⟨c, hfree, hle, x₀, hx₀, hlt⟩
  obtain ⟨h1, ⟨x, y, hx, hy, hxy⟩, -⟩ := h
  rw [h1 _ hx₀] at hlt
  have h0 : c x₀ = [] := List.length_eq_zero_iff.1 (by omega)
  have : ∀ z, V z → x₀ = z := fun z hz => hfree x₀ z hx₀ hz (by rw [h0]; exact List.nil_prefix)
  exact hxy ((this x hx).symm.trans (this y hy))

theorem tight {k : Kind} {V : α → Prop} {enc : α → List UInt8} (h : Is k V enc) (hk : k ≠ .loose) : ¬ Loose V enc := by
  cases k with
  | none =>
    rintro ⟨c, -, -, x₀, hx₀, hlt⟩
    rw [h x₀ hx₀] at hlt
    exact absurd hlt (Nat.not_lt_zero _)
  | dense => exact dense_tight h
  | choice => exact choice_tight h
  | loose => exact absurd rfl hk

/-! ### the same values in another form -/

structure Iso (V : α → Prop) (W : β → Prop) where
  fwd : α → β
  back : β → α
  fwd_mem : ∀ x, V x → W (fwd x)
  back_mem : ∀ y, W y → V (back y)
  back_to : ∀ x, V x → back (fwd x) = x
  to_back : ∀ y, W y → fwd (back y) = y

theorem Loose.iso {V : α → Prop} {enc : α → List UInt8} {W : β → Prop} {dec : β → List UInt8} (i : Iso V W)
    (he : ∀ x, V x → (dec (i.fwd x)).length = (enc x).length) (h : Loose V enc) : Loose W dec := by
  obtain ⟨c, h1, h2, x, hx, h3⟩ := h
  refine ⟨fun y => c (i.back y), ?_, ?_, i.fwd x, i.fwd_mem x hx, ?_⟩
  · intro y z hy hz h
    rw [← i.to_back y hy, ← i.to_back z hz, h1 _ _ (i.back_mem y hy) (i.back_mem z hz) h]
  · intro y hy
    have := h2 _ (i.back_mem y hy)
    rwa [← he _ (i.back_mem y hy), i.to_back y hy] at this
  · show (c (i.back (i.fwd x))).length < _
    rw [i.back_to x hx, he x hx]
    exact h3

theorem Is.iso {k : Kind} {V : α → Prop} {enc : α → List UInt8} {W : β → Prop} {dec : β → List UInt8} (i : Iso V W)
    (he : ∀ x, V x → dec (i.fwd x) = enc x) (h : Is k V enc) : Is k W dec := by
  have he' : ∀ y, W y → dec y = enc (i.back y) := fun y hy => by
    rw [← he _ (i.back_mem y hy), i.to_back y hy]
  cases k with
  | none => intro y hy; rw [he' y hy]; exact h _ (i.back_mem y hy)
  | dense =>
    obtain ⟨⟨x, hx, hne⟩, N, h1, h2⟩ := h
    refine ⟨⟨i.fwd x, i.fwd_mem x hx, by rw [he x hx]; exact hne⟩, N, fun y hy => by rw [he' y hy]; exact h1 _ (i.back_mem y hy),
      fun s hs => ?_⟩
    obtain ⟨x, hx, hp⟩ := h2 s hs
    exact ⟨i.fwd x, i.fwd_mem x hx, by rw [he x hx]; exact hp⟩
  | choice =>
    obtain ⟨h1, ⟨x, y, hx, hy, hxy⟩, k, h2, h3⟩ := h
    refine ⟨fun z hz => by rw [he' z hz]; exact h1 _ (i.back_mem z hz), ⟨i.fwd x, i.fwd y, i.fwd_mem x hx, i.fwd_mem y hy, fun h => hxy ?_⟩,
      fun z => k (i.back z), fun z w hz hw h => ?_, fun z hz => h3 _ (i.back_mem z hz)⟩
    · rw [← i.back_to x hx, h, i.back_to y hy]
    · rw [← i.to_back z hz, ← i.to_back w hw, h2 _ _ (i.back_mem z hz) (i.back_mem w hw) h]
  | loose => exact Loose.iso i (fun x hx => by rw [he x hx]) h

/-- Except for `none`, there is a value that takes space. -/
theorem Is.space {k : Kind} {V : α → Prop} {enc : α → List UInt8} (h : Is k V enc) (hk : k ≠ .none) : ∃ x, V x ∧ enc x ≠ [] := by
  cases k with
  | none => exact absurd rfl hk
  | dense => exact h.1
  | choice =>
    obtain ⟨h1, ⟨x, -, hx, -⟩, -⟩ := h
    exact ⟨x, hx, fun h => by have := h1 x hx; rw [h] at this; cases this⟩
  | loose =>
    obtain ⟨c, -, -, x, hx, hlt⟩ := h
    exact ⟨x, hx, fun h => by rw [h] at hlt; exact absurd hlt (Nat.not_lt_zero _)⟩

/-! ### one after the other -/

def Both (V : α → Prop) (W : β → Prop) (x : α × β) : Prop := V x.1 ∧ W x.2
def cat (e : α → List UInt8) (d : β → List UInt8) (x : α × β) : List UInt8 := e x.1 ++ d x.2

theorem Free.cat {V : α → Prop} {W : β → Prop} {e : α → List UInt8} {d : β → List UInt8} (h1 : Free V e) (h2 : Free W d) :
    Free (Both V W) (cat e d) := by
  rintro ⟨a, b⟩ ⟨a', b'⟩ ⟨ha, hb⟩ ⟨ha', hb'⟩ h
  have h : e a ++ d b <+: e a' ++ d b' := h
  obtain rfl : a = a' := h1.eq ha ha' ((List.prefix_append _ _).trans h) (List.prefix_append _ _)
  rw [List.prefix_append_right_inj] at h
  obtain rfl := h2 _ _ hb hb' h
  rfl

variable {V : α → Prop} {W : β → Prop} {e : α → List UInt8} {d : β → List UInt8}

theorem swap_loose (h : Loose (Both W V) (cat d e)) : Loose (Both V W) (cat e d) :=
  Loose.iso (dec := cat e d) (enc := cat d e) ⟨Prod.swap, Prod.swap, fun _ h => ⟨h.2, h.1⟩, fun _ h => ⟨h.2, h.1⟩, fun _ _ => rfl, fun _ _ => rfl⟩
    (fun x _ => by simp only [Shrink.cat, Prod.swap, List.length_append]; omega) h

theorem loose_left (h : Loose V e) (hd : Free W d) (hw : ∃ y, W y) : Loose (Both V W) (cat e d) := by
  obtain ⟨c, h1, h2, x, hx, h3⟩ := h
  obtain ⟨y, hy⟩ := hw
  refine ⟨cat c d, h1.cat hd, fun z hz => ?_, (x, y), ⟨hx, hy⟩, ?_⟩
  · simp only [Shrink.cat, List.length_append]
    exact Nat.add_le_add_right (h2 _ hz.1) _
  · simp only [Shrink.cat, List.length_append]
    exact Nat.add_lt_add_right h3 _

open Classical in
theorem choice_left (h : Choice V e) (hd : Free W d) (hw : ∃ y, W y ∧ d y ≠ []) : Loose (Both V W) (cat e d) := by
  obtain ⟨h1, ⟨x₀, -, hx₀, -⟩, k, h2, h3⟩ := h
  obtain ⟨y₀, hy₀, hne⟩ := hw
  refine ⟨fun z => if z = (x₀, y₀) then [255] else k z.1 :: d z.2, ?_, ?_, (x₀, y₀), ⟨hx₀, hy₀⟩, ?_⟩
  · rintro ⟨a, b⟩ ⟨a', b'⟩ ⟨ha, hb⟩ ⟨ha', hb'⟩ h
    simp only at h
    split at h
    · split at h
      · simp_all
      · exact absurd (List.cons_prefix_cons.1 h).1.symm (h3 _ ha')
    · split at h
      · exact absurd (List.cons_prefix_cons.1 h).1 (h3 _ ha)
      · obtain ⟨g1, g2⟩ := List.cons_prefix_cons.1 h
        obtain rfl := h2 _ _ ha ha' g1
        obtain rfl := hd _ _ hb hb' g2
        rfl
  · rintro ⟨a, b⟩ ⟨ha, hb⟩
    have := h1 a ha
    simp only [Shrink.cat, List.length_append]
    split <;> simp only [List.length_cons, List.length_nil] <;> omega
  · have := h1 x₀ hx₀
    have := List.length_pos_iff.2 hne
    simp only [Shrink.cat, List.length_append, if_true, List.length_cons, List.length_nil]
    omega

theorem dense_cat (h1 : Dense V e) (h2 : Dense W d) : Dense (Both V W) (cat e d) := by
  obtain ⟨⟨x, hx, hne⟩, N, hN, hall⟩ := h1
  obtain ⟨⟨y, hy, -⟩, M, hM, hall'⟩ := h2
  refine ⟨⟨(x, y), ⟨hx, hy⟩, fun h => hne (List.append_eq_nil_iff.1 h).1⟩, N + M, fun z hz => ?_, fun s hs => ?_⟩
  · simp only [Shrink.cat, List.length_append]
    exact Nat.add_le_add (hN _ hz.1) (hM _ hz.2)
  · obtain ⟨x, hx, t, rfl⟩ := hall s (by omega)
    have := hN x hx
    rw [List.length_append] at hs
    obtain ⟨y, hy, hp⟩ := hall' t (by omega)
    exact ⟨(x, y), ⟨hx, hy⟩, (List.prefix_append_right_inj _).2 hp⟩

theorem Is.and {k l : Kind} (h1 : Is k V e) (h2 : Is l W d) (f1 : Free V e) (f2 : Free W d) (n1 : ∃ x, V x) (n2 : ∃ y, W y) :
    Is (k.and l) (Both V W) (cat e d) := by
  by_cases hk : k = .none
  · subst hk
    obtain ⟨x, hx⟩ := n1
    have hl : (Kind.none.and l) = l := by cases l <;> rfl
    rw [hl]
    refine Is.iso (enc := d) (V := W) ⟨fun y => (x, y), Prod.snd, fun y hy => ⟨hx, hy⟩, fun z hz => hz.2, fun _ _ => rfl,
      fun z hz => ?_⟩ (fun y hy => ?_) h2
    · refine Prod.ext ?_ rfl
      exact f1 _ _ hx hz.1 (by rw [h1 _ hx]; exact List.nil_prefix)
    · simp only [Shrink.cat, h1 x hx, List.nil_append]
  by_cases hl : l = .none
  · subst hl
    obtain ⟨y, hy⟩ := n2
    have hk' : (k.and .none) = k := by cases k <;> rfl
    rw [hk']
    refine Is.iso (enc := e) (V := V) ⟨fun x => (x, y), Prod.fst, fun x hx => ⟨hx, hy⟩, fun z hz => hz.1, fun _ _ => rfl,
      fun z hz => ?_⟩ (fun x hx => ?_) h1
    · refine Prod.ext rfl ?_
      exact f2 _ _ hy hz.2 (by rw [h2 _ hy]; exact List.nil_prefix)
    · simp only [Shrink.cat, h2 y hy, List.append_nil]
  have s1 := h1.space hk
  have s2 := h2.space hl
  cases k with
  | none => exact absurd rfl hk
  | loose =>
    have : Kind.and .loose l = .loose := by cases l <;> rfl
    rw [this]
    exact loose_left h1 f2 n2
  | choice =>
    have : Kind.and .choice l = .loose := by cases l <;> first | rfl | exact absurd rfl hl
    rw [this]
    exact choice_left h1 f2 s2
  | dense =>
    cases l with
    | none => exact absurd rfl hl
    | dense => exact dense_cat h1 h2
    | choice => exact swap_loose (choice_left h2 f1 s1)
    | loose => exact swap_loose (loose_left h2 f1 n1)

/-! ### after a flag -/

def Opt (V : α → Prop) : Option α → Prop
  | none => True
  | some x => V x
def optEnc (a b : List UInt8) (e : α → List UInt8) : Option α → List UInt8
  | none => a
  | some x => b ++ e x

open Classical in
theorem Is.optional {k : Kind} {a b : List UInt8} (ha : a.length = 1) (hb : b.length = 1) (h : Is k V e) (f : Free V e) (n : ∃ x, V x) :
    Is k.optional (Opt V) (optEnc a b e) := by
  by_cases hk : k = .none
  · subst hk
    obtain ⟨x, hx⟩ := n
    refine ⟨?_, ⟨none, some x, True.intro, hx, by simp⟩, fun o => if o = none then 0 else 1, ?_, ?_⟩
    · rintro (_ | y) hy
      · exact ha
      · show (b ++ e y).length = 1
        rw [h y hy, List.append_nil, hb]
    · rintro (_ | y) (_ | z) hy hz h'
      · rfl
      · exact absurd h' (by simp)
      · exact absurd h' (by simp)
      · rw [f y z hy hz (by rw [h y hy]; exact List.nil_prefix)]
    · rintro (_ | y) hy
      · simp
      · simp
  · obtain ⟨x₀, hx₀, hne⟩ := h.space hk
    have : k.optional = .loose := by cases k <;> first | rfl | exact absurd rfl hk
    rw [this]
    refine ⟨fun o => match o with | none => [0] | some x => if x = x₀ then [2] else 1 :: e x, ?_, ?_, some x₀, hx₀, ?_⟩
    · rintro (_ | y) (_ | z) hy hz h'
      · rfl
      · simp only at h'
        split at h' <;> exact absurd (List.cons_prefix_cons.1 h').1 (by decide)
      · simp only at h'
        split at h' <;> exact absurd (List.cons_prefix_cons.1 h').1 (by decide)
      · simp only at h'
        split at h'
        · split at h'
          · simp_all
          · exact absurd (List.cons_prefix_cons.1 h').1 (by decide)
        · split at h'
          · exact absurd (List.cons_prefix_cons.1 h').1 (by decide)
          · rw [f y z hy hz (List.cons_prefix_cons.1 h').2]
    · rintro (_ | y) hy
      · simp [optEnc, ha]
      · simp only [optEnc, List.length_append, hb]
        split <;> simp only [List.length_cons, List.length_nil] <;> omega
    · have := List.length_pos_iff.2 hne
      simp only [optEnc, List.length_append, hb, if_true, List.length_cons, List.length_nil]
      omega

/-! ### after a count -/

def Items (V : α → Prop) (xs : List α) : Prop := xs.length < 2 ^ 32 ∧ ∀ x ∈ xs, V x
def itemsEnc (L : Nat → List UInt8) (e : α → List UInt8) (xs : List α) : List UInt8 := L xs.length ++ (xs.map e).flatten

/-- Counts are written as four bytes, all of which are used. -/
structure Counts (L : Nat → List UInt8) : Prop where
  len : ∀ n, (L n).length = 4
  inj : ∀ m n, m < 2 ^ 32 → n < 2 ^ 32 → L m = L n → m = n
  all : ∀ s : List UInt8, s.length = 4 → ∃ n, n < 2 ^ 32 ∧ L n = s

theorem Counts.prefix {L : Nat → List UInt8} (h : Counts L) {m n : Nat} (hm : m < 2 ^ 32) (hn : n < 2 ^ 32) {s t : List UInt8}
    (hp : L m ++ s <+: L n ++ t) : m = n ∧ s <+: t := by
  obtain ⟨u, hu⟩ := hp
  rw [List.append_assoc] at hu
  obtain ⟨h1, h2⟩ := List.append_inj hu (by rw [h.len, h.len])
  exact ⟨h.inj _ _ hm hn h1, u, h2⟩

theorem items_free {c : α → List UInt8} (h : Free V c) (xs ys : List α) (hx : ∀ x ∈ xs, V x) (hy : ∀ y ∈ ys, V y)
    (hl : xs.length = ys.length) (hp : (xs.map c).flatten <+: (ys.map c).flatten) : xs = ys := by
  induction xs generalizing ys with
  | nil => cases ys with | nil => rfl | cons _ _ => cases hl
  | cons x xs ih =>
    cases ys with
    | nil => cases hl
    | cons y ys =>
      simp only [List.map_cons, List.flatten_cons] at hp
      obtain rfl : x = y := h.eq (hx _ List.mem_cons_self) (hy _ List.mem_cons_self) ((List.prefix_append _ _).trans hp)
        (List.prefix_append _ _)
      rw [List.prefix_append_right_inj] at hp
      rw [ih ys (fun z hz => hx z (List.mem_cons_of_mem _ hz)) (fun z hz => hy z (List.mem_cons_of_mem _ hz)) (Nat.succ.inj hl) hp]

theorem items_all {N : Nat} (hN : ∀ x, V x → (e x).length ≤ N) (hall : ∀ s : List UInt8, N ≤ s.length → ∃ x, V x ∧ e x <+: s)
    (n : Nat) (s : List UInt8) (hs : n * N ≤ s.length) : ∃ xs : List α, xs.length = n ∧ (∀ x ∈ xs, V x) ∧ (xs.map e).flatten <+: s := by
  induction n generalizing s with
  | zero => exact ⟨[], rfl, fun x hx => (List.not_mem_nil hx).elim, List.nil_prefix⟩
  | succ n ih =>
    rw [Nat.succ_mul] at hs
    obtain ⟨x, hx, t, rfl⟩ := hall s (by omega)
    have := hN x hx
    rw [List.length_append] at hs
    obtain ⟨xs, h1, h2, h3⟩ := ih t (by omega)
    refine ⟨x :: xs, by rw [List.length_cons, h1], ?_, ?_⟩
    · intro z hz
      rcases List.mem_cons.1 hz with rfl | hz
      · exact hx
      · exact h2 z hz
    · exact (List.prefix_append_right_inj _).2 h3

theorem items_len {N : Nat} (hN : ∀ x, V x → (e x).length ≤ N) (xs : List α) (hx : ∀ x ∈ xs, V x) :
    ((xs.map e).flatten).length ≤ xs.length * N := by
  induction xs with
  | nil => simp
  | cons x xs ih =>
    have h1 := hN x (hx _ List.mem_cons_self)
    have h2 := ih fun z hz => hx z (List.mem_cons_of_mem _ hz)
    simp only [List.map_cons, List.flatten_cons, List.length_append, List.length_cons, Nat.succ_mul]
    omega

theorem items_dense {L : Nat → List UInt8} (hL : Counts L) {N : Nat} (hN : ∀ x, V x → (e x).length ≤ N)
    (hall : ∀ s : List UInt8, N ≤ s.length → ∃ x, V x ∧ e x <+: s) : Dense (Items V) (itemsEnc L e) := by
  refine ⟨⟨[], ⟨by simp, fun x hx => (List.not_mem_nil hx).elim⟩, fun h => ?_⟩, 4 + 2 ^ 32 * N, fun xs hxs => ?_, fun s hs => ?_⟩
  · have := congrArg List.length h
    simp [itemsEnc, hL.len] at this
  · have h1 := items_len hN xs hxs.2
    have h2 : xs.length * N ≤ 2 ^ 32 * N := Nat.mul_le_mul_right _ (Nat.le_of_lt hxs.1)
    simp only [itemsEnc, List.length_append, hL.len]
    omega
  · obtain ⟨n, hn, hnL⟩ := hL.all (s.take 4) (by rw [List.length_take]; omega)
    have h2 : n * N ≤ 2 ^ 32 * N := Nat.mul_le_mul_right _ (Nat.le_of_lt hn)
    obtain ⟨xs, h3, h4, h5⟩ := items_all hN hall n (s.drop 4) (by rw [List.length_drop]; omega)
    refine ⟨xs, ⟨by rw [h3]; exact hn, h4⟩, ?_⟩
    have h6 : L xs.length ++ (xs.map e).flatten <+: s.take 4 ++ s.drop 4 := by
      rw [h3, hnL]
      exact (List.prefix_append_right_inj _).2 h5
    rwa [List.take_append_drop] at h6

theorem map_inj {k : α → UInt8} (h : ∀ x y, V x → V y → k x = k y → x = y) (xs ys : List α) (hx : ∀ x ∈ xs, V x)
    (hy : ∀ y ∈ ys, V y) (he : xs.map k = ys.map k) : xs = ys := by
  induction xs generalizing ys with
  | nil => cases ys with | nil => rfl | cons _ _ => cases he
  | cons x xs ih =>
    cases ys with
    | nil => cases he
    | cons y ys =>
      obtain ⟨h1, h2⟩ := List.cons.inj he
      rw [h x y (hx _ List.mem_cons_self) (hy _ List.mem_cons_self) h1,
        ih ys (fun z hz => hx z (List.mem_cons_of_mem _ hz)) (fun z hz => hy z (List.mem_cons_of_mem _ hz)) h2]

open Classical in
theorem Is.array {k : Kind} {L : Nat → List UInt8} (hL : Counts L) (h : Is k V e) (n : ∃ x, V x) :
    Is k.array (Items V) (itemsEnc L e) := by
  cases k with
  | none =>
    obtain ⟨x, hx⟩ := n
    exact items_dense hL (N := 0) (fun y hy => by rw [h y hy]; exact Nat.le_refl _) fun s _ => ⟨x, hx, by rw [h x hx]; exact List.nil_prefix⟩
  | dense =>
    obtain ⟨-, N, h1, h2⟩ := h
    exact items_dense hL h1 h2
  | choice =>
    obtain ⟨h1, ⟨x₀, -, hx₀, -⟩, k, h2, h3⟩ := h
    have hm : ∀ xs : List α, (∀ x ∈ xs, V x) → ((xs.map e).flatten).length = xs.length := by
      intro xs hxs
      induction xs with
      | nil => rfl
      | cons x xs ih =>
        rw [List.map_cons, List.flatten_cons, List.length_append, h1 x (hxs _ List.mem_cons_self),
          ih fun z hz => hxs z (List.mem_cons_of_mem _ hz), List.length_cons, Nat.add_comm]
    refine ⟨fun xs => L xs.length ++ if xs = [x₀, x₀] then [255] else xs.map k, ?_, ?_, [x₀, x₀], ?_, ?_⟩
    · intro xs ys hxs hys hp
      obtain ⟨g1, g2⟩ := hL.prefix hxs.1 hys.1 hp
      split at g2
      · split at g2
        · simp_all
        · next hx hy =>
          cases ys with
          | nil => rw [hx] at g1; cases g1
          | cons y ys => exact absurd (List.cons_prefix_cons.1 g2).1.symm (h3 _ (hys.2 _ List.mem_cons_self))
      · split at g2
        · next hx hy =>
          have := g2.length_le
          rw [hy] at g1
          simp only [List.length_map, List.length_cons, List.length_nil] at this g1
          omega
        · have := g2.eq_of_length (by rw [List.length_map, List.length_map, g1])
          exact map_inj h2 xs ys hxs.2 hys.2 this
    · intro xs hxs
      simp only [itemsEnc, List.length_append, hm xs hxs.2]
      split
      · next h => rw [h]; simp
      · rw [List.length_map]
    · exact ⟨by simp, by simp [hx₀]⟩
    · simp only [itemsEnc, List.length_append, hm [x₀, x₀] (by simp [hx₀]), if_true, List.length_cons, List.length_nil]
      omega
  | loose =>
    obtain ⟨c, h1, h2, x, hx, h3⟩ := h
    refine ⟨itemsEnc L c, ?_, ?_, [x], ⟨by simp, by simp [hx]⟩, ?_⟩
    · intro xs ys hxs hys hp
      obtain ⟨g1, g2⟩ := hL.prefix hxs.1 hys.1 hp
      exact items_free h1 xs ys hxs.2 hys.2 g1 g2
    · intro xs hxs
      simp only [itemsEnc, List.length_append]
      have : ∀ xs : List α, (∀ x ∈ xs, V x) → ((xs.map c).flatten).length ≤ ((xs.map e).flatten).length := by
        intro xs hxs
        induction xs with
        | nil => exact Nat.le_refl _
        | cons x xs ih =>
          simp only [List.map_cons, List.flatten_cons, List.length_append]
          exact Nat.add_le_add (h2 x (hxs _ List.mem_cons_self)) (ih fun z hz => hxs z (List.mem_cons_of_mem _ hz))
      have := this xs hxs.2
      omega
    · simp only [itemsEnc, List.map_cons, List.map_nil, List.flatten_cons, List.flatten_nil, List.append_nil, List.length_append,
        List.length_cons, List.length_nil]
      omega

end

/-! ### numbers -/

theorem leNat_inj (a b : List UInt8) (hl : a.length = b.length) (h : leNat a = leNat b) : a = b := by
  induction a generalizing b with
  | nil => cases b with | nil => rfl | cons _ _ => cases hl
  | cons x a ih =>
    cases b with
    | nil => cases hl
    | cons y b =>
      simp only [leNat] at h
      have hx := UInt8.toNat_lt x
      have hy := UInt8.toNat_lt y
      rw [ih b (Nat.succ.inj hl) (by omega), UInt8.toNat_inj.1 (by omega : x.toNat = y.toNat)]

/-- The smallest number of an integer type. -/
def lowest : Scalar → Int
  | .int8 => -2 ^ 7 | .int16 => -2 ^ 15 | .int32 => -2 ^ 31 | _ => 0

variable (rt : Runtime)

/-- Every sequence of bytes of the right length is an integer. -/
theorem enc_all (sc : Scalar) (hsc : sc ≠ .float) (s : List UInt8) (hs : s.length = sc.width) : ∃ n, sc.Ok n ∧ rt.enc sc n = s := by
  have hok : ∀ t : List UInt8, t.length = sc.width → sc.Ok (.int (lowest sc + leNat t)) := by
    intro t ht
    have h1 := leNat_lt t
    rw [ht] at h1
    cases sc <;> simp only [Scalar.width] at h1 <;> simp only [Scalar.Ok, lowest] <;> first | omega | exact absurd rfl hsc
  let F : {s : List UInt8 // s.length = sc.width} → {s : List UInt8 // s.length = sc.width} :=
    fun t => ⟨rt.enc sc (.int (lowest sc + leNat t.1)), rt.enc_len _ _⟩
  have hinj : Function.Injective F := by
    intro a b h
    have h1 := enc_inj rt (hok a.1 a.2) (hok b.1 b.2) (congrArg Subtype.val h)
    have h2 := Num.int.inj h1
    exact Subtype.ext (leNat_inj _ _ (by rw [a.2, b.2]) (by omega))
  obtain ⟨t, ht⟩ := Finite.surjective_of_injective hinj ⟨s, hs⟩
  exact ⟨_, hok t.1 t.2, congrArg Subtype.val ht⟩

theorem counts : Counts fun n => rt.enc .uint32 (.int (n : Nat)) where
  len n := rt.enc_len _ _
  inj m n hm hn h := by
    have := Num.int.inj (enc_inj rt (ok_uint32 hm) (ok_uint32 hn) h)
    omega
  all s hs := by
    obtain ⟨n, h1, h2⟩ := enc_all rt .uint32 (by decide) s hs
    cases n with
    | f32 b => exact h1.elim
    | int i =>
      obtain ⟨h3, h4⟩ := h1
      refine ⟨i.toNat, by omega, ?_⟩
      rw [← h2, Int.toNat_of_nonneg h3]

theorem kind_int {b : Builtin} {sc : Scalar} (hb : scalarOf b = some sc) (hsc : sc ≠ .float) :
    Dense (HasType (.builtin b)) (encode rt (.builtin b)) := by
  have hV : ∀ j, HasType (.builtin b) j ↔ ∃ n, j = .num n ∧ sc.Ok n := fun j => by
    unfold HasType TypedT
    rw [hb]
  have hE : ∀ n, encode rt (.builtin b) (.num n) = rt.enc sc n := fun n => by
    unfold encode
    rw [hb]
  have hw : 0 < sc.width := by cases sc <;> decide
  refine ⟨⟨.num (rt.dec sc []), (hV _).2 ⟨_, rfl, rt.dec_ok _ _⟩, fun h => ?_⟩, sc.width, fun j hj => ?_, fun s hs => ?_⟩
  · rw [hE] at h
    have := rt.enc_len sc (rt.dec sc [])
    rw [h] at this
    simp only [List.length_nil] at this
    omega
  · obtain ⟨n, rfl, -⟩ := (hV j).1 hj
    rw [hE, rt.enc_len]
  · obtain ⟨n, h1, h2⟩ := enc_all rt sc hsc (s.take sc.width) (by rw [List.length_take]; omega)
    exact ⟨.num n, (hV _).2 ⟨n, rfl, h1⟩, by rw [hE, h2]; exact List.take_prefix _ _⟩

/-! ### floats: the bit patterns that begin with 24 ones are not used -/

def beBytes (n : Nat) : List UInt8 :=
  [UInt8.ofNat (n / 2 ^ 24), UInt8.ofNat (n / 2 ^ 16), UInt8.ofNat (n / 2 ^ 8), UInt8.ofNat n]

theorem ofNat_eq {m n : Nat} (h : UInt8.ofNat m = UInt8.ofNat n) : m % 256 = n % 256 := by
  have := congrArg UInt8.toNat h
  simpa using this

theorem beBytes_inj {m n : Nat} (hm : m < 2 ^ 32) (hn : n < 2 ^ 32) (h : beBytes m = beBytes n) : m = n := by
  unfold beBytes at h
  simp only [List.cons.injEq, and_true] at h
  obtain ⟨h1, h2, h3, h4⟩ := h
  have h1 := ofNat_eq h1
  have h2 := ofNat_eq h2
  have h3 := ofNat_eq h3
  have h4 := ofNat_eq h4
  omega

theorem canon_bytes {b : BitVec 32} (h : Scalar.CanonF b) : ¬ [255, 255, 255] <+: beBytes b.toNat := by
  intro hp
  unfold beBytes at hp
  simp only [List.cons_prefix_cons, List.nil_prefix, and_true] at hp
  obtain ⟨h1, h2, h3⟩ := hp
  have h1 : UInt8.ofNat 255 = _ := h1
  have h2 : UInt8.ofNat 255 = _ := h2
  have h3 : UInt8.ofNat 255 = _ := h3
  have h1 := ofNat_eq h1
  have h2 := ofNat_eq h2
  have h3 := ofNat_eq h3
  have hlt := b.isLt
  have hb := h ⟨by
      apply BitVec.eq_of_toNat_eq
      simp only [BitVec.extractLsb'_toNat, Nat.shiftRight_eq_div_pow]
      show b.toNat / 2 ^ 23 % 2 ^ 8 = 255
      omega, fun h0 => by
      have := congrArg BitVec.toNat h0
      simp only [BitVec.extractLsb'_toNat, Nat.shiftRight_eq_div_pow] at this
      have h5 : b.toNat / 2 ^ 0 % 2 ^ 23 = 0 := this
      omega⟩
  rw [hb] at h1
  revert h1
  decide

theorem kind_float : Loose (HasType (.builtin .float)) (encode rt (.builtin .float)) := by
  have hV : ∀ j, HasType (.builtin .float) j ↔ ∃ b, j = .num (.f32 b) ∧ Scalar.CanonF b := fun j => by
    unfold HasType TypedT
    simp only [scalarOf]
    constructor
    · rintro ⟨n, rfl, h⟩
      cases n with
      | int i => exact h.elim
      | f32 b => exact ⟨b, rfl, h⟩
    · rintro ⟨b, rfl, h⟩
      exact ⟨_, rfl, h⟩
  have hE : ∀ n, encode rt (.builtin .float) (.num n) = rt.enc .float n := fun n => by
    unfold encode
    rfl
  have h4 : ∀ n, (beBytes n).length = 4 := fun n => rfl
  refine ⟨fun j => match j with
    | .num (.f32 b) => if b = 0#32 then [255, 255, 255] else beBytes b.toNat
    | _ => [], ?_, ?_, .num (.f32 0#32), (hV _).2 ⟨_, rfl, fun h => absurd h.1 (by decide)⟩, ?_⟩
  · intro j j' hj hj' h
    obtain ⟨b, rfl, hb⟩ := (hV j).1 hj
    obtain ⟨b', rfl, hb'⟩ := (hV j').1 hj'
    simp only at h
    split at h
    · split at h
      · simp_all
      · exact absurd h (canon_bytes hb')
    · split at h
      · have := h.length_le
        rw [h4] at this
        simp at this
      · have := h.eq_of_length rfl
        rw [BitVec.eq_of_toNat_eq (beBytes_inj b.isLt b'.isLt this)]
  · intro j hj
    obtain ⟨b, rfl, hb⟩ := (hV j).1 hj
    rw [hE, rt.enc_len]
    simp only
    split
    · decide
    · exact Nat.le_refl _
  · rw [hE, rt.enc_len]
    simp only [if_true]
    decide

/-! ### text -/

open Classical in
theorem kind_text (hd : Delimiting rt) (hg : TextGap rt) : Loose (HasType (.builtin .string)) (encode rt (.builtin .string)) := by
  have hV : ∀ j, HasType (.builtin .string) j ↔ ∃ s, j = .str s ∧ ShortStr s := fun j => by
    unfold HasType TypedT
    rfl
  have hE : ∀ s, encode rt (.builtin .string) (.str s) = rt.enc .uint32 (.int (utf16Length s)) ++ rt.encS s := fun n => by
    unfold encode
    rfl
  obtain ⟨⟨b, hb⟩, s₀, hs₀, hl⟩ := hg
  refine ⟨fun j => match j with
    | .str s => rt.enc .uint32 (.int (utf16Length s)) ++ if s = s₀ then [b] else rt.encS s
    | _ => [], ?_, ?_, .str s₀, (hV _).2 ⟨_, rfl, hs₀⟩, ?_⟩
  · intro j j' hj hj' h
    obtain ⟨s, rfl, hs⟩ := (hV j).1 hj
    obtain ⟨s', rfl, hs'⟩ := (hV j').1 hj'
    obtain ⟨h1, h2⟩ := (counts rt).prefix hs hs' h
    split at h2
    · split at h2
      · simp_all
      · exact absurd h2 (hb s')
    · split at h2
      · next hne he =>
        obtain ⟨u, hu⟩ := h2
        cases hc : rt.encS s with
        | nil =>
          rw [← he] at hl
          have : s = s' := hd.text s s' (rt.encS s') [] h1 (by rw [hc]; simp)
          exact absurd (this.trans he) hne
        | cons x xs =>
          rw [hc] at hu
          have := (List.cons.inj hu).1
          subst this
          exact absurd ⟨xs, hc.symm⟩ (hb s)
      · obtain ⟨u, hu⟩ := h2
        rw [hd.text s s' u [] h1 (by rw [hu, List.append_nil])]
  · intro j hj
    obtain ⟨s, rfl, hs⟩ := (hV j).1 hj
    rw [hE]
    simp only [List.length_append]
    split
    · next h =>
      rw [h]
      simp only [List.length_cons, List.length_nil]
      omega
    · exact Nat.le_refl _
  · rw [hE]
    simp only [List.length_append, if_true, List.length_cons, List.length_nil]
    omega

/-! ### enums -/

theorem shl1_inj {m n : Nat} (hm : m < 32) (hn : n < 32) (h : jsShl1 m = jsShl1 n) : m = n := by
  have : ∀ m < 32, ∀ n < 32, jsShl1 m = jsShl1 n → m = n := by decide
  exact this m hm n hn h

open Classical in
theorem kind_enum {en : REnum} (hs : SoundEnum en) : Is (kindT (.enum en)) (HasType (.enum en)) (encode rt (.enum en)) := by
  obtain ⟨n, h1, h2, h3, h4, h5, ⟨v₀, hv₀, hz⟩, ⟨v₁, hv₁, hl⟩⟩ := sound_values hs
  have hV : ∀ j, HasType (.enum en) j ↔ ∃ v ∈ en.variants, j = .num (.int (jsShl1 v.value)) := fun j => by
    unfold HasType TypedT IsVariant
    constructor
    · rintro ⟨_, rfl, v, hv, rfl⟩
      exact ⟨v, hv, rfl⟩
    · rintro ⟨v, hv, rfl⟩
      exact ⟨_, rfl, v, hv, rfl⟩
  have hE : ∀ n, encode rt (.enum en) (.num n) = rt.enc (reprScalar en.repr) n := fun n => by
    unfold encode
    rfl
  have hlen : ∀ j, HasType (.enum en) j → (encode rt (.enum en) j).length = (reprScalar en.repr).width := fun j hj => by
    obtain ⟨v, -, rfl⟩ := (hV j).1 hj
    rw [hE, rt.enc_len]
  have hm₀ : v₀ ∈ en.variants := List.mem_of_mem_head? hv₀
  have hm₁ : v₁ ∈ en.variants := List.mem_of_mem_getLast? hv₁
  let k : JVal → UInt8 := fun j => if h : HasType (.enum en) j then UInt8.ofNat (Classical.choose ((hV j).1 h)).value else 0
  have hk : ∀ j, HasType (.enum en) j → ∃ v, v < n ∧ j = .num (.int (jsShl1 v)) ∧ k j = UInt8.ofNat v := fun j hj => by
    obtain ⟨g1, g2⟩ := Classical.choose_spec ((hV j).1 hj)
    exact ⟨_, h4 _ g1, g2, dif_pos hj⟩
  have hinj : ∀ x y, HasType (.enum en) x → HasType (.enum en) y → k x = k y → x = y := fun x y hx hy h => by
    obtain ⟨v, hv, rfl, hkv⟩ := hk x hx
    obtain ⟨w, hw, rfl, hkw⟩ := hk y hy
    rw [hkv, hkw] at h
    have := ofNat_eq h
    rw [show v = w by omega]
  have h255 : ∀ x, HasType (.enum en) x → k x ≠ 255 := fun x hx h => by
    obtain ⟨v, hv, -, hkv⟩ := hk x hx
    rw [hkv] at h
    have h : UInt8.ofNat v = UInt8.ofNat 255 := h
    have := ofNat_eq h
    omega
  have hone : (reprScalar en.repr).width ≠ 1 → Loose (HasType (.enum en)) (encode rt (.enum en)) := fun hw => by
    have hw1 : 1 < (reprScalar en.repr).width := by
      cases hr : en.repr <;> rw [hr] at hw <;> revert hw <;> decide
    refine ⟨fun j => [k j], ?_, ?_, .num (.int (jsShl1 v₀.value)), (hV _).2 ⟨v₀, hm₀, rfl⟩, ?_⟩
    · intro x y hx hy h
      exact hinj x y hx hy (List.cons_prefix_cons.1 h).1
    · intro x hx
      rw [hlen x hx]
      exact Nat.le_of_lt hw1
    · rw [hlen _ ((hV _).2 ⟨v₀, hm₀, rfl⟩)]
      exact hw1
  unfold kindT
  split
  · next hn1 =>
    refine ⟨fun _ => [], ?_, fun _ _ => Nat.zero_le _, .num (.int (jsShl1 v₀.value)), (hV _).2 ⟨v₀, hm₀, rfl⟩, ?_⟩
    · intro x y hx hy _
      obtain ⟨v, hv, rfl, -⟩ := hk x hx
      obtain ⟨w, hw, rfl, -⟩ := hk y hy
      rw [show v = w by omega]
    · rw [hlen _ ((hV _).2 ⟨v₀, hm₀, rfl⟩)]
      show 0 < _
      cases en.repr <;> decide
  · next hn1 =>
    cases hr : en.repr with
    | u8 =>
      refine ⟨fun j hj => by rw [hlen j hj, hr]; rfl, ⟨.num (.int (jsShl1 v₀.value)), .num (.int (jsShl1 v₁.value)),
        (hV _).2 ⟨v₀, hm₀, rfl⟩, (hV _).2 ⟨v₁, hm₁, rfl⟩, fun h => ?_⟩, k, hinj, h255⟩
      have h6 := shl1_inj (by omega) (by omega) (Num.int.inj (JVal.num.inj h))
      omega
    | u16 => exact hone (by rw [hr]; decide)
    | u32 => exact hone (by rw [hr]; decide)

/-! ### all types -/

variable {rt} (hd : Delimiting rt) (hg : TextGap rt)
include hd

theorem free_type (t : RType) (hE : EnumsT SoundEnum t) : Free (HasType t) (encode rt t) := by
  rintro j j' h h' ⟨u, hu⟩
  exact (inj_type hd t hE j j' u [] h h' (by rw [hu, List.append_nil])).1

theorem free_fields (fs : List (FieldOf RType)) (hE : EnumsFs SoundEnum fs) : Free (HasFields fs) (encodeFields rt fs) := by
  rintro j j' h h' ⟨u, hu⟩
  exact (inj_fields hd fs hE j j' u [] h h' (by rw [hu, List.append_nil])).1

theorem free_field (f : FieldOf RType) (hE : EnumsF SoundEnum f) :
    Free (TypedF ShortStr IsVariant f) (fun p => encodeField rt f p.value) := by
  rintro p p' h h' ⟨u, hu⟩
  exact (inj_field hd f hE p p' u [] h h' (by rw [hu, List.append_nil])).1

omit hd in
theorem some_field (f : FieldOf RType) (hE : EnumsF SoundEnum f) : ∃ p, TypedF ShortStr IsVariant f p := by
  have := least_fields [f] ⟨hE, True.intro⟩
  obtain ⟨p, _, -, h, -⟩ := this
  exact ⟨p, h⟩

omit hd in
theorem not_undef {t : RType} : ¬ HasType t .undef := by
  intro h
  cases t with
  | builtin b => cases b <;> obtain ⟨_, h, -⟩ := h <;> cases h
  | enum e => obtain ⟨_, h, -⟩ := h; cases h
  | struct fs => obtain ⟨_, h, -⟩ := h; cases h

include hg

mutual
theorem kind_type : (t : RType) → EnumsT SoundEnum t → Is (kindT t) (HasType t) (encode rt t)
  | .builtin b, _ => by
    cases b with
    | string => exact kind_text rt hd hg
    | float => exact kind_float rt
    | _ => exact kind_int rt rfl (by decide)
  | .enum e, hE => kind_enum rt hE
  | .struct fs, hE => by
    refine Is.iso (V := HasFields fs) (enc := encodeFields rt fs)
      ⟨JVal.obj, fun j => match j with | .obj ps => ps | _ => [], ?_, ?_, ?_, ?_⟩ ?_ (kind_fields fs hE)
    · intro ps h
      exact ⟨ps, rfl, h⟩
    · rintro _ ⟨ps, rfl, h⟩
      exact h
    · intro ps _
      rfl
    · rintro _ ⟨ps, rfl, h⟩
      rfl
    · intro ps _
      show encode rt (.struct fs) (.obj ps) = _
      rw [encode]
theorem kind_fields : (fs : List (FieldOf RType)) → EnumsFs SoundEnum fs → Is (kindFs fs) (HasFields fs) (encodeFields rt fs)
  | [], _ => by
    intro ps _
    rw [encodeFields]
  | f :: fs, hE => by
    have h1 := kind_field f hE.1
    have h2 := kind_fields fs hE.2
    have h := h1.and h2 (free_field hd f hE.1) (free_fields hd fs hE.2) (some_field f hE.1) ⟨_, least_fields fs hE.2⟩
    refine Is.iso ⟨fun x => x.1 :: x.2, fun ps => match ps with | p :: qs => (p, qs) | [] => (⟨[], .undef⟩, []), ?_, ?_, ?_, ?_⟩ ?_ h
    · rintro ⟨p, qs⟩ ⟨hp, hqs⟩
      exact ⟨p, qs, rfl, hp, hqs⟩
    · rintro _ ⟨p, qs, rfl, hp, hqs⟩
      exact ⟨hp, hqs⟩
    · rintro ⟨p, qs⟩ _
      rfl
    · rintro _ ⟨p, qs, rfl, hp, hqs⟩
      rfl
    · rintro ⟨p, qs⟩ _
      show encodeFields rt (f :: fs) (p :: qs) = _
      rw [encodeFields]
      rfl
theorem kind_field : (f : FieldOf RType) → EnumsF SoundEnum f →
    Is (kindF f) (TypedF ShortStr IsVariant f) (fun p => encodeField rt f p.value)
  | ⟨n, tn, ty, array, opt⟩, hE => by
    have ht := kind_type ty hE
    -- without the flag
    have hplain : Is (if array then (kindT ty).array else kindT ty) (TypedF ShortStr IsVariant ⟨n, tn, ty, array, false⟩)
        (fun p => encodeField rt ⟨n, tn, ty, array, false⟩ p.value) := by
      cases array with
      | true =>
        refine Is.iso ⟨fun js => ⟨n, .arr js⟩, fun p => match p.value with | .arr js => js | _ => [], ?_, ?_, ?_, ?_⟩ ?_
          (Is.array (counts rt) ht ⟨_, least_type ty hE⟩)
        · intro js h
          exact ⟨rfl, .inr ⟨js, rfl, h.1, h.2⟩⟩
        · rintro ⟨_, _⟩ ⟨rfl, h | ⟨js, rfl, h⟩⟩
          · exact absurd h.1 (by decide)
          · exact h
        · intro js _
          rfl
        · rintro ⟨_, _⟩ ⟨rfl, h | ⟨js, rfl, h⟩⟩
          · exact absurd h.1 (by decide)
          · rfl
        · intro js _
          show encodeField rt ⟨n, tn, ty, true, false⟩ (.arr js) = _
          rw [encodeField]
          rfl
      | false =>
        refine Is.iso ⟨fun j => ⟨n, j⟩, fun p => p.value, ?_, ?_, ?_, ?_⟩ ?_ ht
        · intro j h
          exact ⟨rfl, .inr h⟩
        · rintro ⟨_, _⟩ ⟨rfl, h | h⟩
          · exact absurd h.1 (by decide)
          · exact h
        · intro j _
          rfl
        · rintro ⟨_, _⟩ ⟨rfl, h | h⟩
          · exact absurd h.1 (by decide)
          · rfl
        · intro j _
          show encodeField rt ⟨n, tn, ty, false, false⟩ j = _
          unfold encodeField
          rfl
    cases opt with
    | false => exact hplain
    | true =>
      have hfree := free_field hd ⟨n, tn, ty, array, false⟩ hE
      have hsome := some_field ⟨n, tn, ty, array, false⟩ hE
      have hund : ∀ p, TypedF ShortStr IsVariant ⟨n, tn, ty, array, false⟩ p → p.value ≠ .undef := by
        rintro ⟨_, j⟩ ⟨rfl, h | h⟩ hj
        · exact absurd h.1 (by decide)
        · have hj : j = .undef := hj
          subst hj
          cases array with
          | true => obtain ⟨_, h, -⟩ := h; cases h
          | false => exact not_undef h
      refine Is.iso ⟨fun o => match o with | none => ⟨n, .undef⟩ | some p => p,
        fun p => match p.value with | .undef => none | _ => some p, ?_, ?_, ?_, ?_⟩ ?_
        (Is.optional (a := rt.enc .uint8 (.int 0)) (b := rt.enc .uint8 (.int 1)) (rt.enc_len _ _) (rt.enc_len _ _) hplain hfree hsome)
      · rintro (_ | p) h
        · exact ⟨rfl, .inl ⟨rfl, rfl⟩⟩
        · obtain ⟨h1, h2 | h2⟩ := h
          · exact absurd h2.1 (by decide)
          · exact ⟨h1, .inr h2⟩
      · rintro ⟨_, j⟩ ⟨rfl, h | h⟩
        · have hj : j = .undef := h.2
          subst hj
          exact True.intro
        · have hp : TypedF ShortStr IsVariant ⟨_, tn, ty, array, false⟩ ⟨_, j⟩ := ⟨rfl, .inr h⟩
          have hj := hund _ hp
          cases j with
          | undef => exact absurd rfl hj
          | _ => exact hp
      · rintro (_ | ⟨_, j⟩) h
        · rfl
        · have hj := hund _ h
          cases j with
          | undef => exact absurd rfl hj
          | _ => rfl
      · rintro ⟨_, j⟩ ⟨rfl, h | h⟩
        · have hj : j = .undef := h.2
          subst hj
          rfl
        · have hj := hund ⟨_, j⟩ ⟨rfl, .inr h⟩
          cases j with
          | undef => exact absurd rfl hj
          | _ => rfl
      · rintro (_ | ⟨_, j⟩) h
        · show encodeField rt ⟨n, tn, ty, array, true⟩ .undef = _
          rw [encodeField]
          rfl
        · show encodeField rt ⟨n, tn, ty, array, true⟩ j = rt.enc .uint8 (.int 1) ++ encodeField rt ⟨n, tn, ty, array, false⟩ j
          have hj := hund _ h
          cases j with
          | undef => exact absurd rfl hj
          | _ =>
            unfold encodeField
            simp
end

omit hd hg

/-! ### said of the schema -/

open Ast WellFormed

theorem Kind.and_comm (k l : Kind) : k.and l = l.and k := by cases k <;> cases l <;> rfl
theorem Kind.and_left_comm (k l m : Kind) : k.and (l.and m) = l.and (k.and m) := by cases k <;> cases l <;> cases m <;> rfl

theorem kindFields_cons {ast : AST} {f : Str × Unresolved} {fs k} : KindFields ast (f :: fs) k ↔
    ∃ l m, KindOf ast f.2.name l ∧ KindFields ast fs m ∧ k = (l.field f.2.array f.2.optional).and m := by
  constructor
  · intro h
    cases h with
    | cons h1 h2 => exact ⟨_, _, h1, h2, rfl⟩
  · rintro ⟨l, m, h1, h2, rfl⟩
    exact .cons h1 h2

theorem kindFields_perm {ast : AST} {fs gs : List (Str × Unresolved)} (h : fs.Perm gs) : ∀ k, KindFields ast fs k → KindFields ast gs k := by
  induction h with
  | nil => exact fun k h => h
  | cons f _ ih =>
    intro k h
    obtain ⟨l, m, h1, h2, rfl⟩ := kindFields_cons.1 h
    exact kindFields_cons.2 ⟨l, m, h1, ih m h2, rfl⟩
  | swap f g fs =>
    intro k h
    obtain ⟨l, m, h1, h2, rfl⟩ := kindFields_cons.1 h
    obtain ⟨l', m', h3, h4, rfl⟩ := kindFields_cons.1 h2
    exact kindFields_cons.2 ⟨l', _, h3, kindFields_cons.2 ⟨l, m', h1, h4, rfl⟩, Kind.and_left_comm _ _ _⟩
  | trans _ _ ih1 ih2 => exact fun k h => ih2 k (ih1 k h)

theorem kind_fields_iff {ast : AST} {c : TypeMap} {fs : List (Str × Unresolved)} {rfs : List RField}
    (h : List.Forall₂ (FieldOk c) fs rfs) (ih : ∀ rf ∈ rfs, ∀ k, KindOf ast rf.tyName k ↔ kindT rf.ty = k) :
    ∀ k, KindFields ast fs k ↔ kindFs rfs = k := by
  induction h with
  | nil =>
    intro k
    constructor
    · intro h
      cases h
      rfl
    · intro h
      have h : Kind.none = k := h
      subst h
      exact .nil
  | @cons f rf fs rfs hok _ ih' =>
    intro k
    have ih' := ih' (fun rf h => ih rf (List.mem_cons_of_mem _ h))
    have hr := ih rf List.mem_cons_self
    have he : kindFs (rf :: rfs) = ((kindT rf.ty).field f.2.array f.2.optional).and (kindFs rfs) := by
      rw [← hok.array, ← hok.optional]
      obtain ⟨_, _, ty, array, optional⟩ := rf
      rw [kindFs, kindF]
    rw [he, kindFields_cons, ← hok.tyName]
    constructor
    · rintro ⟨l, m, h1, h2, rfl⟩
      rw [(hr l).1 h1, (ih' m).1 h2]
    · intro h
      exact ⟨_, _, (hr _).2 rfl, (ih' _).2 rfl, h.symm⟩

theorem builtinKinds_iff (b : Builtin) (k : Kind) : (builtinName b, k) ∈ builtinKinds ↔ kindT (.builtin b) = k := by
  cases b <;> cases k <;> decide

theorem builtinKinds_names {n : Str} {k : Kind} (h : (n, k) ∈ builtinKinds) : n ∈ builtinNames := by
  have : n ∈ builtinKinds.map Prod.fst := List.mem_map.2 ⟨_, h, rfl⟩
  exact this

theorem kind_enumSpec (vs : List Str) : kindT (.enum (enumSpec vs)) =
    if vs.length = 1 then .loose else if vs.length ≤ 8 then .choice else .loose := by
  have h1 : (enumSpec vs).variants.length = vs.length := by simp [enumSpec]
  unfold kindT
  rw [h1]
  show (if vs.length = 1 then Kind.loose else match smallestRepr vs.length with | .u8 => .choice | _ => .loose) = _
  unfold smallestRepr
  by_cases h1 : vs.length = 1
  · rw [if_pos h1, if_pos h1]
  rw [if_neg h1, if_neg h1]
  by_cases h2 : vs.length ≤ 8
  · rw [if_pos h2, if_pos h2]
  rw [if_neg h2, if_neg h2]
  by_cases h3 : vs.length ≤ 16
  · rw [if_pos h3]
  · rw [if_neg h3]

theorem final_kind {ast : AST} {c : TypeMap} (hf : Final ast c) (hnb : NoBuiltinDecl ast) (s : Nat) :
    ∀ n m t, sizeOf t ≤ s → c.get n = some (m, t) → ∀ k, KindOf ast n k ↔ kindT t = k := by
  induction s with
  | zero =>
    intro n m t hk
    have : 0 < sizeOf t := by cases t <;> simp
    omega
  | succ s ih =>
    intro n m t hk hg k
    rcases final_entry hf hg with ⟨hb, b, rfl, rfl⟩ | ⟨vs, e, hd, rfl⟩ | ⟨fs, fs', rfs, hd, hperm, rfl, hR⟩
    · rw [← builtinKinds_iff]
      constructor
      · intro h
        cases h with
        | builtin h => exact h
        | single h => exact absurd hb (hnb _ ⟨_, mem_decls.2 h⟩)
        | few h => exact absurd hb (hnb _ ⟨_, mem_decls.2 h⟩)
        | many h => exact absurd hb (hnb _ ⟨_, mem_decls.2 h⟩)
        | struct h => exact absurd hb (hnb _ ⟨_, mem_decls.2 h⟩)
      · exact .builtin
    · have he := hf.enum n vs (mem_decls.2 hd)
      have hpos := he.1.1
      replace he : e = enumSpec vs := by
        have := he.2
        rw [hg] at this
        cases this
        rfl
      rw [he, kind_enumSpec]
      constructor
      · intro h
        cases h with
        | builtin h => exact absurd (builtinKinds_names h) (hnb _ ⟨_, mem_decls.2 hd⟩)
        | single h => cases decl_once hf h hd; rfl
        | few h h1 h2 => cases decl_once hf h hd; rw [if_neg (by omega), if_pos h2]
        | many h h1 => cases decl_once hf h hd; rw [if_neg (by omega), if_neg (by omega)]
        | struct h => cases decl_once hf h hd
      · intro h
        split at h
        · next h1 =>
          subst h
          obtain ⟨v, rfl⟩ := List.length_eq_one_iff.1 h1
          exact .single hd
        · split at h
          · subst h; exact .few hd (by omega) ‹_›
          · subst h; exact .many hd (by omega)
    · show _ ↔ kindFs rfs = k
      rw [← kind_fields_iff hR (fun rf hrf k => ?_) k]
      · constructor
        · intro h
          cases h with
          | builtin h => exact absurd (builtinKinds_names h) (hnb _ ⟨_, mem_decls.2 hd⟩)
          | single h => cases decl_once hf h hd
          | few h => cases decl_once hf h hd
          | many h => cases decl_once hf h hd
          | struct h h1 =>
            cases decl_once hf h hd
            exact kindFields_perm hperm.symm _ h1
        · intro h
          exact .struct hd (kindFields_perm hperm _ h)
      · obtain ⟨f, hfm, hok⟩ := forall2_right hR rf hrf
        have hsz := sizeOf_field hrf
        rw [hok.tyName]
        exact ih _ _ rf.ty (by omega) hok.ty k

end Packetc.Shrink
