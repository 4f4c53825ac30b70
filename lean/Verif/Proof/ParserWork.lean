import Verif.Model.ParserWork
import Verif.Proof.Rules
/-!
# Bounds on the work of the parser

`Cost p f a b d`: if `p` matches, it takes at most `a` steps for each character that it consumes and `b` more; if it fails, at most `a` steps
for each character of the remaining text and `d` more.
-/

namespace Packetc.ParserW
open Peg Ast Parser

theorem matched_of {α} {p : P α} {f : F α} (hp : Sem p f) {i : Inp} {v r} (h : f i.rest = some (v, r)) :
    (p i).res = .matched ⟨i.pos + (bytes i.rest - bytes r), r⟩ v := by rw [hp.res, h]; rfl

theorem failed_of {α} {p : P α} {f : F α} (hp : Sem p f) {i : Inp} (h : f i.rest = none) : (p i).res = .failed := by
  rw [hp.res, h]; rfl

structure Cost {α} (p : PW α) (f : F α) (a b d : Nat) : Prop where
  sem : Sem p.run f
  ok : ∀ i v r, f i.rest = some (v, r) → p.work i + a * r.length ≤ a * i.rest.length + b
  bad : ∀ i, f i.rest = none → p.work i ≤ a * i.rest.length + d

/-- Failing takes at most `d` steps. -/
def Cheap {α} (p : PW α) (f : F α) (d : Nat) : Prop := ∀ i, f i.rest = none → p.work i ≤ d

/-- `f` never fails. -/
def Total {α} (f : F α) : Prop := ∀ s, f s ≠ none

theorem len_le {α} {p : P α} {f : F α} (hp : Sem p f) {s v r} (h : f s = some (v, r)) : r.length ≤ s.length :=
  (hp.suffix _ _ _ h).length_le

theorem Cost.mono {α} {p : PW α} {f : F α} {a b d a' b' d' : Nat} (h : Cost p f a b d) (ha : a ≤ a') (hb : b ≤ b') (hd : d ≤ d') :
    Cost p f a' b' d' := by
  refine ⟨h.sem, fun i v r hr => ?_, fun i hi => ?_⟩
  · have h1 := h.ok i v r hr
    have h2 := len_le h.sem hr
    obtain ⟨k, hk⟩ := Nat.exists_eq_add_of_le h2
    obtain ⟨c, rfl⟩ := Nat.exists_eq_add_of_le ha
    rw [hk, Nat.mul_add] at h1 ⊢
    have : (a + c) * k = a * k + c * k := Nat.add_mul ..
    have := Nat.zero_le (c * k)
    omega
  · have h1 := h.bad i hi
    have := Nat.mul_le_mul_right i.rest.length ha
    omega

theorem Cost.of_total {α} {p : PW α} {f : F α} {a b : Nat} (hs : Sem p.run f) (ht : Total f)
    (ok : ∀ i v r, f i.rest = some (v, r) → p.work i + a * r.length ≤ a * i.rest.length + b) : Cost p f a b 0 :=
  ⟨hs, ok, fun i h => absurd h (ht _)⟩

theorem Cost.pure {α} (v : α) : Cost (pure v : PW α) (F.pure v) 0 1 0 := by
  refine ⟨Sem.pure v, fun i w r h => ?_, fun i h => ?_⟩
  · show 1 + _ ≤ _
    omega
  · cases h

theorem Cost.bind {α β} {p : PW α} {f : F α} {q : α → PW β} {g : α → F β} {a b d b' d' : Nat} (hp : Cost p f a b d)
    (hq : ∀ v, Cost (q v) (g v) a b' d') : Cost (p >>= q) (F.bind f g) a (b + b') (b + d + d') := by
  refine ⟨Sem.bind hp.sem fun v => (hq v).sem, fun i w r' h => ?_, fun i h => ?_⟩
  · unfold F.bind at h
    cases hf : f i.rest with
    | none => rw [hf] at h; cases h
    | some vr =>
      obtain ⟨v, r⟩ := vr
      rw [hf] at h
      have h1 := hp.ok i v r hf
      have h2 := (hq v).ok ⟨i.pos + (bytes i.rest - bytes r), r⟩ w r' h
      show PW.work (PW.bind p q) i + _ ≤ _
      simp only [PW.bind, matched_of hp.sem hf]
      simp only at h2
      omega
  · unfold F.bind at h
    show PW.work (PW.bind p q) i ≤ _
    cases hf : f i.rest with
    | none =>
      simp only [PW.bind, failed_of hp.sem hf]
      have := hp.bad i hf
      omega
    | some vr =>
      obtain ⟨v, r⟩ := vr
      rw [hf] at h
      have h1 := hp.ok i v r hf
      have h2 := (hq v).bad ⟨i.pos + (bytes i.rest - bytes r), r⟩ h
      simp only [PW.bind, matched_of hp.sem hf]
      simp only at h2
      omega

theorem Cheap.bind {α β} {p : PW α} {f : F α} {q : α → PW β} {g : α → F β} {d : Nat} (hs : Sem p.run f) (hp : Cheap p f d)
    (hq : ∀ v, Total (g v)) : Cheap (p >>= q) (F.bind f g) d := by
  intro i h
  unfold F.bind at h
  show PW.work (PW.bind p q) i ≤ _
  cases hf : f i.rest with
  | none =>
    simp only [PW.bind, failed_of hs hf]
    exact hp i hf
  | some vr =>
    rw [hf] at h
    exact absurd h (hq _ _)

theorem Total.bind {α β} {f : F α} {g : α → F β} (hf : Total f) (hg : ∀ v, Total (g v)) : Total (F.bind f g) := by
  intro s h
  unfold F.bind at h
  cases hs : f s with
  | none => exact hf s hs
  | some vr => rw [hs] at h; exact hg _ _ h

theorem Total.pure {α} (v : α) : Total (F.pure v) := fun s h => by cases h
theorem Total.span (c : Char → Bool) : Total (spanF c) := fun s h => by cases h
theorem Total.opt {α} (f : F α) : Total (optF f) := by
  intro s h
  unfold optF at h
  split at h <;> cases h

theorem Cost.elem (c : Char → Bool) : Cost (elem c) (elemF c) 0 1 1 :=
  ⟨Sem.elem c, fun i v r _ => by show 1 + _ ≤ _; omega, fun i _ => by show 1 ≤ _; omega⟩

theorem Cost.lit (s : Str) : Cost (lit s) (litF s) 0 (s.length + 1) (s.length + 1) :=
  ⟨Sem.lit s, fun i v r _ => by show s.length + 1 + _ ≤ _; omega, fun i _ => by show s.length + 1 ≤ _; omega⟩

theorem Cheap.lit (s : Str) : Cheap (lit s) (litF s) (s.length + 1) := fun _ _ => Nat.le_refl _

theorem Cost.opt {α} {p : PW α} {f : F α} {a b d : Nat} (h : Cost p f a b d) (hc : Cheap p f d) : Cost (opt p) (optF f) a (b + d + 1) 0 := by
  refine Cost.of_total (Sem.opt h.sem) (Total.opt f) fun i v r hr => ?_
  show p.work i + 1 + _ ≤ _
  unfold optF at hr
  cases hf : f i.rest with
  | none =>
    rw [hf] at hr
    cases hr
    have := hc i hf
    omega
  | some vr =>
    obtain ⟨w, r'⟩ := vr
    rw [hf] at hr
    cases hr
    have := h.ok i w _ hf
    omega

theorem orElse_ok {α} {p q : PW α} {f g : F α} (hp : Sem p.run f) {i : Inp} (h : f i.rest = none) :
    (orElse p q).work i = p.work i + q.work i + 1 := by
  simp only [orElse, failed_of hp h]

theorem orElse_first {α} {p q : PW α} {f : F α} (hp : Sem p.run f) {i : Inp} {v r} (h : f i.rest = some (v, r)) :
    (orElse p q).work i = p.work i + 1 := by
  simp only [orElse, matched_of hp h]

theorem Cost.orElse {α} {p q : PW α} {f g : F α} {a b d b' d' e : Nat} (hp : Cost p f a b d) (hq : Cost q g a b' d') (hc : Cheap p f e) :
    Cost (orElse p q) (orF f g) a (b + b' + e + 1) (e + d' + 1) := by
  refine ⟨Sem.orElse hp.sem hq.sem, fun i v r h => ?_, fun i h => ?_⟩
  · unfold orF at h
    cases hf : f i.rest with
    | none =>
      rw [hf] at h
      rw [orElse_ok (g := g) hp.sem hf]
      have := hc i hf
      have := hq.ok i v r h
      omega
    | some vr =>
      rw [hf] at h
      cases h
      rw [orElse_first hp.sem hf]
      have := hp.ok i _ _ hf
      omega
  · unfold orF at h
    cases hf : f i.rest with
    | none =>
      rw [hf] at h
      rw [orElse_ok (g := g) hp.sem hf]
      have := hc i hf
      have := hq.bad i h
      omega
    | some vr => rw [hf] at h; cases h

theorem Cheap.orElse {α} {p q : PW α} {f g : F α} {e e' : Nat} (hp : Sem p.run f) (h1 : Cheap p f e) (h2 : Cheap q g e') :
    Cheap (orElse p q) (orF f g) (e + e' + 1) := by
  intro i h
  unfold orF at h
  cases hf : f i.rest with
  | none =>
    rw [hf] at h
    rw [orElse_ok (g := g) hp hf]
    have := h1 i hf
    have := h2 i h
    omega
  | some vr => rw [hf] at h; cases h

/-- The rounds of a repetition: all but the last consume something. The last one is a failure, at the text that remains. -/
theorem starWork_le {α} {p : PW α} {f : F α} {a b d : Nat} (h : Cost p f a b d) (hc : Consumes f) {e : Str → Nat}
    (he : ∀ j : Inp, f j.rest = none → p.work j ≤ e j.rest) : ∀ n i, i.rest.length < n →
      starWork p n i + (a + b + 1) * (many f i.rest).2.length ≤ (a + b + 1) * i.rest.length + 1 + e (many f i.rest).2 := by
  intro n
  induction n with
  | zero => intro i hn; omega
  | succ n ih =>
    intro i hn
    rw [many_eq hc]
    cases hf : f i.rest with
    | none =>
      simp only [starWork, failed_of h.sem hf]
      have := he i hf
      omega
    | some vr =>
      obtain ⟨v, r⟩ := vr
      have hlt := hc _ _ _ hf
      have h1 := ih ⟨i.pos + (bytes i.rest - bytes r), r⟩ (by simp only; omega)
      have h2 := h.ok i v r hf
      simp only [starWork, matched_of h.sem hf]
      simp only at h1
      obtain ⟨k, hk⟩ := Nat.exists_eq_add_of_lt hlt
      rw [hk] at h2 ⊢
      have e1 : (a + b + 1) * (r.length + k + 1) = (a + b + 1) * r.length + (a + b + 1) * k + (a + b + 1) := by
        rw [Nat.mul_add, Nat.mul_add, Nat.mul_one]
      have e2 : a * (r.length + k + 1) = a * r.length + a * k + a := by rw [Nat.mul_add, Nat.mul_add, Nat.mul_one]
      have e3 : a * k ≤ (a + b + 1) * k := Nat.mul_le_mul_right _ (by omega)
      omega

theorem many_none {α} {f : F α} (hc : Consumes f) : ∀ n s, s.length ≤ n → f (many f s).2 = none := by
  intro n
  induction n with
  | zero =>
    intro s hn
    rw [many_eq hc]
    cases hf : f s with
    | none => exact hf
    | some vr => have := hc _ _ _ hf; omega
  | succ n ih =>
    intro s hn
    rw [many_eq hc]
    cases hf : f s with
    | none => exact hf
    | some vr =>
      have := hc _ _ _ hf
      exact ih _ (by omega)

theorem starF_total {α} (f : F α) : Total (starF f) := fun s h => by cases h

theorem star_le {α} {p : PW α} {f : F α} {a b d : Nat} (h : Cost p f a b d) (hc : Consumes f) {e : Str → Nat}
    (he : ∀ j : Inp, f j.rest = none → p.work j ≤ e j.rest) {i : Inp} {v r} (hr : starF f i.rest = some (v, r)) :
    (star p).work i + (a + b + 1) * r.length ≤ (a + b + 1) * i.rest.length + 2 + e r := by
  have := starWork_le h hc he (i.rest.length + 1) i (Nat.lt_succ_self _)
  have hm : many f i.rest = (v, r) := Option.some.inj hr
  rw [hm] at this
  dsimp only at this
  show starWork p (i.rest.length + 1) i + 1 + _ ≤ _
  omega

theorem Cost.star {α} {p : PW α} {f : F α} {a b d e : Nat} (h : Cost p f a b d) (hc : Consumes f) (he : Cheap p f e) :
    Cost (star p) (starF f) (a + b + 1) (e + 2) 0 :=
  Cost.of_total (Sem.star h.sem hc) (starF_total f) fun i v r hr => by
    have := star_le h hc (e := fun _ => e) he hr
    omega

theorem Cost.span (c : Char → Bool) : Cost (ParserW.star (ParserW.elem c)) (spanF c) 2 3 0 := by
  refine Cost.of_total (span_sem c) (Total.span c) fun i v r hr => ?_
  have h1 : starF (elemF c) i.rest = some (v, r) := by
    rw [← hr]
    show some (many (elemF c) i.rest) = _
    rw [many_elem]
    rfl
  have := star_le (Cost.elem c) (elemF_consumes c) (e := fun _ => 1) (fun j _ => Nat.le_refl _) h1
  omega

theorem Cost.slice {α} {p : PW α} {f : F α} {g : F Str} {a b d : Nat} (h : Cost p f a b d) (hg : Sem (slice p).run g)
    (hn : ∀ s, g s = none → f s = none) (hs : ∀ s v r, g s = some (v, r) → ∃ w, f s = some (w, r)) : Cost (slice p) g a (b + 1) (d + 1) := by
  refine ⟨hg, fun i v r hr => ?_, fun i hi => ?_⟩
  · obtain ⟨w, hw⟩ := hs _ _ _ hr
    have := h.ok i w r hw
    show p.work i + 1 + _ ≤ _
    omega
  · have := h.bad i (hn _ hi)
    show p.work i + 1 ≤ _
    omega

theorem blanks_cost : Cost blanks (spanF isBlank) 2 3 0 := .span _
theorem newlines_cost : Cost newlines (spanF isNl) 2 3 0 := .span _
theorem layout_cost : Cost layout (spanF isLayout) 2 3 0 := .span _

theorem string_cost : Cost string stringF 2 4 1 :=
  Cost.slice (Cost.span isWord) string_sem (fun s h => by cases h) fun s v r h => ⟨v, h⟩

theorem lit_cost (s : Str) (n : Nat) (a : Nat) (hn : s.length + 1 ≤ n) : Cost (lit s) (litF s) a n n :=
  (Cost.lit s).mono (Nat.zero_le _) hn hn

theorem pure_cost {α} (v : α) (a : Nat) : Cost (pure v : PW α) (F.pure v) a 1 0 := (Cost.pure v).mono (Nat.zero_le _) (Nat.le_refl _) (Nat.le_refl _)

theorem optLit_cost (s : Str) (n a : Nat) (hn : s.length + 1 ≤ n) : Cost (opt (lit s)) (optF (litF s)) a (2 * n + 1) 0 :=
  (Cost.opt (Cost.lit s) (Cheap.lit s)).mono (Nat.zero_le _) (by omega) (Nat.le_refl _)

theorem Cost.at {α} {p : PW α} {f : F α} {a b d : Nat} (a' : Nat) (h : Cost p f a b d) (ha : a ≤ a' := by decide) : Cost p f a' b d :=
  h.mono ha (Nat.le_refl _) (Nat.le_refl _)

theorem comment_cost : Cost comment commentF 2 9 30 :=
  Cost.mono (b := 2 + (3 + (3 + 1))) (d := 2 + 2 + (3 + 0 + (3 + 0 + 0))) (Cost.bind (lit_cost "#".toList 2 2 (by decide)) fun _ => Cost.bind (Cost.span _) fun _ => Cost.bind newlines_cost fun _ =>
    pure_cost () 2) (Nat.le_refl _) (by decide) (by decide)

theorem comment_cheap : Cheap comment commentF 2 :=
  Cheap.bind (Sem.lit _) (Cheap.lit "#".toList) fun _ => .bind (.span _) fun _ => .bind (.span _) fun _ => .pure _

theorem reserved_le (i : Inp) : reserved.work i ≤ 80 := by
  have h : ∀ {p q : PW Unit} {n m : Nat}, (∀ i, p.work i ≤ n) → (∀ i, q.work i ≤ m) → ∀ i, (orElse p q).work i ≤ n + m + 1 := by
    intro p q n m h1 h2 i
    have := h1 i
    have := h2 i
    simp only [orElse]
    split <;> omega
  have l : ∀ s : Str, ∀ i, (lit s).work i ≤ s.length + 1 := fun s i => Nat.le_refl _
  exact Nat.le_trans (h (l _) (h (l _) (h (l _) (h (l _) (h (l _) (h (l _) (h (l _) (h (l _) (h (l _) (l _))))))))) i) (by decide)

/-! ### names -/

theorem notReserved_cost : Cost (notP reserved) (notF reservedF) 0 81 81 :=
  ⟨Sem.notP reserved_sem, fun i v r _ => by have := reserved_le i; show reserved.work i + 1 + _ ≤ _; omega,
    fun i _ => by have := reserved_le i; show reserved.work i + 1 ≤ _; omega⟩

theorem elemSlice_cost (c : Char → Bool) : Cost (slice (elem c)) (sliceF (elemF c)) 0 2 2 := by
  refine (Cost.elem c).slice (Sem.slice (Sem.elem c)) (fun s h => ?_) fun s v r h => ?_
  · unfold sliceF at h
    split at h
    · cases h
    · assumption
  · unfold sliceF at h
    split at h
    · rename_i w r' hw
      cases h
      exact ⟨w, hw⟩
    · cases h

theorem Sem.unique {α} {p : P α} {f g : F α} (hf : Sem p f) (hg : Sem p g) : f = g := by
  funext s
  have h := (hf.res ⟨0, s⟩).symm.trans (hg.res ⟨0, s⟩)
  dsimp only at h
  cases h1 : f s with
  | none =>
    cases h2 : g s with
    | none => rfl
    | some x => rw [h1, h2] at h; cases h
  | some x =>
    cases h2 : g s with
    | none => rw [h1, h2] at h; cases h
    | some y =>
      rw [h1, h2] at h
      obtain ⟨v, r⟩ := x
      obtain ⟨w, t⟩ := y
      simp only [mkRes, Res.matched.injEq, Inp.mk.injEq] at h
      rw [h.1.2, h.2]

theorem wordSlice_consumes : Consumes (sliceF (elemF isWord)) := by
  intro s v r h
  simp only [sliceF] at h
  split at h
  · rename_i x r' hx
    simp only [Option.some.injEq, Prod.mk.injEq] at h
    rw [← h.2]
    exact elemF_consumes _ _ _ _ hx
  · cases h

theorem sliceF_some {α} {f : F α} {s v r} (h : sliceF f s = some (v, r)) : ∃ w, f s = some (w, r) := by
  unfold sliceF at h
  split at h
  · rename_i w r' hw
    cases h
    exact ⟨w, hw⟩
  · cases h

theorem sliceF_none {α} {f : F α} {s} (h : sliceF f s = none) : f s = none := by
  unfold sliceF at h
  split at h
  · cases h
  · assumption

/-- The inside of `ident`. -/
def rawF : F Unit := F.bind (notF reservedF) fun _ => F.bind (sliceF (elemF isStart)) fun _ =>
  F.bind (starF (sliceF (elemF isWord))) fun _ => F.pure ()

theorem identStart_cost : Cost identStart (sliceF (elemF isStart)) 0 2 2 := elemSlice_cost _
theorem identChars_cost : Cost identChars (sliceF (elemF isWord)) 0 2 2 := elemSlice_cost _

theorem Cheap.bind0 {α β} {p : PW α} {f : F α} {q : α → PW β} {g : α → F β} {b d e : Nat} (hp : Cost p f 0 b d)
    (hq : ∀ v, Cheap (q v) (g v) e) : Cheap (p >>= q) (F.bind f g) (b + d + e) := by
  intro i h
  unfold F.bind at h
  show PW.work (PW.bind p q) i ≤ _
  cases hf : f i.rest with
  | none =>
    simp only [PW.bind, failed_of hp.sem hf]
    have := hp.bad i hf
    omega
  | some vr =>
    obtain ⟨v, r⟩ := vr
    rw [hf] at h
    have h1 := hp.ok i v r hf
    have h2 := hq v ⟨i.pos + (bytes i.rest - bytes r), r⟩ h
    simp only [PW.bind, matched_of hp.sem hf]
    omega

theorem raw_cost : Cost (do notP reserved; let _ ← identStart; let _ ← star identChars; return ()) rawF 3 88 250 := by
  have h1 := Cost.bind (notReserved_cost.at 3) fun _ => Cost.bind (identStart_cost.at 3) fun _ =>
    Cost.bind (identChars_cost.star wordSlice_consumes (e := 2) (fun _ _ => Nat.le_refl _)) fun _ => pure_cost () 3
  exact h1.mono (by decide) (by decide) (by decide)

theorem raw_cheap : Cheap (do notP reserved; let _ ← identStart; let _ ← star identChars; return ()) rawF 164 :=
  Cheap.bind0 notReserved_cost fun _ => Cheap.bind identStart_cost.sem (fun _ _ => Nat.le_refl 2) fun _ =>
    .bind (starF_total _) fun _ => .pure _

theorem ident_eq : sliceF rawF = identF := Sem.unique (Sem.quiet (Sem.slice raw_cost.sem)) ident_sem

theorem ident_cost : Cost ident identF 3 90 252 := by
  refine ⟨ident_sem, fun i v r h => ?_, fun i h => ?_⟩
  · rw [← ident_eq] at h
    obtain ⟨w, hw⟩ := sliceF_some h
    have := raw_cost.ok i w r hw
    show _ + 1 + 1 + _ ≤ _
    omega
  · rw [← ident_eq] at h
    have := raw_cost.bad i (sliceF_none h)
    show _ + 1 + 1 ≤ _
    omega

theorem ident_cheap : Cheap ident identF 166 := by
  intro i h
  rw [← ident_eq] at h
  have := raw_cheap i (sliceF_none h)
  show _ + 1 + 1 ≤ _
  omega

/-! ### enums -/

theorem enumVariant_cost : Cost enumVariant enumVariantF 3 110 600 := by
  have h := Cost.bind ident_cost fun s => Cost.bind (layout_cost.at 3) fun _ => Cost.bind (optLit_cost ",".toList 2 3 (by decide)) fun _ =>
    Cost.bind (layout_cost.at 3) fun _ => pure_cost s 3
  exact h.mono (by decide) (by decide) (by decide)

theorem enumVariant_cheap : Cheap enumVariant enumVariantF 166 :=
  Cheap.bind ident_cost.sem ident_cheap fun _ => .bind (.span _) fun _ => .bind (.opt _) fun _ => .bind (.span _) fun _ => .pure _

theorem enumVariants_cost : Cost (star enumVariant) (starF enumVariantF) 114 168 0 :=
  enumVariant_cost.star enumVariantF_consumes enumVariant_cheap

theorem enumType_cost : Cost enumType enumTypeF 114 200 500 := by
  have h := Cost.bind (blanks_cost.at 114) fun _ => Cost.bind (lit_cost "enum".toList 5 114 (by decide)) fun _ =>
    Cost.bind (blanks_cost.at 114) fun _ => Cost.bind (lit_cost "{".toList 2 114 (by decide)) fun _ =>
    Cost.bind (layout_cost.at 114) fun _ => Cost.bind enumVariants_cost fun vs => Cost.bind (layout_cost.at 114) fun _ =>
    Cost.bind (lit_cost "}".toList 2 114 (by decide)) fun _ => pure_cost vs 114
  exact h.mono (by decide) (by decide) (by decide)

/-- Looking at blanks and then at a literal that is not there. -/
theorem blanksLit_bad {α} (l : Str) (q : PW α) (i : Inp) (h : ¬ l <+: i.rest.dropWhile isBlank) :
    (do let _ ← blanks; lit l; q : PW α).work i + 2 * (i.rest.dropWhile isBlank).length ≤ 2 * i.rest.length + 4 + l.length := by
  show (PW.bind blanks fun _ => PW.bind (lit l) fun _ => q).work i + _ ≤ _
  have hb : spanF isBlank i.rest = some (i.rest.takeWhile isBlank, i.rest.dropWhile isBlank) := rfl
  have h1 := blanks_cost.ok i _ _ hb
  simp only [PW.bind, matched_of blanks_cost.sem hb]
  rw [failed_of (p := (lit l).run) (Cost.lit l).sem (by dsimp only; exact (litF_none l _).2 h)]
  show _ + (l.length + 1) + _ ≤ _
  omega

/-! ### structs -/

theorem structFieldComment_cost : Cost structFieldComment fieldCommentF 2 13 50 := by
  have h := Cost.bind comment_cost fun _ => Cost.bind layout_cost fun _ => pure_cost (none : Option (Str × Unresolved)) 2
  exact h.mono (by decide) (by decide) (by decide)

theorem structFieldComment_cheap : Cheap structFieldComment fieldCommentF 2 :=
  Cheap.bind comment_cost.sem comment_cheap fun _ => .bind (.span _) fun _ => .pure _

theorem isOptional_cost : Cost isOptional isOptionalF 0 6 10 := by
  have h := Cost.bind (optLit_cost "?".toList 2 0 (by decide)) fun o => pure_cost o.isSome 0
  exact h.mono (by decide) (by decide) (by decide)

theorem structFieldDecl_cost : Cost structFieldDecl fieldDeclF 3 140 500 := by
  have h := Cost.bind ident_cost fun i => Cost.bind (blanks_cost.at 3) fun _ => Cost.bind (isOptional_cost.at 3) fun o =>
    Cost.bind (lit_cost ":".toList 2 3 (by decide)) fun _ => Cost.bind (blanks_cost.at 3) fun _ => Cost.bind (string_cost.at 3) fun t =>
    Cost.bind (optLit_cost "[]".toList 3 3 (by decide)) fun a => Cost.bind (layout_cost.at 3) fun _ =>
    Cost.bind (optLit_cost ",".toList 2 3 (by decide)) fun _ => Cost.bind (layout_cost.at 3) fun _ =>
    pure_cost (some (i, Unresolved.mk t a.isSome o)) 3
  exact h.mono (by decide) (by decide) (by decide)

theorem structField_cost : Cost structField structFieldF 3 160 510 := by
  have h := Cost.orElse (structFieldComment_cost.at 3) structFieldDecl_cost structFieldComment_cheap
  exact h.mono (by decide) (by decide) (by decide)

/-- A field that fails fails at once unless there is a name. -/
theorem structField_bad {i : Inp} (h : structFieldF i.rest = none) (hi : identF i.rest = none) : structField.work i ≤ 170 := by
  unfold structFieldF orF at h
  cases hf : fieldCommentF i.rest with
  | none =>
    show (orElse structFieldComment structFieldDecl).work i ≤ _
    rw [orElse_ok (g := fieldDeclF) structFieldComment_cost.sem hf]
    have h1 := structFieldComment_cheap i hf
    have h2 := ident_cheap i hi
    have h3 : structFieldDecl.work i = ident.work i := by
      show (PW.bind ident _).work i = _
      simp only [PW.bind, failed_of ident_cost.sem hi]
    omega
  | some vr => rw [hf] at h; cases h

theorem F_bind_some {α β} {f : F α} {g : α → F β} {s w t} (h : F.bind f g s = some (w, t)) : ∃ v r, f s = some (v, r) ∧ g v r = some (w, t) := by
  unfold F.bind at h
  cases hf : f s with
  | none => rw [hf] at h; cases h
  | some vr => obtain ⟨v, r⟩ := vr; rw [hf] at h; exact ⟨v, r, rfl, h⟩

/-- What follows the opening brace of a struct. -/
def bodyW : PW (List (Str × Unresolved)) := do
  let fields ← star structField
  let _ ← layout
  lit "}".toList
  return fields.filterMap id

def bodyF : F (List (Str × Unresolved)) :=
  F.bind (starF structFieldF) fun fs => F.bind (spanF isLayout) fun _ => F.bind (litF "}".toList) fun _ => F.pure (fs.filterMap id)

theorem not_ident {s : Str} (h : "}".toList <+: s.dropWhile isLayout) : identF s = none := by
  cases s with
  | nil => rfl
  | cons c cs =>
    have hc : isStart c = false := by
      by_cases hl : isLayout c = true
      · simp only [isLayout, Bool.or_eq_true, beq_iff_eq] at hl
        rcases hl with ((rfl | rfl) | rfl) | rfl <;> decide
      · rw [List.dropWhile_cons_of_neg hl] at h
        obtain ⟨t, ht⟩ := h
        have : c = '}' := by
          have := congrArg List.head? ht
          simpa using this.symm
        subst this
        decide
    simp only [identF, hc]
    split <;> rfl

theorem tail_cost (fs : List (Option (Str × Unresolved))) :
    Cost (do let _ ← layout; lit "}".toList; return fs.filterMap id) (F.bind (spanF isLayout) fun _ => F.bind (litF "}".toList) fun _ =>
      F.pure (fs.filterMap id)) 164 6 20 := by
  have h := Cost.bind (layout_cost.at 164) fun _ => Cost.bind (lit_cost "}".toList 2 164 (by decide)) fun _ => pure_cost (fs.filterMap id) 164
  exact h.mono (by decide) (by decide) (by decide)

theorem body_work {i : Inp} {fs s1} (h1 : starF structFieldF i.rest = some (fs, s1)) : bodyW.work i =
    (star structField).work i + (do let _ ← layout; lit "}".toList; return fs.filterMap id : PW (List (Str × Unresolved))).work
      ⟨i.pos + (bytes i.rest - bytes s1), s1⟩ := by
  show (PW.bind (star structField) _).work i = _
  simp only [PW.bind, matched_of (p := (star structField).run) (Sem.star structField_sem structFieldF_consumes) (i := i) h1]

theorem body_cost : Cost bodyW bodyF 170 200 600 := by
  have hsem : Sem bodyW.run bodyF := Sem.bind (Sem.star structField_sem structFieldF_consumes) fun fs => (tail_cost fs).sem
  refine ⟨hsem, fun i v r h => ?_, fun i h => ?_⟩
  · obtain ⟨fs, s1, h1, h2⟩ := F_bind_some h
    obtain ⟨l, s2, h3, h4⟩ := F_bind_some h2
    obtain ⟨u, s3, h5, h6⟩ := F_bind_some h4
    have hid : identF s1 = none := by
      apply not_ident
      cases h3
      refine Classical.byContradiction fun hn => ?_
      rw [(litF_none _ _).2 hn] at h5
      cases h5
    have h7 := star_le structField_cost structFieldF_consumes
      (e := fun s => if identF s = none then 170 else 3 * s.length + 510) (fun j hj => by
        split
        · exact structField_bad hj (by assumption)
        · exact structField_cost.bad j hj) h1
    rw [if_pos hid] at h7
    have h8 := (tail_cost fs).ok ⟨i.pos + (bytes i.rest - bytes s1), s1⟩ v r h2
    have h10 := body_work h1
    have e1 := len_le (Sem.star structField_sem structFieldF_consumes) h1
    have e2 := len_le (tail_cost fs).sem h2
    dsimp only at h8
    omega
  · obtain ⟨fs, s1, h1, h2⟩ : ∃ fs s1, starF structFieldF i.rest = some (fs, s1) ∧ (F.bind (spanF isLayout) fun _ =>
        F.bind (litF "}".toList) fun _ => F.pure (fs.filterMap id)) s1 = none := ⟨_, _, rfl, h⟩
    have h7 := star_le structField_cost structFieldF_consumes (e := fun s => 3 * s.length + 510) (fun j hj => structField_cost.bad j hj) h1
    have h8 := (tail_cost fs).bad ⟨i.pos + (bytes i.rest - bytes s1), s1⟩ h2
    have h10 := body_work h1
    have e1 := len_le (Sem.star structField_sem structFieldF_consumes) h1
    dsimp only at h7 h8
    omega

theorem structType_eq : structType = (do
    let _ ← blanks; lit "struct".toList; let _ ← blanks; lit "{".toList; let _ ← layout; bodyW) := rfl

theorem structType_cost : Cost structType structTypeF 170 220 700 := by
  have h := Cost.bind (blanks_cost.at 170) fun _ => Cost.bind (lit_cost "struct".toList 7 170 (by decide)) fun _ =>
    Cost.bind (blanks_cost.at 170) fun _ => Cost.bind (lit_cost "{".toList 2 170 (by decide)) fun _ =>
    Cost.bind (layout_cost.at 170) fun _ => body_cost
  exact h.mono (by decide) (by decide) (by decide)

/-! ### declarations -/

def enumW : PW Ty := do let e ← enumType; return .enum e
def structW : PW Ty := do let s ← structType; return .struct s
def enumF : F Ty := F.bind enumTypeF fun e => F.pure (.enum e)
def structF : F Ty := F.bind structTypeF fun s => F.pure (.struct s)

theorem enumW_cost : Cost enumW enumF 170 210 800 := by
  have h := Cost.bind (enumType_cost.at 170) fun e => pure_cost (Ty.enum e) 170
  exact h.mono (by decide) (by decide) (by decide)

theorem structW_cost : Cost structW structF 170 230 1000 := by
  have h := Cost.bind structType_cost fun s => pure_cost (Ty.struct s) 170
  exact h.mono (by decide) (by decide) (by decide)

/-- If it is a struct, it is seen at once that it is not an enum. -/
theorem enumW_bad {i : Inp} {v r} (h : structF i.rest = some (v, r)) : enumW.work i + 2 * r.length ≤ 2 * i.rest.length + 8 := by
  obtain ⟨s, s0, h0, -⟩ := F_bind_some h
  obtain ⟨l, s1, h1, h2⟩ := F_bind_some h0
  obtain ⟨u, s2, h3, h4⟩ := F_bind_some h2
  cases h1
  have hp : "struct".toList <+: i.rest.dropWhile isBlank := Classical.byContradiction fun hn => by
    rw [(litF_none _ _).2 hn] at h3
    cases h3
  have hn : ¬ "enum".toList <+: i.rest.dropWhile isBlank := by
    intro he
    obtain ⟨x, hx⟩ := hp
    obtain ⟨y, hy⟩ := he
    rw [← hx] at hy
    have := congrArg List.head? hy
    revert this
    simp
  have hlen := len_le (Sem.bind (Sem.lit "struct".toList) fun _ => Sem.bind blanks_sem fun _ => Sem.bind (Sem.lit "{".toList) fun _ =>
    Sem.bind layout_sem fun _ => body_cost.sem) h2
  have hr : r.length ≤ s0.length := by
    obtain ⟨s', s0', h0', h5⟩ := F_bind_some h
    rw [h0] at h0'
    cases h0'
    cases h5
    exact Nat.le_refl _
  have hb := blanksLit_bad "enum".toList (do
    let _ ← blanks; lit "{".toList; let _ ← layout; let variants ← star enumVariant; let _ ← layout; lit "}".toList; return variants) i hn
  have hw : enumW.work i = enumType.work i := by
    show (PW.bind enumType _).work i = _
    have hf : enumTypeF i.rest = none := by
      show F.bind (spanF isBlank) _ i.rest = none
      show F.bind (litF "enum".toList) _ (i.rest.dropWhile isBlank) = none
      unfold F.bind
      rw [(litF_none _ _).2 hn]
    simp only [PW.bind, failed_of enumType_cost.sem hf]
  rw [hw]
  have hb' : enumType.work i + 2 * (i.rest.dropWhile isBlank).length ≤ 2 * i.rest.length + 4 + 4 := hb
  omega

theorem type_cost : Cost type typeF 340 250 1810 := by
  refine ⟨type_sem, fun i v r h => ?_, fun i h => ?_⟩
  · have h' : orF enumF structF i.rest = some (v, r) := h
    show (orElse enumW structW).work i + _ ≤ _
    unfold orF at h'
    cases hf : enumF i.rest with
    | none =>
      rw [hf] at h'
      rw [orElse_ok (g := structF) enumW_cost.sem hf]
      have h1 := enumW_bad h'
      have h2 := structW_cost.ok i v r h'
      have h3 := len_le structW_cost.sem h'
      omega
    | some vr =>
      rw [hf] at h'
      cases h'
      rw [orElse_first enumW_cost.sem hf]
      have h2 := enumW_cost.ok i v r hf
      have h3 := len_le enumW_cost.sem hf
      omega
  · have h' : orF enumF structF i.rest = none := h
    show (orElse enumW structW).work i ≤ _
    unfold orF at h'
    cases hf : enumF i.rest with
    | none =>
      rw [hf] at h'
      rw [orElse_ok (g := structF) enumW_cost.sem hf]
      have h1 := enumW_cost.bad i hf
      have h2 := structW_cost.bad i h'
      omega
    | some vr => rw [hf] at h'; cases h'

theorem decl_cost : Cost decl declF 340 400 3000 := by
  have h := Cost.bind (blanks_cost.at 340) fun _ => Cost.bind (ident_cost.at 340) fun i => Cost.bind (blanks_cost.at 340) fun _ =>
    Cost.bind (lit_cost ":".toList 2 340 (by decide)) fun _ => Cost.bind (blanks_cost.at 340) fun _ =>
    Cost.bind type_cost fun t => Cost.bind (layout_cost.at 340) fun _ => pure_cost (Node.decl i t) 340
  exact h.mono (by decide) (by decide) (by decide)

theorem export_cost : Cost exportRule exportF 2 20 40 := by
  have h := Cost.bind (lit_cost "export".toList 7 2 (by decide)) fun _ => Cost.bind blanks_cost fun _ => Cost.bind string_cost fun s =>
    pure_cost (Node.export s) 2
  exact h.mono (by decide) (by decide) (by decide)

theorem export_cheap : Cheap exportRule exportF 7 :=
  Cheap.bind (Sem.lit _) (Cheap.lit "export".toList) fun _ => .bind (.span _) fun _ => .bind (.span _) fun _ => .pure _

/-! ### lines -/

theorem lead_bad {α β} {p : PW α} {f : F α} {q : α → PW β} {g : α → F β} {e : Nat} (hp : Sem p.run f) (hc : Cheap p f e) (hq : ∀ v, Total (g v))
    {i : Inp} (h : F.bind (spanF isBlank) (fun _ => F.bind f g) i.rest = none) :
    (blanks >>= fun _ => p >>= q).work i + 2 * (i.rest.dropWhile isBlank).length ≤ 2 * i.rest.length + 3 + e := by
  have hb : spanF isBlank i.rest = some (i.rest.takeWhile isBlank, i.rest.dropWhile isBlank) := rfl
  have h1 := blanks_cost.ok i _ _ hb
  have h2 : F.bind f g (i.rest.dropWhile isBlank) = none := h
  have h3 := Cheap.bind (q := q) hp hc hq ⟨i.pos + (bytes i.rest - bytes (i.rest.dropWhile isBlank)), i.rest.dropWhile isBlank⟩ h2
  show (PW.bind blanks _).work i + _ ≤ _
  simp only [PW.bind, matched_of blanks_cost.sem hb]
  have h4 : (p >>= q).work ⟨i.pos + (bytes i.rest - bytes (i.rest.dropWhile isBlank)), i.rest.dropWhile isBlank⟩ ≤ e := h3
  have h5 : ∀ x, blanks.work i + (p >>= q).work x + 2 * (i.rest.dropWhile isBlank).length =
      (p >>= q).work x + (blanks.work i + 2 * (i.rest.dropWhile isBlank).length) := fun x => by omega
  exact Nat.le_trans (Nat.le_of_eq (h5 _)) (by omega)

theorem lead_len {β} {k : F β} {P' : P β} (hk : Sem P' k) {s w r} (h : F.bind (spanF isBlank) (fun _ => k) s = some (w, r)) :
    r.length ≤ (s.dropWhile isBlank).length := len_le hk (show k (s.dropWhile isBlank) = some (w, r) from h)

theorem lineComment_cost : Cost lineComment lineCommentF 340 20 100 := by
  have h := Cost.bind (blanks_cost.at 340) fun _ => Cost.bind (comment_cost.at 340) fun _ => Cost.bind (newlines_cost.at 340) fun _ =>
    pure_cost (none : Option Node) 340
  exact h.mono (by decide) (by decide) (by decide)

theorem lineExport_cost : Cost lineExport lineExportF 340 40 200 := by
  have h := Cost.bind (blanks_cost.at 340) fun _ => Cost.bind (export_cost.at 340) fun e => Cost.bind (newlines_cost.at 340) fun _ =>
    pure_cost (some e) 340
  exact h.mono (by decide) (by decide) (by decide)

theorem lineDecl_cost : Cost lineDecl lineDeclF 340 410 3500 := by
  have h := Cost.bind (blanks_cost.at 340) fun _ => Cost.bind decl_cost fun e => Cost.bind (newlines_cost.at 340) fun _ =>
    pure_cost (some e) 340
  exact h.mono (by decide) (by decide) (by decide)

theorem lineComment_bad {i : Inp} (h : lineCommentF i.rest = none) :
    lineComment.work i + 2 * (i.rest.dropWhile isBlank).length ≤ 2 * i.rest.length + 5 :=
  lead_bad (q := fun _ => newlines >>= fun _ => pure none) comment_cost.sem comment_cheap
    (fun _ => .bind (.span isNl) fun _ => .pure none) h

theorem lineExport_bad {i : Inp} (h : lineExportF i.rest = none) :
    lineExport.work i + 2 * (i.rest.dropWhile isBlank).length ≤ 2 * i.rest.length + 10 :=
  lead_bad (q := fun e => newlines >>= fun _ => pure (some e)) export_cost.sem export_cheap
    (fun e => .bind (.span isNl) fun _ => .pure (some e)) h

theorem line_cost : Cost line lineF 344 430 3520 := by
  refine ⟨line_sem, fun i v r h => ?_, fun i h => ?_⟩
  · show (orElse lineComment (orElse lineExport lineDecl)).work i + _ ≤ _
    unfold lineF orF at h
    cases h1 : lineCommentF i.rest with
    | some vr =>
      rw [h1] at h
      cases h
      rw [orElse_first lineComment_cost.sem h1]
      have := lineComment_cost.ok i v r h1
      have := len_le lineComment_cost.sem h1
      omega
    | none =>
      rw [h1] at h
      dsimp only at h
      rw [orElse_ok (g := orF lineExportF lineDeclF) lineComment_cost.sem h1]
      have b1 := lineComment_bad h1
      cases h2 : lineExportF i.rest with
      | some vr =>
        rw [h2] at h
        cases h
        rw [orElse_first lineExport_cost.sem h2]
        have := lineExport_cost.ok i v r h2
        have := lead_len (Sem.bind export_cost.sem fun e => Sem.bind newlines_cost.sem fun _ => Sem.pure (some e)) h2
        omega
      | none =>
        rw [h2] at h
        dsimp only at h
        rw [orElse_ok (g := lineDeclF) lineExport_cost.sem h2]
        have b2 := lineExport_bad h2
        have := lineDecl_cost.ok i v r h
        have := lead_len (Sem.bind decl_cost.sem fun e => Sem.bind newlines_cost.sem fun _ => Sem.pure (some e)) h
        omega
  · show (orElse lineComment (orElse lineExport lineDecl)).work i ≤ _
    unfold lineF orF at h
    cases h1 : lineCommentF i.rest with
    | some vr => rw [h1] at h; cases h
    | none =>
      rw [h1] at h
      dsimp only at h
      rw [orElse_ok (g := orF lineExportF lineDeclF) lineComment_cost.sem h1]
      have b1 := lineComment_bad h1
      cases h2 : lineExportF i.rest with
      | some vr => rw [h2] at h; cases h
      | none =>
        rw [h2] at h
        dsimp only at h
        rw [orElse_ok (g := lineDeclF) lineExport_cost.sem h2]
        have b2 := lineExport_bad h2
        have := lineDecl_cost.bad i h
        omega

theorem schemaRule_work (i : Inp) : schemaRule.work i ≤ 775 * i.rest.length + 3600 := by
  have hn := Cost.opt newlines_cost (d := 0) (fun i h => by cases h)
  have hb : optF (spanF isNl) i.rest = some (some (i.rest.takeWhile isNl), i.rest.dropWhile isNl) := rfl
  have h1 := hn.ok i _ _ hb
  have hl := len_le hn.sem hb
  have h2 := star_le line_cost lineF_consumes (e := fun s => 344 * s.length + 3520) (fun j hj => line_cost.bad j hj)
    (i := ⟨i.pos + (bytes i.rest - bytes (i.rest.dropWhile isNl)), i.rest.dropWhile isNl⟩) (v := _) (r := _) rfl
  dsimp only at h2
  show (PW.bind (opt newlines) fun _ => PW.bind (star line) _).work i ≤ _
  simp only [PW.bind, matched_of hn.sem hb]
  rw [matched_of (p := (star line).run) (Sem.star line_sem lineF_consumes) (v := (many lineF (i.rest.dropWhile isNl)).1)
    (r := (many lineF (i.rest.dropWhile isNl)).2) rfl]
  show (opt newlines).work i + ((star line).work _ + 1) ≤ _
  omega

/-! ### every character that is consumed has been looked at -/

/-- `p` takes at least one step for each character that it consumes. -/
def Looks {α} (p : PW α) (f : F α) : Prop := ∀ i v r, f i.rest = some (v, r) → i.rest.length ≤ p.work i + r.length

theorem Looks.pure {α} (v : α) : Looks (pure v : PW α) (F.pure v) := by
  intro i w r h
  cases h
  omega

theorem Looks.bind {α β} {p : PW α} {f : F α} {q : α → PW β} {g : α → F β} (hs : Sem p.run f) (hp : Looks p f)
    (hq : ∀ v, Looks (q v) (g v)) : Looks (p >>= q) (F.bind f g) := by
  intro i w r' h
  obtain ⟨v, r, h1, h2⟩ := F_bind_some h
  have e1 := hp i v r h1
  have e2 := hq v ⟨i.pos + (bytes i.rest - bytes r), r⟩ w r' h2
  show _ ≤ PW.work (PW.bind p q) i + _
  simp only [PW.bind, matched_of hs h1]
  dsimp only at e2
  omega

theorem Looks.elem (c : Char → Bool) : Looks (elem c) (elemF c) := by
  intro i v r h
  show _ ≤ 1 + _
  cases hr : i.rest with
  | nil => simp
  | cons x xs =>
    rw [hr] at h
    simp only [elemF] at h
    split at h
    · cases h
      simp only [List.length_cons]
      omega
    · cases h

theorem Looks.lit (s : Str) : Looks (lit s) (litF s) := by
  intro i v r h
  show _ ≤ s.length + 1 + _
  unfold litF at h
  split at h
  · cases h
    rw [List.length_drop]
    omega
  · cases h

theorem Looks.orElse {α} {p q : PW α} {f g : F α} (hs : Sem p.run f) (hp : Looks p f) (hq : Looks q g) : Looks (orElse p q) (orF f g) := by
  intro i v r h
  unfold orF at h
  cases hf : f i.rest with
  | none =>
    rw [hf] at h
    rw [orElse_ok (g := g) hs hf]
    have := hq i v r h
    omega
  | some vr =>
    rw [hf] at h
    cases h
    rw [orElse_first hs hf]
    have := hp i _ _ hf
    omega

theorem Looks.opt {α} {p : PW α} {f : F α} (hp : Looks p f) : Looks (opt p) (optF f) := by
  intro i v r h
  show _ ≤ p.work i + 1 + _
  unfold optF at h
  cases hf : f i.rest with
  | none => rw [hf] at h; cases h; omega
  | some vr =>
    rw [hf] at h
    cases h
    have := hp i _ _ hf
    omega

theorem Looks.star {α} {p : PW α} {f : F α} (hs : Sem p.run f) (hc : Consumes f) (hp : Looks p f) : Looks (star p) (starF f) := by
  have key : ∀ n i, i.rest.length < n → i.rest.length ≤ starWork p n i + (many f i.rest).2.length := by
    intro n
    induction n with
    | zero => intro i hn; omega
    | succ n ih =>
      intro i hn
      rw [many_eq hc]
      cases hf : f i.rest with
      | none => simp only; omega
      | some vr =>
        obtain ⟨v, r⟩ := vr
        have hlt := hc _ _ _ hf
        have h1 := ih ⟨i.pos + (bytes i.rest - bytes r), r⟩ (by simp only; omega)
        have h2 := hp i v r hf
        simp only [starWork, matched_of hs hf]
        dsimp only at h1
        omega
  intro i v r h
  have hm : many f i.rest = (v, r) := Option.some.inj h
  have := key (i.rest.length + 1) i (Nat.lt_succ_self _)
  rw [hm] at this
  dsimp only at this
  show _ ≤ starWork p (i.rest.length + 1) i + 1 + _
  omega

theorem Looks.span (c : Char → Bool) : Looks (ParserW.star (ParserW.elem c)) (spanF c) := by
  have h := Looks.star (Sem.elem c) (elemF_consumes c) (Looks.elem c)
  have e : starF (elemF c) = spanF c := by
    funext s
    show some (many (elemF c) s) = _
    rw [many_elem]
    rfl
  rwa [e] at h

theorem Looks.not {α} {p : PW α} (f : F α) : Looks (notP p) (notF f) := by
  intro i v r h
  unfold notF at h
  split at h
  · cases h
  · cases h
    omega

theorem Looks.slice {α} {p : PW α} {f : F α} (hp : Looks p f) : Looks (slice p) (sliceF f) := by
  intro i v r h
  obtain ⟨w, hw⟩ := sliceF_some h
  have := hp i w r hw
  show _ ≤ p.work i + 1 + _
  omega

theorem comment_looks : Looks comment commentF :=
  .bind (Sem.lit _) (.lit _) fun _ => .bind (span_sem _) (.span _) fun _ => .bind newlines_sem (.span _) fun _ => .pure _

theorem string_looks : Looks string stringF := by
  intro i v r h
  have := Looks.span isWord i v r h
  show _ ≤ _ + 1 + _
  omega

theorem ident_looks : Looks ident identF := by
  have h : Looks (do notP reserved; let _ ← identStart; let _ ← star identChars; return ()) rawF :=
    .bind notReserved_cost.sem (.not _) fun _ => .bind identStart_cost.sem (.slice (.elem _)) fun _ =>
      .bind (Sem.star identChars_cost.sem wordSlice_consumes) (.star identChars_cost.sem wordSlice_consumes (.slice (.elem _))) fun _ => .pure _
  intro i v r hr
  rw [← ident_eq] at hr
  obtain ⟨w, hw⟩ := sliceF_some hr
  have := h i w r hw
  show _ ≤ _ + 1 + 1 + _
  omega

theorem enumType_looks : Looks enumType enumTypeF :=
  .bind blanks_sem (.span _) fun _ => .bind (Sem.lit _) (.lit _) fun _ => .bind blanks_sem (.span _) fun _ => .bind (Sem.lit _) (.lit _) fun _ =>
  .bind layout_sem (.span _) fun _ => .bind (Sem.star enumVariant_sem enumVariantF_consumes) (.star enumVariant_sem enumVariantF_consumes
    (.bind ident_sem ident_looks fun _ => .bind layout_sem (.span _) fun _ => .bind (Sem.opt (Sem.lit _)) (.opt (.lit _)) fun _ =>
      .bind layout_sem (.span _) fun _ => .pure _)) fun _ =>
  .bind layout_sem (.span _) fun _ => .bind (Sem.lit _) (.lit _) fun _ => .pure _

theorem structField_looks : Looks structField structFieldF :=
  .orElse fieldComment_sem (.bind comment_sem comment_looks fun _ => .bind layout_sem (.span _) fun _ => .pure _)
    (.bind ident_sem ident_looks fun _ => .bind blanks_sem (.span _) fun _ =>
      .bind isOptional_sem (.bind (Sem.opt (Sem.lit _)) (.opt (.lit _)) fun _ => .pure _) fun _ => .bind (Sem.lit _) (.lit _) fun _ =>
      .bind blanks_sem (.span _) fun _ => .bind string_sem string_looks fun _ => .bind (Sem.opt (Sem.lit _)) (.opt (.lit _)) fun _ =>
      .bind layout_sem (.span _) fun _ => .bind (Sem.opt (Sem.lit _)) (.opt (.lit _)) fun _ => .bind layout_sem (.span _) fun _ => .pure _)

theorem structType_looks : Looks structType structTypeF :=
  .bind blanks_sem (.span _) fun _ => .bind (Sem.lit _) (.lit _) fun _ => .bind blanks_sem (.span _) fun _ => .bind (Sem.lit _) (.lit _) fun _ =>
  .bind layout_sem (.span _) fun _ => .bind (Sem.star structField_sem structFieldF_consumes) (.star structField_sem structFieldF_consumes
    structField_looks) fun _ => .bind layout_sem (.span _) fun _ => .bind (Sem.lit _) (.lit _) fun _ => .pure _

theorem decl_looks : Looks decl declF :=
  .bind blanks_sem (.span _) fun _ => .bind ident_sem ident_looks fun _ => .bind blanks_sem (.span _) fun _ => .bind (Sem.lit _) (.lit _) fun _ =>
  .bind blanks_sem (.span _) fun _ => .bind type_sem (.orElse enumW_cost.sem (.bind enumType_sem enumType_looks fun _ => .pure _)
    (.bind structType_sem structType_looks fun _ => .pure _)) fun _ => .bind layout_sem (.span _) fun _ => .pure _

theorem line_looks : Looks line lineF :=
  .orElse lineComment_sem (.bind blanks_sem (.span _) fun _ => .bind comment_sem comment_looks fun _ => .bind newlines_sem (.span _) fun _ => .pure _)
    (.orElse lineExport_sem (.bind blanks_sem (.span _) fun _ => .bind export_sem (.bind (Sem.lit _) (.lit _) fun _ =>
        .bind blanks_sem (.span _) fun _ => .bind string_sem string_looks fun _ => .pure _) fun _ => .bind newlines_sem (.span _) fun _ => .pure _)
      (.bind blanks_sem (.span _) fun _ => .bind decl_sem decl_looks fun _ => .bind newlines_sem (.span _) fun _ => .pure _))

theorem schemaRule_looks : Looks schemaRule schemaF :=
  .bind (Sem.opt newlines_sem) (.opt (.span _)) fun _ => .bind (Sem.star line_sem lineF_consumes) (.star line_sem lineF_consumes line_looks) fun _ =>
    .pure _

end Packetc.ParserW
