import Verif.Proof.ErrLocal
/-!
The text before the reported position can be completed to a schema.
-/

namespace Packetc.Peg

/-- What a rule marks when it matches lies within what it consumed. -/
def Win {α} (p : P α) (f : F α) : Prop :=
  ∀ i v r, f i.rest = some (v, r) → (p i).far + bytes r ≤ i.pos + bytes i.rest

/-- A rule that does not match marks at most its start. -/
def Quick {α} (p : P α) (f : F α) : Prop := ∀ i, f i.rest = none → (p i).far ≤ i.pos

/-- The rule does not match, and the furthest position it marked is just before `k`. -/
def StopsAt {α} (p : P α) (s k : Str) : Prop :=
  k <:+ s ∧ ∀ pos, (p ⟨pos, s⟩).res = .failed ∧ (p ⟨pos, s⟩).far + bytes k = pos + bytes s

theorem bind_far {α β} {p : P α} {f : F α} (hp : Sem p f) (q : α → P β) {i : Inp} {v : α} {r : Str}
    (h : f i.rest = some (v, r)) :
    (p >>= q) i = ⟨(q v ⟨i.pos + (bytes i.rest - bytes r), r⟩).res,
      max (p i).far (q v ⟨i.pos + (bytes i.rest - bytes r), r⟩).far⟩ := by
  have h1 := hp.res i
  simp only [Bind.bind, P.bind]
  rcases hpi : p i with ⟨rs, n⟩
  rw [hpi] at h1
  simp only [h, mkRes] at h1
  subst h1
  rfl

theorem bind_far_none {α β} {p : P α} {f : F α} (hp : Sem p f) (q : α → P β) {i : Inp}
    (h : f i.rest = none) : (p >>= q) i = ⟨.failed, (p i).far⟩ := by
  have h1 := hp.res i
  simp only [Bind.bind, P.bind]
  rcases hpi : p i with ⟨rs, n⟩
  rw [hpi] at h1
  simp only [h, mkRes] at h1
  subst h1
  rfl

theorem Win.pure {α} (v : α) : Win (pure v : P α) (F.pure v) := by
  intro i w r h
  simp only [F.pure, Option.some.injEq, Prod.mk.injEq] at h
  simp [Pure.pure, P.pure, h.2]

theorem Win.bind {α β} {p : P α} {f : F α} {q : α → P β} {g : α → F β} (sp : Sem p f)
    (hp : Win p f) (hq : ∀ v, Win (q v) (g v)) (sq : ∀ v, Sem (q v) (g v)) : Win (p >>= q) (F.bind f g) := by
  intro i w r h
  simp only [F.bind] at h
  cases hf : f i.rest with
  | none => rw [hf] at h; simp at h
  | some x =>
    obtain ⟨v, r1⟩ := x
    rw [hf] at h
    simp only at h
    rw [bind_far sp q hf]
    have h1 := hp i v r1 hf
    have h2 := hq v ⟨i.pos + (bytes i.rest - bytes r1), r1⟩ w r h
    have h3 := bytes_suffix (sp.suffix _ _ _ hf)
    have h4 := bytes_suffix ((sq v).suffix _ _ _ h)
    simp only at h2 ⊢
    omega

theorem Win.lit (l : Str) : Win (lit l) (litF l) := by
  intro i v r h
  have hs := (Sem.lit l).suffix _ _ _ h
  have := bytes_suffix hs
  simp only [litF] at h
  split at h
  · rename_i hp
    simp only [Peg.lit, hp, if_true]
    omega
  · cases h

theorem Quick.lit (l : Str) : Quick (lit l) (litF l) := by
  intro i h
  simp only [Peg.lit]
  split <;> simp

theorem Win.elem (c : Char → Bool) : Win (elem c) (elemF c) := by
  intro i v r h
  have hs := (Sem.elem c).suffix _ _ _ h
  have := bytes_suffix hs
  simp only [Peg.elem]
  split
  · rename_i x xs hx
    rw [hx] at h
    simp only [elemF] at h
    split at h
    · rename_i hc
      simp only [hc, if_true]
      omega
    · cases h
  · rename_i hx; rw [hx] at h; cases h

theorem Quick.elem (c : Char → Bool) : Quick (elem c) (elemF c) := by
  intro i h
  simp only [Peg.elem]
  split
  · split <;> simp
  · simp

theorem Win.opt {α} {p : P α} {f : F α} (sp : Sem p f) (hp : Win p f) (hq : Quick p f) : Win (opt p) (optF f) := by
  intro i v r h
  have h1 := sp.res i
  simp only [optF] at h
  simp only [Peg.opt]
  rcases hpi : p i with ⟨rs, n⟩
  rw [hpi] at h1
  cases hf : f i.rest with
  | none =>
    have h2 := hq i hf
    rw [hf] at h
    simp only [Option.some.injEq, Prod.mk.injEq] at h
    simp only [hf, mkRes] at h1
    subst h1
    rw [hpi] at h2
    simp only at h2 ⊢
    rw [← h.2]; omega
  | some x =>
    obtain ⟨v1, r1⟩ := x
    have h2 := hp i _ _ hf
    rw [hf] at h
    simp only [Option.some.injEq, Prod.mk.injEq] at h
    simp only [hf, mkRes] at h1
    subst h1
    rw [hpi] at h2
    rw [← h.2]
    exact h2

theorem Win.slice {α} {p : P α} {f : F α} (sp : Sem p f) (hp : Win p f) : Win (slice p) (sliceF f) := by
  intro i v r h
  have h1 := sp.res i
  simp only [sliceF] at h
  simp only [Peg.slice]
  rcases hpi : p i with ⟨rs, n⟩
  rw [hpi] at h1
  cases hf : f i.rest with
  | none => rw [hf] at h; simp at h
  | some x =>
    obtain ⟨v1, r1⟩ := x
    have h2 := hp i _ _ hf
    rw [hf] at h
    simp only [Option.some.injEq, Prod.mk.injEq] at h
    simp only [hf, mkRes] at h1
    subst h1
    rw [hpi] at h2
    rw [← h.2]
    exact h2

theorem Win.quiet {α} {p : P α} {f : F α} (sp : Sem p f) : Win (quiet p) f := by
  intro i v r h
  have := bytes_suffix (sp.suffix _ _ _ h)
  simp only [Peg.quiet]
  omega

theorem Quick.quiet {α} {p : P α} {f : F α} : Quick (quiet p) f := by
  intro i _
  simp [Peg.quiet]

theorem Win.orElse {α} {p q : P α} {f g : F α} (sp : Sem p f) (hp : Win p f) (hq : Win q g) (hk : Quick p f)
    (sq : Sem q g) : Win (orElse p q) (orF f g) := by
  intro i v r h
  have h1 := sp.res i
  simp only [orF] at h
  simp only [Peg.orElse]
  rcases hpi : p i with ⟨rs, n⟩
  rw [hpi] at h1
  cases hf : f i.rest with
  | none =>
    have h2 := hk i hf
    rw [hf] at h
    simp only at h
    have h3 := hq i _ _ h
    have := bytes_suffix (sq.suffix _ _ _ h)
    simp only [hf, mkRes] at h1
    subst h1
    rw [hpi] at h2
    simp only at h2 ⊢
    omega
  | some x =>
    obtain ⟨v1, r1⟩ := x
    have h2 := hp i _ _ hf
    rw [hf] at h
    simp only [Option.some.injEq, Prod.mk.injEq] at h
    simp only [hf, mkRes] at h1
    subst h1
    rw [hpi] at h2
    rw [← h.2]
    exact h2

/-- Marks of a repetition: those of the last, failing, attempt, and others within what was consumed. -/
theorem starN_far {α} {p : P α} {f : F α} (sp : Sem p f) (hp : Win p f) (hc : Consumes f) :
    ∀ n i, i.rest.length < n →
      ∃ last, last = (⟨i.pos + (bytes i.rest - bytes (many f i.rest).2), (many f i.rest).2⟩ : Inp) ∧
      (p last).far ≤ (starN p n i).far ∧ (starN p n i).far ≤ max last.pos (p last).far ∧
      f (many f i.rest).2 = none ∧ (many f i.rest).2 <:+ i.rest := by
  intro n
  induction n with
  | zero => intro i h; omega
  | succ n ih =>
    intro i hn
    have h1 := sp.res i
    simp only [starN]
    rw [many_eq hc]
    rcases hpi : p i with ⟨rs, k⟩
    rw [hpi] at h1
    cases hf : f i.rest with
    | none =>
      simp only [hf, mkRes] at h1
      subst h1
      have e : (⟨i.pos + (bytes i.rest - bytes i.rest), i.rest⟩ : Inp) = i := by simp
      refine ⟨_, rfl, ?_⟩
      simp only [e, hpi]
      exact ⟨Nat.le_refl _, by omega, hf, List.suffix_rfl⟩
    | some x =>
      obtain ⟨v, r⟩ := x
      simp only [hf, mkRes] at h1
      subst h1
      have hlt := hc _ _ _ hf
      have hw := hp i _ _ hf
      rw [hpi] at hw
      have hsuf := sp.suffix _ _ _ hf
      have hb := bytes_suffix hsuf
      obtain ⟨last, hl, h2, h3, h4, h5⟩ := ih ⟨i.pos + (bytes i.rest - bytes r), r⟩ (by simp only; omega)
      simp only at hl h2 h3 h4 h5 hw ⊢
      have hb2 := bytes_suffix h5
      refine ⟨last, ?_, ?_⟩
      · rw [hl]; simp only [Inp.mk.injEq, and_true]; omega
      · have hlp : last.pos = i.pos + (bytes i.rest - bytes r) + (bytes r - bytes (many f r).2) := by rw [hl]
        have hres := starN_res sp hc n ⟨i.pos + (bytes i.rest - bytes r), r⟩ (by simp only; omega)
        rcases hst : starN p n ⟨i.pos + (bytes i.rest - bytes r), r⟩ with ⟨rs', k'⟩
        rw [hst] at h2 h3 hres
        simp only [mkRes] at hres
        subst hres
        simp only at h2 h3 ⊢
        exact ⟨by omega, by omega, h4, h5.trans hsuf⟩

theorem star_far {α} {p : P α} {f : F α} (sp : Sem p f) (hp : Win p f) (hc : Consumes f) (pos : Nat) (s : Str) :
    ∃ last, last = (⟨pos + (bytes s - bytes (many f s).2), (many f s).2⟩ : Inp) ∧
      (p last).far ≤ (star p ⟨pos, s⟩).far ∧ (star p ⟨pos, s⟩).far ≤ max last.pos (p last).far ∧
      f (many f s).2 = none ∧ (many f s).2 <:+ s := by
  exact starN_far sp hp hc _ ⟨pos, s⟩ (Nat.lt_succ_self _)

theorem Win.star {α} {p : P α} {f : F α} (sp : Sem p f) (hp : Win p f) (hk : Quick p f) (hc : Consumes f) :
    Win (star p) (starF f) := by
  intro i v r h
  obtain ⟨last, hl, _, h2, h3, h4⟩ := star_far sp hp hc i.pos i.rest
  simp only [starF, Option.some.injEq] at h
  have h5 := hk last (by rw [hl]; exact h3)
  have hb := bytes_suffix h4
  rw [h] at hl hb
  simp only at hb
  have : last.pos = i.pos + (bytes i.rest - bytes r) := by rw [hl]
  have e : (⟨i.pos, i.rest⟩ : Inp) = i := rfl
  rw [e] at h2
  omega

theorem Win.span (c : Char → Bool) : Win (Peg.star (Peg.elem c)) (Parser.spanF c) := by
  have h := Win.star (Sem.elem c) (.elem c) (.elem c) (elemF_consumes c)
  have e : starF (elemF c) = Parser.spanF c := by
    funext s; simp [starF, Parser.spanF, many_elem]
  rwa [e] at h

theorem span_far_eq (c : Char → Bool) (pos : Nat) (s : Str) :
    (star (elem c) ⟨pos, s⟩).far + bytes (s.dropWhile c) = pos + bytes s := by
  have h1 := Win.span c ⟨pos, s⟩ _ _ rfl
  have h2 := MarksEnd.span c ⟨pos, s⟩ _ _ (by rw [(Parser.span_sem c).res]; rfl)
  have h3 := bytes_suffix (List.dropWhile_suffix (l := s) c)
  simp only at h1 h2
  omega

/-! ### Where a failing rule stops -/

theorem StopsAt.lit {l s : Str} (h : ¬ l <+: s) : StopsAt (lit l) s s := by
  refine ⟨List.suffix_rfl, fun pos => ?_⟩
  simp only [Peg.lit]
  rw [if_neg (by rwa [List.isPrefixOf_iff_prefix])]
  simp

theorem StopsAt.bind {α β} {p : P α} {f : F α} {q : α → P β} (sp : Sem p f) (hp : Win p f) {s r k : Str} {v : α}
    (hf : f s = some (v, r)) (hq : StopsAt (q v) r k) : StopsAt (p >>= q) s k := by
  have hs := sp.suffix _ _ _ hf
  refine ⟨hq.1.trans hs, fun pos => ?_⟩
  rw [bind_far sp q (i := ⟨pos, s⟩) hf]
  have h1 := hp ⟨pos, s⟩ _ _ hf
  obtain ⟨h2, h3⟩ := hq.2 (pos + (bytes s - bytes r))
  have h4 := bytes_suffix hs
  have h5 := bytes_suffix hq.1
  refine ⟨h2, ?_⟩
  simp only at h1 ⊢
  omega

theorem StopsAt.bind_left {α β} {p : P α} {f : F α} {q : α → P β} (sp : Sem p f) {s k : Str}
    (h : StopsAt p s k) : StopsAt (p >>= q) s k := by
  have hf : f s = none := by
    have h1 := sp.res ⟨0, s⟩
    rw [(h.2 0).1] at h1
    cases hfs : f s with
    | none => rfl
    | some x => simp only [hfs] at h1; cases h1
  refine ⟨h.1, fun pos => ?_⟩
  rw [bind_far_none sp q (i := ⟨pos, s⟩) hf]
  exact ⟨rfl, (h.2 pos).2⟩

/-- A run of characters, then a rule that fails without marking anything. -/
theorem StopsAt.span_quick {β} {c : Char → Bool} {q : List Char → P β} {g : F β} {s : Str}
    (sq : Sem (q (s.takeWhile c)) g) (hq : ∀ pos, (q (s.takeWhile c) ⟨pos, s.dropWhile c⟩).far ≤ pos)
    (hn : g (s.dropWhile c) = none) : StopsAt (star (elem c) >>= q) s (s.dropWhile c) := by
  have hs := List.dropWhile_suffix (l := s) c
  refine ⟨hs, fun pos => ?_⟩
  have h1 := span_far_eq c pos s
  have h2 := hq (pos + (bytes s - bytes (s.dropWhile c)))
  have h3 := sq.res ⟨pos + (bytes s - bytes (s.dropWhile c)), s.dropWhile c⟩
  have h4 := bytes_suffix hs
  rw [bind_far (Parser.span_sem c) q (i := ⟨pos, s⟩) (v := s.takeWhile c) (r := s.dropWhile c) rfl]
  simp only [hn, mkRes] at h3
  refine ⟨h3, ?_⟩
  simp only at h2 ⊢
  omega

theorem StopsAt.orElse {α} {p q : P α} {s k k' : Str} (hp : StopsAt p s k) (hq : StopsAt q s k')
    (hk : k' <:+ k) : StopsAt (Peg.orElse p q) s k' := by
  refine ⟨hq.1, fun pos => ?_⟩
  obtain ⟨h1, h2⟩ := hp.2 pos
  obtain ⟨h3, h4⟩ := hq.2 pos
  have h5 := bytes_suffix hk
  simp only [Peg.orElse]
  rcases hpi : p ⟨pos, s⟩ with ⟨rs, n⟩
  rw [hpi] at h1 h2
  simp only at h1 h2
  subst h1
  refine ⟨h3, ?_⟩
  simp only
  omega

theorem StopsAt.orElse' {α} {p q : P α} {s k k' : Str} (hp : StopsAt p s k) (hq : StopsAt q s k')
    (hk : k <:+ k') : StopsAt (Peg.orElse p q) s k := by
  refine ⟨hp.1, fun pos => ?_⟩
  obtain ⟨h1, h2⟩ := hp.2 pos
  obtain ⟨h3, h4⟩ := hq.2 pos
  have h5 := bytes_suffix hk
  simp only [Peg.orElse]
  rcases hpi : p ⟨pos, s⟩ with ⟨rs, n⟩
  rw [hpi] at h1 h2
  simp only at h1 h2
  subst h1
  refine ⟨h3, ?_⟩
  simp only
  omega

theorem StopsAt.orElse_quick {α} {p q : P α} {g : F α} {s : Str} (hp : StopsAt p s s) (sq : Sem q g)
    (hq : ∀ pos, (q ⟨pos, s⟩).far ≤ pos) (hn : g s = none) : StopsAt (Peg.orElse p q) s s := by
  refine ⟨List.suffix_rfl, fun pos => ?_⟩
  obtain ⟨h1, h2⟩ := hp.2 pos
  have h3 := sq.res ⟨pos, s⟩
  have h4 := hq pos
  simp only [hn, mkRes] at h3
  simp only [Peg.orElse]
  rcases hpi : p ⟨pos, s⟩ with ⟨rs, n⟩
  rw [hpi] at h1 h2
  simp only at h1 h2 h4
  subst h1
  refine ⟨h3, ?_⟩
  simp only
  omega

/-- A repetition, then a rule that fails: the furthest of where the last attempt and the rule stopped. -/
theorem StopsAt.star_bind {α β} {p : P α} {f : F α} {q : List α → P β} (sp : Sem p f) (hp : Win p f)
    (hc : Consumes f) {s k₀ k₁ : Str} (h₁ : StopsAt p (many f s).2 k₁) (h₀ : StopsAt (q (many f s).1) (many f s).2 k₀) :
    (k₁ <:+ k₀ → StopsAt (Peg.star p >>= q) s k₁) ∧ (k₀ <:+ k₁ → StopsAt (Peg.star p >>= q) s k₀) := by
  have key : ∀ pos, ∃ m, (Peg.star p >>= q) ⟨pos, s⟩ = ⟨.failed, m⟩ ∧ m + min (bytes k₀) (bytes k₁) = pos + bytes s := by
    intro pos
    obtain ⟨last, hl, h2, h3, h4, h5⟩ := star_far sp hp hc pos s
    have h6 := h₁.2 (pos + (bytes s - bytes (many f s).2))
    have h7 := h₀.2 (pos + (bytes s - bytes (many f s).2))
    rw [← hl] at h6
    have hb := bytes_suffix h5
    have hb0 := bytes_suffix h₀.1
    have hb1 := bytes_suffix h₁.1
    have hlp : last.pos = pos + (bytes s - bytes (many f s).2) := by rw [hl]
    have e := bind_far (Sem.star sp hc) q (i := ⟨pos, s⟩) (v := (many f s).1) (r := (many f s).2) rfl
    simp only at e
    rw [h7.1] at e
    refine ⟨_, e, ?_⟩
    have h8 := h6.2
    have h9 := h7.2
    omega
  have hs := (starN_far sp hp hc (s.length + 1) ⟨0, s⟩ (Nat.lt_succ_self _)).choose_spec.2.2.2.2
  constructor
  · intro hk
    have hb := bytes_suffix hk
    refine ⟨h₁.1.trans hs, fun pos => ?_⟩
    obtain ⟨m, h1, h2⟩ := key pos
    rw [h1]; refine ⟨rfl, ?_⟩; simp only; omega
  · intro hk
    have hb := bytes_suffix hk
    refine ⟨h₀.1.trans hs, fun pos => ?_⟩
    obtain ⟨m, h1, h2⟩ := key pos
    rw [h1]; refine ⟨rfl, ?_⟩; simp only; omega

theorem Quick.bind {α β} {p : P α} {f : F α} {q : α → P β} {g : α → F β} (sp : Sem p f) (hp : Quick p f)
    (hg : ∀ v s, g v s ≠ none) : Quick (p >>= q) (F.bind f g) := by
  intro i h
  simp only [F.bind] at h
  cases hf : f i.rest with
  | none => rw [bind_far_none sp q hf]; exact hp i hf
  | some x => rw [hf] at h; exact absurd h (hg _ _)

/-- Ordered choice, when the marks of a failed first alternative lie within what the second consumes. -/
theorem Win.orElse' {α} {p q : P α} {f g : F α} (sp : Sem p f) (hp : Win p f) (hq : Win q g)
    (hk : ∀ i v r, f i.rest = none → g i.rest = some (v, r) → (p i).far + bytes r ≤ i.pos + bytes i.rest) :
    Win (Peg.orElse p q) (orF f g) := by
  intro i v r h
  have h1 := sp.res i
  simp only [orF] at h
  simp only [Peg.orElse]
  rcases hpi : p i with ⟨rs, n⟩
  rw [hpi] at h1
  cases hf : f i.rest with
  | none =>
    rw [hf] at h
    simp only at h
    have h2 := hk i _ _ hf h
    have h3 := hq i _ _ h
    simp only [hf, mkRes] at h1
    subst h1
    rw [hpi] at h2
    simp only at h2 ⊢
    omega
  | some x =>
    obtain ⟨v1, r1⟩ := x
    have h2 := hp i _ _ hf
    rw [hf] at h
    simp only [Option.some.injEq, Prod.mk.injEq] at h
    simp only [hf, mkRes] at h1
    subst h1
    rw [hpi] at h2
    rw [← h.2]
    exact h2

end Packetc.Peg

namespace Packetc.Parser
open Peg Ast Grammar

theorem ident_win : Win ident identF := by
  intro i v r h
  have := bytes_suffix (ident_sem.suffix _ _ _ h)
  have e : (ident i).far = 0 := rfl
  omega
theorem ident_quick : Quick ident identF := fun _ _ => Nat.zero_le _

theorem comment_win : Win comment commentF :=
  .bind (.lit _) (.lit _) (fun _ => .bind (span_sem _) (.span _) (fun _ => .bind newlines_sem (.span _)
    (fun _ => .pure _) (fun _ => .pure _)) (fun _ => .bind newlines_sem fun _ => .pure _))
    (fun _ => .bind (span_sem _) fun _ => .bind newlines_sem fun _ => .pure _)
theorem comment_quick : Quick comment commentF :=
  .bind (.lit _) (.lit _) (fun _ _ h => by simp [F.bind, spanF, F.pure] at h)

/-- After a run of characters. -/
theorem Win.spanThen {α} {c : Char → Bool} {q : List Char → P α} {g : List Char → F α} (sq : ∀ v, Sem (q v) (g v))
    (hq : ∀ v, Win (q v) (g v)) : Win (star (elem c) >>= q) (F.bind (spanF c) g) :=
  .bind (span_sem c) (.span c) hq sq

theorem optComma_win : Win (opt (lit ",".toList)) (optF (litF ",".toList)) := .opt (.lit _) (.lit _) (.lit _)

theorem enumVariant_win : Win enumVariant enumVariantF :=
  .bind ident_sem ident_win (fun _ => Win.spanThen
      (fun _ => .bind (.opt (.lit _)) fun _ => .bind layout_sem fun _ => .pure _)
      (fun _ => .bind (.opt (.lit _)) optComma_win
        (fun _ => Win.spanThen (fun _ => .pure _) (fun _ => .pure _)) (fun _ => .bind layout_sem fun _ => .pure _)))
    (fun _ => .bind layout_sem fun _ => .bind (.opt (.lit _)) fun _ => .bind layout_sem fun _ => .pure _)

theorem optF_ne {α} (f : F α) (s : Str) : optF f s ≠ none := by
  simp only [optF]; split <;> simp

theorem enumVariant_quick : Quick enumVariant enumVariantF :=
  .bind ident_sem ident_quick (fun _ s h => by
    simp only [F.bind, spanF] at h
    split at h
    · simp [F.pure] at h
    · rename_i hh; exact optF_ne _ _ hh)

theorem variants_win : Win (star enumVariant) (starF enumVariantF) :=
  .star enumVariant_sem enumVariant_win enumVariant_quick enumVariantF_consumes

theorem close_win {α} (v : α) : Win (do let _ ← layout; lit "}".toList; return v)
    (F.bind (spanF isLayout) fun _ => F.bind (litF "}".toList) fun _ => F.pure v) :=
  Win.spanThen (fun _ => .bind (.lit _) fun _ => .pure _)
    (fun _ => .bind (.lit _) (.lit _) (fun _ => .pure _) (fun _ => .pure _))
theorem close_sem {α} (v : α) : Sem (do let _ ← layout; lit "}".toList; return v)
    (F.bind (spanF isLayout) fun _ => F.bind (litF "}".toList) fun _ => F.pure v) :=
  .bind layout_sem fun _ => .bind (.lit _) fun _ => .pure _

theorem enumType_win : Win enumType enumTypeF :=
  Win.spanThen
    (fun _ => .bind (.lit _) fun _ => .bind blanks_sem fun _ => .bind (.lit _) fun _ =>
      .bind layout_sem fun _ => .bind (.star enumVariant_sem enumVariantF_consumes) fun v => close_sem v)
    (fun _ => .bind (.lit _) (.lit _)
      (fun _ => Win.spanThen
        (fun _ => .bind (.lit _) fun _ =>
          .bind layout_sem fun _ => .bind (.star enumVariant_sem enumVariantF_consumes) fun v => close_sem v)
        (fun _ => .bind (.lit _) (.lit _)
          (fun _ => Win.spanThen (fun _ => .bind (.star enumVariant_sem enumVariantF_consumes) fun v => close_sem v)
            (fun _ => .bind (.star enumVariant_sem enumVariantF_consumes) variants_win (fun v => close_win v)
              (fun v => close_sem v)))
          (fun _ => .bind layout_sem fun _ => .bind (.star enumVariant_sem enumVariantF_consumes) fun v => close_sem v)))
      (fun _ => .bind blanks_sem fun _ => .bind (.lit _) fun _ =>
        .bind layout_sem fun _ => .bind (.star enumVariant_sem enumVariantF_consumes) fun v => close_sem v))

theorem isOptional_win : Win isOptional isOptionalF :=
  .bind (.opt (.lit _)) (.opt (.lit _) (.lit _) (.lit _)) (fun _ => .pure _) (fun _ => .pure _)

theorem string_win : Win string stringF := by
  have h := Win.slice (span_sem isWord) (.span isWord)
  have e : sliceF (spanF isWord) = stringF := by
    funext s; simp [sliceF, spanF, stringF, take_takeWhile_len]
  rwa [e] at h

theorem fieldComment_win : Win structFieldComment fieldCommentF :=
  .bind comment_sem comment_win (fun _ => Win.spanThen (fun _ => .pure _) (fun _ => .pure _))
    (fun _ => .bind layout_sem fun _ => .pure _)
theorem fieldComment_quick : Quick structFieldComment fieldCommentF :=
  .bind comment_sem comment_quick (fun _ _ h => by simp [F.bind, spanF, F.pure] at h)

theorem fieldDecl_win : Win structFieldDecl fieldDeclF :=
  .bind ident_sem ident_win
    (fun _ => Win.spanThen
      (fun _ => .bind isOptional_sem fun _ => .bind (.lit _) fun _ => .bind blanks_sem fun _ =>
        .bind string_sem fun _ => .bind (.opt (.lit _)) fun _ => .bind layout_sem fun _ =>
        .bind (.opt (.lit _)) fun _ => .bind layout_sem fun _ => .pure _)
      (fun _ => .bind isOptional_sem isOptional_win
        (fun _ => .bind (.lit _) (.lit _)
          (fun _ => Win.spanThen
            (fun _ => .bind string_sem fun _ => .bind (.opt (.lit _)) fun _ => .bind layout_sem fun _ =>
              .bind (.opt (.lit _)) fun _ => .bind layout_sem fun _ => .pure _)
            (fun _ => .bind string_sem string_win
              (fun _ => .bind (.opt (.lit _)) (.opt (.lit _) (.lit _) (.lit _))
                (fun _ => Win.spanThen
                  (fun _ => .bind (.opt (.lit _)) fun _ => .bind layout_sem fun _ => .pure _)
                  (fun _ => .bind (.opt (.lit _)) optComma_win
                    (fun _ => Win.spanThen (fun _ => .pure _) (fun _ => .pure _))
                    (fun _ => .bind layout_sem fun _ => .pure _)))
                (fun _ => .bind layout_sem fun _ => .bind (.opt (.lit _)) fun _ => .bind layout_sem fun _ => .pure _))
              (fun _ => .bind (.opt (.lit _)) fun _ => .bind layout_sem fun _ =>
                .bind (.opt (.lit _)) fun _ => .bind layout_sem fun _ => .pure _)))
          (fun _ => .bind blanks_sem fun _ =>
            .bind string_sem fun _ => .bind (.opt (.lit _)) fun _ => .bind layout_sem fun _ =>
            .bind (.opt (.lit _)) fun _ => .bind layout_sem fun _ => .pure _))
        (fun _ => .bind (.lit _) fun _ => .bind blanks_sem fun _ =>
          .bind string_sem fun _ => .bind (.opt (.lit _)) fun _ => .bind layout_sem fun _ =>
          .bind (.opt (.lit _)) fun _ => .bind layout_sem fun _ => .pure _)))
    fieldDecl_tail_sem

theorem structField_win : Win structField structFieldF :=
  .orElse fieldComment_sem fieldComment_win fieldDecl_win fieldComment_quick fieldDecl_sem

/-! ### Failing fields -/

/-- The start of a field declaration, up to where the colon was expected. -/
def FieldStart (w : Str) : Prop :=
  ∃ n b q, w = n ++ b ++ q ∧ Ident n ∧ Blank b ∧ (q = [] ∨ q = "?".toList)

theorem optQ_sound {s r : Str} {o : Bool} (h : isOptionalF s = some (o, r)) :
    ∃ q, s = q ++ r ∧ (q = [] ∨ q = "?".toList) := by
  rw [isOptionalF_eq] at h
  have := dropQ_sound s
  simp only [Option.some.injEq] at h
  rw [h] at this
  cases o
  · exact ⟨[], by simpa using this, .inl rfl⟩
  · exact ⟨"?".toList, by simpa using this, .inr rfl⟩

/-- Where a field that cannot be read stops. -/
theorem structField_stops {z : Str} (h : structFieldF z = none) :
    StopsAt structField z z ∨ ∃ w k, z = w ++ k ∧ FieldStart w ∧ StopsAt structField z k := by
  have h' := (orF_none _ _ _).mp h
  have hc : ¬ "#".toList <+: z := by
    intro hp
    have := h'.1
    rw [fieldCommentF_eq, commentF_eq, if_pos hp] at this
    cases this
  have hcs : StopsAt structFieldComment z z :=
    .bind_left comment_sem (.bind_left (.lit _) (.lit hc))
  cases hi : identF z with
  | none =>
    left
    refine .orElse_quick hcs fieldDecl_sem ?_ h'.2
    intro pos
    have e : structFieldDecl ⟨pos, z⟩ = ⟨.failed, (ident ⟨pos, z⟩).far⟩ := bind_far_none ident_sem _ hi
    rw [e]; exact Nat.zero_le _
  | some x =>
    obtain ⟨n, r⟩ := x
    right
    obtain ⟨hz, hn, hw⟩ := identF_sound hi
    have eb := List.takeWhile_append_dropWhile (p := isBlank) (l := r)
    cases ho : isOptionalF (r.dropWhile isBlank) with
    | none => rw [isOptionalF_eq] at ho; cases ho
    | some x =>
      obtain ⟨o, k⟩ := x
      obtain ⟨q, hq, hqq⟩ := optQ_sound ho
      have hcol : ¬ ":".toList <+: k := by
        intro hp
        have := h'.2
        rw [fieldDeclF_eq, hi] at this
        simp only [fieldTail] at this
        rw [isOptionalF_eq, Option.some.injEq] at ho
        rw [ho, litF_cons, if_pos hp] at this
        simp at this
      refine ⟨n ++ r.takeWhile isBlank ++ q, k, ?_, ⟨n, _, q, rfl, hn, (blank_iff _).mpr takeWhile_mem, hqq⟩, ?_⟩
      · rw [hz, List.append_assoc, List.append_assoc, ← hq, eb]
      · have hds : StopsAt structFieldDecl z k :=
          .bind ident_sem ident_win hi <| .bind (span_sem _) (.span _) rfl <|
            .bind isOptional_sem isOptional_win ho <| .bind_left (.lit _) (.lit hcol)
        exact .orElse hcs hds hds.1

/-! ### Replacing the text that follows -/

/-- Texts that may replace what follows a complete item: they start with the same character, or with a
line end. -/
def Near (rest rest' : Str) : Prop := (∃ c x y, rest = c :: x ∧ rest' = c :: y) ∨ ∃ y, rest' = '\n' :: y

theorem Near.append {r r' : Str} (x : Str) (h : Near r r') : Near (x ++ r) (x ++ r') := by
  cases x with
  | nil => exact h
  | cons c cs => exact .inl ⟨c, _, _, rfl, rfl⟩

theorem Near.wordEnd {r r' : Str} (h : Near r r') (hw : WordEnd r) : WordEnd r' := by
  intro c cs hc
  rcases h with ⟨d, x, y, rfl, rfl⟩ | ⟨y, rfl⟩
  · exact hw c x (by rw [(List.cons.inj hc).1])
  · rw [← (List.cons.inj hc).1, ← isWord_iff]; decide

theorem Near.blankEnd {r r' : Str} (h : Near r r') (hw : BlankEnd r) : BlankEnd r' := by
  intro c cs hc
  rcases h with ⟨d, x, y, rfl, rfl⟩ | ⟨y, rfl⟩
  · exact hw c x (by rw [(List.cons.inj hc).1])
  · rw [← (List.cons.inj hc).1]; decide

theorem Near.lineEnd {r r' : Str} (h : Near r r') (hw : LineEnd r) : LineEnd r' := by
  rcases h with ⟨d, x, y, rfl, rfl⟩ | ⟨y, rfl⟩
  · rcases hw with hw | ⟨cs, hw⟩
    · cases hw
    · exact .inr ⟨y, by rw [(List.cons.inj hw).1]⟩
  · exact .inr ⟨y, rfl⟩

theorem variants_near {vs : List Str} {t r r' : Str} (h : Variants vs t r) (hn : Near r r') : Variants vs t r' := by
  induction h with
  | nil => exact .nil _
  | @cons v vs t ts rest hv _ ih =>
    refine .cons ?_ (ih hn)
    obtain ⟨l₁, c, l₂, h1, h2, h3, h4, h5, h6⟩ := hv
    exact ⟨l₁, c, l₂, h1, h2, h3, h4, h5, ((hn.append ts).append _).wordEnd h6⟩

theorem fields_near {fs : List (Str × Unresolved)} {t r r' : Str} (h : Fields fs t r) (hn : Near r r') :
    Fields fs t r' := by
  induction h with
  | nil => exact .nil _
  | @field n u fs t ts rest hv _ ih =>
    refine .field ?_ (ih hn)
    obtain ⟨b₁, q, b₂, a, l₁, comma, l₂, h1, h2, h3, h4, h5, h6, h7, h8, h9, h10, h11, h12⟩ := hv
    exact ⟨b₁, q, b₂, a, l₁, comma, l₂, h1, h2, h3, h4, h5, h6, h7, h8, h9, h10,
      ((hn.append ts).append _).blankEnd h11, ((hn.append ts).append _).wordEnd h12⟩
  | @comment fs t l ts rest hv hl _ ih =>
    refine .comment ?_ hl (ih hn)
    obtain ⟨body, h1, h2, h3⟩ := hv
    exact ⟨body, h1, h2, (hn.append _).lineEnd h3⟩

theorem fields_append {fs fs' : List (Str × Unresolved)} {t t' r : Str} (h : Fields fs t (t' ++ r))
    (h' : Fields fs' t' r) : Fields (fs ++ fs') (t ++ t') r := by
  generalize hr : t' ++ r = rest at h
  induction h with
  | nil => simpa using h'
  | @field n u fs t ts rest hv _ ih =>
    subst hr
    rw [List.append_assoc, List.cons_append]
    exact .field (by rw [List.append_assoc]; exact hv) (ih rfl)
  | @comment fs t l ts rest hv hl _ ih =>
    subst hr
    rw [List.append_assoc]
    exact .comment (by rw [List.append_assoc, List.append_assoc, ← List.append_assoc l]; exact hv) hl (ih rfl)

/-! ### Failing types -/

/-- The beginning of a type, that can be completed. -/
def TypeStart (w : Str) : Prop := ∃ ext b ty t, w ++ ext = b ++ t ∧ Blank b ∧ Type' ty t

theorem near_close (l x : Str) : Near (l ++ x) (l ++ "\n}".toList) := by
  cases l with
  | nil => exact .inr ⟨_, rfl⟩
  | cons c cs => exact .inl ⟨c, _, _, rfl, rfl⟩

theorem layout_snoc {l : Str} (h : Layout l) : Layout (l ++ "\n".toList) := by
  intro c hc
  rcases List.mem_append.mp hc with hc | hc
  · exact h c hc
  · have : c = '\n' := by simpa using hc
    simp [this]

theorem enumType_stops {s : Str} (h : enumTypeF s = none) :
    (¬ "enum".toList <+: s.dropWhile isBlank ∧ StopsAt enumType s (s.dropWhile isBlank)) ∨
    ("enum".toList <+: s.dropWhile isBlank ∧ ∃ w₀ k, s = s.takeWhile isBlank ++ w₀ ++ k ∧
      TypeStart (s.takeWhile isBlank ++ w₀) ∧ StopsAt enumType s k) := by
  by_cases h1 : "enum".toList <+: s.dropWhile isBlank
  · right
    refine ⟨h1, ?_⟩
    rw [enumTypeF_eq] at h
    unfold braced at h
    have l1 : litF "enum".toList (s.dropWhile isBlank) = some ((), (s.dropWhile isBlank).drop 4) := by
      rw [litF_cons, if_pos h1]; rfl
    have e1 := List.takeWhile_append_dropWhile (p := isBlank) (l := s)
    have ss1 := litF_sound l1
    generalize hs1 : (s.dropWhile isBlank).drop 4 = s1 at l1 ss1
    rw [l1] at h
    simp only at h
    have e2 := List.takeWhile_append_dropWhile (p := isBlank) (l := s1)
    have b1 : Blank (s.takeWhile isBlank) := (blank_iff _).mpr takeWhile_mem
    have b2 : Blank (s1.takeWhile isBlank) := (blank_iff _).mpr takeWhile_mem
    by_cases h2 : "{".toList <+: s1.dropWhile isBlank
    · have l2 : litF "{".toList (s1.dropWhile isBlank) = some ((), (s1.dropWhile isBlank).drop 1) := by
        rw [litF_cons, if_pos h2]; rfl
      have ss2 := litF_sound l2
      generalize hs2 : (s1.dropWhile isBlank).drop 1 = s2 at l2 ss2
      rw [l2] at h
      simp only at h
      have e3 := List.takeWhile_append_dropWhile (p := isLayout) (l := s2)
      have b3 : Layout (s2.takeWhile isLayout) := (layout_iff _).mpr takeWhile_mem
      rcases hm : many enumVariantF (s2.dropWhile isLayout) with ⟨vs, z⟩
      rw [hm] at h
      simp only at h
      obtain ⟨body, hb, hv⟩ := variants_sound _ hm
      have e4 := List.takeWhile_append_dropWhile (p := isLayout) (l := z)
      have b4 : Layout (z.takeWhile isLayout) := (layout_iff _).mpr takeWhile_mem
      have h3 : ¬ "}".toList <+: z.dropWhile isLayout := by
        intro hp
        rw [litF_cons, if_pos hp] at h
        cases h
      refine ⟨("enum".toList ++ s1.takeWhile isBlank ++ "{".toList ++
          s2.takeWhile isLayout ++ body ++ z.takeWhile isLayout), z.dropWhile isLayout, ?_,
        ⟨"\n}".toList, s.takeWhile isBlank, .enum vs, _, ?_, b1, .enum b2 b3 (layout_snoc b4) (body := body) ?_⟩, ?_⟩
      · calc s = s.takeWhile isBlank ++ ("enum".toList ++ (s1.takeWhile isBlank ++ ("{".toList ++
              (s2.takeWhile isLayout ++ (body ++ (z.takeWhile isLayout ++ z.dropWhile isLayout)))))) := by
                rw [e4, ← hb, e3, ← ss2, e2, ← ss1, e1]
          _ = _ := by simp only [List.append_assoc]
      · simp
      · have := variants_near hv (r' := z.takeWhile isLayout ++ "\n}".toList) (by
          rw [← e4]; simpa using near_close (z.takeWhile isLayout) (z.dropWhile isLayout))
        simpa using this
      · refine .bind (span_sem _) (.span _) rfl <| .bind (.lit _) (.lit _) l1 <|
          .bind (span_sem _) (.span _) rfl <| .bind (.lit _) (.lit _) l2 <|
          .bind (span_sem _) (.span _) rfl <|
          .bind (.star enumVariant_sem enumVariantF_consumes) variants_win (v := vs) (r := z) (congrArg some hm) <|
          .bind (span_sem _) (.span _) rfl <| .bind_left (.lit _) (.lit h3)
    · refine ⟨("enum".toList ++ s1.takeWhile isBlank), s1.dropWhile isBlank, ?_,
        ⟨"{}".toList, s.takeWhile isBlank, .enum [], _, ?_, b1, .enum (b₂ := s1.takeWhile isBlank) (l₁ := []) (l₂ := [])
          (body := []) b2 (by simp [Layout]) (by simp [Layout]) (.nil _)⟩, ?_⟩
      · calc s = s.takeWhile isBlank ++ ("enum".toList ++ (s1.takeWhile isBlank ++ s1.dropWhile isBlank)) := by
                rw [e2, ← ss1, e1]
          _ = _ := by simp only [List.append_assoc]
      · simp
      · exact .bind (span_sem _) (.span _) rfl <| .bind (.lit _) (.lit _) l1 <|
          .bind (span_sem _) (.span _) rfl <| .bind_left (.lit _) (.lit h2)
  · left
    exact ⟨h1, .bind (span_sem _) (.span _) rfl <| .bind_left (.lit _) (.lit h1)⟩

theorem fieldStart_field {w more : Str} (h : FieldStart w) :
    ∃ n u, FieldDecl n u (w ++ ":".toList) ("}".toList ++ more) := by
  obtain ⟨n, b, q, rfl, hn, hb, hq⟩ := h
  have hend : BlankEnd ("}".toList ++ more) ∧ WordEnd ("}".toList ++ more) := by
    rw [blankEnd_iff, wordEnd_iff]
    exact ⟨noHead_cons.mpr (by decide), noHead_cons.mpr (by decide)⟩
  refine ⟨n, ⟨[], false, if q = [] then false else true⟩, b, q, [], [], [], [], [], ?_, hn, hb, ?_, ?_, ?_, rfl, ?_, .inl rfl, ?_, hend.1, hend.2⟩
  · simp
  · rcases hq with rfl | rfl <;> rfl
  all_goals intro c hc; cases hc

theorem structType_stops {s : Str} (h : structTypeF s = none) :
    (¬ "struct".toList <+: s.dropWhile isBlank ∧ StopsAt structType s (s.dropWhile isBlank)) ∨
    ("struct".toList <+: s.dropWhile isBlank ∧ ∃ w₀ k, s = s.takeWhile isBlank ++ w₀ ++ k ∧
      TypeStart (s.takeWhile isBlank ++ w₀) ∧ StopsAt structType s k) := by
  by_cases h1 : "struct".toList <+: s.dropWhile isBlank
  · right
    refine ⟨h1, ?_⟩
    rw [structTypeF_eq] at h
    unfold braced at h
    have l1 : litF "struct".toList (s.dropWhile isBlank) = some ((), (s.dropWhile isBlank).drop 6) := by
      rw [litF_cons, if_pos h1]; rfl
    have e1 := List.takeWhile_append_dropWhile (p := isBlank) (l := s)
    have ss1 := litF_sound l1
    generalize hs1 : (s.dropWhile isBlank).drop 6 = s1 at l1 ss1
    rw [l1] at h
    simp only at h
    have e2 := List.takeWhile_append_dropWhile (p := isBlank) (l := s1)
    have b1 : Blank (s.takeWhile isBlank) := (blank_iff _).mpr takeWhile_mem
    have b2 : Blank (s1.takeWhile isBlank) := (blank_iff _).mpr takeWhile_mem
    by_cases h2 : "{".toList <+: s1.dropWhile isBlank
    · have l2 : litF "{".toList (s1.dropWhile isBlank) = some ((), (s1.dropWhile isBlank).drop 1) := by
        rw [litF_cons, if_pos h2]; rfl
      have ss2 := litF_sound l2
      generalize hs2 : (s1.dropWhile isBlank).drop 1 = s2 at l2 ss2
      rw [l2] at h
      simp only at h
      have e3 := List.takeWhile_append_dropWhile (p := isLayout) (l := s2)
      have b3 : Layout (s2.takeWhile isLayout) := (layout_iff _).mpr takeWhile_mem
      have hz := (star_far structField_sem structField_win structFieldF_consumes 0 (s2.dropWhile isLayout)).choose_spec.2.2.2.1
      have hst := fun k₀ k₁ h₁ h₀ => StopsAt.star_bind (q := fun fields => do
        let _ ← layout; lit "}".toList; return List.filterMap id fields)
        structField_sem structField_win structFieldF_consumes (s := s2.dropWhile isLayout) (k₀ := k₀) (k₁ := k₁) h₁ h₀
      have hwrap : ∀ k, StopsAt (do
          let fields ← star structField
          let _ ← layout; lit "}".toList; return List.filterMap id fields) (s2.dropWhile isLayout) k →
          StopsAt structType s k := fun k hk =>
        .bind (span_sem _) (.span _) rfl <| .bind (.lit _) (.lit _) l1 <|
          .bind (span_sem _) (.span _) rfl <| .bind (.lit _) (.lit _) l2 <|
          .bind (span_sem _) (.span _) rfl hk
      rcases hm : many structFieldF (s2.dropWhile isLayout) with ⟨xs, z⟩
      rw [hm] at h hz
      simp only [hm] at hst
      simp only at h hz
      obtain ⟨body, hb, hv⟩ := fields_sound _ hm
      have e4 := List.takeWhile_append_dropWhile (p := isLayout) (l := z)
      have b4 : Layout (z.takeWhile isLayout) := (layout_iff _).mpr takeWhile_mem
      have h3 : ¬ "}".toList <+: z.dropWhile isLayout := by
        intro hp
        rw [litF_cons, if_pos hp] at h
        cases h
      have hclose : StopsAt (do let _ ← layout; lit "}".toList; return List.filterMap id xs) z (z.dropWhile isLayout) :=
        .bind (span_sem _) (.span _) rfl <| .bind_left (.lit _) (.lit h3)
      rcases structField_stops hz with hq | ⟨w, k, hzw, hw, hq⟩
      · refine ⟨("struct".toList ++ s1.takeWhile isBlank ++ "{".toList ++
            s2.takeWhile isLayout ++ body ++ z.takeWhile isLayout), z.dropWhile isLayout, ?_,
          ⟨"\n}".toList, s.takeWhile isBlank, .struct (xs.filterMap id), _, ?_, b1,
            .struct b2 b3 (layout_snoc b4) (body := body) ?_⟩, ?_⟩
        · calc s = s.takeWhile isBlank ++ ("struct".toList ++ (s1.takeWhile isBlank ++ ("{".toList ++
                (s2.takeWhile isLayout ++ (body ++ (z.takeWhile isLayout ++ z.dropWhile isLayout)))))) := by
                  rw [e4, ← hb, e3, ← ss2, e2, ← ss1, e1]
            _ = _ := by simp only [List.append_assoc]
        · simp
        · have := fields_near hv (r' := z.takeWhile isLayout ++ "\n}".toList) (by
            rw [← e4]; simpa using near_close (z.takeWhile isLayout) (z.dropWhile isLayout))
          simpa using this
        · exact hwrap _ ((hst _ _ hq hclose).2 hclose.1)
      · obtain ⟨n, u, hfd⟩ := fieldStart_field (more := []) hw
        obtain ⟨c, cs, hcw, hcs⟩ : ∃ c cs, w = c :: cs ∧ isStart c = true := by
          obtain ⟨n, b, q, rfl, hn, _⟩ := hw
          obtain ⟨c, cs, rfl, hc⟩ := Parser.Ident.head hn
          exact ⟨c, cs ++ b ++ q, by simp, hc⟩
        have hdz : z.dropWhile isLayout = z := by
          rw [hzw, hcw]
          exact dropWhile_noHead (noHead_cons.mpr (word_not_layout (start_word hcs)))
        rw [hdz] at hclose
        refine ⟨("struct".toList ++ s1.takeWhile isBlank ++ "{".toList ++
            s2.takeWhile isLayout ++ body ++ w), k, ?_,
          ⟨":}".toList, s.takeWhile isBlank, .struct (xs.filterMap id ++ [(n, u)]), _, ?_, b1,
            .struct b2 b3 (l₂ := []) (by simp [Layout]) (body := body ++ (w ++ ":".toList)) ?_⟩, ?_⟩
        · calc s = s.takeWhile isBlank ++ ("struct".toList ++ (s1.takeWhile isBlank ++ ("{".toList ++
                (s2.takeWhile isLayout ++ (body ++ (w ++ k)))))) := by
                  rw [← hzw, ← hb, e3, ← ss2, e2, ← ss1, e1]
            _ = _ := by simp only [List.append_assoc]
        · simp
        · have hf : Fields [(n, u)] (w ++ ":".toList) ([] ++ "}".toList) := by
            have := Fields.field (ts := []) (rest := "}".toList) (by simpa using hfd) (.nil _)
            simpa using this
          refine fields_append (fields_near hv ?_) hf
          rw [hzw, hcw]
          exact .inl ⟨c, _, _, rfl, rfl⟩
        · exact hwrap _ ((hst _ _ hq hclose).1 hq.1)
    · refine ⟨("struct".toList ++ s1.takeWhile isBlank), s1.dropWhile isBlank, ?_,
        ⟨"{}".toList, s.takeWhile isBlank, .struct [], _, ?_, b1, .struct (b₂ := s1.takeWhile isBlank) (l₁ := [])
          (l₂ := []) (body := []) b2 (by simp [Layout]) (by simp [Layout]) (.nil _)⟩, ?_⟩
      · calc s = s.takeWhile isBlank ++ ("struct".toList ++ (s1.takeWhile isBlank ++ s1.dropWhile isBlank)) := by
                rw [e2, ← ss1, e1]
          _ = _ := by simp only [List.append_assoc]
      · simp
      · exact .bind (span_sem _) (.span _) rfl <| .bind (.lit _) (.lit _) l1 <|
          .bind (span_sem _) (.span _) rfl <| .bind_left (.lit _) (.lit h2)
  · left
    exact ⟨h1, .bind (span_sem _) (.span _) rfl <| .bind_left (.lit _) (.lit h1)⟩

theorem type_stops {s : Str} (h : typeF s = none) : ∃ w k, s = w ++ k ∧ TypeStart w ∧ StopsAt type s k := by
  obtain ⟨he, hs⟩ := (orF_none _ _ _).mp h
  have he' : enumTypeF s = none := by
    simp only [F.bind] at he
    cases hx : enumTypeF s with
    | none => rfl
    | some x => rw [hx] at he; cases he
  have hs' : structTypeF s = none := by
    simp only [F.bind] at hs
    cases hx : structTypeF s with
    | none => rfl
    | some x => rw [hx] at hs; cases hs
  have e1 := List.takeWhile_append_dropWhile (p := isBlank) (l := s)
  have b1 : Blank (s.takeWhile isBlank) := (blank_iff _).mpr takeWhile_mem
  rcases enumType_stops he' with ⟨h1, h2⟩ | ⟨h1, w, k, hw, hty, h2⟩
  · rcases structType_stops hs' with ⟨h3, h4⟩ | ⟨h3, w, k, hw, hty, h4⟩
    · refine ⟨s.takeWhile isBlank, s.dropWhile isBlank, e1.symm,
        ⟨"enum{}".toList, _, .enum [], _, rfl, b1, .enum (b₂ := []) (l₁ := []) (l₂ := []) (body := [])
          (by simp [Blank]) (by simp [Layout]) (by simp [Layout]) (.nil _)⟩, ?_⟩
      exact .orElse (.bind_left enumType_sem h2) (.bind_left structType_sem h4) List.suffix_rfl
    · refine ⟨_, k, hw, hty, ?_⟩
      refine .orElse (.bind_left enumType_sem h2) (.bind_left structType_sem h4) ?_
      exact ⟨w, (List.append_cancel_left (e1.trans (hw.trans (List.append_assoc _ _ _)))).symm⟩
  · rcases structType_stops hs' with ⟨h3, h4⟩ | ⟨h3, w', k', hw', hty', h4⟩
    · refine ⟨_, k, hw, hty, ?_⟩
      refine .orElse' (.bind_left enumType_sem h2) (.bind_left structType_sem h4) ?_
      exact ⟨w, (List.append_cancel_left (e1.trans (hw.trans (List.append_assoc _ _ _)))).symm⟩
    · exfalso
      obtain ⟨x, hx⟩ := h1
      obtain ⟨y, hy⟩ := h3
      rw [← hx] at hy
      have := (List.cons.inj hy).1
      revert this; decide

/-! ### Marks of rules that match -/

theorem fieldStart_head {w : Str} (h : FieldStart w) : ∃ c cs, w = c :: cs ∧ isStart c = true := by
  obtain ⟨n, b, q, rfl, hn, _⟩ := h
  obtain ⟨c, cs, rfl, hc⟩ := Parser.Ident.head hn
  exact ⟨c, cs ++ b ++ q, by simp, hc⟩

theorem fieldsClose_win : Win (do
      let fields ← star structField
      let _ ← layout; lit "}".toList; return List.filterMap id fields)
    (F.bind (starF structFieldF) fun fs => F.bind (spanF isLayout) fun _ => F.bind (litF "}".toList) fun _ =>
      F.pure (List.filterMap id fs)) := by
  intro i v r h
  obtain ⟨last, hl, _, h2, h3, h4⟩ := star_far structField_sem structField_win structFieldF_consumes i.pos i.rest
  rcases hm : many structFieldF i.rest with ⟨xs, z⟩
  rw [hm] at hl h3 h4
  simp only at hl h3 h4
  simp only [F.bind, starF, hm] at h
  have h5 := close_win (List.filterMap id xs) ⟨i.pos + (bytes i.rest - bytes z), z⟩ v r (by
    simp only [F.bind, spanF]; exact h)
  have e := bind_far (Sem.star structField_sem structFieldF_consumes) (fun fields => do
      let _ ← layout; lit "}".toList; return List.filterMap id fields) (i := i) (v := xs) (r := z) (congrArg some hm)
  rw [e]
  have hsz := close_sem (List.filterMap id xs) |>.suffix z v r (by simp only [F.bind, spanF]; exact h)
  have hb1 := bytes_suffix h4
  have hb2 := bytes_suffix hsz
  have hlast : (structField last).far ≤ last.pos := by
    rcases structField_stops h3 with hq | ⟨w, k, hzw, hw, hq⟩
    · have := (hq.2 last.pos).2
      have e : last = ⟨last.pos, z⟩ := by rw [hl]
      rw [← e] at this
      omega
    · exfalso
      obtain ⟨c, cs, hcw, hcs⟩ := fieldStart_head hw
      have hdz : z.dropWhile isLayout = z := by
        rw [hzw, hcw]
        exact dropWhile_noHead (noHead_cons.mpr (word_not_layout (start_word hcs)))
      cases hlit : litF "}".toList (z.dropWhile isLayout) with
      | none => simp only [spanF] at h; rw [hlit] at h; cases h
      | some x =>
        have := litF_sound hlit
        rw [hdz, hzw, hcw] at this
        have := (List.cons.inj this).1
        rw [this] at hcs
        revert hcs; decide
  have hlp : last.pos = i.pos + (bytes i.rest - bytes z) := by rw [hl]
  have ei : (⟨i.pos, i.rest⟩ : Inp) = i := rfl
  rw [ei] at h2
  simp only at h5 ⊢
  omega

theorem fieldsClose_sem : Sem (do
      let fields ← star structField
      let _ ← layout; lit "}".toList; return List.filterMap id fields)
    (F.bind (starF structFieldF) fun fs => F.bind (spanF isLayout) fun _ => F.bind (litF "}".toList) fun _ =>
      F.pure (List.filterMap id fs)) :=
  .bind (.star structField_sem structFieldF_consumes) fun fs => close_sem (List.filterMap id fs)

theorem structType_win : Win structType structTypeF :=
  Win.spanThen
    (fun _ => .bind (.lit _) fun _ => .bind blanks_sem fun _ => .bind (.lit _) fun _ =>
      .bind layout_sem fun _ => fieldsClose_sem)
    (fun _ => .bind (.lit _) (.lit _)
      (fun _ => Win.spanThen
        (fun _ => .bind (.lit _) fun _ => .bind layout_sem fun _ => fieldsClose_sem)
        (fun _ => .bind (.lit _) (.lit _)
          (fun _ => Win.spanThen (fun _ => fieldsClose_sem) (fun _ => fieldsClose_win))
          (fun _ => .bind layout_sem fun _ => fieldsClose_sem)))
      (fun _ => .bind blanks_sem fun _ => .bind (.lit _) fun _ => .bind layout_sem fun _ => fieldsClose_sem))

theorem structTypeF_blank (s : Str) : structTypeF (s.dropWhile isBlank) = structTypeF s := by
  rw [structTypeF_eq, structTypeF_eq]
  unfold braced
  rw [dropWhile_sub (fun _ h => h)]

theorem type_win : Win type typeF := by
  refine .orElse' (.bind enumType_sem fun _ => .pure _)
    (.bind enumType_sem enumType_win (fun _ => .pure _) (fun _ => .pure _))
    (.bind structType_sem structType_win (fun _ => .pure _) (fun _ => .pure _)) ?_
  intro i v r h1 h2
  have he' : enumTypeF i.rest = none := by
    simp only [F.bind] at h1
    cases hx : enumTypeF i.rest with
    | none => rfl
    | some x => rw [hx] at h1; cases h1
  obtain ⟨fs, hs'⟩ : ∃ fs, structTypeF i.rest = some (fs, r) := by
    simp only [F.bind] at h2
    cases hx : structTypeF i.rest with
    | none => rw [hx] at h2; cases h2
    | some x =>
      obtain ⟨fs, r'⟩ := x
      rw [hx] at h2
      simp only [F.pure, Option.some.injEq, Prod.mk.injEq] at h2
      exact ⟨fs, by rw [h2.2]⟩
  have hsuf := structType_sem.suffix (i.rest.dropWhile isBlank) fs r (by rw [structTypeF_blank]; exact hs')
  have hb := bytes_suffix hsuf
  have hstruct : "struct".toList <+: i.rest.dropWhile isBlank := by
    rw [structTypeF_eq] at hs'
    unfold braced at hs'
    by_cases hp : "struct".toList <+: i.rest.dropWhile isBlank
    · exact hp
    · rw [litF_cons, if_neg hp] at hs'; cases hs'
  rcases enumType_stops he' with ⟨_, h3⟩ | ⟨h3, _⟩
  · have h4 : StopsAt (do let e ← enumType; return Ty.enum e) i.rest _ := .bind_left enumType_sem h3
    have := (h4.2 i.pos).2
    have ei : (⟨i.pos, i.rest⟩ : Inp) = i := rfl
    rw [ei] at this
    omega
  · exfalso
    obtain ⟨x, hx⟩ := h3
    obtain ⟨y, hy⟩ := hstruct
    rw [← hx] at hy
    have := (List.cons.inj hy).1
    revert this; decide

theorem declTail_win (i : Str) : Win (do
    let _ ← blanks
    lit ":".toList
    let _ ← blanks
    let t ← type
    let _ ← layout
    return Node.decl i t) (declTailF i) :=
  Win.spanThen
    (fun _ => .bind (.lit _) fun _ => .bind blanks_sem fun _ => .bind type_sem fun _ => .bind layout_sem fun _ => .pure _)
    (fun _ => .bind (.lit _) (.lit _)
      (fun _ => Win.spanThen
        (fun _ => .bind type_sem fun _ => .bind layout_sem fun _ => .pure _)
        (fun _ => .bind type_sem type_win (fun _ => Win.spanThen (fun _ => .pure _) (fun _ => .pure _))
          (fun _ => .bind layout_sem fun _ => .pure _)))
      (fun _ => .bind blanks_sem fun _ => .bind type_sem fun _ => .bind layout_sem fun _ => .pure _))

theorem decl_win : Win decl declF :=
  Win.spanThen (fun _ => .bind ident_sem declTail_sem)
    (fun _ => .bind ident_sem ident_win declTail_win declTail_sem)

theorem export_win : Win exportRule exportF :=
  .bind (.lit _) (.lit _)
    (fun _ => Win.spanThen (fun _ => .bind string_sem fun _ => .pure _)
      (fun _ => .bind string_sem string_win (fun _ => .pure _) (fun _ => .pure _)))
    (fun _ => .bind blanks_sem fun _ => .bind string_sem fun _ => .pure _)

theorem lineComment_win : Win lineComment lineCommentF :=
  Win.spanThen (fun _ => .bind comment_sem fun _ => .bind newlines_sem fun _ => .pure _)
    (fun _ => .bind comment_sem comment_win (fun _ => Win.spanThen (fun _ => .pure _) (fun _ => .pure _))
      (fun _ => .bind newlines_sem fun _ => .pure _))
theorem lineExport_win : Win lineExport lineExportF :=
  Win.spanThen (fun _ => .bind export_sem fun _ => .bind newlines_sem fun _ => .pure _)
    (fun _ => .bind export_sem export_win (fun _ => Win.spanThen (fun _ => .pure _) (fun _ => .pure _))
      (fun _ => .bind newlines_sem fun _ => .pure _))
theorem lineDecl_win : Win lineDecl lineDeclF :=
  Win.spanThen (fun _ => .bind decl_sem fun _ => .bind newlines_sem fun _ => .pure _)
    (fun _ => .bind decl_sem decl_win (fun _ => Win.spanThen (fun _ => .pure _) (fun _ => .pure _))
      (fun _ => .bind newlines_sem fun _ => .pure _))

theorem lineComment_stops {s : Str} (h : lineCommentF s = none) : StopsAt lineComment s (s.dropWhile isBlank) := by
  have hc : ¬ "#".toList <+: s.dropWhile isBlank := by
    intro hp
    rw [lineCommentF_eq, commentF_eq, if_pos hp] at h
    cases h
  exact .bind (span_sem _) (.span _) rfl <| .bind_left comment_sem <| .bind_left (.lit _) (.lit hc)

theorem lineExport_stops {s : Str} (h : lineExportF s = none) : StopsAt lineExport s (s.dropWhile isBlank) := by
  have hc : ¬ "export".toList <+: s.dropWhile isBlank := by
    intro hp
    rw [lineExportF_eq, litF_cons, if_pos hp] at h
    cases h
  exact .bind (span_sem _) (.span _) rfl <| .bind_left export_sem <| .bind_left (.lit _) (.lit hc)

/-- A rule that starts with spaces ends after them. -/
theorem suffix_blank {α} {p : P α} {f : F α} (hp : Sem p f) (hb : ∀ s, f (s.dropWhile isBlank) = f s)
    {s r : Str} {v : α} (h : f s = some (v, r)) : bytes r ≤ bytes (s.dropWhile isBlank) :=
  bytes_suffix (hp.suffix _ v _ (by rw [hb]; exact h))

theorem line_win : Win line lineF := by
  refine .orElse' lineComment_sem lineComment_win (.orElse' lineExport_sem lineExport_win lineDecl_win ?_) ?_
  · intro i v r h1 h2
    have h3 := ((lineExport_stops h1).2 i.pos).2
    have h4 := suffix_blank lineDecl_sem (fun s => by rw [lineDeclF_eq, lineDeclF_eq, dropWhile_sub (fun _ h => h)]) h2
    have ei : (⟨i.pos, i.rest⟩ : Inp) = i := rfl
    rw [ei] at h3
    omega
  · intro i v r h1 h2
    have h3 := ((lineComment_stops h1).2 i.pos).2
    have h4 := suffix_blank (.orElse lineExport_sem lineDecl_sem) (fun s => by
      unfold orF
      rw [lineDeclF_eq, lineDeclF_eq, lineExportF_eq, lineExportF_eq, dropWhile_sub (fun _ h => h)]) h2
    have ei : (⟨i.pos, i.rest⟩ : Inp) = i := rfl
    rw [ei] at h3
    omega

/-! ### Failing lines -/

theorem line_stops {s : Str} (h : lineF s = none) : ∃ w k, s = w ++ k ∧ StopsAt line s k ∧
    ∃ ext ns, Lines ns (w ++ ext) ∧ (w = [] → ext = []) := by
  obtain ⟨h1, h2⟩ := (orF_none _ _ _).mp h
  obtain ⟨h2, h3⟩ := (orF_none _ _ _).mp h2
  have c1 := lineComment_stops h1
  have c2 := lineExport_stops h2
  have hline : ∀ k, StopsAt lineDecl s k → k <:+ s.dropWhile isBlank → StopsAt line s k := fun k hk hs =>
    .orElse c1 (.orElse c2 hk hs) hs
  have hexp : ∀ n r, s.dropWhile isBlank = n ++ r → ¬ "export".toList <+: n := by
    intro n r hs hp
    rw [lineExportF_eq, litF_cons, if_pos (by rw [hs]; exact hp.trans (List.prefix_append _ _))] at h2
    cases h2
  have e1 := List.takeWhile_append_dropWhile (p := isBlank) (l := s)
  have b1 : Blank (s.takeWhile isBlank) := (blank_iff _).mpr takeWhile_mem
  have hidem : (s.dropWhile isBlank).dropWhile isBlank = s.dropWhile isBlank := dropWhile_sub (fun _ h => h) s
  rw [lineDeclF_eq] at h3
  cases hi : identF (s.dropWhile isBlank) with
  | none =>
    have hd : StopsAt decl (s.dropWhile isBlank) (s.dropWhile isBlank) := by
      have hi' : identF ((s.dropWhile isBlank).dropWhile isBlank) = none := by rw [hidem]; exact hi
      have := StopsAt.span_quick (c := isBlank) (s := s.dropWhile isBlank) (q := fun _ => do
          let i ← ident
          let _ ← blanks
          lit ":".toList
          let _ ← blanks
          let t ← type
          let _ ← layout
          return Node.decl i t) (.bind ident_sem declTail_sem) (by
            intro pos
            rw [bind_far_none ident_sem _ hi']
            exact Nat.zero_le _) (by simp only [F.bind, hi'])
      rw [hidem] at this
      exact this
    refine ⟨s.takeWhile isBlank, s.dropWhile isBlank, e1.symm, hline _ ?_ List.suffix_rfl, ?_⟩
    · exact .bind (span_sem _) (.span _) rfl <| .bind_left decl_sem hd
    · by_cases hb : s.takeWhile isBlank = []
      · rw [hb]; exact ⟨[], [], .nil, fun _ => rfl⟩
      · refine ⟨"#".toList, [], ?_, fun h => absurd h hb⟩
        have := Lines.comment (ns := []) (b := s.takeWhile isBlank) (t := "#".toList) (l := []) (ts := []) b1
          ⟨[], rfl, by simp, .inl rfl⟩ (by simp [Newlines]) .nil
        simpa using this
  | some x =>
    obtain ⟨n, r⟩ := x
    obtain ⟨hz, hn, hw⟩ := identF_sound hi
    rw [hi] at h3
    simp only at h3
    have hdw : ∀ k, StopsAt (do
          let _ ← blanks
          lit ":".toList
          let _ ← blanks
          let t ← type
          let _ ← layout
          return Node.decl n t) r k → StopsAt line s k := by
      intro k hk
      have hd : StopsAt decl (s.dropWhile isBlank) k :=
        .bind (span_sem _) (.span _) rfl <| .bind ident_sem ident_win (v := n) (r := r) (by rw [hidem]; exact hi) hk
      exact hline k (.bind (span_sem _) (.span _) rfl <| .bind_left decl_sem hd) hd.1
    have e2 := List.takeWhile_append_dropWhile (p := isBlank) (l := r)
    have b2 : Blank (r.takeWhile isBlank) := (blank_iff _).mpr takeWhile_mem
    have hne : ∀ x : Str, s.takeWhile isBlank ++ n ++ x ≠ [] := by
      intro x hx
      obtain ⟨c, cs, rfl, _⟩ := Parser.Ident.head hn
      simp at hx
    by_cases h4 : ":".toList <+: r.dropWhile isBlank
    · have l1 : litF ":".toList (r.dropWhile isBlank) = some ((), (r.dropWhile isBlank).drop 1) := by
        rw [litF_cons, if_pos h4]; rfl
      have ss := litF_sound l1
      generalize hs1 : (r.dropWhile isBlank).drop 1 = s1 at l1 ss
      rw [l1] at h3
      simp only at h3
      have ht : typeF (s1.dropWhile isBlank) = none := by
        cases hx : typeF (s1.dropWhile isBlank) with
        | none => rfl
        | some x => rw [hx] at h3; cases h3
      have e3 := List.takeWhile_append_dropWhile (p := isBlank) (l := s1)
      have b3 : Blank (s1.takeWhile isBlank) := (blank_iff _).mpr takeWhile_mem
      obtain ⟨w, k, hwk, ⟨ext, b, ty, t, hwe, hb, hty⟩, hst⟩ := type_stops ht
      refine ⟨s.takeWhile isBlank ++ n ++ (r.takeWhile isBlank ++ (":".toList ++ (s1.takeWhile isBlank ++ w))), k,
        ?_, ?_, ext, [.decl n ty], ?_, fun h => absurd h (hne _)⟩
      · calc s = s.takeWhile isBlank ++ (n ++ (r.takeWhile isBlank ++ (":".toList ++ (s1.takeWhile isBlank ++
              (w ++ k))))) := by rw [← hwk, e3, ← ss, e2, ← hz, e1]
          _ = _ := by simp only [List.append_assoc]
      · exact hdw _ (.bind (span_sem _) (.span _) rfl <| .bind (.lit _) (.lit _) l1 <|
          .bind (span_sem _) (.span _) rfl <| .bind_left type_sem hst)
      · have := Lines.decl (ns := []) (b₃ := s1.takeWhile isBlank ++ b) (l := []) (ts := []) b1 hn (hexp n r hz) b2
          (blank_append b3 hb) hty (by simp [Layout]) .nil
        have e : s.takeWhile isBlank ++ n ++ r.takeWhile isBlank ++ ":".toList ++ (s1.takeWhile isBlank ++ b) ++ t ++
            [] ++ [] = s.takeWhile isBlank ++ n ++ (r.takeWhile isBlank ++ (":".toList ++
              (s1.takeWhile isBlank ++ w))) ++ ext := by
          simp only [List.append_assoc, List.append_nil, hwe]
        rw [e] at this
        exact this
    · refine ⟨s.takeWhile isBlank ++ n ++ r.takeWhile isBlank, r.dropWhile isBlank,
        ?_, ?_, ":enum{}".toList, [.decl n (.enum [])], ?_, fun h => absurd h (hne _)⟩
      · calc s = s.takeWhile isBlank ++ (n ++ (r.takeWhile isBlank ++ r.dropWhile isBlank)) := by rw [e2, ← hz, e1]
          _ = _ := by simp only [List.append_assoc]
      · exact hdw _ (.bind (span_sem _) (.span _) rfl <| .bind_left (.lit _) (.lit h4))
      · have := Lines.decl (ns := []) (b₃ := []) (l := []) (ts := []) b1 hn (hexp n r hz) b2
          (by simp [Blank]) (.enum (vs := []) (b₂ := []) (l₁ := []) (l₂ := []) (body := [])
            (by simp [Blank]) (by simp [Layout]) (by simp [Layout]) (.nil _)) (by simp [Layout]) .nil
        simpa using this

/-- Texts that may replace what follows complete lines. -/
def Near' (s t : Str) : Prop := t = [] ∨ ∃ c a b, s = c :: a ∧ t = c :: b

theorem Near'.append {s t : Str} (x : Str) (h : Near' s t) : Near' (x ++ s) (x ++ t) := by
  cases x with
  | nil => exact h
  | cons c cs => exact .inr ⟨c, _, _, rfl, rfl⟩

theorem Near'.noHead {p : Char → Bool} {s t : Str} (h : Near' s t) (hs : NoHead p s) : NoHead p t := by
  intro c cs hc
  rcases h with rfl | ⟨d, a, b, rfl, rfl⟩
  · cases hc
  · exact hs c a (by rw [(List.cons.inj hc).1])

/-- Complete lines stay complete lines when what follows is replaced. -/
theorem lines_near (x : Str) {xs : List (Option Node)} {s : Str} (h : many lineF x = (xs, s)) (hs : s ≠ []) :
    ∃ u, x = u ++ s ∧ ∀ t ns, Near' s t → Lines ns t → ∃ ns', Lines ns' (u ++ t) := by
  induction hn : x.length using Nat.strongRecOn generalizing x xs with
  | _ n ih =>
    rw [many_eq lineF_consumes] at h
    cases hv : lineF x with
    | none =>
      rw [hv] at h; simp at h
      obtain ⟨rfl, rfl⟩ := h
      exact ⟨[], rfl, fun t ns _ h => ⟨ns, h⟩⟩
    | some y =>
      obtain ⟨v, r⟩ := y
      rw [hv] at h
      simp only [Prod.mk.injEq] at h
      obtain ⟨rfl, h2⟩ := h
      have hlt := lineF_consumes _ _ _ hv
      obtain ⟨u, hu, hrest⟩ := ih r.length (by omega) r (xs := (many lineF r).1) (by rw [← h2]) rfl
      have hrne : r ≠ [] := by rw [hu]; simp [hs]
      have hnear : ∀ t, Near' s t → Near' r (u ++ t) := fun t ht => by rw [hu]; exact ht.append u
      have eb := List.takeWhile_append_dropWhile (p := isBlank) (l := x)
      have b1 : Blank (x.takeWhile isBlank) := (blank_iff _).mpr takeWhile_mem
      unfold lineF orF at hv
      cases hc : lineCommentF x with
      | some y =>
        rw [hc] at hv
        rw [lineCommentF_eq] at hc
        cases hcm : commentF (x.dropWhile isBlank) with
        | none => simp [hcm] at hc
        | some z =>
          obtain ⟨_, r1⟩ := z
          obtain ⟨t, l, hs', hcom, hl⟩ := commentF_sound hcm
          simp only [hcm, Option.map, Option.some.injEq] at hc
          subst hc
          simp only [Option.some.injEq, Prod.mk.injEq] at hv
          obtain ⟨rfl, hr1⟩ := hv
          have e := List.takeWhile_append_dropWhile (p := isNl) (l := r1)
          have hnl := noHead_dropWhile isNl r1
          rw [hr1] at e hnl
          refine ⟨x.takeWhile isBlank ++ t ++ (l ++ r1.takeWhile isNl) ++ u, ?_, ?_⟩
          · calc x = x.takeWhile isBlank ++ (t ++ l ++ (r1.takeWhile isNl ++ (u ++ s))) := by
                  rw [← hu, e, ← hs', eb]
              _ = _ := by simp only [List.append_assoc]
          · intro t' ns ht' hns
            obtain ⟨ns', h'⟩ := hrest t' ns ht' hns
            refine ⟨ns', ?_⟩
            obtain ⟨body, hb1, hb2, hb3⟩ := hcom
            have := Lines.comment (b := x.takeWhile isBlank) (t := t) (l := l ++ r1.takeWhile isNl) b1
              ⟨body, hb1, hb2, by
                rw [← e, ← List.append_assoc] at hb3
                rcases hb3 with hb3 | ⟨cs, hb3⟩
                · have := (List.append_eq_nil_iff.mp hb3).2; exact absurd this hrne
                · cases hlx : l ++ r1.takeWhile isNl with
                  | nil =>
                    rw [hlx, List.nil_append] at hb3
                    exact absurd (hnl '\n' cs hb3) (by decide)
                  | cons c cs' =>
                    rw [hlx, List.cons_append] at hb3
                    rw [(List.cons.inj hb3).1]
                    exact .inr ⟨_, rfl⟩⟩
              (newlines_append hl ((newlines_iff _).mpr takeWhile_mem)) h'
            simpa only [List.append_assoc] using this
      | none =>
        rw [hc] at hv
        simp only at hv
        cases he : lineExportF x with
        | some y =>
          rw [he] at hv
          rw [lineExportF_eq] at he
          cases hl : litF "export".toList (x.dropWhile isBlank) with
          | none => rw [hl] at he; cases he
          | some z =>
            obtain ⟨_, r1⟩ := z
            have hs' := litF_sound hl
            simp only [hl, Option.map, Option.some.injEq] at he
            subst he
            simp only [Option.some.injEq, Prod.mk.injEq] at hv
            obtain ⟨rfl, hr1⟩ := hv
            have e1 := List.takeWhile_append_dropWhile (p := isBlank) (l := r1)
            have hbe := noHead_dropWhile isBlank r1
            generalize r1.dropWhile isBlank = w at e1 hbe hr1
            have e2 := List.takeWhile_append_dropWhile (p := isWord) (l := w)
            have hwe := noHead_dropWhile isWord w
            generalize w.dropWhile isWord = w' at e2 hwe hr1
            have e3 := List.takeWhile_append_dropWhile (p := isNl) (l := w')
            rw [hr1] at e3
            refine ⟨x.takeWhile isBlank ++ "export".toList ++ r1.takeWhile isBlank ++ w.takeWhile isWord ++
                w'.takeWhile isNl ++ u, ?_, ?_⟩
            · calc x = x.takeWhile isBlank ++ ("export".toList ++ (r1.takeWhile isBlank ++
                    (w.takeWhile isWord ++ (w'.takeWhile isNl ++ (u ++ s))))) := by
                      rw [← hu, e3, e2, e1, ← hs', eb]
                _ = _ := by simp only [List.append_assoc]
            · intro t' ns ht' hns
              obtain ⟨ns', h'⟩ := hrest t' ns ht' hns
              refine ⟨.export (w.takeWhile isWord) :: ns', ?_⟩
              have hnr := hnear t' ht'
              have := Lines.export (b₁ := x.takeWhile isBlank) (b₂ := r1.takeWhile isBlank)
                (name := w.takeWhile isWord) (l := w'.takeWhile isNl)
                b1 ((blank_iff _).mpr takeWhile_mem)
                ((word_iff _).mpr takeWhile_mem) ((newlines_iff _).mpr takeWhile_mem)
                (by
                  rw [blankEnd_iff]
                  refine (hnr.append _).noHead ?_
                  rw [List.append_assoc, e3, e2]; exact hbe)
                (by
                  rw [wordEnd_iff]
                  refine (hnr.append _).noHead ?_
                  rw [e3]; exact hwe) h'
              simpa only [List.append_assoc] using this
        | none =>
          rw [he] at hv
          simp only at hv
          rw [lineDeclF_eq] at hv
          cases hi : identF (x.dropWhile isBlank) with
          | none => simp [hi] at hv
          | some z =>
            obtain ⟨name, r1⟩ := z
            rw [hi] at hv
            simp only at hv
            obtain ⟨hs', hname, hnw⟩ := identF_sound hi
            cases hl : litF ":".toList (r1.dropWhile isBlank) with
            | none => rw [hl] at hv; simp at hv
            | some z =>
              obtain ⟨_, r2⟩ := z
              rw [hl] at hv
              simp only at hv
              have hs2 := litF_sound hl
              cases ht : typeF (r2.dropWhile isBlank) with
              | none => rw [ht] at hv; simp at hv
              | some z =>
                obtain ⟨ty, r3⟩ := z
                rw [ht] at hv
                simp only [Option.map, Option.some.injEq, Prod.mk.injEq] at hv
                obtain ⟨rfl, hr⟩ := hv
                obtain ⟨b, t, hs3, hb, htt⟩ := typeF_sound ht
                have e1 := List.takeWhile_append_dropWhile (p := isBlank) (l := r1)
                have e2 := List.takeWhile_append_dropWhile (p := isBlank) (l := r2)
                have e3 := List.takeWhile_append_dropWhile (p := isLayout) (l := r3)
                rw [hr] at e3
                have hexp : ¬ "export".toList <+: name := by
                  intro hp
                  rw [lineExportF_eq, litF_cons, if_pos] at he
                  · simp at he
                  · rw [hs']; exact hp.trans (List.prefix_append _ _)
                refine ⟨x.takeWhile isBlank ++ name ++ r1.takeWhile isBlank ++ ":".toList ++
                    (r2.takeWhile isBlank ++ b) ++ t ++ r3.takeWhile isLayout ++ u, ?_, ?_⟩
                · calc x = x.takeWhile isBlank ++ (name ++ (r1.takeWhile isBlank ++ (":".toList ++
                        (r2.takeWhile isBlank ++ (b ++ (t ++ (r3.takeWhile isLayout ++ (u ++ s)))))))) := by
                        rw [← hu, e3, ← hs3, e2, ← hs2, e1, ← hs', eb]
                    _ = _ := by simp only [List.append_assoc]
                · intro t' ns ht' hns
                  obtain ⟨ns', h'⟩ := hrest t' ns ht' hns
                  refine ⟨.decl name ty :: ns', ?_⟩
                  have := Lines.decl (b₁ := x.takeWhile isBlank) (b₂ := r1.takeWhile isBlank)
                    (b₃ := r2.takeWhile isBlank ++ b) (l := r3.takeWhile isLayout)
                    b1 hname hexp ((blank_iff _).mpr takeWhile_mem)
                    (blank_append ((blank_iff _).mpr takeWhile_mem) hb) htt
                    ((layout_iff _).mpr takeWhile_mem) h'
                  simpa only [List.append_assoc] using this

/-- The text before the reported position is the beginning of some schema. -/
theorem schema_err_viable {text : Str} {off : Nat} (h : schema text = .err off) :
    ∃ pre post, text = pre ++ post ∧ bytes pre = off ∧ ∃ ext ast, Schema ast (pre ++ ext) := by
  have e0 := List.takeWhile_append_dropWhile (p := isNl) (l := text)
  have b0 : Newlines (text.takeWhile isNl) := (newlines_iff _).mpr takeWhile_mem
  obtain ⟨last, hl, h1, h2, h3, h4⟩ := star_far line_sem line_win lineF_consumes
    (0 + (bytes text - bytes (text.dropWhile isNl))) (text.dropWhile isNl)
  rcases hm : many lineF (text.dropWhile isNl) with ⟨xs, s⟩
  rw [hm] at hl h3 h4
  simp only at hl h3 h4
  have hnl := Win.opt (span_sem isNl) (.span isNl) (by intro i h; cases h) ⟨0, text⟩ (some (text.takeWhile isNl))
    (text.dropWhile isNl) rfl
  have hopt : Sem (opt newlines) (optF (spanF isNl)) := .opt newlines_sem
  have eo := bind_far hopt (fun _ => do let lines ← star line; return lines.filterMap id) (i := ⟨0, text⟩)
    (v := some (text.takeWhile isNl)) (r := text.dropWhile isNl) rfl
  have es := bind_far (Sem.star line_sem lineF_consumes) (fun lines => (return lines.filterMap id : P AST))
    (i := ⟨0 + (bytes text - bytes (text.dropWhile isNl)), text.dropWhile isNl⟩) (v := xs) (r := s) (congrArg some hm)
  have hrule : schemaRule ⟨0, text⟩ = _ := eo
  rw [es] at hrule
  simp only [Pure.pure, P.pure] at hrule
  unfold schema parseAll at h
  rw [hrule] at h
  simp only at h
  split at h
  · cases h
  · rename_i hs
    obtain ⟨w, k, hsw, hstop, ext, ns, hext, hnil⟩ := line_stops h3
    obtain ⟨u, hu, hnear⟩ := lines_near _ hm hs
    have hb1 := bytes_suffix h4
    have hb2 := bytes_suffix (List.dropWhile_suffix (l := text) isNl)
    have h5 := (hstop.2 last.pos).2
    have ell : last = ⟨last.pos, s⟩ := by rw [hl]
    rw [← ell] at h5
    have hlp : last.pos = (0 + (bytes text - bytes (text.dropWhile isNl))) + (bytes (text.dropWhile isNl) - bytes s) := by
      rw [hl]
    refine ⟨text.takeWhile isNl ++ (u ++ w), k, ?_, ?_, ext, ?_⟩
    · calc text = text.takeWhile isNl ++ (u ++ (w ++ k)) := by rw [← hsw, ← hu, e0]
        _ = _ := by simp only [List.append_assoc]
    · simp only [ParseOutcome.err.injEq] at h
      have c1 := congrArg bytes e0
      have c2 := congrArg bytes hu
      have c3 := congrArg bytes hsw
      simp only [bytes_append] at c1 c2 c3 ⊢
      have hnl' : (opt newlines ⟨0, text⟩).far + bytes (text.dropWhile isNl) ≤ 0 + bytes text := hnl
      omega
    · obtain ⟨ns', h'⟩ := hnear (w ++ ext) ns (by
        cases w with
        | nil => rw [hnil rfl]; exact .inl rfl
        | cons c cs => rw [hsw]; exact .inr ⟨c, _, _, rfl, rfl⟩) hext
      exact ⟨ns', _, u ++ (w ++ ext), by simp only [List.append_assoc], b0, h'⟩

end Packetc.Parser
