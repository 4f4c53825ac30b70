import Verif.Proof.ErrPos
/-!
Locality of the parser: what a rule does depends only on the text up to six bytes past the furthest position
that it marked or reached.
-/

namespace Packetc.Peg

/-- How far a rule got: the furthest mark, the start, and the end if it matched. -/
def reach {α} (i : Inp) (o : Out α) : Nat :=
  match o.res with
  | .matched i' _ => max (max i.pos o.far) i'.pos
  | _ => max i.pos o.far

/-- The outcome `o` on `w ++ r` becomes `o'` on `w ++ r'`: the same, but for the text left. -/
inductive Same {α} (pos : Nat) (w r r' : Str) : Out α → Out α → Prop
  | failed (n : Nat) : Same pos w r r' ⟨.failed, n⟩ ⟨.failed, n⟩
  | matched (u w' : Str) (v : α) (n : Nat) : w = u ++ w' →
      Same pos w r r' ⟨.matched ⟨pos + bytes u, w' ++ r⟩ v, n⟩ ⟨.matched ⟨pos + bytes u, w' ++ r'⟩ v, n⟩
  | diverge (o : Out α) (n : Nat) : Same pos w r r' ⟨.diverge, n⟩ o

/-- The rule does not look more than six bytes past what it reached. -/
def Local {α} (p : P α) : Prop := ∀ pos w r r',
  reach ⟨pos, w ++ r⟩ (p ⟨pos, w ++ r⟩) + 6 ≤ pos + bytes w →
  Same pos w r r' (p ⟨pos, w ++ r⟩) (p ⟨pos, w ++ r'⟩)

/-- A rule that does not match has marked its start. -/
def Covers {α} (p : P α) : Prop := ∀ i, (p i).res = .failed → i.pos ≤ (p i).far

/-- A rule that matches marks where it stops. -/
def MarksEnd {α} (p : P α) : Prop := ∀ i i' v, (p i).res = .matched i' v → i'.pos ≤ (p i).far

/-- Rules move forward. -/
def Fwd {α} (p : P α) : Prop := ∀ i i' v, (p i).res = .matched i' v → i.pos ≤ i'.pos

theorem Sem.fwd {α} {p : P α} {f : F α} (h : Sem p f) : Fwd p := by
  intro i i' v hm
  rw [h.res] at hm
  cases hf : f i.rest with
  | none => rw [hf] at hm; cases hm
  | some x => rw [hf] at hm; simp only [mkRes, Res.matched.injEq] at hm; rw [← hm.1]; simp

theorem Sem.noDiv {α} {p : P α} {f : F α} (h : Sem p f) (i : Inp) : (p i).res ≠ .diverge := by
  rw [h.res]
  cases f i.rest <;> simp [mkRes]

theorem reach_start {α} (i : Inp) (o : Out α) : i.pos ≤ reach i o := by
  unfold reach; split <;> omega
theorem reach_far {α} (i : Inp) (o : Out α) : o.far ≤ reach i o := by
  unfold reach; split <;> omega
theorem reach_end {α} {i i' : Inp} {v : α} {n : Nat} : i'.pos ≤ reach i ⟨.matched i' v, n⟩ := by
  simp only [reach]; omega

/-- Rules that terminate, move forward and are local. -/
structure Loc {α} (p : P α) : Prop where
  sem : ∃ f, Sem p f
  loc : Local p

theorem Loc.fwd {α} {p : P α} (h : Loc p) : Fwd p := by
  obtain ⟨f, hf⟩ := h.sem; exact hf.fwd
theorem Loc.noDiv {α} {p : P α} (h : Loc p) (i : Inp) : (p i).res ≠ .diverge := by
  obtain ⟨f, hf⟩ := h.sem; exact hf.noDiv i

theorem Loc.pure {α} (v : α) : Loc (pure v : P α) := by
  refine ⟨⟨_, .pure v⟩, ?_⟩
  intro pos w r r' _
  have := Same.matched (pos := pos) (w := w) (r := r) (r' := r') [] w v 0 rfl
  simpa [Pure.pure, P.pure, bytes] using this

theorem Loc.bind {α β} {p : P α} {q : α → P β} (hp : Loc p) (hq : ∀ v, Loc (q v))
    (hc : MarksEnd p ∨ ∀ v, Covers (q v)) : Loc (p >>= q) := by
  constructor
  · obtain ⟨f, hf⟩ := hp.sem
    exact ⟨_, .bind hf fun v => (hq v).sem.choose_spec⟩
  intro pos w r r' h
  have hp' := hp.loc pos w r r'
  have hme : ∀ i' v, (p ⟨pos, w ++ r⟩).res = .matched i' v → MarksEnd p → i'.pos ≤ (p ⟨pos, w ++ r⟩).far :=
    fun i' v h1 h2 => h2 _ _ _ h1
  simp only [Bind.bind, P.bind] at h ⊢
  rcases hpi : p ⟨pos, w ++ r⟩ with ⟨rs, n⟩
  rw [hpi] at h hp' hme
  cases rs with
  | diverge => exact .diverge _ _
  | failed =>
    simp only at h
    have := hp' h
    generalize p ⟨pos, w ++ r'⟩ = o at this
    cases this
    exact .failed _
  | matched i' v =>
    simp only at h
    have hcov := fun hc : ∀ v, Covers (q v) => hc v i'
    have hfw := (hq v).fwd i'
    have hnd := (hq v).noDiv i'
    have hqv := (hq v).loc
    have hreach : max (max pos n) (reach i' (q v i')) ≤
        reach ⟨pos, w ++ r⟩ ⟨(q v i').res, max n (q v i').far⟩ := by
      simp only [reach]
      rcases hqi : q v i' with ⟨rs, m⟩
      rw [hqi] at hcov hfw hnd
      cases rs with
      | matched i'' v' => have := hfw i'' v' rfl; simp only; omega
      | failed =>
        simp only
        rcases hc with hc | hc
        · have := hme i' v rfl hc; simp only at this; omega
        · have := hcov hc rfl; simp only at this; omega
      | diverge => exact absurd rfl hnd
    have h1 := hp' (by
      have := reach_start i' (q v i')
      have e : reach ⟨pos, w ++ r⟩ (⟨.matched i' v, n⟩ : Out α) = max (max pos n) i'.pos := rfl
      rw [e]
      omega)
    generalize hq' : p ⟨pos, w ++ r'⟩ = o at h1
    cases h1 with
    | matched u w' v n hw =>
      subst hw
      simp only
      have h2 := hqv (pos + bytes u) w' r r' (by
        rw [bytes_append] at h
        omega)
      generalize q v ⟨pos + bytes u, w' ++ r⟩ = o1 at h2
      generalize q v ⟨pos + bytes u, w' ++ r'⟩ = o2 at h2
      cases h2 with
      | failed m => exact .failed _
      | matched u' w'' v' m hw =>
        have := Same.matched (pos := pos) (w := u ++ w') (r := r) (r' := r') (u ++ u') w'' v' (max n m)
          (by rw [hw, List.append_assoc])
        simpa [bytes_append, Nat.add_assoc] using this
      | diverge o m => exact .diverge _ _

theorem Loc.elem (c : Char → Bool) : Loc (elem c) := by
  refine ⟨⟨_, .elem c⟩, ?_⟩
  intro pos w r r' h
  have hs := reach_start ⟨pos, w ++ r⟩ (Peg.elem c ⟨pos, w ++ r⟩)
  cases w with
  | nil => simp only [bytes] at h; simp only at hs; omega
  | cons x xs =>
    simp only [Peg.elem, List.cons_append]
    split
    · have := Same.matched (pos := pos) (w := x :: xs) (r := r) (r' := r') [x] xs x 0 rfl
      simpa [bytes] using this
    · exact .failed _

theorem prefix_of_bytes {l w r : Str} (h : l <+: w ++ r) (hb : bytes l ≤ bytes w) : l <+: w := by
  induction l generalizing w with
  | nil => exact List.nil_prefix
  | cons c cs ih =>
    cases w with
    | nil => have := utf8Size_pos c; simp only [bytes] at hb; omega
    | cons x xs =>
      rw [List.cons_append, List.cons_prefix_cons] at h
      obtain ⟨rfl, h⟩ := h
      rw [List.cons_prefix_cons]
      refine ⟨rfl, ih h ?_⟩
      simp only [bytes] at hb; omega

theorem Loc.lit {l : Str} (hl : bytes l ≤ 6) : Loc (lit l) := by
  refine ⟨⟨_, .lit l⟩, ?_⟩
  intro pos w r r' h
  have hs := reach_start ⟨pos, w ++ r⟩ (Peg.lit l ⟨pos, w ++ r⟩)
  simp only at hs
  have key : ∀ r, l.isPrefixOf (w ++ r) = true ↔ l <+: w := by
    intro r
    rw [List.isPrefixOf_iff_prefix]
    exact ⟨fun h => prefix_of_bytes h (by omega), fun h => h.trans (List.prefix_append _ _)⟩
  by_cases hp : l <+: w
  · obtain ⟨k, rfl⟩ := hp
    have := Same.matched (pos := pos) (w := l ++ k) (r := r) (r' := r') l k () 0 rfl
    simp only [Peg.lit]
    rw [if_pos ((key r).mpr (List.prefix_append _ _)), if_pos ((key r').mpr (List.prefix_append _ _))]
    simpa using this
  · simp only [Peg.lit]
    rw [if_neg (fun h => hp ((key r).mp h)), if_neg (fun h => hp ((key r').mp h))]
    exact .failed _

theorem Loc.orElse {α} {p q : P α} (hp : Loc p) (hq : Loc q) : Loc (orElse p q) := by
  constructor
  · obtain ⟨f, hf⟩ := hp.sem
    obtain ⟨g, hg⟩ := hq.sem
    exact ⟨_, .orElse hf hg⟩
  intro pos w r r' h
  have hp' := hp.loc pos w r r'
  have hq' := hq.loc pos w r r'
  simp only [Peg.orElse] at h ⊢
  rcases hpi : p ⟨pos, w ++ r⟩ with ⟨rs, n⟩
  rw [hpi] at h hp'
  cases rs with
  | diverge => exact .diverge _ _
  | matched i v =>
    simp only at h ⊢
    have := hp' h
    generalize p ⟨pos, w ++ r'⟩ = o at this
    cases this
    exact .matched _ _ _ _ (by assumption)
  | failed =>
    simp only at h ⊢
    have hr : reach ⟨pos, w ++ r⟩ (q ⟨pos, w ++ r⟩) ≤
        reach ⟨pos, w ++ r⟩ ⟨(q ⟨pos, w ++ r⟩).res, max n (q ⟨pos, w ++ r⟩).far⟩ := by
      simp only [reach]; split <;> omega
    have hr2 : max pos n ≤ reach ⟨pos, w ++ r⟩ ⟨(q ⟨pos, w ++ r⟩).res, max n (q ⟨pos, w ++ r⟩).far⟩ := by
      simp only [reach]; split <;> omega
    have h1 := hp' (by simp only [reach]; omega)
    have h2 := hq' (by omega)
    generalize p ⟨pos, w ++ r'⟩ = o at h1
    cases h1
    simp only
    generalize q ⟨pos, w ++ r⟩ = o1 at h2
    generalize q ⟨pos, w ++ r'⟩ = o2 at h2
    cases h2 with
    | failed m => exact .failed _
    | matched u' w'' v' m hw => exact .matched _ _ _ _ hw
    | diverge o m => exact .diverge _ _

theorem Loc.opt {α} {p : P α} (hp : Loc p) : Loc (opt p) := by
  constructor
  · obtain ⟨f, hf⟩ := hp.sem
    exact ⟨_, .opt hf⟩
  intro pos w r r' h
  have hp' := hp.loc pos w r r'
  simp only [Peg.opt] at h ⊢
  rcases hpi : p ⟨pos, w ++ r⟩ with ⟨rs, n⟩
  rw [hpi] at h hp'
  cases rs with
  | diverge => exact .diverge _ _
  | matched i v =>
    simp only at h ⊢
    have := hp' h
    generalize p ⟨pos, w ++ r'⟩ = o at this
    cases this
    exact .matched _ _ _ _ (by assumption)
  | failed =>
    simp only at h ⊢
    have := hp' (by simp only [reach] at h ⊢; omega)
    generalize p ⟨pos, w ++ r'⟩ = o at this
    cases this
    have := Same.matched (pos := pos) (w := w) (r := r) (r' := r') [] w (none : Option α) n rfl
    simpa [bytes] using this

theorem Loc.slice {α} {p : P α} (hp : Loc p) : Loc (slice p) := by
  constructor
  · obtain ⟨f, hf⟩ := hp.sem
    exact ⟨_, .slice hf⟩
  intro pos w r r' h
  have hp' := hp.loc pos w r r'
  simp only [Peg.slice] at h ⊢
  rcases hpi : p ⟨pos, w ++ r⟩ with ⟨rs, n⟩
  rw [hpi] at h hp'
  cases rs with
  | diverge => exact .diverge _ _
  | matched i v =>
    simp only at h ⊢
    have := hp' h
    generalize p ⟨pos, w ++ r'⟩ = o at this
    cases this with
    | matched u w' v n hw =>
      subst hw
      have e : ∀ r : Str, ((u ++ w') ++ r).take (((u ++ w') ++ r).length - (w' ++ r).length) = u := by
        intro r
        have : ((u ++ w') ++ r).length - (w' ++ r).length = u.length := by
          simp only [List.length_append]; omega
        rw [this, List.append_assoc, List.take_left' rfl]
      simp only [e]
      exact .matched _ _ _ _ rfl
  | failed =>
    simp only at h ⊢
    have := hp' (by simp only [reach] at h ⊢; omega)
    generalize p ⟨pos, w ++ r'⟩ = o at this
    cases this
    exact .failed _

theorem Loc.starN {α} {p : P α} (hp : Loc p) (n m : Nat) : ∀ pos w r r',
    (starN p m ⟨pos, w ++ r'⟩).res ≠ .diverge →
    reach ⟨pos, w ++ r⟩ (starN p n ⟨pos, w ++ r⟩) + 6 ≤ pos + bytes w →
    Same pos w r r' (starN p n ⟨pos, w ++ r⟩) (starN p m ⟨pos, w ++ r'⟩) := by
  induction n generalizing m with
  | zero => intro pos w r r' _ _; exact .diverge _ _
  | succ n ih =>
    intro pos w r r' hd h
    cases m with
    | zero => exact absurd rfl hd
    | succ m =>
      have hp' := hp.loc pos w r r'
      simp only [Peg.starN] at h hd ⊢
      rcases hpi : p ⟨pos, w ++ r⟩ with ⟨rs, k⟩
      rw [hpi] at h hp'
      cases rs with
      | diverge => exact .diverge _ _
      | failed =>
        simp only at h ⊢
        have := hp' (by simp only [reach] at h ⊢; omega)
        generalize p ⟨pos, w ++ r'⟩ = o at this hd
        cases this
        have := Same.matched (pos := pos) (w := w) (r := r) (r' := r') [] w ([] : List α) k rfl
        simpa [bytes] using this
      | matched i' v =>
        simp only at h ⊢
        have hmono : ∀ n i i' (v : List α), (Peg.starN p n i).res = .matched i' v → i.pos ≤ i'.pos := by
          intro n
          induction n with
          | zero => intro i i' v h; simp [Peg.starN] at h
          | succ n ih =>
            intro i i' v h
            simp only [Peg.starN] at h
            have hf := hp.fwd i
            rcases hpi : p i with ⟨rs, k⟩
            rw [hpi] at h hf
            cases rs with
            | diverge => simp at h
            | failed => simp only [Res.matched.injEq] at h; rw [h.1]; exact Nat.le_refl _
            | matched j v' =>
              simp only at h
              have h1 := hf j v' rfl
              have h2 := ih j
              rcases hst : Peg.starN p n j with ⟨rs', k'⟩
              rw [hst] at h h2
              cases rs' with
              | diverge => simp at h
              | failed => simp at h
              | matched j' vs =>
                simp only [Res.matched.injEq] at h
                have := h2 j' vs rfl
                rw [← h.1]; omega
        have hnf : ∀ n i, (Peg.starN p n i).res ≠ .failed := by
          intro n
          induction n with
          | zero => intro i h; simp [Peg.starN] at h
          | succ n ih =>
            intro i h
            simp only [Peg.starN] at h
            rcases hpi : p i with ⟨rs, k⟩
            rw [hpi] at h
            cases rs with
            | diverge => simp at h
            | failed => simp at h
            | matched j v' =>
              simp only at h
              have h2 := ih j
              rcases hst : Peg.starN p n j with ⟨rs', k'⟩
              rw [hst] at h h2
              cases rs' with
              | diverge => simp at h
              | failed => exact h2 rfl
              | matched j' vs => simp at h
        have hm1 := hmono n i'
        have hn1 := hnf n i'
        have ihh := ih m
        rcases hst : Peg.starN p n i' with ⟨rs', k'⟩
        rw [hst] at h hm1 hn1
        cases rs' with
        | diverge => exact .diverge _ _
        | failed => exact absurd rfl hn1
        | matched i'' vs =>
          have hle := hm1 i'' vs rfl
          simp only [reach] at h
          have h1 := hp' (by simp only [reach]; omega)
          generalize hq' : p ⟨pos, w ++ r'⟩ = o at h1 hd
          cases h1 with
          | matched u w' v k hw =>
            subst hw
            have h2 := ihh (pos + bytes u) w' r r' (by
                simp only at hd
                intro hc; rcases hst2 : Peg.starN p m ⟨pos + bytes u, w' ++ r'⟩ with ⟨rs2, k2⟩
                rw [hst2] at hc hd
                simp only at hc; subst hc; exact hd rfl) (by
              rw [hst]; simp only [reach]; rw [bytes_append] at h; simp only at hle; omega)
            rw [hst] at h2
            simp only
            generalize Peg.starN p m ⟨pos + bytes u, w' ++ r'⟩ = o2 at h2
            cases h2 with
            | matched u' w'' v' m hw =>
              have := Same.matched (pos := pos) (w := u ++ w') (r := r) (r' := r') (u ++ u') w'' (v :: vs) (max k k')
                (by rw [hw, List.append_assoc])
              simpa [bytes_append, Nat.add_assoc] using this

theorem Loc.star {α} {p : P α} (hp : Loc p) (hs : ∃ f, Sem (star p) f) : Loc (star p) := by
  refine ⟨hs, ?_⟩
  intro pos w r r' h
  obtain ⟨f, hf⟩ := hs
  exact Loc.starN hp _ _ pos w r r' (hf.noDiv ⟨pos, w ++ r'⟩) h

/-! ### Marks at the start and at the end -/

theorem Covers.lit (l : Str) : Covers (lit l) := by
  intro i h
  simp only [Peg.lit] at h ⊢
  split at h
  · cases h
  · rename_i hh; rw [if_neg hh]; exact Nat.le_refl _

theorem Covers.opt {α} {p : P α} : Covers (opt p) := by
  intro i h
  simp only [Peg.opt] at h
  rcases hpi : p i with ⟨rs, n⟩
  rw [hpi] at h
  cases rs <;> simp at h

theorem Covers.starN {α} {p : P α} (n : Nat) (i : Inp) : (Peg.starN p n i).res ≠ .failed := by
  induction n generalizing i with
  | zero => intro h; simp [Peg.starN] at h
  | succ n ih =>
    intro h
    simp only [Peg.starN] at h
    rcases hpi : p i with ⟨rs, k⟩
    rw [hpi] at h
    cases rs with
    | diverge => simp at h
    | failed => simp at h
    | matched j v' =>
      simp only at h
      have h2 := ih j
      rcases hst : Peg.starN p n j with ⟨rs', k'⟩
      rw [hst] at h h2
      cases rs' with
      | diverge => simp at h
      | failed => exact h2 rfl
      | matched j' vs => simp at h

theorem Covers.star {α} {p : P α} : Covers (star p) := fun i h => absurd h (Covers.starN _ i)

theorem Covers.pure {α} (v : α) : Covers (pure v : P α) := by
  intro i h; simp [Pure.pure, P.pure] at h

theorem Covers.slice {α} {p : P α} (hp : Covers p) : Covers (slice p) := by
  intro i h
  have := hp i
  simp only [Peg.slice] at h ⊢
  rcases hpi : p i with ⟨rs, n⟩
  rw [hpi] at h this
  cases rs with
  | failed => exact this rfl
  | matched j v => simp at h
  | diverge => simp at h

theorem Covers.orElse {α} {p q : P α} (hq : Covers q) : Covers (orElse p q) := by
  intro i h
  have := hq i
  simp only [Peg.orElse] at h ⊢
  rcases hpi : p i with ⟨rs, n⟩
  rw [hpi] at h
  cases rs with
  | failed => have := this h; simp only; omega
  | matched j v => simp at h
  | diverge => simp at h

/-- A sequence covers its start if its first rule does, and does so also when it matches, or if the second
covers its own start. -/
theorem Covers.bind {α β} {p : P α} {q : α → P β} (hp : Covers p)
    (h : (MarksEnd p ∨ ∀ v, Covers (q v)) ∧ Fwd p) : Covers (p >>= q) := by
  intro i hf
  have hp' := hp i
  have hfw := h.2 i
  have hme := fun hm : MarksEnd p => hm i
  simp only [Bind.bind, P.bind] at hf ⊢
  rcases hpi : p i with ⟨rs, n⟩
  rw [hpi] at hf hp' hfw hme
  cases rs with
  | failed => exact hp' rfl
  | diverge => simp at hf
  | matched j v =>
    have h1 := hfw j v rfl
    simp only at hf ⊢
    rcases h.1 with hm | hm
    · have := hme hm j v rfl; simp only at this; omega
    · have := hm v j hf; omega

theorem MarksEnd.span (c : Char → Bool) : MarksEnd (star (elem c)) := by
  have : ∀ n i i' v, (starN (elem c) n i).res = .matched i' v → i'.pos ≤ (starN (elem c) n i).far := by
    intro n
    induction n with
    | zero => intro i i' v h; simp [Peg.starN] at h
    | succ n ih =>
      intro i i' v h
      simp only [Peg.starN] at h ⊢
      have he : ∀ k, elem c i = ⟨.failed, k⟩ → k = i.pos := by
        intro k hk
        simp only [Peg.elem] at hk
        split at hk
        · split at hk
          · cases hk
          · injection hk with _ hk; exact hk.symm
        · injection hk with _ hk; exact hk.symm
      rcases hpi : elem c i with ⟨rs, k⟩
      rw [hpi] at h
      cases rs with
      | diverge => simp at h
      | failed =>
        simp only [Res.matched.injEq] at h
        simp only
        rw [he k hpi, h.1]; exact Nat.le_refl _
      | matched j v' =>
        simp only at h ⊢
        have h2 := ih j
        rcases hst : Peg.starN (elem c) n j with ⟨rs', k'⟩
        rw [hst] at h h2
        cases rs' with
        | diverge => simp at h
        | failed => simp at h
        | matched j' vs =>
          simp only [Res.matched.injEq] at h
          have := h2 j' vs rfl
          simp only at this ⊢
          rw [← h.1]; omega
  intro i i' v h
  exact this _ i i' v h

end Packetc.Peg

namespace Packetc.Parser
open Peg Ast

theorem span_loc (c : Char → Bool) : Loc (star (elem c)) := .star (.elem c) ⟨_, span_sem c⟩

theorem reserved_loc : Loc reserved :=
  .orElse (.lit (by decide)) <| .orElse (.lit (by decide)) <| .orElse (.lit (by decide)) <|
  .orElse (.lit (by decide)) <| .orElse (.lit (by decide)) <| .orElse (.lit (by decide)) <|
  .orElse (.lit (by decide)) <| .orElse (.lit (by decide)) <| .orElse (.lit (by decide)) (.lit (by decide))

theorem span_within {c : Char → Bool} {w r r' : Str} (h : bytes ((w ++ r).takeWhile c) < bytes w) :
    (w ++ r').takeWhile c = w.takeWhile c ∧ (w ++ r').dropWhile c = w.dropWhile c ++ r' := by
  induction w with
  | nil => simp [bytes] at h
  | cons x xs ih =>
    rw [List.cons_append] at h ⊢
    by_cases hx : c x = true
    · rw [List.takeWhile_cons_of_pos hx] at h
      have := ih (by simp only [bytes] at h; omega)
      simp [hx, this]
    · simp [hx]

theorem ident_loc : Loc ident := by
  refine ⟨⟨_, ident_sem⟩, ?_⟩
  intro pos w r r' h
  have hi : ∀ i, ident i = ⟨mkRes i (identF i.rest), 0⟩ := by
    intro i
    have := ident_sem.res i
    rw [← this]; rfl
  rw [hi] at h ⊢
  rw [hi]
  have hs := reach_start ⟨pos, w ++ r⟩ (⟨mkRes ⟨pos, w ++ r⟩ (identF (w ++ r)), 0⟩ : Out Str)
  simp only at hs h
  have hlen : ∀ l ∈ reservedLits, bytes l ≤ 6 := by decide
  have key : ∀ r, (∀ l ∈ reservedLits, ¬ l <+: w ++ r) ↔ (∀ l ∈ reservedLits, ¬ l <+: w) := by
    intro r
    constructor
    · intro h l hl hp; exact h l hl (hp.trans (List.prefix_append _ _))
    · intro h' l hl hp
      exact h' l hl (prefix_of_bytes hp (by have := hlen l hl; omega))
  cases w with
  | nil => simp only [bytes] at h; omega
  | cons c cs =>
    by_cases hres : ∀ l ∈ reservedLits, ¬ l <+: c :: cs
    · by_cases hc : isStart c = true
      · have e : ∀ r, identF (c :: cs ++ r) =
            some (c :: (cs ++ r).takeWhile isWord, (cs ++ r).dropWhile isWord) := by
          intro r
          unfold identF
          rw [if_pos ((key r).mpr hres), List.cons_append]
          simp [hc]
        rw [e, mkRes] at h
        rw [e, e]
        simp only [mkRes]
        have etd : ∀ r, cs ++ r = (cs ++ r).takeWhile isWord ++ (cs ++ r).dropWhile isWord :=
          fun r => List.takeWhile_append_dropWhile.symm
        have eb : ∀ r, bytes (c :: cs ++ r) - bytes ((cs ++ r).dropWhile isWord) =
            bytes (c :: (cs ++ r).takeWhile isWord) := by
          intro r
          have h1 : bytes (c :: cs ++ r) = c.utf8Size + bytes (cs ++ r) := rfl
          have h2 : bytes (c :: (cs ++ r).takeWhile isWord) = c.utf8Size + bytes ((cs ++ r).takeWhile isWord) := rfl
          have h3 := congrArg bytes (etd r)
          rw [bytes_append _ ((cs ++ r).dropWhile isWord)] at h3
          omega
        have hlt : bytes ((cs ++ r).takeWhile isWord) < bytes cs := by
          simp only [reach, eb] at h
          have h2 : bytes (c :: (cs ++ r).takeWhile isWord) = c.utf8Size + bytes ((cs ++ r).takeWhile isWord) := rfl
          have h3 : bytes (c :: cs) = c.utf8Size + bytes cs := rfl
          omega
        have k := fun r' => span_within (r' := r') hlt
        simp only [eb]
        rw [(k r).1, (k r).2, (k r').1, (k r').2]
        exact .matched (c :: cs.takeWhile isWord) (cs.dropWhile isWord) _ _
          (by rw [List.cons_append, List.takeWhile_append_dropWhile])
      · have e : ∀ r, identF (c :: cs ++ r) = none := by
          intro r
          unfold identF
          rw [if_pos ((key r).mpr hres), List.cons_append]
          simp [hc]
        rw [e, e]; exact .failed _
    · have e : ∀ r, identF (c :: cs ++ r) = none := by
        intro r
        unfold identF
        rw [if_neg (fun h => hres ((key r).mp h))]
      rw [e, e]; exact .failed _

theorem comment_loc : Loc comment :=
  .bind (.lit (by decide)) (fun _ => .bind (span_loc _) (fun _ => .bind (span_loc _) (fun _ => .pure _)
    (.inl (.span _))) (.inl (.span _))) (.inr fun _ => .bind .star ⟨.inl (.span _), (span_loc _).fwd⟩)
theorem enumVariant_loc : Loc enumVariant :=
  .bind ident_loc (fun _ => .bind (span_loc _) (fun _ => .bind (.opt (.lit (by decide))) (fun _ =>
    .bind (span_loc _) (fun _ => .pure _) (.inl (.span _)))
      (.inr fun _ => .bind .star ⟨.inl (.span _), (span_loc _).fwd⟩)) (.inl (.span _)))
    (.inr fun _ => .bind .star ⟨.inl (.span _), (span_loc _).fwd⟩)

/-- After a run of characters. -/
theorem _root_.Packetc.Peg.Loc.span {α} {c : Char → Bool} {q : List Char → P α} (hq : ∀ v, Loc (q v)) :
    Loc (star (elem c) >>= q) := .bind (span_loc _) hq (.inl (.span _))
theorem _root_.Packetc.Peg.Covers.span {α} {c : Char → Bool} {q : List Char → P α} : Covers (star (elem c) >>= q) :=
  .bind .star ⟨.inl (.span _), (span_loc _).fwd⟩
/-- After a literal. -/
theorem _root_.Packetc.Peg.Loc.litThen {α} {l : Str} {q : Unit → P α} (hl : bytes l ≤ 6) (hq : ∀ v, Loc (q v))
    (hc : ∀ v, Covers (q v)) : Loc (lit l >>= q) := .bind (.lit hl) hq (.inr hc)
theorem _root_.Packetc.Peg.Covers.litThen {α} {l : Str} {q : Unit → P α} (hc : ∀ v, Covers (q v)) : Covers (lit l >>= q) :=
  .bind (.lit l) ⟨.inr hc, (Sem.lit l).fwd⟩

theorem variants_loc : Loc (star enumVariant) :=
  .star enumVariant_loc ⟨_, .star enumVariant_sem enumVariantF_consumes⟩

theorem enumType_loc : Loc enumType :=
  .span fun _ => .litThen (by decide) (fun _ => .span fun _ => .litThen (by decide) (fun _ => .span fun _ =>
    .bind variants_loc (fun _ => .span fun _ => .litThen (by decide) (fun _ => .pure _) (fun _ => .pure _))
      (.inr fun _ => .span)) (fun _ => .span)) (fun _ => .span)

theorem isOptional_loc : Loc isOptional := .bind (.opt (.lit (by decide))) (fun _ => .pure _) (.inr fun _ => .pure _)

theorem string_loc : Loc string := .slice (span_loc _)

theorem fieldTail_loc (i : Str) : Loc (do
    let _ ← blanks
    let o ← isOptional
    lit ":".toList
    let _ ← blanks
    let t ← string
    let a ← opt (lit "[]".toList)
    let _ ← layout
    let _ ← opt (lit ",".toList)
    let _ ← layout
    return some (i, Unresolved.mk t a.isSome o)) :=
  .span fun _ => .bind isOptional_loc (fun _ => .litThen (by decide) (fun _ => .span fun _ =>
    .bind string_loc (fun _ => .bind (.opt (.lit (by decide))) (fun _ => .span fun _ =>
      .bind (.opt (.lit (by decide))) (fun _ => .span fun _ => .pure _) (.inr fun _ => .span))
        (.inr fun _ => .span))
      (.inr fun _ => .bind .opt ⟨.inr fun _ => .span, (Sem.opt (.lit _)).fwd⟩)) (fun _ => .span))
    (.inr fun _ => .litThen fun _ => .span)

theorem structField_loc : Loc structField :=
  .orElse (.bind comment_loc (fun _ => .span fun _ => .pure _) (.inr fun _ => .span))
    (.bind ident_loc fieldTail_loc (.inr fun _ => .span))

theorem fields_loc : Loc (star structField) :=
  .star structField_loc ⟨_, .star structField_sem structFieldF_consumes⟩

theorem structType_loc : Loc structType :=
  .span fun _ => .litThen (by decide) (fun _ => .span fun _ => .litThen (by decide) (fun _ => .span fun _ =>
    .bind fields_loc (fun _ => .span fun _ => .litThen (by decide) (fun _ => .pure _) (fun _ => .pure _))
      (.inr fun _ => .span)) (fun _ => .span)) (fun _ => .span)

theorem type_loc : Loc type :=
  .orElse (.bind enumType_loc (fun _ => .pure _) (.inr fun _ => .pure _))
    (.bind structType_loc (fun _ => .pure _) (.inr fun _ => .pure _))

theorem type_covers : Covers type :=
  .orElse (.bind .span ⟨.inr fun _ => .pure _, structType_loc.fwd⟩)

theorem decl_loc : Loc decl :=
  .span fun _ => .bind ident_loc (fun _ => .span fun _ => .litThen (by decide) (fun _ => .span fun _ =>
    .bind type_loc (fun _ => .span fun _ => .pure _) (.inr fun _ => .span)) (fun _ => .span))
    (.inr fun _ => .span)

theorem export_loc : Loc exportRule :=
  .litThen (by decide) (fun _ => .span fun _ => .bind string_loc (fun _ => .pure _) (.inr fun _ => .pure _))
    (fun _ => .span)

theorem line_loc : Loc line :=
  .orElse (.span fun _ => .bind comment_loc (fun _ => .span fun _ => .pure _) (.inr fun _ => .span))
    (.orElse (.span fun _ => .bind export_loc (fun _ => .span fun _ => .pure _) (.inr fun _ => .span))
      (.span fun _ => .bind decl_loc (fun _ => .span fun _ => .pure _) (.inr fun _ => .span)))

theorem lines_loc : Loc (star line) := .star line_loc ⟨_, .star line_sem lineF_consumes⟩

theorem schema_loc : Loc schemaRule :=
  .bind (.opt (span_loc _)) (fun _ => .bind lines_loc (fun _ => .pure _) (.inr fun _ => .pure _))
    (.inr fun _ => .bind .star ⟨.inr fun _ => .pure _, lines_loc.fwd⟩)

/-- The error reported for a text depends only on the text up to six bytes past the reported position. -/
theorem schema_err_local {w r : Str} {off : Nat} (h : schema (w ++ r) = .err off) (hw : off + 6 ≤ bytes w)
    (r' : Str) : schema (w ++ r') = .err off := by
  unfold schema parseAll at h ⊢
  have hl := schema_loc.loc 0 w r r'
  have hv : Fwd schemaRule := schema_sem.fwd
  have hf := hv ⟨0, w ++ r⟩
  rcases hp : schemaRule ⟨0, w ++ r⟩ with ⟨rs, n⟩
  rw [hp] at h hl hf
  cases rs with
  | diverge => simp at h
  | failed =>
    simp only [ParseOutcome.err.injEq] at h
    subst h
    have := hl (by simp only [reach]; omega)
    generalize schemaRule ⟨0, w ++ r'⟩ = o at this
    cases this
    rfl
  | matched i v =>
    simp only at h
    split at h
    · cases h
    · simp only [ParseOutcome.err.injEq] at h
      subst h
      have := hl (by simp only [reach]; omega)
      generalize schemaRule ⟨0, w ++ r'⟩ = o at this
      cases this with
      | matched u w' v n hw' =>
        subst hw'
        have : w' ≠ [] := by
          rintro rfl
          simp only [bytes_append, bytes] at hw
          omega
        simp only
        rw [if_neg (by simp [this])]

end Packetc.Parser
