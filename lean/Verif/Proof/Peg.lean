import Verif.Model.Parser
/-!
Pure denotations of PEG rules: a rule behaves as a partial function on the remaining text.
-/

namespace Packetc.Peg

theorem bytes_append (a b : Str) : bytes (a ++ b) = bytes a + bytes b := by
  induction a with
  | nil => simp [bytes]
  | cons c cs ih => simp [bytes, ih]; omega

theorem bytes_suffix {r s : Str} (h : r <:+ s) : bytes r ≤ bytes s := by
  obtain ⟨t, rfl⟩ := h
  rw [bytes_append]; omega

/-- Partial functions on text. -/
abbrev F (α : Type) := Str → Option (α × Str)

def F.pure {α} (v : α) : F α := fun s => some (v, s)
def F.bind {α β} (f : F α) (g : α → F β) : F β := fun s =>
  match f s with
  | some (v, r) => g v r
  | none => none

def mkRes {α} (i : Inp) : Option (α × Str) → Res α
  | some (v, r) => .matched ⟨i.pos + (bytes i.rest - bytes r), r⟩ v
  | none => .failed

/-- `p` behaves as `f`: in particular it terminates, and advances the position by what it consumes. -/
structure Sem {α} (p : P α) (f : F α) : Prop where
  res : ∀ i, (p i).res = mkRes i (f i.rest)
  suffix : ∀ s v r, f s = some (v, r) → r <:+ s

theorem Sem.pure {α} (v : α) : Sem (pure v : P α) (F.pure v) := by
  constructor
  · intro i; simp [Pure.pure, P.pure, F.pure, mkRes]
  · intro s v r h; simp [F.pure] at h; simp [h]

theorem bind_res {α β} (p : P α) (f : α → P β) (i : Inp) :
    ((p >>= f) i).res = match (p i).res with
      | .matched i' v => (f v i').res
      | .failed => .failed
      | .diverge => .diverge := by
  simp only [Bind.bind, P.bind]
  rcases h : p i with ⟨r, n⟩
  cases r <;> simp

theorem Sem.bind {α β} {p : P α} {f : F α} {q : α → P β} {g : α → F β}
    (hp : Sem p f) (hq : ∀ v, Sem (q v) (g v)) : Sem (p >>= q) (F.bind f g) := by
  constructor
  · intro i
    rw [bind_res, hp.res]
    unfold F.bind
    cases hf : f i.rest with
    | none => simp [mkRes]
    | some vr =>
      obtain ⟨v, r⟩ := vr
      simp only [mkRes]
      rw [(hq v).res]
      cases hg : g v r with
      | none => simp [mkRes]
      | some wr =>
        obtain ⟨w, r'⟩ := wr
        have h1 := bytes_suffix (hp.suffix _ _ _ hf)
        have h2 := bytes_suffix ((hq v).suffix _ _ _ hg)
        simp [mkRes]; omega
  · intro s w r' h
    unfold F.bind at h
    split at h
    · rename_i v r hf
      exact ((hq v).suffix _ _ _ h).trans (hp.suffix _ _ _ hf)
    · simp at h

def elemF (c : Char → Bool) : F Char
  | [] => none
  | x :: xs => if c x then some (x, xs) else none

theorem Sem.elem (c : Char → Bool) : Sem (elem c) (elemF c) := by
  constructor
  · intro i
    unfold Peg.elem elemF
    split
    · rename_i x xs h
      rw [h]
      split <;> simp_all [mkRes, bytes]
    · rename_i h; simp [h, mkRes]
  · intro s v r h
    cases s with
    | nil => simp [elemF] at h
    | cons x xs =>
      simp only [elemF] at h
      split at h
      · simp at h; obtain ⟨rfl, rfl⟩ := h; exact List.suffix_cons _ _
      · simp at h

def litF (l : Str) : F Unit := fun s => if l.isPrefixOf s then some ((), s.drop l.length) else none

theorem Sem.lit (l : Str) : Sem (lit l) (litF l) := by
  constructor
  · intro i
    unfold Peg.lit litF
    split
    · rename_i h
      rw [List.isPrefixOf_iff_prefix] at h
      obtain ⟨t, ht⟩ := h
      simp [mkRes, ← ht, bytes_append]
    · simp [mkRes]
  · intro s v r h
    simp only [litF] at h
    split at h
    · simp at h; rw [← h]; exact List.drop_suffix _ _
    · simp at h

def orF {α} (f g : F α) : F α := fun s => match f s with | some x => some x | none => g s

theorem Sem.orElse {α} {p q : P α} {f g : F α} (hp : Sem p f) (hq : Sem q g) :
    Sem (orElse p q) (orF f g) := by
  constructor
  · intro i
    have h1 := hp.res i
    have h2 := hq.res i
    unfold Peg.orElse orF
    cases hf : f i.rest with
    | none =>
      rw [hf] at h1
      rcases hpi : p i with ⟨r, n⟩
      rw [hpi] at h1; simp only [mkRes] at h1; subst h1
      simp only; rw [← h2]
    | some x =>
      rw [hf] at h1
      rcases hpi : p i with ⟨r, n⟩
      rw [hpi] at h1; simp only at h1; subst h1
      obtain ⟨v, r⟩ := x
      simp [mkRes]
  · intro s v r h
    simp only [orF] at h
    split at h
    · rename_i x hx; exact hp.suffix _ _ _ (by rw [hx, h])
    · exact hq.suffix _ _ _ h

def optF {α} (f : F α) : F (Option α) := fun s =>
  match f s with | some (v, r) => some (some v, r) | none => some (none, s)

theorem Sem.opt {α} {p : P α} {f : F α} (hp : Sem p f) : Sem (opt p) (optF f) := by
  constructor
  · intro i
    have h1 := hp.res i
    unfold Peg.opt optF
    rcases hpi : p i with ⟨r, n⟩
    rw [hpi] at h1; simp only at h1; subst h1
    cases hf : f i.rest with
    | none => simp [mkRes]
    | some x => obtain ⟨v, r⟩ := x; simp [mkRes]
  · intro s v r h
    simp only [optF] at h
    split at h
    · rename_i x hx hf
      simp only [Option.some.injEq, Prod.mk.injEq] at h
      exact hp.suffix _ _ _ (by rw [hf]; simp [h.2]; rfl)
    · simp at h; simp [h.2]

def notF {α} (f : F α) : F Unit := fun s => match f s with | some _ => none | none => some ((), s)

theorem Sem.notP {α} {p : P α} {f : F α} (hp : Sem p f) : Sem (notP p) (notF f) := by
  constructor
  · intro i
    unfold Peg.notP notF
    rw [hp.res]
    cases hf : f i.rest with
    | none => simp [mkRes]
    | some x => obtain ⟨v, r⟩ := x; simp [mkRes]
  · intro s v r h
    simp only [notF] at h
    split at h <;> simp at h
    simp [h]

theorem Sem.quiet {α} {p : P α} {f : F α} (hp : Sem p f) : Sem (quiet p) f :=
  ⟨fun i => by simp [Peg.quiet, hp.res], hp.suffix⟩

def sliceF {α} (f : F α) : F Str := fun s =>
  match f s with | some (_, r) => some (s.take (s.length - r.length), r) | none => none

theorem Sem.slice {α} {p : P α} {f : F α} (hp : Sem p f) : Sem (slice p) (sliceF f) := by
  constructor
  · intro i
    have h1 := hp.res i
    unfold Peg.slice sliceF
    rcases hpi : p i with ⟨r, n⟩
    rw [hpi] at h1; simp only at h1; subst h1
    cases hf : f i.rest with
    | none => simp [mkRes]
    | some x => obtain ⟨v, r⟩ := x; simp [mkRes]
  · intro s v r h
    simp only [sliceF] at h
    split at h
    · rename_i x r hf
      simp only [Option.some.injEq, Prod.mk.injEq] at h
      exact hp.suffix _ _ _ (by rw [hf]; simp [h.2]; rfl)
    · simp at h

/-- Greedy repetition of a function that consumes input. -/
def manyN {α} (f : F α) : Nat → Str → List α × Str
  | 0, s => ([], s)
  | n + 1, s =>
    match f s with
    | none => ([], s)
    | some (v, r) => (v :: (manyN f n r).1, (manyN f n r).2)

def many {α} (f : F α) (s : Str) : List α × Str := manyN f s.length s

def Consumes {α} (f : F α) : Prop := ∀ s v r, f s = some (v, r) → r.length < s.length

theorem manyN_fuel {α} {f : F α} (hc : Consumes f) :
    ∀ n m s, s.length ≤ n → s.length ≤ m → manyN f n s = manyN f m s := by
  intro n
  induction n with
  | zero =>
    intro m s hn _
    have hs : s = [] := List.eq_nil_of_length_eq_zero (by omega)
    subst hs
    cases m with
    | zero => rfl
    | succ m =>
      simp only [manyN]
      cases hf : f [] with
      | none => rfl
      | some vr => have := hc _ _ _ hf; simp at this
  | succ n ih =>
    intro m s hn hm
    cases m with
    | zero =>
      have hs : s = [] := List.eq_nil_of_length_eq_zero (by omega)
      subst hs
      simp only [manyN]
      cases hf : f [] with
      | none => rfl
      | some vr => have := hc _ _ _ hf; simp at this
    | succ m =>
      simp only [manyN]
      cases hf : f s with
      | none => rfl
      | some vr =>
        have := hc _ _ _ hf
        simp only
        rw [ih m vr.2 (by omega) (by omega)]

theorem many_eq {α} {f : F α} (hc : Consumes f) (s : Str) :
    many f s = match f s with
      | none => ([], s)
      | some (v, r) => (v :: (many f r).1, (many f r).2) := by
  unfold many
  rw [manyN_fuel hc s.length (s.length + 1) s (Nat.le_refl _) (Nat.le_succ _)]
  simp only [manyN]
  cases hf : f s with
  | none => rfl
  | some vr =>
    have := hc _ _ _ hf
    simp only
    rw [manyN_fuel hc s.length vr.2.length vr.2 (by omega) (Nat.le_refl _)]

def starF {α} (f : F α) : F (List α) := fun s => some (many f s)

theorem starN_res {α} {p : P α} {f : F α} (hp : Sem p f) (hc : Consumes f) :
    ∀ n i, i.rest.length < n → (starN p n i).res = mkRes i (some (manyN f (n - 1) i.rest)) := by
  intro n
  induction n with
  | zero => intro i h; omega
  | succ n ih =>
    intro i hn
    have h1 := hp.res i
    simp only [starN, Nat.add_sub_cancel]
    rcases hpi : p i with ⟨r, k⟩
    rw [hpi] at h1; simp only at h1; subst h1
    cases hf : f i.rest with
    | none =>
      have : manyN f n i.rest = ([], i.rest) := by
        cases n <;> simp [manyN, hf]
      simp [mkRes, this]
    | some vr =>
      obtain ⟨v, r⟩ := vr
      have hlt := hc _ _ _ hf
      have hn' : 0 < n := by omega
      obtain ⟨m, rfl⟩ : ∃ m, n = m + 1 := ⟨n - 1, by omega⟩
      have hi := ih ⟨i.pos + (bytes i.rest - bytes r), r⟩ (by simp; omega)
      simp only [Nat.add_sub_cancel] at hi
      have hsuf : ∀ n s, (manyN f n s).2 <:+ s := by
        intro n
        induction n with
        | zero => intro s; simp [manyN]
        | succ n ih =>
          intro s
          simp only [manyN]
          cases hfs : f s with
          | none => simp
          | some vr => exact (ih _).trans (hp.suffix _ _ _ hfs)
      simp only [mkRes]
      rcases hst : starN p (m + 1) ⟨i.pos + (bytes i.rest - bytes r), r⟩ with ⟨r', k'⟩
      rw [hst] at hi; simp only [mkRes] at hi; subst hi
      have e1 := bytes_suffix (hsuf m r)
      have e2 := bytes_suffix (hp.suffix _ _ _ hf)
      simp only [manyN, hf]
      simp; omega

theorem Sem.star {α} {p : P α} {f : F α} (hp : Sem p f) (hc : Consumes f) :
    Sem (star p) (starF f) := by
  constructor
  · intro i
    rw [Peg.star, starN_res hp hc _ _ (Nat.lt_succ_self _)]
    simp [starF, many]
  · intro s v r h
    simp only [starF, Option.some.injEq] at h
    have hsuf : ∀ n s, (manyN f n s).2 <:+ s := by
      intro n
      induction n with
      | zero => intro s; simp [manyN]
      | succ n ih =>
        intro s
        simp only [manyN]
        cases hfs : f s with
        | none => simp
        | some vr => exact (ih _).trans (hp.suffix _ _ _ hfs)
    have := hsuf s.length s
    rw [many] at h
    rw [h] at this; exact this

theorem elemF_consumes (c : Char → Bool) : Consumes (elemF c) := by
  intro s v r h
  cases s with
  | nil => simp [elemF] at h
  | cons x xs => simp only [elemF] at h; split at h <;> simp_all

theorem many_elem (c : Char → Bool) (s : Str) :
    many (elemF c) s = (s.takeWhile c, s.dropWhile c) := by
  induction s with
  | nil => rw [many_eq (elemF_consumes c)]; simp [elemF]
  | cons x xs ih =>
    rw [many_eq (elemF_consumes c)]
    simp only [elemF]
    by_cases hx : c x
    · simp [hx, ih]
    · simp [hx]

end Packetc.Peg
