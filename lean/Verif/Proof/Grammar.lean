import Verif.Proof.Rules
import Verif.Spec.Grammar
import Mathlib.Tactic.Tauto
import Mathlib.Tactic.Set
/-!
The parser accepts exactly the texts of the declarative grammar, with the same syntax tree.
-/

namespace Packetc.Parser
open Peg Ast Grammar

/-! ### Character classes -/

theorem isBlank_iff (c : Char) : isBlank c = true ↔ c = ' ' ∨ c = '\t' := by simp [isBlank]
theorem isNl_iff (c : Char) : isNl c = true ↔ c = '\n' ∨ c = '\r' := by simp [isNl]
theorem isLayout_iff (c : Char) : isLayout c = true ↔ c = ' ' ∨ c = '\t' ∨ c = '\n' ∨ c = '\r' := by
  simp [isLayout, or_assoc]
theorem isStart_iff (c : Char) : isStart c = true ↔ Letter c ∨ c = '_' := by
  simp [isStart, Letter]
theorem isWord_iff (c : Char) : isWord c = true ↔ WordChar c := by
  simp [isWord, WordChar, Letter, Digit, or_assoc]

theorem start_word {c : Char} (h : isStart c = true) : isWord c = true := by
  rw [isStart_iff] at h; rw [isWord_iff]; unfold WordChar; tauto

theorem word_not_layout {c : Char} (h : isWord c = true) : isLayout c = false := by
  cases hl : isLayout c with
  | false => rfl
  | true =>
    rw [isLayout_iff] at hl
    rcases hl with rfl | rfl | rfl | rfl <;> revert h <;> decide

theorem layout_of_blank {c : Char} (h : isBlank c = true) : isLayout c = true := by
  rw [isBlank_iff] at h; rw [isLayout_iff]; tauto
theorem layout_of_nl {c : Char} (h : isNl c = true) : isLayout c = true := by
  rw [isNl_iff] at h; rw [isLayout_iff]; tauto

theorem blank_iff (s : Str) : Blank s ↔ ∀ c ∈ s, isBlank c = true := by simp [Blank, isBlank_iff]
theorem newlines_iff (s : Str) : Newlines s ↔ ∀ c ∈ s, isNl c = true := by simp [Newlines, isNl_iff]
theorem layout_iff (s : Str) : Layout s ↔ ∀ c ∈ s, isLayout c = true := by simp [Layout, isLayout_iff]
theorem word_iff (s : Str) : Word s ↔ ∀ c ∈ s, isWord c = true := by simp [Word, isWord_iff]

/-- The text does not start with a character of the class. -/
def NoHead (p : Char → Bool) (s : Str) : Prop := ∀ c cs, s = c :: cs → p c = false

theorem wordEnd_iff (s : Str) : WordEnd s ↔ NoHead isWord s := by
  simp only [WordEnd, NoHead, ← isWord_iff]; simp
theorem blankEnd_iff (s : Str) : BlankEnd s ↔ NoHead isBlank s := by
  simp only [BlankEnd, NoHead, isBlank]; simp

theorem noHead_dropWhile (p : Char → Bool) (s : Str) : NoHead p (s.dropWhile p) := by
  intro c cs h
  induction s with
  | nil => simp at h
  | cons x xs ih =>
    by_cases hx : p x
    · rw [List.dropWhile_cons_of_pos hx] at h; exact ih h
    · rw [List.dropWhile_cons_of_neg hx] at h; injection h with h1 h2; subst h1; simpa using hx

theorem dropWhile_noHead {p : Char → Bool} {s : Str} (h : NoHead p s) : s.dropWhile p = s := by
  cases s with
  | nil => rfl
  | cons c cs => rw [List.dropWhile_cons_of_neg]; simp [h c cs rfl]
theorem takeWhile_noHead {p : Char → Bool} {s : Str} (h : NoHead p s) : s.takeWhile p = [] := by
  cases s with
  | nil => rfl
  | cons c cs => rw [List.takeWhile_cons_of_neg]; simp [h c cs rfl]

theorem dropWhile_all {p : Char → Bool} {l s : Str} (h : ∀ c ∈ l, p c = true) :
    (l ++ s).dropWhile p = s.dropWhile p := by
  induction l with
  | nil => rfl
  | cons c cs ih =>
    rw [List.cons_append, List.dropWhile_cons_of_pos (h c (by simp))]
    exact ih fun c hc => h c (by simp [hc])
theorem takeWhile_all {p : Char → Bool} {l s : Str} (h : ∀ c ∈ l, p c = true) :
    (l ++ s).takeWhile p = l ++ s.takeWhile p := by
  induction l with
  | nil => rfl
  | cons c cs ih =>
    rw [List.cons_append, List.takeWhile_cons_of_pos (h c (by simp)), List.cons_append]
    rw [ih fun c hc => h c (by simp [hc])]

theorem takeWhile_mem {p : Char → Bool} {s : Str} : ∀ c ∈ s.takeWhile p, p c = true := by
  intro c hc
  have := List.all_takeWhile (p := p) (l := s)
  rw [List.all_eq_true] at this
  exact this c hc

theorem dropWhile_sub {p q : Char → Bool} (hpq : ∀ c, p c = true → q c = true) (s : Str) :
    (s.dropWhile p).dropWhile q = s.dropWhile q := by
  have h := List.takeWhile_append_dropWhile (p := p) (l := s)
  conv => rhs; rw [← h]
  rw [dropWhile_all fun c hc => hpq c (takeWhile_mem c hc)]

theorem dropWhile_sub' {p q : Char → Bool} (hpq : ∀ c, p c = true → q c = true) (s : Str) :
    (s.dropWhile q).dropWhile p = s.dropWhile q := by
  apply dropWhile_noHead
  intro c cs h
  have := noHead_dropWhile q s c cs h
  cases hp : p c with
  | false => rfl
  | true => rw [hpq c hp] at this; exact this

theorem noHead_append {p : Char → Bool} {x y : Str} (hx : x ≠ []) : NoHead p (x ++ y) ↔ NoHead p x := by
  cases x with
  | nil => exact absurd rfl hx
  | cons c cs => simp [NoHead]

theorem noHead_cons {p : Char → Bool} {c : Char} {cs : Str} : NoHead p (c :: cs) ↔ p c = false := by
  simp [NoHead]

/-! ### Identifiers -/

theorem prefix_of_word {r v rest : Str} (hr : ∀ c ∈ r, isWord c = true) (hrest : NoHead isWord rest)
    (h : r <+: v ++ rest) : r <+: v := by
  induction r generalizing v with
  | nil => exact List.nil_prefix
  | cons c r ih =>
    cases v with
    | nil =>
      obtain ⟨k, hk⟩ := h
      have := hrest c (r ++ k) (by simpa using hk.symm)
      rw [hr c (by simp)] at this; cases this
    | cons d v =>
      rw [List.cons_append, List.cons_prefix_cons] at h
      rw [List.cons_prefix_cons]
      exact ⟨h.1, ih (fun c hc => hr c (by simp [hc])) h.2⟩

theorem reserved_words : ∀ r ∈ reservedLits, ∀ c ∈ r, isWord c = true := by decide

theorem reserved_eq : reservedLits = reservedWords := rfl

theorem Ident.head {v : Str} (h : Ident v) : ∃ c cs, v = c :: cs ∧ isStart c = true := by
  obtain ⟨⟨c, cs, rfl, hc, -⟩, -⟩ := h
  exact ⟨c, cs, rfl, (isStart_iff c).mpr hc⟩

theorem Ident.word {v : Str} (h : Ident v) : ∀ c ∈ v, isWord c = true := by
  obtain ⟨⟨c, cs, rfl, hc, hw⟩, -⟩ := h
  intro d hd
  rcases List.mem_cons.mp hd with rfl | hd
  · exact start_word ((isStart_iff d).mpr hc)
  · exact (isWord_iff d).mpr (hw d hd)

theorem identF_complete {v rest : Str} (hv : Ident v) (hrest : NoHead isWord rest) :
    identF (v ++ rest) = some (v, rest) := by
  have hw := Ident.word hv
  obtain ⟨⟨c, cs, rfl, hc, hcs⟩, hres⟩ := hv
  unfold identF
  rw [if_pos]
  · simp only [List.cons_append]
    rw [if_pos ((isStart_iff c).mpr hc)]
    have hcs' : ∀ c ∈ cs, isWord c = true := fun c hc => hw c (by simp [hc])
    rw [takeWhile_all hcs', dropWhile_all hcs', takeWhile_noHead hrest, dropWhile_noHead hrest]
    simp
  · intro r hr hp
    exact hres r (reserved_eq ▸ hr) (prefix_of_word (reserved_words r hr) hrest hp)

theorem identF_sound {s v r : Str} (h : identF s = some (v, r)) :
    s = v ++ r ∧ Ident v ∧ NoHead isWord r := by
  unfold identF at h
  split at h
  · rename_i hres
    cases s with
    | nil => simp at h
    | cons c cs =>
      simp only at h
      split at h
      · rename_i hs
        simp at h
        obtain ⟨rfl, rfl⟩ := h
        refine ⟨by simp [List.takeWhile_append_dropWhile], ⟨⟨c, _, rfl, (isStart_iff c).mp hs, ?_⟩, ?_⟩,
          noHead_dropWhile _ _⟩
        · rw [word_iff]; exact takeWhile_mem
        · intro r hr hp
          refine hres r (reserved_eq ▸ hr) (hp.trans ?_)
          exact ⟨cs.dropWhile isWord, by simp [List.takeWhile_append_dropWhile]⟩
      · simp at h
  · simp at h

theorem identF_none {s : Str} (h : NoHead isStart s) : identF s = none := by
  unfold identF
  split
  · cases s with
    | nil => rfl
    | cons c cs => simp [noHead_cons.mp h]
  · rfl

/-! ### Small pieces -/

/-- Drop a comma if there is one. -/
def dropComma (s : Str) : Str := if ",".toList.isPrefixOf s then s.drop 1 else s

theorem optComma_eq (s : Str) :
    ∃ o, optF (litF ",".toList) s = some (o, dropComma s) := by
  unfold optF litF dropComma
  by_cases h : ",".toList.isPrefixOf s = true
  · exact ⟨some (), by simp only [h, if_true]; rfl⟩
  · exact ⟨none, by simp only [h]; rfl⟩

/-- What follows the last word of a variant or field. -/
def afterItem (s : Str) : Str := (dropComma (s.dropWhile isLayout)).dropWhile isLayout

theorem afterItem_complete {l₁ comma l₂ rest : Str} (h₁ : Layout l₁) (hc : OptComma comma) (h₂ : Layout l₂)
    (hr : NoHead (· == ',') (rest.dropWhile isLayout)) :
    afterItem (l₁ ++ comma ++ l₂ ++ rest) = rest.dropWhile isLayout := by
  rw [layout_iff] at h₁ h₂
  unfold afterItem
  rw [List.append_assoc, List.append_assoc, dropWhile_all h₁]
  rcases hc with rfl | rfl
  · rw [List.nil_append, dropWhile_all h₂]
    have : dropComma (rest.dropWhile isLayout) = rest.dropWhile isLayout := by
      unfold dropComma
      rw [if_neg]
      rw [List.isPrefixOf_iff_prefix]
      rintro ⟨k, hk⟩
      have := hr ',' k (by rw [← hk]; rfl)
      simp at this
    rw [this]
    exact dropWhile_sub (fun _ h => h) _
  · have : ((",".toList ++ (l₂ ++ rest)).dropWhile isLayout) = ',' :: (l₂ ++ rest) := by
      apply dropWhile_noHead; rw [show ",".toList ++ (l₂ ++ rest) = ',' :: (l₂ ++ rest) from rfl, noHead_cons]; decide
    rw [this]
    have : dropComma (',' :: (l₂ ++ rest)) = l₂ ++ rest := by simp [dropComma]
    rw [this, dropWhile_all h₂]

theorem afterItem_sound (s : Str) : ∃ l₁ comma l₂, s = l₁ ++ comma ++ l₂ ++ afterItem s ∧
    Layout l₁ ∧ OptComma comma ∧ Layout l₂ := by
  have e1 := List.takeWhile_append_dropWhile (p := isLayout) (l := s)
  have e2 := List.takeWhile_append_dropWhile (p := isLayout) (l := dropComma (s.dropWhile isLayout))
  have e3 : ∃ comma, s.dropWhile isLayout = comma ++ dropComma (s.dropWhile isLayout) ∧ OptComma comma := by
    unfold dropComma
    split
    · rename_i h
      rw [List.isPrefixOf_iff_prefix] at h
      obtain ⟨k, hk⟩ := h
      exact ⟨",".toList, by rw [← hk]; simp, Or.inr rfl⟩
    · exact ⟨[], rfl, Or.inl rfl⟩
  obtain ⟨comma, hc, hcc⟩ := e3
  refine ⟨s.takeWhile isLayout, comma, (dropComma (s.dropWhile isLayout)).takeWhile isLayout, ?_,
    (layout_iff _).mpr takeWhile_mem, hcc, (layout_iff _).mpr takeWhile_mem⟩
  unfold afterItem
  rw [List.append_assoc, List.append_assoc, e2, ← hc, e1]

/-! ### Enums -/

theorem enumVariantF_eq (s : Str) : enumVariantF s = (identF s).map fun x => (x.1, afterItem x.2) := by
  unfold enumVariantF
  simp only [F.bind]
  cases identF s with
  | none => rfl
  | some x =>
    obtain ⟨v, r⟩ := x
    obtain ⟨o, ho⟩ := optComma_eq (r.dropWhile isLayout)
    simp only [spanF]
    rw [ho]
    simp [F.pure, afterItem]

theorem variant_complete {v t rest : Str} (h : Variant v t rest)
    (hr : NoHead (· == ',') (rest.dropWhile isLayout)) :
    enumVariantF (t ++ rest) = some (v, rest.dropWhile isLayout) := by
  obtain ⟨l₁, comma, l₂, rfl, hv, h₁, hc, h₂, hw⟩ := h
  rw [enumVariantF_eq]
  have : v ++ l₁ ++ comma ++ l₂ ++ rest = v ++ (l₁ ++ comma ++ l₂ ++ rest) := by simp
  rw [this, identF_complete hv ((wordEnd_iff _).mp hw)]
  simp only [Option.map]
  rw [afterItem_complete h₁ hc h₂ hr]

theorem variant_sound {s v r : Str} (h : enumVariantF s = some (v, r)) :
    ∃ t, s = t ++ r ∧ Variant v t r := by
  rw [enumVariantF_eq] at h
  cases hi : identF s with
  | none => simp [hi] at h
  | some x =>
    obtain ⟨v', r'⟩ := x
    simp [hi] at h
    obtain ⟨rfl, rfl⟩ := h
    obtain ⟨rfl, hv, hw⟩ := identF_sound hi
    obtain ⟨l₁, comma, l₂, hr, h₁, hc, h₂⟩ := afterItem_sound r'
    refine ⟨v' ++ l₁ ++ comma ++ l₂, ?_, l₁, comma, l₂, rfl, hv, h₁, hc, h₂, ?_⟩
    · conv => lhs; rw [hr]
      simp
    · rw [← hr, wordEnd_iff]; exact hw

theorem Variant.head {v t rest : Str} (h : Variant v t rest) :
    ∃ c cs, t ++ rest = c :: cs ∧ isStart c = true := by
  obtain ⟨l₁, comma, l₂, rfl, hv, -⟩ := h
  obtain ⟨c, cs, rfl, hc⟩ := Ident.head hv
  exact ⟨c, _, by simp; rfl, hc⟩

theorem start_noLayout {c : Char} {cs s : Str} (h : s = c :: cs) (hc : isStart c = true) :
    s.dropWhile isLayout = s := by
  apply dropWhile_noHead; rw [h, noHead_cons]; exact word_not_layout (start_word hc)

theorem variants_complete {vs : List Str} {ts rest : Str} (h : Variants vs ts rest)
    (hr : ∃ cs, rest.dropWhile isLayout = '}' :: cs) :
    many enumVariantF ((ts ++ rest).dropWhile isLayout) = (vs, rest.dropWhile isLayout) := by
  induction h with
  | nil rest =>
    obtain ⟨cs, hcs⟩ := hr
    rw [List.nil_append, many_eq enumVariantF_consumes, enumVariantF_eq, hcs, identF_none]
    · rfl
    · rw [noHead_cons]; decide
  | @cons v vs t ts rest hv hvs ih =>
    obtain ⟨c, cs, hcs, hc⟩ := Variant.head hv
    rw [List.append_assoc, start_noLayout hcs hc, many_eq enumVariantF_consumes,
      variant_complete hv]
    · simp only
      rw [ih hr]
    · cases hvs with
      | nil =>
        obtain ⟨cs, hcs⟩ := hr
        rw [List.nil_append, hcs, noHead_cons]; decide
      | @cons v' vs' t' ts' _ hv' hvs' =>
        obtain ⟨c', cs', hcs', hc'⟩ := Variant.head hv'
        rw [List.append_assoc, start_noLayout hcs' hc', hcs', noHead_cons]
        cases hq : (c' == ',') with
        | false => rfl
        | true => rw [beq_iff_eq] at hq; subst hq; revert hc'; decide

theorem variants_sound (s : Str) {vs : List Str} {r : Str} (h : many enumVariantF s = (vs, r)) :
    ∃ t, s = t ++ r ∧ Variants vs t r := by
  induction hn : s.length using Nat.strongRecOn generalizing s vs with
  | _ n ih =>
    rw [many_eq enumVariantF_consumes] at h
    cases hv : enumVariantF s with
    | none =>
      rw [hv] at h; simp at h
      obtain ⟨rfl, rfl⟩ := h
      exact ⟨[], rfl, .nil _⟩
    | some x =>
      obtain ⟨v, r'⟩ := x
      rw [hv] at h
      simp only [Prod.mk.injEq] at h
      obtain ⟨rfl, h2⟩ := h
      have hlt := enumVariantF_consumes _ _ _ hv
      obtain ⟨t', ht', hvs⟩ := ih r'.length (by omega) r' (vs := (many enumVariantF r').1)
        (by rw [← h2]) rfl
      obtain ⟨t, ht, hvv⟩ := variant_sound hv
      refine ⟨t ++ t', by rw [ht]; conv => lhs; rw [ht']
                          simp, .cons ?_ hvs⟩
      rw [← ht']; exact hvv

theorem variants_rest {vs : List Str} {t x more : Str} (hx : x ≠ []) :
    Variants vs t (x ++ more) ↔ Variants vs t x := by
  have key : ∀ {v t y : Str}, y ≠ [] → (Variant v t (y ++ more) ↔ Variant v t y) := by
    intro v t y hy
    unfold Variant
    constructor <;> rintro ⟨l₁, c, l₂, h1, h2, h3, h4, h5, h6⟩ <;> refine ⟨l₁, c, l₂, h1, h2, h3, h4, h5, ?_⟩
    · rw [wordEnd_iff] at h6 ⊢
      rw [← List.append_assoc, noHead_append (by simp [hy])] at h6; exact h6
    · rw [wordEnd_iff] at h6 ⊢
      rw [← List.append_assoc, noHead_append (by simp [hy])]; exact h6
  constructor
  · intro h
    generalize hy : x ++ more = y at h
    induction h with
    | nil => exact .nil _
    | @cons v vs t ts rest hv _ ih =>
      subst hy
      refine .cons ?_ (ih rfl)
      rw [← List.append_assoc, key (by simp [hx])] at hv; exact hv
  · intro h
    induction h with
    | nil => exact .nil _
    | @cons v vs t ts rest hv _ ih =>
      refine .cons ?_ (ih hx)
      rw [← List.append_assoc, key (by simp [hx])]; exact hv

/-! ### Struct fields -/

theorem commentF_eq (s : Str) : commentF s =
    if "#".toList <+: s then some ((), (((s.drop 1).dropWhile (fun c => c != '\n')).dropWhile isNl)) else none := by
  unfold commentF
  simp only [F.bind, litF, spanF, F.pure]
  by_cases h : "#".toList <+: s
  · rw [if_pos h, if_pos (by rw [List.isPrefixOf_iff_prefix]; exact h)]; rfl
  · rw [if_neg h, if_neg (by rw [List.isPrefixOf_iff_prefix]; exact h)]

theorem commentF_complete {t rest : Str} (h : Comment t rest) :
    commentF (t ++ rest) = some ((), rest.dropWhile isNl) := by
  obtain ⟨body, rfl, hb, hl⟩ := h
  rw [commentF_eq, if_pos ⟨body ++ rest, rfl⟩]
  congr 2
  rw [List.cons_append, List.drop_one, List.tail_cons, dropWhile_all (l := body),
    dropWhile_noHead (p := fun c => c != '\n')]
  · intro c cs h
    rcases hl with rfl | ⟨cs', rfl⟩
    · cases h
    · injection h with h1 h2; subst h1; decide
  · intro c hc
    simp only [bne_iff_ne, ne_eq]
    rintro rfl; exact hb hc

theorem commentF_sound {s r : Str} (h : commentF s = some ((), r)) :
    ∃ t l, s = t ++ l ++ r ∧ Comment t (l ++ r) ∧ Newlines l := by
  rw [commentF_eq] at h
  split at h
  · rename_i hp
    obtain ⟨k, rfl⟩ := hp
    simp only [Option.some.injEq, Prod.mk.injEq, true_and] at h
    have e : List.drop 1 ("#".toList ++ k) = k := rfl
    rw [e] at h
    set w := k.dropWhile (fun c => c != '\n') with hw
    have e1 := List.takeWhile_append_dropWhile (p := fun c => c != '\n') (l := k)
    have e2 := List.takeWhile_append_dropWhile (p := isNl) (l := w)
    rw [← hw] at e1
    rw [h] at e2
    refine ⟨'#' :: k.takeWhile (fun c => c != '\n'), w.takeWhile isNl, ?_, ?_,
      (newlines_iff _).mpr takeWhile_mem⟩
    · rw [List.append_assoc, e2, List.cons_append, e1]; rfl
    · refine ⟨_, rfl, ?_, ?_⟩
      · intro hm; simpa using takeWhile_mem _ hm
      · rw [e2]
        rcases hcw : w with _ | ⟨c, cs⟩
        · exact Or.inl rfl
        · refine Or.inr ⟨cs, ?_⟩
          have := noHead_dropWhile (fun c => c != '\n') k c cs (by rw [← hw, hcw])
          simp at this; rw [this]
  · simp at h

theorem fieldCommentF_eq (s : Str) :
    fieldCommentF s = (commentF s).map fun x => (none, x.2.dropWhile isLayout) := by
  unfold fieldCommentF
  simp only [F.bind]
  cases commentF s with
  | none => rfl
  | some x => rfl

/-- The optional `[]`. -/
def dropArr (s : Str) : Bool × Str := if "[]".toList.isPrefixOf s then (true, s.drop 2) else (false, s)

theorem optArr_eq (s : Str) : ∃ o, optF (litF "[]".toList) s = some (o, (dropArr s).2) ∧
    o.isSome = (dropArr s).1 := by
  unfold optF litF dropArr
  by_cases h : "[]".toList.isPrefixOf s = true
  · exact ⟨some (), by simp only [h, if_true]; exact ⟨rfl, rfl⟩⟩
  · exact ⟨none, by simp only [h]; exact ⟨rfl, rfl⟩⟩

/-- The optional `?`. -/
def dropQ (s : Str) : Bool × Str := if "?".toList.isPrefixOf s then (true, s.drop 1) else (false, s)

theorem isOptionalF_eq (s : Str) : isOptionalF s = some (dropQ s) := by
  unfold isOptionalF dropQ
  simp only [F.bind, optF, litF, F.pure]
  by_cases h : "?".toList.isPrefixOf s = true
  · simp only [h, if_true]; rfl
  · simp only [h]; rfl

theorem litF_cons (l s : Str) : litF l s = if l <+: s then some ((), s.drop l.length) else none := by
  unfold litF
  by_cases h : l <+: s
  · rw [if_pos h, if_pos (by rw [List.isPrefixOf_iff_prefix]; exact h)]
  · rw [if_neg h, if_neg (by rw [List.isPrefixOf_iff_prefix]; exact h)]

theorem litF_append (l s : Str) : litF l (l ++ s) = some ((), s) := by
  rw [litF_cons, if_pos (List.prefix_append _ _)]; simp

theorem litF_sound {l s r : Str} {u : Unit} (h : litF l s = some (u, r)) : s = l ++ r := by
  rw [litF_cons] at h
  split at h
  · rename_i hp
    obtain ⟨k, rfl⟩ := hp
    simp at h; rw [h]
  · simp at h

/-- The part of a field after its name. -/
def fieldTail (s : Str) : Option (Unresolved × Str) :=
  let q := dropQ (s.dropWhile isBlank)
  match litF ":".toList q.2 with
  | none => none
  | some (_, r) =>
    let w := r.dropWhile isBlank
    let a := dropArr (w.dropWhile isWord)
    some (⟨w.takeWhile isWord, a.1, q.1⟩, afterItem a.2)

theorem fieldDeclF_eq (s : Str) : fieldDeclF s =
    match identF s with
    | none => none
    | some (n, r) => (fieldTail r).map fun x => (some (n, x.1), x.2) := by
  unfold fieldDeclF
  simp only [F.bind]
  cases identF s with
  | none => rfl
  | some x =>
    obtain ⟨n, r⟩ := x
    simp only [spanF]
    rw [isOptionalF_eq]
    unfold fieldTail
    simp only
    cases litF ":".toList (dropQ (r.dropWhile isBlank)).2 with
    | none => rfl
    | some x =>
      obtain ⟨u, r'⟩ := x
      simp only [stringF, spanF]
      obtain ⟨o, ho, ho'⟩ := optArr_eq ((r'.dropWhile isBlank).dropWhile isWord)
      rw [ho]
      simp only
      obtain ⟨o2, ho2⟩ := optComma_eq ((dropArr ((r'.dropWhile isBlank).dropWhile isWord)).2.dropWhile isLayout)
      rw [ho2]
      simp [F.pure, afterItem, ho']

/-- What may follow a field or a comment in a struct, after layout. -/
def Follow (s : Str) : Prop := ∃ c cs, s = c :: cs ∧ (isStart c = true ∨ c = '#' ∨ c = '}')

theorem Follow.noComma {s : Str} (h : Follow s) : NoHead (· == ',') s := by
  obtain ⟨c, cs, rfl, h⟩ := h
  rw [noHead_cons]
  cases hq : (c == ',') with
  | false => rfl
  | true => rw [beq_iff_eq] at hq; subst hq; revert h; decide

theorem Follow.noArr {s : Str} (h : Follow (s.dropWhile isLayout)) : ¬ "[]".toList <+: s := by
  rintro ⟨k, rfl⟩
  have : ("[]".toList ++ k).dropWhile isLayout = '[' :: ']' :: k := by
    rw [dropWhile_noHead]; rfl
    rw [show "[]".toList ++ k = '[' :: ']' :: k from rfl, noHead_cons]; decide
  rw [this] at h
  obtain ⟨c, cs, h, hc⟩ := h
  injection h with h1 h2; subst h1; revert hc; decide

theorem fieldDecl_complete {n : Str} {u : Unresolved} {t rest : Str} (h : FieldDecl n u t rest)
    (hr : Follow (rest.dropWhile isLayout)) :
    fieldDeclF (t ++ rest) = some (some (n, u), rest.dropWhile isLayout) := by
  obtain ⟨b₁, q, b₂, a, l₁, comma, l₂, rfl, hn, hb₁, hq, hb₂, hw, ha, hl₁, hc, hl₂, hbe, hwe⟩ := h
  have e : n ++ b₁ ++ q ++ ":".toList ++ b₂ ++ u.name ++ a ++ l₁ ++ comma ++ l₂ ++ rest =
      n ++ (b₁ ++ (q ++ (":".toList ++ (b₂ ++ (u.name ++ (a ++ (l₁ ++ comma ++ l₂ ++ rest))))))) := by simp
  rw [e, fieldDeclF_eq, identF_complete hn]
  · simp only
    unfold fieldTail
    rw [blank_iff] at hb₁ hb₂
    rw [dropWhile_all hb₁]
    have hqb : (q ++ (":".toList ++ (b₂ ++ (u.name ++ (a ++ (l₁ ++ comma ++ l₂ ++ rest)))))).dropWhile isBlank
        = q ++ (":".toList ++ (b₂ ++ (u.name ++ (a ++ (l₁ ++ comma ++ l₂ ++ rest))))) := by
      apply dropWhile_noHead
      rw [hq]; split
      · exact noHead_cons.mpr (by decide)
      · exact noHead_cons.mpr (by decide)
    rw [hqb]
    have hdq : dropQ (q ++ (":".toList ++ (b₂ ++ (u.name ++ (a ++ (l₁ ++ comma ++ l₂ ++ rest))))))
        = (u.optional, ":".toList ++ (b₂ ++ (u.name ++ (a ++ (l₁ ++ comma ++ l₂ ++ rest))))) := by
      rw [hq]
      cases u.optional
      · simp [dropQ]
      · simp [dropQ]
    rw [hdq]
    simp only
    rw [litF_append]
    simp only
    rw [dropWhile_all hb₂]
    have hbe' : (u.name ++ (a ++ (l₁ ++ comma ++ l₂ ++ rest))).dropWhile isBlank
        = u.name ++ (a ++ (l₁ ++ comma ++ l₂ ++ rest)) := by
      apply dropWhile_noHead
      rw [blankEnd_iff] at hbe
      simpa using hbe
    rw [hbe']
    rw [wordEnd_iff] at hwe
    have hwe' : NoHead isWord (a ++ (l₁ ++ comma ++ l₂ ++ rest)) := by simpa using hwe
    rw [takeWhile_all ((word_iff _).mp hw), dropWhile_all ((word_iff _).mp hw),
      takeWhile_noHead hwe', dropWhile_noHead hwe']
    have hda : dropArr (a ++ (l₁ ++ comma ++ l₂ ++ rest)) = (u.array, l₁ ++ comma ++ l₂ ++ rest) := by
      rw [ha]
      cases u.array
      · simp only [dropArr, Bool.false_eq_true, if_false, List.nil_append]
        rw [if_neg]
        rw [List.isPrefixOf_iff_prefix]
        intro hp
        have hls := afterItem_complete hl₁ hc hl₂ hr.noComma
        obtain ⟨k, hk⟩ := hp
        rw [layout_iff] at hl₁ hl₂
        -- none of the separators can start with `[`
        rcases l₁ with _ | ⟨c, l₁⟩
        · rcases hc with rfl | rfl
          · rcases l₂ with _ | ⟨c, l₂⟩
            · exact hr.noArr ⟨k, by simpa using hk⟩
            · have := hl₂ c (by simp)
              have hcc : c = '[' := (List.cons.inj hk).1.symm
              subst hcc; revert this; decide
          · have := (List.cons.inj hk).1; revert this; decide
        · have := hl₁ c (by simp)
          have hcc : c = '[' := (List.cons.inj hk).1.symm
          subst hcc; revert this; decide
      · simp [dropArr]
    rw [hda]
    simp only [List.append_nil, Option.map]
    rw [afterItem_complete hl₁ hc hl₂ hr.noComma]
  · rcases b₁ with _ | ⟨c, b₁⟩
    · rw [hq, List.nil_append]
      split
      · exact noHead_cons.mpr (by decide)
      · exact noHead_cons.mpr (by decide)
    · refine noHead_cons.mpr ?_
      have := (blank_iff _).mp hb₁ c (by simp)
      cases hw : isWord c with
      | false => rfl
      | true => have := layout_of_blank this; rw [word_not_layout hw] at this; exact this.symm

theorem dropQ_sound (s : Str) : s = (if (dropQ s).1 then "?".toList else []) ++ (dropQ s).2 := by
  unfold dropQ
  split
  · rename_i h
    rw [List.isPrefixOf_iff_prefix] at h
    obtain ⟨k, rfl⟩ := h
    simp
  · simp

theorem dropArr_sound (s : Str) : s = (if (dropArr s).1 then "[]".toList else []) ++ (dropArr s).2 := by
  unfold dropArr
  split
  · rename_i h
    rw [List.isPrefixOf_iff_prefix] at h
    obtain ⟨k, rfl⟩ := h
    simp
  · simp

theorem fieldDecl_sound {s r : Str} {x : Option (Str × Unresolved)} (h : fieldDeclF s = some (x, r)) :
    ∃ n u t, x = some (n, u) ∧ s = t ++ r ∧ FieldDecl n u t r := by
  rw [fieldDeclF_eq] at h
  cases hi : identF s with
  | none => simp [hi] at h
  | some y =>
    obtain ⟨n, r1⟩ := y
    rw [hi] at h
    simp only at h
    obtain ⟨rfl, hn, hnw⟩ := identF_sound hi
    unfold fieldTail at h
    simp only at h
    set q := dropQ (r1.dropWhile isBlank) with hq
    cases hl : litF ":".toList q.2 with
    | none => rw [hl] at h; simp at h
    | some z =>
      obtain ⟨u, r2⟩ := z
      rw [hl] at h
      simp only [Option.map, Option.some.injEq, Prod.mk.injEq] at h
      obtain ⟨hx, hr⟩ := h
      have e1 := List.takeWhile_append_dropWhile (p := isBlank) (l := r1)
      have e2 := dropQ_sound (r1.dropWhile isBlank)
      rw [← hq] at e2
      have e3 := litF_sound hl
      have e4 := List.takeWhile_append_dropWhile (p := isBlank) (l := r2)
      set w := r2.dropWhile isBlank with hw
      have e5 := List.takeWhile_append_dropWhile (p := isWord) (l := w)
      set a := dropArr (w.dropWhile isWord) with ha
      have e6 := dropArr_sound (w.dropWhile isWord)
      rw [← ha] at e6
      obtain ⟨l₁, comma, l₂, e7, h₁, hc, h₂⟩ := afterItem_sound a.2
      rw [hr] at e7
      refine ⟨n, ⟨w.takeWhile isWord, a.1, q.1⟩, _, hx.symm, ?_, r1.takeWhile isBlank,
        (if q.1 then "?".toList else []), r2.takeWhile isBlank, (if a.1 then "[]".toList else []),
        l₁, comma, l₂, rfl, hn, (blank_iff _).mpr takeWhile_mem, rfl, (blank_iff _).mpr takeWhile_mem,
        (word_iff _).mpr takeWhile_mem, rfl, h₁, hc, h₂, ?_, ?_⟩
      · calc n ++ r1 = n ++ (r1.takeWhile isBlank ++ ((if q.1 then "?".toList else []) ++ (":".toList ++
              (r2.takeWhile isBlank ++ (w.takeWhile isWord ++ ((if a.1 then "[]".toList else []) ++
              (l₁ ++ comma ++ l₂ ++ r))))))) := by
              rw [← e7, ← e6, e5, e4, ← e3, ← e2, e1]
          _ = _ := by simp
      · rw [blankEnd_iff]
        have : (w.takeWhile isWord ++ (if a.1 then "[]".toList else []) ++ l₁ ++ comma ++ l₂ ++ r) = w := by
          calc _ = w.takeWhile isWord ++ ((if a.1 then "[]".toList else []) ++
              (l₁ ++ comma ++ l₂ ++ r)) := by simp
            _ = w := by rw [← e7, ← e6, e5]
        rw [this, hw]; exact noHead_dropWhile _ _
      · rw [wordEnd_iff]
        have : ((if a.1 then "[]".toList else []) ++ l₁ ++ comma ++ l₂ ++ r) = w.dropWhile isWord := by
          calc _ = ((if a.1 then "[]".toList else []) ++ (l₁ ++ comma ++ l₂ ++ r)) := by simp
            _ = _ := by rw [← e7, ← e6]
        rw [this]; exact noHead_dropWhile _ _

theorem Comment.head {t rest : Str} (h : Comment t rest) : ∃ cs, t ++ rest = '#' :: cs := by
  obtain ⟨body, rfl, -⟩ := h
  exact ⟨_, rfl⟩

theorem FieldDecl.head {n : Str} {u : Unresolved} {t rest : Str} (h : FieldDecl n u t rest) :
    ∃ c cs, t ++ rest = c :: cs ∧ isStart c = true := by
  obtain ⟨b₁, q, b₂, a, l₁, comma, l₂, rfl, hn, -⟩ := h
  obtain ⟨c, cs, rfl, hc⟩ := Ident.head hn
  exact ⟨c, _, by simp; rfl, hc⟩

theorem Fields.follow {fs : List (Str × Unresolved)} {ts rest : Str} (h : Fields fs ts rest)
    (hr : Follow (rest.dropWhile isLayout)) : Follow ((ts ++ rest).dropWhile isLayout) := by
  cases h with
  | nil => exact hr
  | field hd _ =>
    obtain ⟨c, cs, hcs, hc⟩ := FieldDecl.head hd
    rw [List.append_assoc, start_noLayout hcs hc]
    exact ⟨c, cs, hcs, Or.inl hc⟩
  | comment hd _ _ =>
    obtain ⟨cs, hcs⟩ := Comment.head hd
    refine ⟨'#', cs, ?_, by simp⟩
    rw [List.append_assoc, List.append_assoc, ← List.append_assoc, ← List.append_assoc]
    simp only [List.append_assoc] at hcs ⊢
    rw [hcs, dropWhile_noHead (noHead_cons.mpr (by decide))]

theorem fields_complete {fs : List (Str × Unresolved)} {ts rest : Str} (h : Fields fs ts rest)
    (hr : ∃ cs, rest.dropWhile isLayout = '}' :: cs) :
    ∃ xs, many structFieldF ((ts ++ rest).dropWhile isLayout) = (xs, rest.dropWhile isLayout) ∧
      xs.filterMap id = fs := by
  have hfol : Follow (rest.dropWhile isLayout) := by
    obtain ⟨cs, hcs⟩ := hr; exact ⟨_, cs, hcs, by simp⟩
  induction h with
  | nil rest =>
    obtain ⟨cs, hcs⟩ := hr
    refine ⟨[], ?_, rfl⟩
    rw [List.nil_append, many_eq structFieldF_consumes, hcs]
    have : structFieldF ('}' :: cs) = none := by
      unfold structFieldF
      rw [orF_none]
      constructor
      · rw [fieldCommentF_eq, commentF_eq, if_neg]; rfl
        rintro ⟨k, hk⟩; have := (List.cons.inj hk).1; revert this; decide
      · rw [fieldDeclF_eq, identF_none (noHead_cons.mpr (by decide))]
    rw [this]
  | @field n u fs t ts rest hd hfs ih =>
    obtain ⟨xs, hxs, hfm⟩ := ih hr hfol
    obtain ⟨c, cs, hcs, hc⟩ := FieldDecl.head hd
    refine ⟨some (n, u) :: xs, ?_, by simp [hfm]⟩
    rw [List.append_assoc, start_noLayout hcs hc, many_eq structFieldF_consumes]
    have : structFieldF (t ++ (ts ++ rest)) = some (some (n, u), (ts ++ rest).dropWhile isLayout) := by
      unfold structFieldF orF
      have : fieldCommentF (t ++ (ts ++ rest)) = none := by
        rw [fieldCommentF_eq, commentF_eq, if_neg]; rfl
        rintro ⟨k, hk⟩
        rw [hcs] at hk
        have := (List.cons.inj hk).1; subst this; revert hc; decide
      rw [this]
      exact fieldDecl_complete hd (Fields.follow hfs hfol)
    rw [this]
    simp only
    rw [hxs]
  | @comment fs t l ts rest hd hl hfs ih =>
    obtain ⟨xs, hxs, hfm⟩ := ih hr hfol
    obtain ⟨cs, hcs⟩ := Comment.head hd
    refine ⟨none :: xs, ?_, by simp [hfm]⟩
    have e : t ++ l ++ ts ++ rest = t ++ (l ++ ts ++ rest) := by simp
    rw [e, hcs, dropWhile_noHead (noHead_cons.mpr (by decide)), ← hcs, many_eq structFieldF_consumes]
    have : structFieldF (t ++ (l ++ ts ++ rest)) = some (none, (ts ++ rest).dropWhile isLayout) := by
      unfold structFieldF orF
      rw [fieldCommentF_eq, commentF_complete hd]
      simp only [Option.map]
      rw [dropWhile_sub (fun _ => layout_of_nl), List.append_assoc, dropWhile_all ((layout_iff _).mp hl)]
    rw [this]
    simp only
    rw [hxs]

theorem fields_sound (s : Str) {xs : List (Option (Str × Unresolved))} {r : Str}
    (h : many structFieldF s = (xs, r)) : ∃ t, s = t ++ r ∧ Fields (xs.filterMap id) t r := by
  induction hn : s.length using Nat.strongRecOn generalizing s xs with
  | _ n ih =>
    rw [many_eq structFieldF_consumes] at h
    cases hv : structFieldF s with
    | none =>
      rw [hv] at h; simp at h
      obtain ⟨rfl, rfl⟩ := h
      exact ⟨[], rfl, .nil _⟩
    | some x =>
      obtain ⟨v, r'⟩ := x
      rw [hv] at h
      simp only [Prod.mk.injEq] at h
      obtain ⟨rfl, h2⟩ := h
      have hlt := structFieldF_consumes _ _ _ hv
      obtain ⟨t', ht', hvs⟩ := ih r'.length (by omega) r' (xs := (many structFieldF r').1)
        (by rw [← h2]) rfl
      unfold structFieldF orF at hv
      cases hc : fieldCommentF s with
      | some y =>
        rw [hc] at hv
        rw [fieldCommentF_eq] at hc
        cases hcm : commentF s with
        | none => simp [hcm] at hc
        | some z =>
          obtain ⟨u, r1⟩ := z
          obtain ⟨t, l, hs, hcom, hl⟩ := commentF_sound hcm
          simp only [hcm, Option.map, Option.some.injEq] at hc
          subst hc
          simp only [Option.some.injEq, Prod.mk.injEq] at hv
          obtain ⟨rfl, hr1⟩ := hv
          have e := List.takeWhile_append_dropWhile (p := isLayout) (l := r1)
          rw [hr1] at e
          refine ⟨t ++ (l ++ r1.takeWhile isLayout) ++ t', ?_, ?_⟩
          · rw [hs]; conv => lhs; rw [← e, ht']
            simp
          · simp only [List.filterMap_cons, id]
            refine .comment ?_ ?_ hvs
            · have : l ++ r1.takeWhile isLayout ++ t' ++ r = l ++ r1 := by
                rw [← e, ht']; simp
                rw [← ht', e]
              rw [this]; exact hcom
            · rw [layout_iff]
              intro c hc
              rcases List.mem_append.mp hc with hc | hc
              · exact layout_of_nl ((newlines_iff _).mp hl c hc)
              · exact takeWhile_mem c hc
      | none =>
        rw [hc] at hv
        obtain ⟨n', u, t, rfl, hs, hf⟩ := fieldDecl_sound hv
        refine ⟨t ++ t', ?_, ?_⟩
        · rw [hs]; conv => lhs; rw [ht']
          simp
        · simp only [List.filterMap_cons, id]
          refine .field ?_ hvs
          rw [← ht']; exact hf

theorem fields_rest {fs : List (Str × Unresolved)} {t x more : Str} (hx : x ≠ []) :
    Fields fs t (x ++ more) ↔ Fields fs t x := by
  have key : ∀ {n : Str} {u : Unresolved} {t y : Str}, y ≠ [] →
      (FieldDecl n u t (y ++ more) ↔ FieldDecl n u t y) := by
    intro n u t y hy
    unfold FieldDecl
    constructor <;> rintro ⟨b₁, q, b₂, a, l₁, c, l₂, h1, h2, h3, h4, h5, h6, h7, h8, h9, h10, h11, h12⟩ <;>
      refine ⟨b₁, q, b₂, a, l₁, c, l₂, h1, h2, h3, h4, h5, h6, h7, h8, h9, h10, ?_, ?_⟩
    · rw [blankEnd_iff] at h11 ⊢
      rw [← List.append_assoc, noHead_append (by simp [hy])] at h11; exact h11
    · rw [wordEnd_iff] at h12 ⊢
      rw [← List.append_assoc, noHead_append (by simp [hy])] at h12; exact h12
    · rw [blankEnd_iff] at h11 ⊢
      rw [← List.append_assoc, noHead_append (by simp [hy])]; exact h11
    · rw [wordEnd_iff] at h12 ⊢
      rw [← List.append_assoc, noHead_append (by simp [hy])]; exact h12
  have keyc : ∀ {t y : Str}, y ≠ [] → (Comment t (y ++ more) ↔ Comment t y) := by
    intro t y hy
    unfold Comment LineEnd
    cases y with
    | nil => exact absurd rfl hy
    | cons c y => simp
  constructor
  · intro h
    generalize hy : x ++ more = y at h
    induction h with
    | nil => exact .nil _
    | @field n u fs t ts rest hv _ ih =>
      subst hy
      refine .field ?_ (ih rfl)
      rw [← List.append_assoc, key (by simp [hx])] at hv; exact hv
    | @comment fs t l ts rest hv hl _ ih =>
      subst hy
      refine .comment ?_ hl (ih rfl)
      rw [← List.append_assoc, keyc (by simp [hx])] at hv; exact hv
  · intro h
    induction h with
    | nil => exact .nil _
    | @field n u fs t ts rest hv _ ih =>
      refine .field ?_ (ih hx)
      rw [← List.append_assoc, key (by simp [hx])]; exact hv
    | @comment fs t l ts rest hv hl _ ih =>
      refine .comment ?_ hl (ih hx)
      rw [← List.append_assoc, keyc (by simp [hx])]; exact hv

/-! ### Types -/

/-- The braces of a type: `kw {` body `}`. -/
def braced {α β} (kw : Str) (f : F α) (k : List α → β) (s : Str) : Option (β × Str) :=
  match litF kw (s.dropWhile isBlank) with
  | none => none
  | some (_, r) =>
    match litF "{".toList (r.dropWhile isBlank) with
    | none => none
    | some (_, r) =>
      match litF "}".toList ((many f (r.dropWhile isLayout)).2.dropWhile isLayout) with
      | none => none
      | some (_, r') => some (k (many f (r.dropWhile isLayout)).1, r')

theorem enumTypeF_eq (s : Str) : enumTypeF s = braced "enum".toList enumVariantF id s := by
  unfold enumTypeF braced
  simp only [F.bind, spanF]
  cases litF "enum".toList (s.dropWhile isBlank) with
  | none => rfl
  | some x =>
    simp only
    cases litF "{".toList (x.2.dropWhile isBlank) with
    | none => rfl
    | some y =>
      simp only [starF]
      cases litF "}".toList ((many enumVariantF (y.2.dropWhile isLayout)).2.dropWhile isLayout) with
      | none => rfl
      | some z => rfl

theorem structTypeF_eq (s : Str) :
    structTypeF s = braced "struct".toList structFieldF (fun fs => fs.filterMap id) s := by
  unfold structTypeF braced
  simp only [F.bind, spanF]
  cases litF "struct".toList (s.dropWhile isBlank) with
  | none => rfl
  | some x =>
    simp only
    cases litF "{".toList (x.2.dropWhile isBlank) with
    | none => rfl
    | some y =>
      simp only [starF]
      cases litF "}".toList ((many structFieldF (y.2.dropWhile isLayout)).2.dropWhile isLayout) with
      | none => rfl
      | some z => rfl

theorem braced_complete {α β} {kw : Str} {f : F α} {k : List α → β} {b₂ l₁ body more : Str} {xs : List α}
    (hkw : NoHead isBlank kw) (hne : kw ≠ []) (hb : Blank b₂) (hl₁ : Layout l₁)
    (hm : many f ((body ++ more).dropWhile isLayout) = (xs, more.dropWhile isLayout))
    {r : Str} (hmore : more.dropWhile isLayout = "}".toList ++ r) :
    braced kw f k (kw ++ b₂ ++ "{".toList ++ l₁ ++ body ++ more) = some (k xs, r) := by
  unfold braced
  have e : kw ++ b₂ ++ "{".toList ++ l₁ ++ body ++ more =
      kw ++ (b₂ ++ ("{".toList ++ (l₁ ++ (body ++ more)))) := by simp
  rw [e, dropWhile_noHead ((noHead_append hne).mpr hkw), litF_append]
  simp only
  rw [dropWhile_all ((blank_iff _).mp hb), dropWhile_noHead (s := "{".toList ++ _)
    (noHead_cons.mpr (by decide)), litF_append]
  simp only
  rw [dropWhile_all ((layout_iff _).mp hl₁), hm]
  simp only
  rw [dropWhile_sub (fun _ h => h), hmore, litF_append]

theorem braced_sound {α β} {kw : Str} {f : F α} {k : List α → β} {s r : Str} {y : β}
    (h : braced kw f k s = some (y, r)) : ∃ b₁ b₂ l₁ w xs w' l₂,
      s = b₁ ++ (kw ++ (b₂ ++ ("{".toList ++ (l₁ ++ w)))) ∧ many f w = (xs, w') ∧
      w' = l₂ ++ ("}".toList ++ r) ∧ Blank b₁ ∧ Blank b₂ ∧ Layout l₁ ∧ Layout l₂ ∧ y = k xs := by
  unfold braced at h
  cases h1 : litF kw (s.dropWhile isBlank) with
  | none => simp [h1] at h
  | some x =>
    obtain ⟨u1, r1⟩ := x
    rw [h1] at h
    simp only at h
    cases h2 : litF "{".toList (r1.dropWhile isBlank) with
    | none => rw [h2] at h; simp at h
    | some x =>
      obtain ⟨u2, r2⟩ := x
      rw [h2] at h
      simp only at h
      cases h3 : litF "}".toList ((many f (r2.dropWhile isLayout)).2.dropWhile isLayout) with
      | none => rw [h3] at h; simp at h
      | some x =>
        obtain ⟨u3, r3⟩ := x
        rw [h3] at h
        simp only [Option.some.injEq, Prod.mk.injEq] at h
        obtain ⟨hy, rfl⟩ := h
        have e1 := List.takeWhile_append_dropWhile (p := isBlank) (l := s)
        have e2 := List.takeWhile_append_dropWhile (p := isBlank) (l := r1)
        have e3 := List.takeWhile_append_dropWhile (p := isLayout) (l := r2)
        have e4 := List.takeWhile_append_dropWhile (p := isLayout) (l := (many f (r2.dropWhile isLayout)).2)
        have s1 := litF_sound h1
        have s2 := litF_sound h2
        have s3 := litF_sound h3
        refine ⟨s.takeWhile isBlank, r1.takeWhile isBlank, r2.takeWhile isLayout, r2.dropWhile isLayout,
          (many f (r2.dropWhile isLayout)).1, (many f (r2.dropWhile isLayout)).2,
          (many f (r2.dropWhile isLayout)).2.takeWhile isLayout, ?_, rfl, ?_,
          (blank_iff _).mpr takeWhile_mem, (blank_iff _).mpr takeWhile_mem,
          (layout_iff _).mpr takeWhile_mem, (layout_iff _).mpr takeWhile_mem, hy.symm⟩
        · rw [e3, ← s2, e2, ← s1, e1]
        · rw [← s3, e4]

theorem close_layout {l₂ more : Str} (h : Layout l₂) :
    (l₂ ++ ("}".toList ++ more)).dropWhile isLayout = "}".toList ++ more := by
  rw [dropWhile_all ((layout_iff _).mp h), dropWhile_noHead]
  exact noHead_cons.mpr (by decide)

theorem typeF_complete {ty : Ty} {t : Str} (h : Type' ty t) (more : Str) :
    typeF (t ++ more) = some (ty, more) := by
  unfold typeF orF
  cases h with
  | @enum vs b₂ l₁ body l₂ hb hl₁ hl₂ hv =>
    have hv' := (variants_rest (more := more) (by simp)).mpr hv
    rw [List.append_assoc] at hv'
    have hcl := close_layout (more := more) hl₂
    have hm := variants_complete hv' ⟨more, by rw [hcl]; rfl⟩
    have := braced_complete (k := id) (kw := "enum".toList) (noHead_cons.mpr (by decide)) (by decide)
      hb hl₁ hm hcl
    have e : "enum".toList ++ b₂ ++ "{".toList ++ l₁ ++ body ++ l₂ ++ "}".toList ++ more =
      "enum".toList ++ b₂ ++ "{".toList ++ l₁ ++ body ++ (l₂ ++ ("}".toList ++ more)) := by simp
    simp only [F.bind, enumTypeF_eq]
    rw [e, this]
    rfl
  | @struct fs b₂ l₁ body l₂ hb hl₁ hl₂ hv =>
    have hv' := (fields_rest (more := more) (by simp)).mpr hv
    rw [List.append_assoc] at hv'
    have hcl := close_layout (more := more) hl₂
    obtain ⟨xs, hm, hxs⟩ := fields_complete hv' ⟨more, by rw [hcl]; rfl⟩
    have := braced_complete (k := fun fs => fs.filterMap id) (kw := "struct".toList)
      (noHead_cons.mpr (by decide)) (by decide) hb hl₁ hm hcl
    have e : "struct".toList ++ b₂ ++ "{".toList ++ l₁ ++ body ++ l₂ ++ "}".toList ++ more =
      "struct".toList ++ b₂ ++ "{".toList ++ l₁ ++ body ++ (l₂ ++ ("}".toList ++ more)) := by simp
    have hen : ∀ z, enumTypeF ("struct".toList ++ z) = none := by
      intro z
      rw [enumTypeF_eq]; unfold braced
      rw [dropWhile_noHead (s := "struct".toList ++ z) (noHead_cons.mpr (by decide)), litF_cons, if_neg]
      rintro ⟨k, hk⟩; have := (List.cons.inj hk).1; revert this; decide
    simp only [F.bind, structTypeF_eq]
    rw [e, this]
    have e2 : "struct".toList ++ b₂ ++ "{".toList ++ l₁ ++ body ++ (l₂ ++ ("}".toList ++ more)) =
      "struct".toList ++ (b₂ ++ "{".toList ++ l₁ ++ body ++ (l₂ ++ ("}".toList ++ more))) := by simp
    rw [e2, hen]
    simp [F.pure, hxs]

theorem typeF_sound {s r : Str} {ty : Ty} (h : typeF s = some (ty, r)) :
    ∃ b t, s = b ++ (t ++ r) ∧ Blank b ∧ Type' ty t := by
  unfold typeF orF at h
  simp only [F.bind] at h
  cases he : enumTypeF s with
  | some x =>
    obtain ⟨vs, r1⟩ := x
    rw [he] at h
    simp only [F.pure, Option.some.injEq, Prod.mk.injEq] at h
    obtain ⟨rfl, rfl⟩ := h
    rw [enumTypeF_eq] at he
    obtain ⟨b₁, b₂, l₁, w, xs, w', l₂, hs, hm, hw', hb₁, hb₂, hl₁, hl₂, rfl⟩ := braced_sound he
    obtain ⟨t, ht, hv⟩ := variants_sound _ hm
    rw [hw'] at hv ht
    rw [← List.append_assoc, variants_rest (by simp)] at hv
    refine ⟨b₁, _, ?_, hb₁, .enum hb₂ hl₁ hl₂ hv⟩
    rw [hs, ht]; simp
  | none =>
    rw [he] at h
    simp only at h
    cases hst : structTypeF s with
    | none => rw [hst] at h; simp at h
    | some x =>
      obtain ⟨fs, r1⟩ := x
      rw [hst] at h
      simp only [F.pure, Option.some.injEq, Prod.mk.injEq] at h
      obtain ⟨rfl, rfl⟩ := h
      rw [structTypeF_eq] at hst
      obtain ⟨b₁, b₂, l₁, w, xs, w', l₂, hs, hm, hw', hb₁, hb₂, hl₁, hl₂, rfl⟩ := braced_sound hst
      obtain ⟨t, ht, hv⟩ := fields_sound _ hm
      rw [hw'] at hv ht
      rw [← List.append_assoc, fields_rest (by simp)] at hv
      refine ⟨b₁, _, ?_, hb₁, .struct hb₂ hl₁ hl₂ hv⟩
      rw [hs, ht]; simp

/-! ### Lines -/

theorem lineCommentF_eq (s : Str) : lineCommentF s =
    (commentF (s.dropWhile isBlank)).map fun x => (none, x.2.dropWhile isNl) := by
  unfold lineCommentF
  simp only [F.bind, spanF]
  cases commentF (s.dropWhile isBlank) with
  | none => rfl
  | some x => rfl

theorem lineExportF_eq (s : Str) : lineExportF s =
    (litF "export".toList (s.dropWhile isBlank)).map fun x =>
      (some (.export ((x.2.dropWhile isBlank).takeWhile isWord)),
        ((x.2.dropWhile isBlank).dropWhile isWord).dropWhile isNl) := by
  unfold lineExportF exportF
  simp only [F.bind, spanF, stringF]
  cases litF "export".toList (s.dropWhile isBlank) with
  | none => rfl
  | some x => rfl

theorem lineDeclF_eq (s : Str) : lineDeclF s =
    match identF (s.dropWhile isBlank) with
    | none => none
    | some (n, r) =>
      match litF ":".toList (r.dropWhile isBlank) with
      | none => none
      | some (_, r) => (typeF (r.dropWhile isBlank)).map fun x =>
          (some (.decl n x.1), x.2.dropWhile isLayout) := by
  unfold lineDeclF declF declTailF
  simp only [F.bind, spanF]
  rw [dropWhile_sub (fun _ h => h)]
  cases identF (s.dropWhile isBlank) with
  | none => rfl
  | some x =>
    simp only
    cases litF ":".toList (x.2.dropWhile isBlank) with
    | none => rfl
    | some y =>
      simp only
      cases typeF (y.2.dropWhile isBlank) with
      | none => rfl
      | some z =>
        simp only [F.pure, Option.map]
        rw [dropWhile_sub' (fun _ => layout_of_nl)]

theorem lineF_blank {s s' : Str} (h : s.dropWhile isBlank = s'.dropWhile isBlank) : lineF s = lineF s' := by
  unfold lineF orF
  rw [lineCommentF_eq, lineCommentF_eq, lineExportF_eq, lineExportF_eq, lineDeclF_eq, lineDeclF_eq, h]

theorem Type'.head {ty : Ty} {t : Str} (h : Type' ty t) : t ≠ [] ∧ NoHead isBlank t := by
  cases h with
  | enum => exact ⟨by simp, noHead_cons.mpr (by decide)⟩
  | struct => exact ⟨by simp, noHead_cons.mpr (by decide)⟩

theorem wordEnd_colon {b more : Str} (hb : Blank b) : NoHead isWord (b ++ (":".toList ++ more)) := by
  cases b with
  | nil => exact noHead_cons.mpr (by decide)
  | cons c b =>
    refine noHead_cons.mpr ?_
    have := (blank_iff _).mp hb c (by simp)
    cases hw : isWord c with
    | false => rfl
    | true => have := layout_of_blank this; rw [word_not_layout hw] at this; exact this.symm

/-- A line `b ++ w` with `w` not starting with layout looks the same from both positions at which the
parser may arrive there. -/
theorem lineF_start {b w x : Str} (hb : Blank b) (_ : w ≠ []) (hw : NoHead isLayout w)
    (hx : x = (b ++ w).dropWhile isNl ∨ x = (b ++ w).dropWhile isLayout) : lineF x = lineF w := by
  have hwb : NoHead isBlank w := fun c cs hc => by
    have := hw c cs hc
    cases hp : isBlank c with
    | false => rfl
    | true => rw [layout_of_blank hp] at this; exact this
  have hwn : NoHead isNl w := fun c cs hc => by
    have := hw c cs hc
    cases hp : isNl c with
    | false => rfl
    | true => rw [layout_of_nl hp] at this; exact this
  apply lineF_blank
  rw [dropWhile_noHead hwb]
  rcases hx with rfl | rfl
  · have : NoHead isNl (b ++ w) := by
      cases b with
      | nil => exact hwn
      | cons c b =>
        refine noHead_cons.mpr ?_
        have := (blank_iff _).mp hb c (by simp)
        rw [isBlank_iff] at this
        rcases this with rfl | rfl <;> decide
    rw [dropWhile_noHead this, dropWhile_all ((blank_iff _).mp hb), dropWhile_noHead hwb]
  · rw [dropWhile_all (fun c hc => layout_of_blank ((blank_iff _).mp hb c hc)), dropWhile_noHead hw,
      dropWhile_noHead hwb]

theorem lineF_decl {name b₂ b₃ t l rest : Str} {ty : Ty} (hname : Ident name)
    (hexp : ¬ "export".toList <+: name) (hb₂ : Blank b₂) (hb₃ : Blank b₃) (ht : Type' ty t) (hl : Layout l) :
    lineF (name ++ (b₂ ++ (":".toList ++ (b₃ ++ (t ++ (l ++ rest)))))) =
      some (some (.decl name ty), rest.dropWhile isLayout) := by
  obtain ⟨c, cs, hcs, hc⟩ := Ident.head hname
  have hnl : NoHead isLayout (name ++ (b₂ ++ (":".toList ++ (b₃ ++ (t ++ (l ++ rest)))))) := by
    rw [hcs]; exact noHead_cons.mpr (word_not_layout (start_word hc))
  have hcol := wordEnd_colon (more := b₃ ++ (t ++ (l ++ rest))) hb₂
  have hbl : (name ++ (b₂ ++ (":".toList ++ (b₃ ++ (t ++ (l ++ rest)))))).dropWhile isBlank =
      name ++ (b₂ ++ (":".toList ++ (b₃ ++ (t ++ (l ++ rest))))) := by
    apply dropWhile_noHead
    intro c' cs' h'
    have := hnl c' cs' h'
    cases hp : isBlank c' with
    | false => rfl
    | true => rw [layout_of_blank hp] at this; exact this
  unfold lineF orF
  rw [lineCommentF_eq, lineExportF_eq, lineDeclF_eq, hbl, commentF_eq, if_neg, litF_cons, if_neg]
  · simp only [Option.map]
    rw [identF_complete hname hcol]
    simp only
    rw [dropWhile_all ((blank_iff _).mp hb₂), dropWhile_noHead (s := ":".toList ++ _)
      (noHead_cons.mpr (by decide)), litF_append]
    simp only
    rw [dropWhile_all ((blank_iff _).mp hb₃),
      dropWhile_noHead ((noHead_append (Type'.head ht).1).mpr (Type'.head ht).2), typeF_complete ht]
    simp only
    rw [dropWhile_all ((layout_iff _).mp hl)]
  · intro hp
    exact hexp (prefix_of_word (by decide) hcol hp)
  · rintro ⟨k, hk⟩
    rw [hcs] at hk
    have := (List.cons.inj hk).1; subst this; revert hc; decide

/-- The rest of a text after the layout that a line may eat at its end. -/
theorem lines_complete {ns : AST} {t : Str} (h : Lines ns t) :
    ∀ x, x = t.dropWhile isNl ∨ x = t.dropWhile isLayout →
      ∃ xs, many lineF x = (xs, []) ∧ xs.filterMap id = ns := by
  induction h with
  | nil =>
    rintro x (rfl | rfl)
    all_goals
      refine ⟨[], ?_, rfl⟩
      rw [many_eq lineF_consumes]
      rfl
  | @comment ns b t l ts hb hc hl hts ih =>
    intro x hx
    obtain ⟨xs, hxs, hf⟩ := ih _ (Or.inl rfl)
    refine ⟨none :: xs, ?_, by simp [hf]⟩
    obtain ⟨cs, hcs⟩ := Comment.head hc
    have e : b ++ t ++ l ++ ts = b ++ (t ++ (l ++ ts)) := by simp
    rw [e] at hx
    have hw := lineF_start hb (by rw [hcs]; simp) (by rw [hcs]; exact noHead_cons.mpr (by decide)) hx
    have : lineF (t ++ (l ++ ts)) = some (none, ts.dropWhile isNl) := by
      unfold lineF orF
      rw [lineCommentF_eq, hcs, dropWhile_noHead (noHead_cons.mpr (by decide)), ← hcs, commentF_complete hc]
      simp only [Option.map]
      rw [dropWhile_sub (fun _ h => h), dropWhile_all ((newlines_iff _).mp hl)]
    rw [many_eq lineF_consumes, hw, this]
    simp only
    rw [hxs]
  | @«export» ns b₁ b₂ name l ts hb₁ hb₂ hname hl hbe hwe hts ih =>
    intro x hx
    obtain ⟨xs, hxs, hf⟩ := ih _ (Or.inl rfl)
    refine ⟨some (.export name) :: xs, ?_, by simp [hf]⟩
    have e : b₁ ++ "export".toList ++ b₂ ++ name ++ l ++ ts =
      b₁ ++ ("export".toList ++ (b₂ ++ (name ++ (l ++ ts)))) := by simp
    rw [e] at hx
    have hw := lineF_start (w := "export".toList ++ (b₂ ++ (name ++ (l ++ ts)))) hb₁ (by simp)
      (noHead_cons.mpr (by decide)) hx
    have : lineF ("export".toList ++ (b₂ ++ (name ++ (l ++ ts)))) =
        some (some (.export name), ts.dropWhile isNl) := by
      unfold lineF orF
      rw [lineCommentF_eq, lineExportF_eq,
        dropWhile_noHead (s := "export".toList ++ _) (noHead_cons.mpr (by decide)), litF_append, commentF_eq,
        if_neg]
      · simp only [Option.map]
        rw [List.append_assoc, blankEnd_iff] at hbe
        rw [wordEnd_iff] at hwe
        rw [dropWhile_all ((blank_iff _).mp hb₂), dropWhile_noHead hbe,
          takeWhile_all ((word_iff _).mp hname), dropWhile_all ((word_iff _).mp hname),
          takeWhile_noHead hwe, dropWhile_noHead hwe, dropWhile_all ((newlines_iff _).mp hl)]
        simp
      · rintro ⟨k, hk⟩; have := (List.cons.inj hk).1; revert this; decide
    rw [many_eq lineF_consumes, hw, this]
    simp only
    rw [hxs]
  | @decl ns b₁ name b₂ b₃ ty t l ts hb₁ hname hexp hb₂ hb₃ ht hl hts ih =>
    intro x hx
    obtain ⟨xs, hxs, hf⟩ := ih _ (Or.inr rfl)
    refine ⟨some (.decl name ty) :: xs, ?_, by simp [hf]⟩
    have e : b₁ ++ name ++ b₂ ++ ":".toList ++ b₃ ++ t ++ l ++ ts =
      b₁ ++ (name ++ (b₂ ++ (":".toList ++ (b₃ ++ (t ++ (l ++ ts)))))) := by simp
    rw [e] at hx
    obtain ⟨c, cs, hcs, hc⟩ := Ident.head hname
    have hnl : NoHead isLayout (name ++ (b₂ ++ (":".toList ++ (b₃ ++ (t ++ (l ++ ts)))))) := by
      rw [hcs]; exact noHead_cons.mpr (word_not_layout (start_word hc))
    have hw := lineF_start hb₁ (by simp [hcs]) hnl hx
    have := lineF_decl (rest := ts) hname hexp hb₂ hb₃ ht hl
    rw [many_eq lineF_consumes, hw, this]
    simp only
    rw [hxs]

theorem blank_append {a b : Str} (ha : Blank a) (hb : Blank b) : Blank (a ++ b) := by
  intro c hc
  rcases List.mem_append.mp hc with h | h
  · exact ha c h
  · exact hb c h

theorem newlines_append {a b : Str} (ha : Newlines a) (hb : Newlines b) : Newlines (a ++ b) := by
  intro c hc
  rcases List.mem_append.mp hc with h | h
  · exact ha c h
  · exact hb c h

theorem lines_sound (s : Str) {xs : List (Option Node)} (h : many lineF s = (xs, [])) :
    Lines (xs.filterMap id) s := by
  induction hn : s.length using Nat.strongRecOn generalizing s xs with
  | _ n ih =>
    rw [many_eq lineF_consumes] at h
    cases hv : lineF s with
    | none =>
      rw [hv] at h; simp at h
      obtain ⟨rfl, rfl⟩ := h
      exact .nil
    | some x =>
      obtain ⟨v, r⟩ := x
      rw [hv] at h
      simp only [Prod.mk.injEq] at h
      obtain ⟨rfl, h2⟩ := h
      have hlt := lineF_consumes _ _ _ hv
      have hrest := ih r.length (by omega) r (xs := (many lineF r).1) (by rw [← h2]) rfl
      have eb := List.takeWhile_append_dropWhile (p := isBlank) (l := s)
      unfold lineF orF at hv
      cases hc : lineCommentF s with
      | some y =>
        rw [hc] at hv
        rw [lineCommentF_eq] at hc
        cases hcm : commentF (s.dropWhile isBlank) with
        | none => simp [hcm] at hc
        | some z =>
          obtain ⟨u, r1⟩ := z
          obtain ⟨t, l, hs, hcom, hl⟩ := commentF_sound hcm
          simp only [hcm, Option.map, Option.some.injEq] at hc
          subst hc
          simp only [Option.some.injEq, Prod.mk.injEq] at hv
          obtain ⟨rfl, hr1⟩ := hv
          have e := List.takeWhile_append_dropWhile (p := isNl) (l := r1)
          rw [hr1] at e
          have := Lines.comment (b := s.takeWhile isBlank) (t := t) (l := l ++ r1.takeWhile isNl)
            ((blank_iff _).mpr takeWhile_mem) (by rw [List.append_assoc, e]; exact hcom)
            (newlines_append hl ((newlines_iff _).mpr takeWhile_mem)) hrest
          simp only [List.filterMap_cons, id]
          have es : s.takeWhile isBlank ++ t ++ (l ++ r1.takeWhile isNl) ++ r = s := by
            calc _ = s.takeWhile isBlank ++ (t ++ l ++ (r1.takeWhile isNl ++ r)) := by simp
              _ = s := by rw [e, ← hs, eb]
          rw [es] at this; exact this
      | none =>
        rw [hc] at hv
        simp only at hv
        cases he : lineExportF s with
        | some y =>
          rw [he] at hv
          rw [lineExportF_eq] at he
          cases hl : litF "export".toList (s.dropWhile isBlank) with
          | none => rw [hl] at he; cases he
          | some z =>
            obtain ⟨u, r1⟩ := z
            have hs := litF_sound hl
            simp only [hl, Option.map, Option.some.injEq] at he
            subst he
            simp only [Option.some.injEq, Prod.mk.injEq] at hv
            obtain ⟨rfl, hr1⟩ := hv
            have e1 := List.takeWhile_append_dropWhile (p := isBlank) (l := r1)
            have hbe := noHead_dropWhile isBlank r1
            set w := r1.dropWhile isBlank with hw
            have e2 := List.takeWhile_append_dropWhile (p := isWord) (l := w)
            have hwe := noHead_dropWhile isWord w
            set w' := w.dropWhile isWord with hw'
            have e3 := List.takeWhile_append_dropWhile (p := isNl) (l := w')
            rw [hr1] at e3
            have := Lines.export (b₁ := s.takeWhile isBlank) (b₂ := r1.takeWhile isBlank)
              (name := w.takeWhile isWord) (l := w'.takeWhile isNl)
              ((blank_iff _).mpr takeWhile_mem) ((blank_iff _).mpr takeWhile_mem)
              ((word_iff _).mpr takeWhile_mem) ((newlines_iff _).mpr takeWhile_mem)
              (by rw [List.append_assoc, e3, e2, blankEnd_iff]; exact hbe)
              (by rw [e3, wordEnd_iff]; exact hwe) hrest
            simp only [List.filterMap_cons, id]
            have es : s.takeWhile isBlank ++ "export".toList ++ r1.takeWhile isBlank ++ w.takeWhile isWord ++
                w'.takeWhile isNl ++ r = s := by
              calc _ = s.takeWhile isBlank ++ ("export".toList ++ (r1.takeWhile isBlank ++
                    (w.takeWhile isWord ++ (w'.takeWhile isNl ++ r)))) := by simp
                _ = s := by rw [e3, e2, e1, ← hs, eb]
            rw [es] at this; exact this
        | none =>
          rw [he] at hv
          simp only at hv
          rw [lineDeclF_eq] at hv
          cases hi : identF (s.dropWhile isBlank) with
          | none => simp [hi] at hv
          | some z =>
            obtain ⟨name, r1⟩ := z
            rw [hi] at hv
            simp only at hv
            obtain ⟨hs, hname, hnw⟩ := identF_sound hi
            cases hl : litF ":".toList (r1.dropWhile isBlank) with
            | none => rw [hl] at hv; simp at hv
            | some z =>
              obtain ⟨u, r2⟩ := z
              rw [hl] at hv
              simp only at hv
              have hs2 := litF_sound hl
              cases ht : typeF (r2.dropWhile isBlank) with
              | none => rw [ht] at hv; simp at hv
              | some z =>
                obtain ⟨ty, r3⟩ := z
                rw [ht] at hv
                simp only [Option.map, Option.some.injEq, Prod.mk.injEq] at hv
                obtain ⟨rfl, hr⟩ := hv
                obtain ⟨b, t, hs3, hb, htt⟩ := typeF_sound ht
                have e1 := List.takeWhile_append_dropWhile (p := isBlank) (l := r1)
                have e2 := List.takeWhile_append_dropWhile (p := isBlank) (l := r2)
                have e3 := List.takeWhile_append_dropWhile (p := isLayout) (l := r3)
                rw [hr] at e3
                have hexp : ¬ "export".toList <+: name := by
                  intro hp
                  rw [lineExportF_eq, litF_cons, if_pos] at he
                  · simp at he
                  · rw [hs]; exact hp.trans (List.prefix_append _ _)
                have := Lines.decl (b₁ := s.takeWhile isBlank) (b₂ := r1.takeWhile isBlank)
                  (b₃ := r2.takeWhile isBlank ++ b) (l := r3.takeWhile isLayout)
                  ((blank_iff _).mpr takeWhile_mem) hname hexp ((blank_iff _).mpr takeWhile_mem)
                  (blank_append ((blank_iff _).mpr takeWhile_mem) hb) htt
                  ((layout_iff _).mpr takeWhile_mem) hrest
                simp only [List.filterMap_cons, id]
                have es : s.takeWhile isBlank ++ name ++ r1.takeWhile isBlank ++ ":".toList ++
                    (r2.takeWhile isBlank ++ b) ++ t ++ r3.takeWhile isLayout ++ r = s := by
                  calc _ = s.takeWhile isBlank ++ (name ++ (r1.takeWhile isBlank ++ (":".toList ++
                        (r2.takeWhile isBlank ++ (b ++ (t ++ (r3.takeWhile isLayout ++ r))))))) := by simp
                    _ = s := by rw [e3, ← hs3, e2, ← hs2, e1, ← hs, eb]
                rw [es] at this; exact this

/-- The parser accepts exactly the grammar. -/
theorem schema_iff (text : Str) (ast : AST) : schema text = .ok ast ↔ Schema ast text := by
  rw [schema_ok_iff, schemaF_eq]
  constructor
  · intro h
    simp only [Option.some.injEq, Prod.mk.injEq] at h
    refine ⟨text.takeWhile isNl, text.dropWhile isNl, List.takeWhile_append_dropWhile.symm,
      (newlines_iff _).mpr takeWhile_mem, ?_⟩
    rw [← h.1]
    apply lines_sound
    rw [← h.2]
  · rintro ⟨l, t, rfl, hl, ht⟩
    rw [dropWhile_all ((newlines_iff _).mp hl)]
    obtain ⟨xs, hxs, hf⟩ := lines_complete ht _ (Or.inl rfl)
    rw [hxs, hf]

end Packetc.Parser
