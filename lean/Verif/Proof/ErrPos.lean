import Verif.Proof.Grammar
import Verif.Model.Compile
import Verif.Spec.Position
/-!
Positions reported by the parser: character boundaries inside the text.
-/

namespace Packetc.Peg

/-- `n` is the byte offset of a character boundary of `total`. -/
def Bd (total : Str) (n : Nat) : Prop := ∃ pre post, total = pre ++ post ∧ n = bytes pre

theorem Bd.zero (total : Str) : Bd total 0 := ⟨[], total, rfl, rfl⟩
theorem Bd.max {total : Str} {n m : Nat} (hn : Bd total n) (hm : Bd total m) : Bd total (max n m) := by
  rcases Nat.le_total n m with h | h
  · rwa [Nat.max_eq_right h]
  · rwa [Nat.max_eq_left h]

/-- The position is consistent with the text. -/
def Valid (total : Str) (i : Inp) : Prop := ∃ pre, total = pre ++ i.rest ∧ i.pos = bytes pre

theorem Valid.bd {total : Str} {i : Inp} (h : Valid total i) : Bd total i.pos := by
  obtain ⟨pre, h1, h2⟩ := h; exact ⟨pre, _, h1, h2⟩

/-- The rule only marks, and only stops at, character boundaries. -/
def FarOk {α} (p : P α) : Prop := ∀ total i, Valid total i →
  Bd total (p i).far ∧ ∀ i' v, (p i).res = .matched i' v → Valid total i'

theorem FarOk.pure {α} (v : α) : FarOk (pure v : P α) := by
  intro total i hi
  refine ⟨Bd.zero _, ?_⟩
  intro i' v h
  simp only [Pure.pure, P.pure, Res.matched.injEq] at h
  rw [← h.1]; exact hi

theorem FarOk.bind {α β} {p : P α} {q : α → P β} (hp : FarOk p) (hq : ∀ v, FarOk (q v)) :
    FarOk (p >>= q) := by
  intro total i hi
  obtain ⟨h1, h2⟩ := hp total i hi
  simp only [Bind.bind, P.bind]
  rcases hpi : p i with ⟨r, n⟩
  rw [hpi] at h1 h2
  cases r with
  | matched i' v =>
    simp only
    obtain ⟨h3, h4⟩ := hq v total i' (h2 i' v rfl)
    exact ⟨h1.max h3, h4⟩
  | failed => exact ⟨h1, by simp⟩
  | diverge => exact ⟨h1, by simp⟩

theorem FarOk.elem (c : Char → Bool) : FarOk (elem c) := by
  intro total i hi
  unfold Peg.elem
  split
  · rename_i x xs hx
    split
    · refine ⟨Bd.zero _, ?_⟩
      intro i' v h
      simp only [Res.matched.injEq] at h
      obtain ⟨pre, h1, h2⟩ := hi
      rw [← h.1]
      refine ⟨pre ++ [x], by simp [h1, hx], ?_⟩
      simp [bytes_append, h2, bytes]
    · exact ⟨hi.bd, by simp⟩
  · exact ⟨hi.bd, by simp⟩

theorem FarOk.lit (l : Str) : FarOk (lit l) := by
  intro total i hi
  unfold Peg.lit
  split
  · rename_i hp
    rw [List.isPrefixOf_iff_prefix] at hp
    refine ⟨Bd.zero _, ?_⟩
    intro i' v h
    simp only [Res.matched.injEq] at h
    obtain ⟨pre, h1, h2⟩ := hi
    obtain ⟨k, hk⟩ := hp
    rw [← h.1]
    refine ⟨pre ++ l, by simp [h1, ← hk], ?_⟩
    simp [bytes_append, h2]
  · exact ⟨hi.bd, by simp⟩

theorem FarOk.orElse {α} {p q : P α} (hp : FarOk p) (hq : FarOk q) : FarOk (orElse p q) := by
  intro total i hi
  obtain ⟨h1, h2⟩ := hp total i hi
  obtain ⟨h3, h4⟩ := hq total i hi
  unfold Peg.orElse
  rcases hpi : p i with ⟨r, n⟩
  rw [hpi] at h1 h2
  cases r with
  | failed => exact ⟨h1.max h3, h4⟩
  | matched i' v => exact ⟨h1, h2⟩
  | diverge => exact ⟨h1, h2⟩

theorem FarOk.opt {α} {p : P α} (hp : FarOk p) : FarOk (opt p) := by
  intro total i hi
  obtain ⟨h1, h2⟩ := hp total i hi
  unfold Peg.opt
  rcases hpi : p i with ⟨r, n⟩
  rw [hpi] at h1 h2
  cases r with
  | matched i' v =>
    refine ⟨h1, ?_⟩
    intro i'' v' h
    simp only [Res.matched.injEq] at h
    rw [← h.1]; exact h2 _ _ rfl
  | failed =>
    refine ⟨h1, ?_⟩
    intro i'' v' h
    simp only [Res.matched.injEq] at h
    rw [← h.1]; exact hi
  | diverge => exact ⟨h1, by simp⟩

theorem FarOk.notP {α} {p : P α} : FarOk (notP p) := by
  intro total i hi
  unfold Peg.notP
  split
  · exact ⟨Bd.zero _, by simp⟩
  · refine ⟨Bd.zero _, ?_⟩
    intro i'' v' h
    simp only [Res.matched.injEq] at h
    rw [← h.1]; exact hi
  · exact ⟨Bd.zero _, by simp⟩

theorem FarOk.quiet {α} {p : P α} (hp : FarOk p) : FarOk (quiet p) := by
  intro total i hi
  exact ⟨Bd.zero _, (hp total i hi).2⟩

theorem FarOk.slice {α} {p : P α} (hp : FarOk p) : FarOk (slice p) := by
  intro total i hi
  obtain ⟨h1, h2⟩ := hp total i hi
  unfold Peg.slice
  rcases hpi : p i with ⟨r, n⟩
  rw [hpi] at h1 h2
  cases r with
  | matched i' v =>
    refine ⟨h1, ?_⟩
    intro i'' v' h
    simp only [Res.matched.injEq] at h
    rw [← h.1]; exact h2 _ _ rfl
  | failed => exact ⟨h1, by simp⟩
  | diverge => exact ⟨h1, by simp⟩

theorem FarOk.starN {α} {p : P α} (hp : FarOk p) (n : Nat) : FarOk (starN p n) := by
  induction n with
  | zero => intro total i hi; exact ⟨Bd.zero _, by simp [Peg.starN]⟩
  | succ n ih =>
    intro total i hi
    obtain ⟨h1, h2⟩ := hp total i hi
    simp only [Peg.starN]
    rcases hpi : p i with ⟨r, k⟩
    rw [hpi] at h1 h2
    cases r with
    | matched i' v =>
      obtain ⟨h3, h4⟩ := ih total i' (h2 _ _ rfl)
      simp only
      rcases hst : Peg.starN p n i' with ⟨r', k'⟩
      rw [hst] at h3 h4
      cases r' with
      | matched i'' vs =>
        refine ⟨h1.max h3, ?_⟩
        intro j v' h
        simp only [Res.matched.injEq] at h
        rw [← h.1]; exact h4 _ _ rfl
      | failed => exact ⟨h1.max h3, by simp⟩
      | diverge => exact ⟨h1.max h3, by simp⟩
    | failed =>
      refine ⟨h1, ?_⟩
      intro j v' h
      simp only [Res.matched.injEq] at h
      rw [← h.1]; exact hi
    | diverge => exact ⟨h1, by simp⟩

theorem FarOk.star {α} {p : P α} (hp : FarOk p) : FarOk (star p) := by
  intro total i hi
  exact FarOk.starN hp _ total i hi

end Packetc.Peg

namespace Packetc.Parser
open Peg Ast

theorem ident_far : FarOk ident :=
  .quiet <| .slice <| .bind .notP fun _ => .bind (.slice (.elem _)) fun _ =>
    .bind (.star (.slice (.elem _))) fun _ => .pure _
theorem span_far (c : Char → Bool) : FarOk (star (elem c)) := .star (.elem _)
theorem comment_far : FarOk comment :=
  .bind (.lit _) fun _ => .bind (span_far _) fun _ => .bind (span_far _) fun _ => .pure _
theorem enumVariant_far : FarOk enumVariant :=
  .bind ident_far fun _ => .bind (span_far _) fun _ => .bind (.opt (.lit _)) fun _ =>
  .bind (span_far _) fun _ => .pure _
theorem enumType_far : FarOk enumType :=
  .bind (span_far _) fun _ => .bind (.lit _) fun _ => .bind (span_far _) fun _ => .bind (.lit _) fun _ =>
  .bind (span_far _) fun _ => .bind (.star enumVariant_far) fun _ =>
  .bind (span_far _) fun _ => .bind (.lit _) fun _ => .pure _
theorem isOptional_far : FarOk isOptional := .bind (.opt (.lit _)) fun _ => .pure _
theorem structField_far : FarOk structField :=
  .orElse (.bind comment_far fun _ => .bind (span_far _) fun _ => .pure _)
    (.bind ident_far fun _ => .bind (span_far _) fun _ => .bind isOptional_far fun _ => .bind (.lit _) fun _ =>
      .bind (span_far _) fun _ => .bind (.slice (span_far _)) fun _ => .bind (.opt (.lit _)) fun _ =>
      .bind (span_far _) fun _ => .bind (.opt (.lit _)) fun _ => .bind (span_far _) fun _ => .pure _)
theorem structType_far : FarOk structType :=
  .bind (span_far _) fun _ => .bind (.lit _) fun _ => .bind (span_far _) fun _ => .bind (.lit _) fun _ =>
  .bind (span_far _) fun _ => .bind (.star structField_far) fun _ =>
  .bind (span_far _) fun _ => .bind (.lit _) fun _ => .pure _
theorem type_far : FarOk type :=
  .orElse (.bind enumType_far fun _ => .pure _) (.bind structType_far fun _ => .pure _)
theorem decl_far : FarOk decl :=
  .bind (span_far _) fun _ => .bind ident_far fun _ => .bind (span_far _) fun _ => .bind (.lit _) fun _ =>
  .bind (span_far _) fun _ => .bind type_far fun _ => .bind (span_far _) fun _ => .pure _
theorem export_far : FarOk exportRule :=
  .bind (.lit _) fun _ => .bind (span_far _) fun _ => .bind (.slice (span_far _)) fun _ => .pure _
theorem line_far : FarOk line :=
  .orElse (.bind (span_far _) fun _ => .bind comment_far fun _ => .bind (span_far _) fun _ => .pure _)
    (.orElse (.bind (span_far _) fun _ => .bind export_far fun _ => .bind (span_far _) fun _ => .pure _)
      (.bind (span_far _) fun _ => .bind decl_far fun _ => .bind (span_far _) fun _ => .pure _))
theorem schema_far : FarOk schemaRule :=
  .bind (.opt (span_far _)) fun _ => .bind (.star line_far) fun _ => .pure _

/-- The parser always gives a verdict. -/
theorem schema_total (text : Str) : schema text ≠ .diverge := by
  unfold schema parseAll
  have h := schema_sem.res ⟨0, text⟩
  rcases hp : schemaRule ⟨0, text⟩ with ⟨r, n⟩
  rw [hp] at h; simp only at h; subst h
  cases hf : schemaF text with
  | none => simp [mkRes]
  | some vr => simp only [mkRes]; split <;> simp

theorem schema_err_bd {text : Str} {off : Nat} (h : schema text = .err off) : Bd text off := by
  unfold schema parseAll at h
  have hv : Valid text ⟨0, text⟩ := ⟨[], rfl, rfl⟩
  obtain ⟨h1, h2⟩ := schema_far text ⟨0, text⟩ hv
  rcases hp : schemaRule ⟨0, text⟩ with ⟨r, n⟩
  rw [hp] at h1 h2
  rw [hp] at h
  cases r with
  | matched i v =>
    simp only at h
    split at h
    · cases h
    · injection h with h; rw [← h]; exact h1.max (h2 _ _ rfl).bd
  | failed => simp only at h; injection h with h; rw [← h]; exact h1
  | diverge => simp at h

/-- The error is never before the end of what the repetition of lines consumed. -/
theorem schema_err_ge {text : Str} {off : Nat} (h : schema text = .err off) :
    bytes text ≤ off + bytes (many lineF (text.dropWhile isNl)).2 := by
  unfold schema parseAll at h
  have hs := schema_sem.res ⟨0, text⟩
  rcases hp : schemaRule ⟨0, text⟩ with ⟨r, n⟩
  rw [hp] at h hs
  simp only [schemaF_eq, mkRes] at hs
  subst hs
  simp only at h
  split at h
  · cases h
  · injection h with h; rw [← h]; omega

end Packetc.Parser

namespace Packetc.Peg

open Position

theorem utf8Size_pos (c : Char) : 0 < c.utf8Size := c.utf8Size_pos

theorem lineBefore_cons_nl (pre : Str) : lineBefore ('\n' :: pre) = lineBefore pre := by
  unfold lineBefore
  congr 1
  rw [List.reverse_cons]
  induction pre.reverse with
  | nil => simp
  | cons c cs ih =>
    rw [List.cons_append]
    by_cases h : c = '\n'
    · subst h; simp
    · simp [h, ih]

theorem takeWhile_snoc_mem (p : Char → Bool) (l : Str) (d : Char) (h : ∃ c ∈ l, p c = false) :
    (l ++ [d]).takeWhile p = l.takeWhile p := by
  induction l with
  | nil => simp at h
  | cons c cs ih =>
    rw [List.cons_append]
    cases hc : p c with
    | false => simp [hc]
    | true =>
      rw [List.takeWhile_cons_of_pos hc, List.takeWhile_cons_of_pos hc, ih]
      obtain ⟨d', hd, hdp⟩ := h
      rcases List.mem_cons.mp hd with rfl | hd
      · rw [hc] at hdp; cases hdp
      · exact ⟨d', hd, hdp⟩

theorem takeWhile_eq_self (p : Char → Bool) (l : Str) (h : ∀ c ∈ l, p c = true) : l.takeWhile p = l := by
  induction l with
  | nil => rfl
  | cons c cs ih =>
    rw [List.takeWhile_cons_of_pos (h c (by simp)), ih (fun c hc => h c (by simp [hc]))]

theorem lineBefore_of_mem {pre : Str} (h : '\n' ∈ pre) (c : Char) : lineBefore (c :: pre) = lineBefore pre := by
  unfold lineBefore
  congr 1
  rw [List.reverse_cons, takeWhile_snoc_mem]
  exact ⟨'\n', by simpa using h, by decide⟩

theorem lineBefore_of_not_mem {pre : Str} (h : '\n' ∉ pre) : lineBefore pre = pre := by
  unfold lineBefore
  rw [takeWhile_eq_self]
  · simp
  · intro c hc
    simp only [bne_iff_ne, ne_eq]
    rintro rfl; exact h (by simpa using hc)

theorem positionRepr_go (pos : Nat) (pre post : Str) (line col : Nat) :
    positionRepr.go pos (pre ++ post) (bytes pre) line col =
      some ⟨line + pre.count '\n',
        (if '\n' ∈ pre then 1 else col) + (lineBefore pre).length, pos⟩ := by
  induction pre generalizing line col with
  | nil => cases post <;> simp [positionRepr.go, bytes, lineBefore]
  | cons c cs ih =>
    have hb : bytes (c :: cs) = c.utf8Size + bytes cs := rfl
    have hp := utf8Size_pos c
    obtain ⟨m, hm⟩ : ∃ m, bytes (c :: cs) = m + 1 := ⟨bytes (c :: cs) - 1, by omega⟩
    rw [hm, List.cons_append]
    simp only [positionRepr.go]
    rw [if_pos (by omega)]
    have e : m + 1 - c.utf8Size = bytes cs := by omega
    rw [e]
    by_cases hc : c = '\n'
    · subst hc
      simp only [if_true, ih]
      rw [lineBefore_cons_nl]
      simp
      omega
    · simp only [hc, if_false, ih]
      by_cases hn : '\n' ∈ cs
      · rw [lineBefore_of_mem hn]
        simp [hn, hc]
      · rw [lineBefore_of_not_mem hn, lineBefore_of_not_mem (by simp [hn, Ne.symm hc])]
        simp [hn, hc, Ne.symm hc]
        omega

theorem positionRepr_eq (pre post : Str) :
    positionRepr (pre ++ post) (bytes pre) =
      some ⟨Position.line pre, Position.column pre, bytes pre⟩ := by
  unfold positionRepr
  rw [positionRepr_go]
  simp [Position.line, Position.column]

theorem splitNl_head (s : Str) : ∃ ls, splitNl s = lineAfter s :: ls := by
  induction s with
  | nil => exact ⟨[], rfl⟩
  | cons c cs ih =>
    obtain ⟨ls, h⟩ := ih
    unfold splitNl
    rw [h]
    by_cases hc : c = '\n'
    · subst hc; exact ⟨_, rfl⟩
    · simp only [hc, if_false]
      exact ⟨ls, by simp [lineAfter, hc]⟩

theorem splitNl_at (pre post : Str) :
    (splitNl (pre ++ post))[pre.count '\n']? = some (lineBefore pre ++ lineAfter post) := by
  induction pre with
  | nil =>
    obtain ⟨ls, h⟩ := splitNl_head post
    simp [h, lineBefore]
  | cons c cs ih =>
    obtain ⟨ls, h⟩ := splitNl_head (cs ++ post)
    rw [List.cons_append]
    unfold splitNl
    rw [h]
    rw [h] at ih
    by_cases hc : c = '\n'
    · subst hc
      simp only [if_true, List.count_cons_self, List.getElem?_cons_succ]
      rw [ih, lineBefore_cons_nl]
    · simp only [hc, if_false]
      rw [List.count_cons_of_ne (fun h => hc h)]
      by_cases hn : '\n' ∈ cs
      · rw [lineBefore_of_mem hn]
        obtain ⟨k, hk⟩ : ∃ k, cs.count '\n' = k + 1 := by
          have := List.count_pos_iff.mpr hn
          exact ⟨cs.count '\n' - 1, by omega⟩
        rw [hk] at ih ⊢
        simpa using ih
      · have h0 := List.count_eq_zero.mpr hn
        rw [h0] at ih ⊢
        rw [lineBefore_of_not_mem hn] at ih
        rw [lineBefore_of_not_mem (by simp [hn, Ne.symm hc])]
        simp only [List.getElem?_cons_zero, Option.some.injEq] at ih ⊢
        simp [ih]

/-- The message for an error between `pre` and `post`. -/
theorem prettyError_eq (pre post : Str) :
    prettyError (pre ++ post) ⟨Position.line pre, Position.column pre, bytes pre⟩ =
      some ("\nUnexpected token '".toList ++ [((pre ++ post)[bytes pre]?).getD '\x00'] ++
        "' at line ".toList ++ (toString (Position.line pre)).toList ++
        ", column ".toList ++ (toString (Position.column pre)).toList ++
        "\n|\n|  ".toList ++ (lineBefore pre ++ lineAfter post) ++ "\n".toList ++
        "|~~".toList ++ List.replicate (lineBefore pre).length '~' ++ "^\n".toList) := by
  unfold prettyError
  have h0 : Position.line pre ≠ 0 := by unfold Position.line; omega
  have h1 : Position.line pre - 1 = pre.count '\n' := by unfold Position.line; omega
  have h2 : ¬ Position.column pre < 1 := by unfold Position.column; omega
  have h3 : Position.column pre - 1 = (lineBefore pre).length := by unfold Position.column; omega
  simp only [h0, h1, h2, h3, if_false, splitNl_at, Option.getD_some]

end Packetc.Peg

namespace Packetc.Parser
open Peg Ast Grammar

theorem many_line_suffix (x : Str) : (many lineF x).2 <:+ x :=
  (Sem.star line_sem lineF_consumes).suffix x (many lineF x).1 _ rfl

theorem dropWhile_suf (p : Char → Bool) (s : Str) : s.dropWhile p <:+ s := List.dropWhile_suffix p

/-- Whatever follows complete lines, the parser gets through those lines. -/
theorem lines_prefix {ns : AST} {t : Str} (h : Lines ns t) (post : Str) :
    ∀ x, x = (t ++ post).dropWhile isNl ∨ x = (t ++ post).dropWhile isLayout →
      (many lineF x).2 <:+ post := by
  induction h with
  | nil =>
    rintro x (rfl | rfl)
    · exact (many_line_suffix _).trans (dropWhile_suf _ _)
    · exact (many_line_suffix _).trans (dropWhile_suf _ _)
  | @comment ns b t l ts hb hc hl hts ih =>
    intro x hx
    have e : b ++ t ++ l ++ ts ++ post = b ++ (t ++ (l ++ ts ++ post)) := by simp
    rw [e] at hx
    obtain ⟨body, rfl, hbody, hend⟩ := hc
    have hw := lineF_start (w := '#' :: body ++ (l ++ ts ++ post)) hb (by simp)
      (noHead_cons.mpr (by decide)) hx
    rw [many_eq lineF_consumes, hw]
    by_cases hne : l ++ ts = []
    · have hr : ∃ r, lineF ('#' :: body ++ (l ++ ts ++ post)) = some (none, r) ∧ r <:+ post := by
        unfold lineF orF
        rw [lineCommentF_eq, dropWhile_noHead (s := '#' :: body ++ _) (noHead_cons.mpr (by decide)),
          commentF_eq, if_pos ⟨_, rfl⟩]
        refine ⟨_, rfl, ?_⟩
        simp only [hne, List.nil_append, List.cons_append, List.drop_one, List.tail_cons]
        rw [dropWhile_all (l := body)]
        · exact (dropWhile_suf _ _).trans ((dropWhile_suf _ _).trans (dropWhile_suf _ _))
        · intro c hc
          simp only [bne_iff_ne, ne_eq]
          rintro rfl; exact hbody hc
      obtain ⟨r, hr, hs⟩ := hr
      rw [hr]
      exact (many_line_suffix r).trans hs
    · have hend' : LineEnd (l ++ ts ++ post) := by
        rcases hend with h | ⟨cs, h⟩
        · exact absurd h hne
        · exact Or.inr ⟨cs ++ post, by rw [h]; rfl⟩
      have : lineF ('#' :: body ++ (l ++ ts ++ post)) = some (none, (ts ++ post).dropWhile isNl) := by
        unfold lineF orF
        rw [lineCommentF_eq, dropWhile_noHead (s := '#' :: body ++ _) (noHead_cons.mpr (by decide)),
          commentF_complete ⟨body, rfl, hbody, hend'⟩]
        simp only [Option.map]
        rw [dropWhile_sub (fun _ h => h), List.append_assoc, dropWhile_all ((newlines_iff _).mp hl)]
      rw [this]
      exact ih _ (Or.inl rfl)
  | @«export» ns b₁ b₂ name l ts hb₁ hb₂ hname hl hbe hwe hts ih =>
    intro x hx
    have e : b₁ ++ "export".toList ++ b₂ ++ name ++ l ++ ts ++ post =
      b₁ ++ ("export".toList ++ (b₂ ++ (name ++ (l ++ ts ++ post)))) := by simp
    rw [e] at hx
    have hw := lineF_start (w := "export".toList ++ (b₂ ++ (name ++ (l ++ ts ++ post)))) hb₁ (by simp)
      (noHead_cons.mpr (by decide)) hx
    rw [many_eq lineF_consumes, hw]
    have hline : lineF ("export".toList ++ (b₂ ++ (name ++ (l ++ ts ++ post)))) =
        some (some (.export (((name ++ (l ++ ts ++ post)).dropWhile isBlank).takeWhile isWord)),
          (((name ++ (l ++ ts ++ post)).dropWhile isBlank).dropWhile isWord).dropWhile isNl) := by
      unfold lineF orF
      rw [lineCommentF_eq, lineExportF_eq,
        dropWhile_noHead (s := "export".toList ++ _) (noHead_cons.mpr (by decide)), litF_append, commentF_eq,
        if_neg]
      · simp only [Option.map]
        rw [dropWhile_all ((blank_iff _).mp hb₂)]
      · rintro ⟨k, hk⟩; have := (List.cons.inj hk).1; revert this; decide
    rw [hline]
    by_cases hne : l ++ ts = []
    · refine (many_line_suffix _).trans ((dropWhile_suf _ _).trans ?_)
      rw [hne, List.nil_append]
      cases name with
      | nil => exact (dropWhile_suf _ _).trans (dropWhile_suf _ _)
      | cons c cs =>
        rw [dropWhile_noHead (p := isBlank), dropWhile_all ((word_iff _).mp hname)]
        · exact dropWhile_suf _ _
        · refine noHead_cons.mpr ?_
          have := word_not_layout ((word_iff _).mp hname c (by simp))
          cases hp : isBlank c with
          | false => rfl
          | true => rw [layout_of_blank hp] at this; exact this
    · rw [List.append_assoc, blankEnd_iff] at hbe
      rw [wordEnd_iff] at hwe
      have hbe' : NoHead isBlank (name ++ (l ++ ts ++ post)) := by
        have : name ++ (l ++ ts ++ post) = (name ++ (l ++ ts)) ++ post := by simp
        rw [this, noHead_append (by intro h; exact hne (List.append_eq_nil_iff.mp h).2)]; exact hbe
      have hwe' : NoHead isWord (l ++ ts ++ post) := (noHead_append hne).mpr hwe
      simp only
      rw [dropWhile_noHead hbe', dropWhile_all ((word_iff _).mp hname), dropWhile_noHead hwe',
        List.append_assoc, dropWhile_all ((newlines_iff _).mp hl)]
      exact ih _ (Or.inl rfl)
  | @decl ns b₁ name b₂ b₃ ty t l ts hb₁ hname hexp hb₂ hb₃ ht hl hts ih =>
    intro x hx
    have e : b₁ ++ name ++ b₂ ++ ":".toList ++ b₃ ++ t ++ l ++ ts ++ post =
      b₁ ++ (name ++ (b₂ ++ (":".toList ++ (b₃ ++ (t ++ (l ++ (ts ++ post))))))) := by simp
    rw [e] at hx
    obtain ⟨c, cs, hcs, hc⟩ := Ident.head hname
    have hnl : NoHead isLayout (name ++ (b₂ ++ (":".toList ++ (b₃ ++ (t ++ (l ++ (ts ++ post))))))) := by
      rw [hcs]; exact noHead_cons.mpr (word_not_layout (start_word hc))
    have hw := lineF_start hb₁ (by simp [hcs]) hnl hx
    rw [many_eq lineF_consumes, hw, lineF_decl hname hexp hb₂ hb₃ ht hl]
    exact ih _ (Or.inr rfl)

theorem schema_prefix {ast : AST} {pre post : Str} (h : Schema ast pre) :
    (many lineF ((pre ++ post).dropWhile isNl)).2 <:+ post := by
  obtain ⟨l, t, rfl, hl, ht⟩ := h
  rw [List.append_assoc, dropWhile_all ((newlines_iff _).mp hl)]
  exact lines_prefix ht post _ (Or.inl rfl)

theorem schema_err_prefix {ast : AST} {pre post : Str} {off : Nat} (h : Schema ast pre)
    (herr : schema (pre ++ post) = .err off) : bytes pre ≤ off := by
  have h1 := schema_err_ge herr
  have h2 := bytes_suffix (schema_prefix (post := post) h)
  rw [bytes_append] at h1
  omega

end Packetc.Parser
