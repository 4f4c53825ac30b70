import Verif.Spec.LineEnds
import Verif.Spec.Grammar
/-!
# Line ends in the grammar (for C87)
-/

namespace Packetc.LineEnds
open Ast Grammar

/-! ### CR LF to LF -/

/-- `toUnix` for a text followed by `r`. -/
def unixTo : Str → Str → Str
  | [], _ => []
  | c :: cs, r => if c = '\r' ∧ (cs ++ r).head? = some '\n' then unixTo cs r else c :: unixTo cs r

theorem toUnix_eq (t : Str) : toUnix t = unixTo t [] := by
  induction t with
  | nil => rfl
  | cons c cs ih => simp only [toUnix, unixTo, List.append_nil, ih]

theorem unixTo_append (a b r : Str) : unixTo (a ++ b) r = unixTo a (b ++ r) ++ unixTo b r := by
  induction a with
  | nil => rfl
  | cons c cs ih =>
    simp only [List.cons_append, unixTo, List.append_assoc, ih]
    split <;> rfl

theorem unixTo_id {a : Str} (h : '\r' ∉ a) (r : Str) : unixTo a r = a := by
  induction a with
  | nil => rfl
  | cons c cs ih =>
    simp only [List.mem_cons, not_or] at h
    rw [unixTo, if_neg (fun h' => h.1 h'.1.symm), ih h.2]

theorem unixTo_mem {a r : Str} {c : Char} (h : c ∈ unixTo a r) : c ∈ a := by
  induction a with
  | nil => exact h
  | cons d ds ih =>
    rw [unixTo] at h
    split at h
    · exact List.mem_cons_of_mem _ (ih h)
    · rcases List.mem_cons.1 h with rfl | h
      · exact List.mem_cons_self
      · exact List.mem_cons_of_mem _ (ih h)

/-- The first character stays, or is now a line end. -/
theorem unixTo_head {x r cs : Str} {c : Char} (h : unixTo x r = c :: cs) : x.head? = some c ∨ c = '\n' := by
  cases x with
  | nil => cases h
  | cons d ds =>
    rw [unixTo] at h
    split at h
    · rename_i h1
      cases ds with
      | nil => cases h
      | cons e es =>
        have h2 : e = '\n' := by simpa using h1.2
        subst h2
        rw [unixTo, if_neg (fun h => absurd h.1 (by decide))] at h
        cases h
        exact .inr rfl
    · cases h
      exact .inl rfl

theorem noCr_blank {s : Str} (h : Blank s) : '\r' ∉ s := fun h' => by
  rcases h _ h' with h | h <;> revert h <;> decide
theorem cr_wordChar : ¬ WordChar '\r' := by unfold WordChar Letter Digit; decide
theorem nl_wordChar : ¬ WordChar '\n' := by unfold WordChar Letter Digit; decide
theorem noCr_word {s : Str} (h : Word s) : '\r' ∉ s := fun h' => cr_wordChar (h _ h')
theorem noCr_ident {s : Str} (h : Ident s) : '\r' ∉ s := by
  obtain ⟨⟨c, cs, rfl, h1, h2⟩, -⟩ := h
  intro h'
  rcases List.mem_cons.1 h' with h' | h'
  · rw [← h'] at h1
    rcases h1 with (h | h) | h <;> revert h <;> decide
  · exact noCr_word h2 h'
theorem noCr_comma {s : Str} (h : OptComma s) : '\r' ∉ s := by
  rcases h with rfl | rfl <;> decide

theorem unix_layout {s : Str} (h : Layout s) (r : Str) : Layout (unixTo s r) := fun c hc => h c (unixTo_mem hc)
theorem unix_newlines {s : Str} (h : Newlines s) (r : Str) : Newlines (unixTo s r) := fun c hc => h c (unixTo_mem hc)

theorem unix_wordEnd {x : Str} (h : WordEnd x) (r : Str) : WordEnd (unixTo x r) := by
  intro c cs hc
  rcases unixTo_head hc with h1 | rfl
  · cases x with
    | nil => cases h1
    | cons d ds => cases h1; exact h _ _ rfl
  · exact nl_wordChar

theorem unix_blankEnd {x : Str} (h : BlankEnd x) (r : Str) : BlankEnd (unixTo x r) := by
  intro c cs hc
  rcases unixTo_head hc with h1 | rfl
  · cases x with
    | nil => cases h1
    | cons d ds => cases h1; exact h _ _ rfl
  · decide

theorem unix_lineEnd {x : Str} (h : LineEnd x) (r : Str) : LineEnd (unixTo x r) := by
  rcases h with rfl | ⟨cs, rfl⟩
  · exact .inl rfl
  · rw [unixTo, if_neg (fun h => absurd h.1 (by decide))]
    exact .inr ⟨_, rfl⟩

theorem unix_comment {t rest : Str} (h : Comment t rest) (r : Str) : Comment (unixTo t (rest ++ r)) (unixTo rest r) := by
  obtain ⟨body, rfl, h1, h2⟩ := h
  refine ⟨unixTo body (rest ++ r), ?_, fun h => h1 (unixTo_mem h), unix_lineEnd h2 r⟩
  rw [unixTo, if_neg (fun h => absurd h.1 (by decide))]

theorem unix_variant {v t rest : Str} (h : Variant v t rest) (r : Str) : Variant v (unixTo t (rest ++ r)) (unixTo rest r) := by
  obtain ⟨l₁, comma, l₂, rfl, h1, h2, h3, h4, h5⟩ := h
  refine ⟨unixTo l₁ (comma ++ l₂ ++ rest ++ r), comma, unixTo l₂ (rest ++ r), ?_, h1, unix_layout h2 _, h3, unix_layout h4 _, ?_⟩
  · simp only [unixTo_append, unixTo_id (noCr_ident h1), unixTo_id (noCr_comma h3), List.append_assoc]
  · have := unix_wordEnd h5 r
    simpa only [unixTo_append, unixTo_id (noCr_comma h3), List.append_assoc] using this

theorem unix_variants {vs : List Str} {t rest : Str} (h : Variants vs t rest) (r : Str) :
    Variants vs (unixTo t (rest ++ r)) (unixTo rest r) := by
  induction h with
  | nil => exact .nil _
  | @cons v vs t ts rest h1 _ ih =>
    rw [unixTo_append, ← List.append_assoc]
    refine .cons ?_ ih
    have := unix_variant h1 r
    rwa [unixTo_append] at this

theorem unix_fieldDecl {n : Str} {u : Unresolved} {t rest : Str} (h : FieldDecl n u t rest) (r : Str) :
    FieldDecl n u (unixTo t (rest ++ r)) (unixTo rest r) := by
  obtain ⟨b₁, q, b₂, a, l₁, comma, l₂, rfl, h1, h2, h3, h4, h5, h6, h7, h8, h9, h10, h11⟩ := h
  have hq : '\r' ∉ q := by rw [h3]; split <;> decide
  have ha : '\r' ∉ a := by rw [h6]; split <;> decide
  have hc : '\r' ∉ ":".toList := by decide
  refine ⟨b₁, q, b₂, a, unixTo l₁ (comma ++ l₂ ++ rest ++ r), comma, unixTo l₂ (rest ++ r), ?_, h1, h2, h3, h4, h5, h6,
    unix_layout h7 _, h8, unix_layout h9 _, ?_, ?_⟩
  · simp only [unixTo_append, unixTo_id (noCr_ident h1), unixTo_id (noCr_comma h8), unixTo_id (noCr_blank h2), unixTo_id hq,
      unixTo_id hc, unixTo_id (noCr_blank h4), unixTo_id (noCr_word h5), unixTo_id ha, List.append_assoc]
  · have := unix_blankEnd h10 r
    simpa only [unixTo_append, unixTo_id (noCr_comma h8), unixTo_id (noCr_word h5), unixTo_id ha, List.append_assoc] using this
  · have := unix_wordEnd h11 r
    simpa only [unixTo_append, unixTo_id (noCr_comma h8), unixTo_id ha, List.append_assoc] using this

theorem unix_fields {fs : List (Str × Unresolved)} {t rest : Str} (h : Fields fs t rest) (r : Str) :
    Fields fs (unixTo t (rest ++ r)) (unixTo rest r) := by
  induction h with
  | nil => exact .nil _
  | @field n u fs t ts rest h1 _ ih =>
    rw [unixTo_append, ← List.append_assoc]
    refine .field ?_ ih
    have := unix_fieldDecl h1 r
    rwa [unixTo_append] at this
  | @comment fs t l ts rest h1 h2 _ ih =>
    rw [unixTo_append, unixTo_append]
    refine .comment ?_ (unix_layout h2 _) ih
    have := unix_comment h1 r
    simp only [unixTo_append, List.append_assoc] at this ⊢
    exact this

theorem unix_type {ty : Ty} {t : Str} (h : Type' ty t) (r : Str) : Type' ty (unixTo t r) := by
  cases h with
  | @enum vs b₂ l₁ body l₂ h1 h2 h3 h4 =>
    have := unix_variants h4 r
    simp only [unixTo_append, List.append_assoc, unixTo_id (show '\r' ∉ "}".toList by decide)] at this
    simp only [unixTo_append, unixTo_id (show '\r' ∉ "enum".toList by decide), unixTo_id (show '\r' ∉ "{".toList by decide),
      unixTo_id (show '\r' ∉ "}".toList by decide), unixTo_id (noCr_blank h1), List.append_assoc]
    have := Type'.enum h1 (unix_layout h2 (body ++ (l₂ ++ ("}".toList ++ r)))) (unix_layout h3 ("}".toList ++ r)) this
    simpa only [List.append_assoc] using this
  | @struct fs b₂ l₁ body l₂ h1 h2 h3 h4 =>
    have := unix_fields h4 r
    simp only [unixTo_append, List.append_assoc, unixTo_id (show '\r' ∉ "}".toList by decide)] at this
    simp only [unixTo_append, unixTo_id (show '\r' ∉ "struct".toList by decide), unixTo_id (show '\r' ∉ "{".toList by decide),
      unixTo_id (show '\r' ∉ "}".toList by decide), unixTo_id (noCr_blank h1), List.append_assoc]
    have := Type'.struct h1 (unix_layout h2 (body ++ (l₂ ++ ("}".toList ++ r)))) (unix_layout h3 ("}".toList ++ r)) this
    simpa only [List.append_assoc] using this

theorem unix_lines {ast : AST} {t : Str} (h : Lines ast t) : Lines ast (unixTo t []) := by
  induction h with
  | nil => exact .nil
  | @comment ns b t l ts h1 h2 h3 _ ih =>
    have h4 := unix_comment h2 []
    simp only [unixTo_append, List.append_nil, List.append_assoc, unixTo_id (noCr_blank h1)] at h4 ⊢
    have := Lines.comment h1 h4 (unix_newlines h3 _) ih
    simpa only [List.append_assoc] using this
  | @«export» ns b₁ b₂ name l ts h1 h2 h3 h4 h5 h6 _ ih =>
    have h7 := unix_blankEnd h5 []
    have h8 := unix_wordEnd h6 []
    simp only [unixTo_append, List.append_nil, List.append_assoc, unixTo_id (noCr_blank h1), unixTo_id (noCr_blank h2),
      unixTo_id (noCr_word h3), unixTo_id (show '\r' ∉ "export".toList by decide)] at h7 h8 ⊢
    have := Lines.export (b₁ := b₁) (b₂ := b₂) h1 h2 h3 (unix_newlines h4 ts) (by simpa only [List.append_assoc] using h7) h8 ih
    simpa only [List.append_assoc] using this
  | @decl ns b₁ name b₂ b₃ ty t l ts h1 h2 h3 h4 h5 h6 h7 _ ih =>
    simp only [unixTo_append, List.append_nil, List.append_assoc, unixTo_id (noCr_blank h1), unixTo_id (noCr_blank h4),
      unixTo_id (noCr_blank h5), unixTo_id (noCr_ident h2), unixTo_id (show '\r' ∉ ":".toList by decide)]
    have := Lines.decl h1 h2 h3 h4 h5 (unix_type h6 (l ++ ts)) (unix_layout h7 ts) ih
    simpa only [List.append_assoc] using this

theorem unix_schema {ast : AST} {t : Str} (h : Schema ast t) : Schema ast (toUnix t) := by
  obtain ⟨l, t, rfl, h1, h2⟩ := h
  rw [toUnix_eq, unixTo_append]
  exact ⟨_, _, rfl, unix_newlines h1 _, unix_lines h2⟩

/-! ### LF to CR LF -/

/-- `toDos` for a text followed by `r`, where the CR is put behind the character before. -/
def dosTo : Str → Str → Str
  | [], _ => []
  | c :: cs, r => if (cs ++ r).head? = some '\n' then c :: '\r' :: dosTo cs r else c :: dosTo cs r

/-- The CR for a text that begins with a line end. -/
def cr (x : Str) : Str := if x.head? = some '\n' then ['\r'] else []

theorem dosTo_cons (c : Char) (cs r : Str) : dosTo (c :: cs) r = c :: (cr (cs ++ r) ++ dosTo cs r) := by
  rw [dosTo, cr]
  split <;> rfl

theorem toDos_eq (t : Str) : toDos t = cr t ++ dosTo t [] := by
  induction t with
  | nil => rfl
  | cons c cs ih =>
    rw [toDos, dosTo_cons, List.append_nil, ← ih, cr]
    by_cases h : c = '\n'
    · subst h
      rw [if_pos rfl]
      rfl
    · rw [if_neg h, if_neg (by simpa using h)]
      rfl

theorem dosTo_append (a b r : Str) : dosTo (a ++ b) r = dosTo a (b ++ r) ++ dosTo b r := by
  induction a with
  | nil => rfl
  | cons c cs ih => rw [List.cons_append, dosTo_cons, dosTo_cons, ih, List.append_assoc, List.cons_append, List.append_assoc]

theorem cr_mem {x : Str} {c : Char} (h : c ∈ cr x) : c = '\r' := by
  unfold cr at h
  split at h
  · exact List.mem_singleton.1 h
  · cases h

theorem dosTo_mem {a r : Str} {c : Char} (h : c ∈ dosTo a r) : c ∈ a ∨ c = '\r' := by
  induction a with
  | nil => cases h
  | cons d ds ih =>
    rw [dosTo_cons] at h
    rcases List.mem_cons.1 h with rfl | h
    · exact .inl List.mem_cons_self
    · rcases List.mem_append.1 h with h | h
      · exact .inr (cr_mem h)
      · exact (ih h).imp (List.mem_cons_of_mem _) id

/-- A text without line ends gets at most one CR, at its end. -/
theorem dosTo_line {a : Str} (h : '\n' ∉ a) (h0 : a ≠ []) (x : Str) : dosTo a x = a ++ cr x := by
  induction a with
  | nil => exact absurd rfl h0
  | cons c cs ih =>
    simp only [List.mem_cons, not_or] at h
    rw [dosTo_cons]
    cases cs with
    | nil => simp [dosTo]
    | cons d ds =>
      rw [ih h.2 (by simp)]
      have : cr (d :: ds ++ x) = [] := by
        unfold cr
        rw [if_neg]
        intro h'
        simp only [List.cons_append, List.head?_cons, Option.some.injEq] at h'
        exact h.2 (h' ▸ List.mem_cons_self)
      rw [this]
      rfl

theorem cr_cons {c : Char} (h : c ≠ '\n') (x : Str) : cr (c :: x) = [] := by
  unfold cr
  rw [if_neg (by simpa using h)]

theorem dosTo_head (x r : Str) : (dosTo x r).head? = x.head? := by
  cases x with
  | nil => rfl
  | cons c cs => rw [dosTo_cons]; rfl

theorem noNl_blank {s : Str} (h : Blank s) : '\n' ∉ s := fun h' => by
  rcases h _ h' with h | h <;> revert h <;> decide
theorem noNl_word {s : Str} (h : Word s) : '\n' ∉ s := fun h' => nl_wordChar (h _ h')
theorem noNl_ident {s : Str} (h : Ident s) : '\n' ∉ s := by
  obtain ⟨⟨c, cs, rfl, h1, h2⟩, -⟩ := h
  intro h'
  rcases List.mem_cons.1 h' with h' | h'
  · rw [← h'] at h1
    rcases h1 with (h | h) | h <;> revert h <;> decide
  · exact noNl_word h2 h'

theorem dos_layout {s : Str} (h : Layout s) (x r : Str) : Layout (cr x ++ dosTo s r) := by
  intro c hc
  rcases List.mem_append.1 hc with hc | hc
  · exact .inr (.inr (.inr (cr_mem hc)))
  · rcases dosTo_mem hc with hc | hc
    · exact h c hc
    · exact .inr (.inr (.inr hc))

theorem dos_newlines {s : Str} (h : Newlines s) (x r : Str) : Newlines (cr x ++ dosTo s r) := by
  intro c hc
  rcases List.mem_append.1 hc with hc | hc
  · exact .inr (cr_mem hc)
  · rcases dosTo_mem hc with hc | hc
    · exact h c hc
    · exact .inr hc

theorem layout_append {a b : Str} (ha : Layout a) (hb : Layout b) : Layout (a ++ b) := fun c hc =>
  (List.mem_append.1 hc).elim (ha c) (hb c)

/-- The first character stays, or is now a CR. -/
theorem crdos_head {w x r y cs : Str} {c : Char} (h : w ++ (cr y ++ dosTo x r) = c :: cs) : (w ++ x).head? = some c ∨ c = '\r' := by
  cases w with
  | cons d ds => cases h; exact .inl rfl
  | nil =>
    cases hy : cr y with
    | cons d ds =>
      rw [hy] at h
      cases h
      exact .inr (cr_mem (x := y) (by rw [hy]; exact List.mem_cons_self))
    | nil =>
      rw [hy] at h
      have h : dosTo x r = c :: cs := h
      refine .inl ?_
      rw [List.nil_append, ← dosTo_head x r, h]
      rfl

theorem dos_wordEnd {w x : Str} (h : WordEnd (w ++ x)) (y r : Str) : WordEnd (w ++ (cr y ++ dosTo x r)) := by
  intro c cs hc
  rcases crdos_head hc with h1 | rfl
  · cases hx : w ++ x with
    | nil => rw [hx] at h1; cases h1
    | cons d ds => rw [hx] at h1; cases h1; exact h _ _ hx
  · exact cr_wordChar

theorem dos_blankEnd {w x : Str} (h : BlankEnd (w ++ x)) (y r : Str) : BlankEnd (w ++ (cr y ++ dosTo x r)) := by
  intro c cs hc
  rcases crdos_head hc with h1 | rfl
  · cases hx : w ++ x with
    | nil => rw [hx] at h1; cases h1
    | cons d ds => rw [hx] at h1; cases h1; exact h _ _ hx
  · decide

theorem dos_lineEnd {x : Str} (h : LineEnd x) (r : Str) : LineEnd (dosTo x r) := by
  rcases h with rfl | ⟨cs, rfl⟩
  · exact .inl rfl
  · rw [dosTo_cons]
    exact .inr ⟨_, rfl⟩

theorem dos_comment {t rest : Str} (h : Comment t rest) (r : Str) : Comment (dosTo t (rest ++ r)) (dosTo rest r) := by
  obtain ⟨body, rfl, h1, h2⟩ := h
  refine ⟨cr (body ++ (rest ++ r)) ++ dosTo body (rest ++ r), dosTo_cons _ _ _, fun h => ?_, dos_lineEnd h2 r⟩
  rcases List.mem_append.1 h with h | h
  · exact absurd (cr_mem h) (by decide)
  · rcases dosTo_mem h with h | h
    · exact h1 h
    · exact absurd h (by decide)

theorem dos_comma {comma : Str} (h : OptComma comma) (x : Str) : ∃ y, dosTo comma x = comma ++ cr y := by
  rcases h with rfl | rfl
  · exact ⟨[], rfl⟩
  · exact ⟨x, dosTo_line (by decide) (by decide) x⟩

theorem dos_variant {v t rest : Str} (h : Variant v t rest) (r : Str) : Variant v (dosTo t (rest ++ r)) (dosTo rest r) := by
  obtain ⟨l₁, comma, l₂, rfl, h1, h2, h3, h4, h5⟩ := h
  have hv : v ≠ [] := by
    obtain ⟨⟨c, cs, rfl, -⟩, -⟩ := h1
    simp
  obtain ⟨y, hy⟩ := dos_comma h3 (l₂ ++ (rest ++ r))
  refine ⟨cr (l₁ ++ (comma ++ (l₂ ++ (rest ++ r)))) ++ dosTo l₁ (comma ++ (l₂ ++ (rest ++ r))), comma,
    cr y ++ dosTo l₂ (rest ++ r), ?_, h1, dos_layout h2 _ _, h3, dos_layout h4 _ _, ?_⟩
  · simp only [dosTo_append, dosTo_line (noNl_ident h1) hv, hy, List.append_assoc]
  · have := dos_wordEnd (w := []) (x := l₁ ++ comma ++ l₂ ++ rest) h5 (l₁ ++ (comma ++ (l₂ ++ (rest ++ r)))) r
    simpa only [dosTo_append, hy, List.append_assoc, List.nil_append] using this

theorem dos_variants {vs : List Str} {t rest : Str} (h : Variants vs t rest) (r : Str) :
    Variants vs (dosTo t (rest ++ r)) (dosTo rest r) := by
  induction h with
  | nil => exact .nil _
  | @cons v vs t ts rest h1 _ ih =>
    rw [dosTo_append, ← List.append_assoc]
    refine .cons ?_ ih
    have := dos_variant h1 r
    rwa [dosTo_append] at this

theorem dos_fieldDecl {n : Str} {u : Unresolved} {t rest : Str} (h : FieldDecl n u t rest) (r : Str) :
    FieldDecl n u (dosTo t (rest ++ r)) (dosTo rest r) := by
  obtain ⟨b₁, q, b₂, a, l₁, comma, l₂, rfl, h1, h2, h3, h4, h5, h6, h7, h8, h9, h10, h11⟩ := h
  have hn : n ≠ [] := by
    obtain ⟨⟨c, cs, rfl, -⟩, -⟩ := h1
    simp
  have hq : '\n' ∉ q := by rw [h3]; split <;> decide
  have ha : '\n' ∉ a := by rw [h6]; split <;> decide
  have hH : '\n' ∉ n ++ b₁ ++ q ++ ":".toList ++ b₂ ++ u.name ++ a := by
    simp only [List.mem_append, not_or]
    exact ⟨⟨⟨⟨⟨⟨noNl_ident h1, noNl_blank h2⟩, hq⟩, by decide⟩, noNl_blank h4⟩, noNl_word h5⟩, ha⟩
  have hH0 : n ++ b₁ ++ q ++ ":".toList ++ b₂ ++ u.name ++ a ≠ [] := by
    simp [hn]
  obtain ⟨y, hy⟩ := dos_comma h8 (l₂ ++ (rest ++ r))
  refine ⟨b₁, q, b₂, a, cr (l₁ ++ (comma ++ (l₂ ++ (rest ++ r)))) ++ dosTo l₁ (comma ++ (l₂ ++ (rest ++ r))), comma,
    cr y ++ dosTo l₂ (rest ++ r), ?_, h1, h2, h3, h4, h5, h6, dos_layout h7 _ _, h8, dos_layout h9 _ _, ?_, ?_⟩
  · rw [dosTo_append _ l₂, dosTo_append _ comma, dosTo_append _ l₁, dosTo_line hH hH0]
    simp only [hy, List.append_assoc]
  · have := dos_blankEnd (w := u.name ++ a) (x := l₁ ++ comma ++ l₂ ++ rest) (by simpa only [List.append_assoc] using h10)
      (l₁ ++ (comma ++ (l₂ ++ (rest ++ r)))) r
    simpa only [dosTo_append, hy, List.append_assoc] using this
  · have := dos_wordEnd (w := a) (x := l₁ ++ comma ++ l₂ ++ rest) (by simpa only [List.append_assoc] using h11)
      (l₁ ++ (comma ++ (l₂ ++ (rest ++ r)))) r
    simpa only [dosTo_append, hy, List.append_assoc] using this

theorem dos_fields {fs : List (Str × Unresolved)} {t rest : Str} (h : Fields fs t rest) (r : Str) :
    Fields fs (dosTo t (rest ++ r)) (dosTo rest r) := by
  induction h with
  | nil => exact .nil _
  | @field n u fs t ts rest h1 _ ih =>
    rw [dosTo_append, ← List.append_assoc]
    refine .field ?_ ih
    have := dos_fieldDecl h1 r
    rwa [dosTo_append] at this
  | @comment fs t l ts rest h1 h2 _ ih =>
    rw [dosTo_append, dosTo_append]
    refine .comment ?_ (dos_layout (s := l) h2 [] _) ih
    have := dos_comment h1 r
    simp only [dosTo_append, List.append_assoc] at this ⊢
    exact this

theorem dosTo_congr (a : Str) {x y : Str} (h : x.head? = y.head?) : dosTo a x = dosTo a y := by
  induction a with
  | nil => rfl
  | cons c cs ih =>
    rw [dosTo_cons, dosTo_cons, ih]
    unfold cr
    cases cs with
    | nil => rw [List.nil_append, List.nil_append, h]
    | cons d ds => rfl

theorem brace_head (l r : Str) : (l ++ ("}".toList ++ r)).head? = (l ++ "}".toList).head? := by
  cases l <;> rfl

/-- What a type with its braces becomes, besides a CR behind the last brace. -/
theorem dos_type {ty : Ty} {t : Str} (h : Type' ty t) (r : Str) : ∃ t', Type' ty t' ∧ dosTo t r = t' ++ cr r := by
  have hr : dosTo "}".toList r = "}".toList ++ cr r := dosTo_line (by decide) (by decide) r
  have hr0 : dosTo "}".toList [] = "}".toList := rfl
  cases h with
  | @enum vs b₂ l₁ body l₂ h1 h2 h3 h4 =>
    have h5 := dos_variants h4 []
    have hH : '\n' ∉ "enum".toList ++ b₂ ++ "{".toList := by
      simp only [List.mem_append, not_or]
      exact ⟨⟨by decide, noNl_blank h1⟩, by decide⟩
    have hH0 : "enum".toList ++ b₂ ++ "{".toList ≠ [] := by
      intro h
      have := List.append_eq_nil_iff.1 h
      exact absurd this.2 (by decide)
    rw [dosTo_append, hr0, List.append_nil, List.append_nil] at h5
    refine ⟨_, .enum h1 (dos_layout h2 (l₁ ++ (body ++ (l₂ ++ ("}".toList ++ r)))) (body ++ (l₂ ++ ("}".toList ++ r))))
      (dos_layout (s := l₂) h3 [] "}".toList) h5, ?_⟩
    rw [dosTo_append _ "}".toList, dosTo_append _ l₂, dosTo_append _ body, dosTo_append _ l₁, dosTo_line hH hH0, hr,
      dosTo_congr l₂ (show ("}".toList ++ r).head? = "}".toList.head? from rfl), dosTo_congr body (brace_head l₂ r)]
    simp only [List.append_assoc]
    rfl
  | @struct fs b₂ l₁ body l₂ h1 h2 h3 h4 =>
    have h5 := dos_fields h4 []
    have hH : '\n' ∉ "struct".toList ++ b₂ ++ "{".toList := by
      simp only [List.mem_append, not_or]
      exact ⟨⟨by decide, noNl_blank h1⟩, by decide⟩
    have hH0 : "struct".toList ++ b₂ ++ "{".toList ≠ [] := by
      intro h
      have := List.append_eq_nil_iff.1 h
      exact absurd this.2 (by decide)
    rw [dosTo_append, hr0, List.append_nil, List.append_nil] at h5
    refine ⟨_, .struct h1 (dos_layout h2 (l₁ ++ (body ++ (l₂ ++ ("}".toList ++ r)))) (body ++ (l₂ ++ ("}".toList ++ r))))
      (dos_layout (s := l₂) h3 [] "}".toList) h5, ?_⟩
    rw [dosTo_append _ "}".toList, dosTo_append _ l₂, dosTo_append _ body, dosTo_append _ l₁, dosTo_line hH hH0, hr,
      dosTo_congr l₂ (show ("}".toList ++ r).head? = "}".toList.head? from rfl), dosTo_congr body (brace_head l₂ r)]
    simp only [List.append_assoc]
    rfl

theorem dos_lines {ast : AST} {t : Str} (h : Lines ast t) : Lines ast (dosTo t []) := by
  induction h with
  | nil => exact .nil
  | @comment ns b t l ts h1 h2 h3 _ ih =>
    have h4 := dos_comment h2 []
    have hb : dosTo b (t ++ (l ++ ts)) = b := by
      cases b with
      | nil => rfl
      | cons c cs =>
        rw [dosTo_line (noNl_blank h1) (by simp)]
        obtain ⟨body, rfl, -⟩ := h2
        show c :: cs ++ cr ('#' :: (body ++ (l ++ ts))) = c :: cs
        rw [cr_cons (c := '#') (by decide), List.append_nil]
    simp only [dosTo_append, List.append_nil, List.append_assoc, hb] at h4 ⊢
    have := Lines.comment h1 h4 (dos_newlines (s := l) h3 [] _) ih
    simpa only [List.append_assoc] using this
  | @«export» ns b₁ b₂ name l ts h1 h2 h3 h4 h5 h6 _ ih =>
    have hH : '\n' ∉ b₁ ++ "export".toList ++ b₂ ++ name := by
      simp only [List.mem_append, not_or]
      exact ⟨⟨⟨noNl_blank h1, by decide⟩, noNl_blank h2⟩, noNl_word h3⟩
    have hH0 : b₁ ++ "export".toList ++ b₂ ++ name ≠ [] := by
      intro h
      have := List.append_eq_nil_iff.1 h
      have := List.append_eq_nil_iff.1 this.1
      have := List.append_eq_nil_iff.1 this.1
      exact absurd this.2 (by decide)
    rw [dosTo_append _ ts, dosTo_append _ l, dosTo_line hH hH0, List.append_nil]
    have h7 := dos_blankEnd (w := name) (x := l ++ ts) (by simpa only [List.append_assoc] using h5) (l ++ ts) []
    have h8 := dos_wordEnd (w := []) (x := l ++ ts) h6 (l ++ ts) []
    rw [dosTo_append, List.append_nil] at h7 h8
    have := Lines.export (b₁ := b₁) (b₂ := b₂) h1 h2 h3 (dos_newlines h4 (l ++ ts) ts)
      (by simpa only [List.append_assoc] using h7) (by simpa only [List.append_assoc, List.nil_append] using h8) ih
    simpa only [List.append_assoc] using this
  | @decl ns b₁ name b₂ b₃ ty t l ts h1 h2 h3 h4 h5 h6 h7 _ ih =>
    obtain ⟨t', h8, h9⟩ := dos_type h6 (l ++ ts)
    have hH : '\n' ∉ b₁ ++ name ++ b₂ ++ ":".toList ++ b₃ := by
      simp only [List.mem_append, not_or]
      exact ⟨⟨⟨⟨noNl_blank h1, noNl_ident h2⟩, noNl_blank h4⟩, by decide⟩, noNl_blank h5⟩
    have hH0 : b₁ ++ name ++ b₂ ++ ":".toList ++ b₃ ≠ [] := by
      intro h
      have := List.append_eq_nil_iff.1 h
      have := List.append_eq_nil_iff.1 this.1
      exact absurd this.2 (by decide)
    have ht : cr (t ++ (l ++ ts)) = [] := by
      cases h6 <;> exact cr_cons (by decide) _
    rw [dosTo_append _ ts, dosTo_append _ l, dosTo_append _ t, dosTo_line hH hH0, List.append_nil, h9,
      show cr (t ++ (l ++ ts)) = [] from ht, List.append_nil]
    have := Lines.decl h1 h2 h3 h4 h5 h8 (dos_layout h7 (l ++ ts) ts) ih
    simpa only [List.append_assoc] using this

theorem dos_schema {ast : AST} {t : Str} (h : Schema ast t) : Schema ast (toDos t) := by
  obtain ⟨l, t, rfl, h1, h2⟩ := h
  rw [toDos_eq, dosTo_append, List.append_nil, ← List.append_assoc]
  exact ⟨_, _, rfl, dos_newlines h1 _ _, dos_lines h2⟩

theorem toUnix_toDos {t : Str} (h : '\r' ∉ t) : toUnix (toDos t) = t := by
  induction t with
  | nil => rfl
  | cons c cs ih =>
    simp only [List.mem_cons, not_or] at h
    rw [toDos]
    split
    · rename_i hc
      rw [toUnix, if_pos ⟨rfl, rfl⟩, toUnix, if_neg (fun h => absurd h.1 (by decide)), ih h.2, hc]
    · rw [toUnix, if_neg (fun h' => h.1 h'.1.symm), ih h.2]

end Packetc.LineEnds
