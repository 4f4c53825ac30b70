import Verif.Proof.Peg
/-!
Pure denotations of the rules of `parser.rs`.
-/

namespace Packetc.Parser
open Peg Ast

theorem Consumes.bind_left {α β} {f : F α} {g : α → F β} (hf : Consumes f)
    (hg : ∀ v s w r, g v s = some (w, r) → r <:+ s) : Consumes (F.bind f g) := by
  intro s w r h
  unfold F.bind at h
  split at h
  · rename_i v r' hf'
    have h1 := hf _ _ _ hf'
    have h2 := (hg _ _ _ _ h).length_le
    omega
  · simp at h

theorem Consumes.bind_right {α β} {f : F α} {g : α → F β}
    (hf : ∀ s v r, f s = some (v, r) → r <:+ s) (hg : ∀ v, Consumes (g v)) :
    Consumes (F.bind f g) := by
  intro s w r h
  unfold F.bind at h
  split at h
  · rename_i v r' hf'
    have h1 := (hf _ _ _ hf').length_le
    have h2 := hg _ _ _ _ h
    omega
  · simp at h

theorem Consumes.or {α} {f g : F α} (hf : Consumes f) (hg : Consumes g) : Consumes (orF f g) := by
  intro s w r h
  simp only [orF] at h
  split at h
  · rename_i x hx; exact hf _ _ _ (by rw [hx, h])
  · exact hg _ _ _ h

theorem litF_consumes {l : Str} (hl : l ≠ []) : Consumes (litF l) := by
  intro s v r h
  simp only [litF] at h
  split at h
  · rename_i hp
    rw [List.isPrefixOf_iff_prefix] at hp
    have := hp.length_le
    have : 0 < l.length := List.length_pos_iff.mpr hl
    simp at h; rw [← h]; simp; omega
  · simp at h

/-- A run of characters of a class. -/
def spanF (c : Char → Bool) : F (List Char) := fun s => some (s.takeWhile c, s.dropWhile c)

theorem span_sem (c : Char → Bool) : Sem (star (elem c)) (spanF c) := by
  have h := Sem.star (Sem.elem c) (elemF_consumes c)
  have e : starF (elemF c) = spanF c := by
    funext s; simp [starF, spanF, many_elem]
  rwa [e] at h

theorem blanks_sem : Sem blanks (spanF isBlank) := span_sem _
theorem newlines_sem : Sem newlines (spanF isNl) := span_sem _
theorem layout_sem : Sem layout (spanF isLayout) := span_sem _

def commentF : F Unit :=
  F.bind (litF "#".toList) fun _ =>
  F.bind (spanF (fun ch => ch != '\n')) fun _ =>
  F.bind (spanF isNl) fun _ => F.pure ()

theorem comment_sem : Sem comment commentF :=
  .bind (.lit _) fun _ => .bind (span_sem _) fun _ => .bind newlines_sem fun _ => .pure _

def stringF : F Str := spanF isWord

theorem take_takeWhile_len {c : Char → Bool} (s : Str) :
    s.take (s.length - (s.dropWhile c).length) = s.takeWhile c := by
  have h := List.takeWhile_append_dropWhile (p := c) (l := s)
  have hl : s.length = (s.takeWhile c).length + (s.dropWhile c).length := by
    rw [← List.length_append, h]
  have : s.length - (s.dropWhile c).length = (s.takeWhile c).length := by omega
  rw [this]
  have := List.take_left' (l₁ := s.takeWhile c) (l₂ := s.dropWhile c) rfl
  rwa [h] at this

theorem string_sem : Sem string stringF := by
  have h := Sem.slice (span_sem isWord)
  have e : sliceF (spanF isWord) = stringF := by
    funext s; simp [sliceF, spanF, stringF, take_takeWhile_len]
  rwa [e] at h

/-- src/lib/parser.rs:21-31: the literals, in order. -/
def reservedLits : List Str :=
  ["uint8".toList, "uint16".toList, "uint32".toList, "int8".toList, "int16".toList, "int32".toList,
   "float".toList, "string".toList, "enum".toList, "struct".toList]

def reservedF : F Unit :=
  orF (litF "uint8".toList) <| orF (litF "uint16".toList) <| orF (litF "uint32".toList) <|
  orF (litF "int8".toList) <| orF (litF "int16".toList) <| orF (litF "int32".toList) <|
  orF (litF "float".toList) <| orF (litF "string".toList) <| orF (litF "enum".toList) <|
  litF "struct".toList

theorem reserved_sem : Sem reserved reservedF :=
  .orElse (.lit _) <| .orElse (.lit _) <| .orElse (.lit _) <| .orElse (.lit _) <| .orElse (.lit _) <|
  .orElse (.lit _) <| .orElse (.lit _) <| .orElse (.lit _) <| .orElse (.lit _) (.lit _)

theorem orF_none {α} (f g : F α) (s : Str) : orF f g s = none ↔ f s = none ∧ g s = none := by
  unfold orF; cases f s <;> simp

theorem litF_none (l s : Str) : litF l s = none ↔ ¬ l <+: s := by
  unfold litF; rw [← List.isPrefixOf_iff_prefix]; split <;> simp_all

theorem reservedF_none (s : Str) : reservedF s = none ↔ ∀ r ∈ reservedLits, ¬ r <+: s := by
  simp only [reservedF, orF_none, litF_none, reservedLits, List.forall_mem_cons]
  simp

/-- Identifiers: not starting with a reserved word, longest match. -/
def identF : F Str := fun s =>
  if ∀ r ∈ reservedLits, ¬ r <+: s then
    match s with
    | [] => none
    | c :: cs => if isStart c then some (c :: cs.takeWhile isWord, cs.dropWhile isWord) else none
  else none

def identRawF : F Str := sliceF (
  F.bind (notF reservedF) fun _ =>
  F.bind (sliceF (elemF isStart)) fun _ =>
  F.bind (starF (sliceF (elemF isWord))) fun _ => F.pure ())

theorem many_slice_elem (s : Str) :
    (many (sliceF (elemF isWord)) s).2 = s.dropWhile isWord := by
  have hc : Consumes (sliceF (elemF isWord)) := by
    intro s v r h
    simp only [sliceF] at h
    split at h
    · rename_i x r' hx
      simp at h; rw [← h.2]; exact elemF_consumes _ _ _ _ hx
    · simp at h
  induction s with
  | nil => rw [many_eq hc]; simp [sliceF, elemF]
  | cons x xs ih =>
    rw [many_eq hc]
    simp only [sliceF, elemF]
    by_cases hx : isWord x
    · simp [hx, ih]
    · simp [hx]

theorem ident_sem : Sem ident identF := by
  have hc : Consumes (sliceF (elemF isWord)) := by
    intro s v r h
    simp only [sliceF] at h
    split at h
    · rename_i x r' hx
      simp at h; rw [← h.2]; exact elemF_consumes _ _ _ _ hx
    · simp at h
  have h : Sem ident identRawF :=
    .quiet <| .slice <| .bind (.notP reserved_sem) fun _ =>
      .bind (.slice (.elem _)) fun _ => .bind (.star (.slice (.elem _)) hc) fun _ => .pure _
  have e : identRawF = identF := by
    funext s
    unfold identRawF identF
    simp only [sliceF, F.bind, notF]
    by_cases hr : ∀ r ∈ reservedLits, ¬ r <+: s
    · rw [if_pos hr, (reservedF_none s).mpr hr]
      cases s with
      | nil => simp [elemF]
      | cons c cs =>
        simp only [elemF]
        by_cases hs : isStart c
        · simp [hs, starF, F.pure, many_slice_elem]
          have : cs.length + 1 - (cs.dropWhile isWord).length
              = (cs.length - (cs.dropWhile isWord).length) + 1 := by
            have := (List.dropWhile_suffix (l := cs) isWord).length_le
            omega
          rw [this, List.take_succ_cons, take_takeWhile_len]
        · simp [hs]
    · rw [if_neg hr]
      have hne : reservedF s ≠ none := fun h => hr ((reservedF_none s).mp h)
      cases hrs : reservedF s with
      | none => exact absurd hrs hne
      | some x => simp
  rwa [e] at h

theorem identF_consumes : Consumes identF := by
  intro s v r h
  simp only [identF] at h
  split at h
  · cases s with
    | nil => simp at h
    | cons c cs =>
      simp only at h
      split at h
      · simp at h
        rw [← h.2]
        have := (List.dropWhile_suffix (l := cs) isWord).length_le
        simp; omega
      · simp at h
  · simp at h

def enumVariantF : F Str :=
  F.bind identF fun s => F.bind (spanF isLayout) fun _ => F.bind (optF (litF ",".toList)) fun _ =>
  F.bind (spanF isLayout) fun _ => F.pure s

theorem enumVariant_sem : Sem enumVariant enumVariantF :=
  .bind ident_sem fun _ => .bind layout_sem fun _ => .bind (.opt (.lit _)) fun _ =>
  .bind layout_sem fun _ => .pure _

theorem enumVariantF_consumes : Consumes enumVariantF :=
  Consumes.bind_left identF_consumes fun v s w r h =>
    (Sem.bind layout_sem fun _ => Sem.bind (.opt (.lit ",".toList)) fun _ =>
      .bind layout_sem fun _ => .pure v).suffix s w r h

def enumTypeF : F (List Str) :=
  F.bind (spanF isBlank) fun _ => F.bind (litF "enum".toList) fun _ => F.bind (spanF isBlank) fun _ =>
  F.bind (litF "{".toList) fun _ => F.bind (spanF isLayout) fun _ =>
  F.bind (starF enumVariantF) fun vs => F.bind (spanF isLayout) fun _ =>
  F.bind (litF "}".toList) fun _ => F.pure vs

theorem enumType_sem : Sem enumType enumTypeF :=
  .bind blanks_sem fun _ => .bind (.lit _) fun _ => .bind blanks_sem fun _ => .bind (.lit _) fun _ =>
  .bind layout_sem fun _ => .bind (.star enumVariant_sem enumVariantF_consumes) fun _ =>
  .bind layout_sem fun _ => .bind (.lit _) fun _ => .pure _

def isOptionalF : F Bool := F.bind (optF (litF "?".toList)) fun o => F.pure o.isSome

theorem isOptional_sem : Sem isOptional isOptionalF := .bind (.opt (.lit _)) fun _ => .pure _

def fieldCommentF : F (Option (Str × Unresolved)) :=
  F.bind commentF fun _ => F.bind (spanF isLayout) fun _ => F.pure none

theorem fieldComment_sem : Sem structFieldComment fieldCommentF :=
  .bind comment_sem fun _ => .bind layout_sem fun _ => .pure _

def fieldDeclF : F (Option (Str × Unresolved)) :=
  F.bind identF fun i => F.bind (spanF isBlank) fun _ => F.bind isOptionalF fun o =>
  F.bind (litF ":".toList) fun _ => F.bind (spanF isBlank) fun _ => F.bind stringF fun t =>
  F.bind (optF (litF "[]".toList)) fun a => F.bind (spanF isLayout) fun _ =>
  F.bind (optF (litF ",".toList)) fun _ => F.bind (spanF isLayout) fun _ =>
  F.pure (some (i, ⟨t, a.isSome, o⟩))

theorem fieldDecl_tail_sem (i : Str) : Sem (do
    let _ ← blanks
    let o ← isOptional
    lit ":".toList
    let _ ← blanks
    let t ← string
    let a ← opt (lit "[]".toList)
    let _ ← layout
    let _ ← opt (lit ",".toList)
    let _ ← layout
    return some (i, Unresolved.mk t a.isSome o)) (
    F.bind (spanF isBlank) fun _ => F.bind isOptionalF fun o =>
    F.bind (litF ":".toList) fun _ => F.bind (spanF isBlank) fun _ => F.bind stringF fun t =>
    F.bind (optF (litF "[]".toList)) fun a => F.bind (spanF isLayout) fun _ =>
    F.bind (optF (litF ",".toList)) fun _ => F.bind (spanF isLayout) fun _ =>
    F.pure (some (i, ⟨t, a.isSome, o⟩))) :=
  .bind blanks_sem fun _ => .bind isOptional_sem fun _ => .bind (.lit _) fun _ =>
  .bind blanks_sem fun _ => .bind string_sem fun _ => .bind (.opt (.lit _)) fun _ =>
  .bind layout_sem fun _ => .bind (.opt (.lit _)) fun _ => .bind layout_sem fun _ => .pure _

theorem fieldDecl_sem : Sem structFieldDecl fieldDeclF :=
  .bind ident_sem fun i => fieldDecl_tail_sem i

def structFieldF : F (Option (Str × Unresolved)) := orF fieldCommentF fieldDeclF

theorem structField_sem : Sem structField structFieldF := .orElse fieldComment_sem fieldDecl_sem

theorem commentF_consumes : Consumes commentF :=
  Consumes.bind_left (litF_consumes (by decide)) fun _ s w r h =>
    (Sem.bind (span_sem (fun ch => ch != '\n')) fun _ => Sem.bind newlines_sem fun _ =>
      .pure ()).suffix s w r h

theorem structFieldF_consumes : Consumes structFieldF :=
  Consumes.or
    (Consumes.bind_left commentF_consumes fun _ s w r h =>
      (Sem.bind layout_sem fun _ => .pure none).suffix s w r h)
    (Consumes.bind_left identF_consumes fun i s w r h => (fieldDecl_tail_sem i).suffix s w r h)

def structTypeF : F (List (Str × Unresolved)) :=
  F.bind (spanF isBlank) fun _ => F.bind (litF "struct".toList) fun _ => F.bind (spanF isBlank) fun _ =>
  F.bind (litF "{".toList) fun _ => F.bind (spanF isLayout) fun _ =>
  F.bind (starF structFieldF) fun fs => F.bind (spanF isLayout) fun _ =>
  F.bind (litF "}".toList) fun _ => F.pure (fs.filterMap id)

theorem structType_sem : Sem structType structTypeF :=
  .bind blanks_sem fun _ => .bind (.lit _) fun _ => .bind blanks_sem fun _ => .bind (.lit _) fun _ =>
  .bind layout_sem fun _ => .bind (.star structField_sem structFieldF_consumes) fun _ =>
  .bind layout_sem fun _ => .bind (.lit _) fun _ => .pure _

def typeF : F Ty :=
  orF (F.bind enumTypeF fun e => F.pure (.enum e)) (F.bind structTypeF fun s => F.pure (.struct s))

theorem type_sem : Sem type typeF :=
  .orElse (.bind enumType_sem fun _ => .pure _) (.bind structType_sem fun _ => .pure _)

def declTailF (i : Str) : F Node :=
  F.bind (spanF isBlank) fun _ => F.bind (litF ":".toList) fun _ => F.bind (spanF isBlank) fun _ =>
  F.bind typeF fun t => F.bind (spanF isLayout) fun _ => F.pure (.decl i t)

def declF : F Node := F.bind (spanF isBlank) fun _ => F.bind identF declTailF

theorem declTail_sem (i : Str) : Sem (do
    let _ ← blanks
    lit ":".toList
    let _ ← blanks
    let t ← type
    let _ ← layout
    return Node.decl i t) (declTailF i) :=
  .bind blanks_sem fun _ => .bind (.lit _) fun _ => .bind blanks_sem fun _ =>
  .bind type_sem fun _ => .bind layout_sem fun _ => .pure _

theorem decl_sem : Sem decl declF := .bind blanks_sem fun _ => .bind ident_sem declTail_sem

def exportF : F Node :=
  F.bind (litF "export".toList) fun _ => F.bind (spanF isBlank) fun _ =>
  F.bind stringF fun s => F.pure (.export s)

theorem export_sem : Sem exportRule exportF :=
  .bind (.lit _) fun _ => .bind blanks_sem fun _ => .bind string_sem fun _ => .pure _

def lineCommentF : F (Option Node) :=
  F.bind (spanF isBlank) fun _ => F.bind commentF fun _ => F.bind (spanF isNl) fun _ => F.pure none
def lineExportF : F (Option Node) :=
  F.bind (spanF isBlank) fun _ => F.bind exportF fun e => F.bind (spanF isNl) fun _ => F.pure (some e)
def lineDeclF : F (Option Node) :=
  F.bind (spanF isBlank) fun _ => F.bind declF fun s => F.bind (spanF isNl) fun _ => F.pure (some s)
def lineF : F (Option Node) := orF lineCommentF (orF lineExportF lineDeclF)

theorem lineComment_sem : Sem lineComment lineCommentF :=
  .bind blanks_sem fun _ => .bind comment_sem fun _ => .bind newlines_sem fun _ => .pure _
theorem lineExport_sem : Sem lineExport lineExportF :=
  .bind blanks_sem fun _ => .bind export_sem fun _ => .bind newlines_sem fun _ => .pure _
theorem lineDecl_sem : Sem lineDecl lineDeclF :=
  .bind blanks_sem fun _ => .bind decl_sem fun _ => .bind newlines_sem fun _ => .pure _
theorem line_sem : Sem line lineF := .orElse lineComment_sem (.orElse lineExport_sem lineDecl_sem)

theorem declF_consumes : Consumes declF :=
  Consumes.bind_right blanks_sem.suffix fun _ =>
    Consumes.bind_left identF_consumes fun i => (declTail_sem i).suffix

theorem exportF_consumes : Consumes exportF :=
  Consumes.bind_left (litF_consumes (by decide)) fun _ s w r h =>
    (Sem.bind blanks_sem fun _ => .bind string_sem fun s => .pure (Node.export s)).suffix s w r h

theorem lineF_consumes : Consumes lineF :=
  Consumes.or
    (Consumes.bind_right blanks_sem.suffix fun _ => Consumes.bind_left commentF_consumes
      fun _ s w r h => (Sem.bind newlines_sem fun _ => .pure none).suffix s w r h) <|
  Consumes.or
    (Consumes.bind_right blanks_sem.suffix fun _ => Consumes.bind_left exportF_consumes
      fun e s w r h => (Sem.bind newlines_sem fun _ => .pure (some e)).suffix s w r h)
    (Consumes.bind_right blanks_sem.suffix fun _ => Consumes.bind_left declF_consumes
      fun e s w r h => (Sem.bind newlines_sem fun _ => .pure (some e)).suffix s w r h)

def schemaF : F AST :=
  F.bind (optF (spanF isNl)) fun _ => F.bind (starF lineF) fun ls => F.pure (ls.filterMap id)

theorem schema_sem : Sem schemaRule schemaF :=
  .bind (.opt newlines_sem) fun _ => .bind (.star line_sem lineF_consumes) fun _ => .pure _

/-- The parser, as a function: the AST of the lines and the text that remains. -/
theorem schemaF_eq (s : Str) :
    schemaF s = some ((many lineF (s.dropWhile isNl)).1.filterMap id, (many lineF (s.dropWhile isNl)).2) := by
  simp [schemaF, F.bind, optF, spanF, starF, F.pure]

theorem schema_ok_iff (text : Str) (ast : AST) :
    schema text = .ok ast ↔ schemaF text = some (ast, []) := by
  unfold schema parseAll
  have h := schema_sem.res ⟨0, text⟩
  simp only at h
  rcases hp : schemaRule ⟨0, text⟩ with ⟨r, n⟩
  rw [hp] at h; simp only at h; subst h
  cases hf : schemaF text with
  | none => simp [mkRes]
  | some vr =>
    obtain ⟨v, r⟩ := vr
    simp only [mkRes]
    split
    · rename_i hr; simp_all
    · rename_i hr; simp_all

end Packetc.Parser
