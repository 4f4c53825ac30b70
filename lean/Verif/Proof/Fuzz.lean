import Verif.Spec.Fuzz
import Verif.Proof.Print
/-!
The files written by `scripts/gen_random_pkt.py`, as schema texts.
-/

namespace Packetc.Fuzz
open Ast Grammar WellFormed Packetc.Parser Peg

/-! ### Identifiers -/

theorem ascii {p : Char → Bool} (hp : ∀ n, n < 128 → p (Char.ofNat n) = true) (c : Char) (hc : c.toNat < 128) :
    p c = true := by
  have := hp c.toNat hc
  rwa [Char.ofNat_toNat] at this

theorem lower_ascii {c : Char} (h : lower c = true) : c.toNat < 128 := by
  unfold lower at h
  rw [Bool.and_eq_true, decide_eq_true_eq, decide_eq_true_eq] at h
  have := h.2
  rw [Char.le_def, UInt32.le_iff_toNat_le] at this
  exact Nat.lt_of_le_of_lt this (by decide)

theorem letter_ascii {c : Char} (h : letter c = true) : c.toNat < 128 := by
  unfold letter at h
  rw [Bool.or_eq_true] at h
  rcases h with h | h
  · exact lower_ascii h
  · rw [Bool.and_eq_true, decide_eq_true_eq, decide_eq_true_eq] at h
    have := h.2
    rw [Char.le_def, UInt32.le_iff_toNat_le] at this
    exact Nat.lt_of_le_of_lt this (by decide)

theorem digit_ascii {c : Char} (h : digit c = true) : c.toNat < 128 := by
  unfold digit at h
  rw [Bool.and_eq_true, decide_eq_true_eq, decide_eq_true_eq] at h
  have := h.2
  rw [Char.le_def, UInt32.le_iff_toNat_le] at this
  exact Nat.lt_of_le_of_lt this (by decide)

theorem head_ascii {c : Char} (h : (lower c || c == '_') = true) : c.toNat < 128 := by
  rw [Bool.or_eq_true] at h
  rcases h with h | h
  · exact lower_ascii h
  · rw [beq_iff_eq] at h; subst h; decide

theorem tail_ascii {c : Char} (h : (letter c || c == '_' || digit c) = true) : c.toNat < 128 := by
  rw [Bool.or_eq_true, Bool.or_eq_true] at h
  rcases h with (h | h) | h
  · exact letter_ascii h
  · rw [beq_iff_eq] at h; subst h; decide
  · exact digit_ascii h

/-- First characters: in upper case they are still first characters of identifiers, and no lower-case letters. -/
def headFact (c : Char) : Bool :=
  !(lower c || c == '_') || (isStart c && isStart c.toUpper && !lower c.toUpper)

theorem headFact_all (c : Char) (h : (lower c || c == '_') = true) :
    isStart c = true ∧ isStart c.toUpper = true ∧ lower c.toUpper = false := by
  have := ascii (p := headFact) (by decide +kernel) c (head_ascii h)
  unfold headFact at this
  rw [h] at this
  simpa [and_assoc] using this

def tailFact (c : Char) : Bool :=
  !(letter c || c == '_' || digit c) || (isWord c && isWord c.toUpper && isWord c.toLower)

theorem tailFact_all (c : Char) (h : (letter c || c == '_' || digit c) = true) :
    isWord c = true ∧ isWord c.toUpper = true ∧ isWord c.toLower = true := by
  have := ascii (p := tailFact) (by decide +kernel) c (tail_ascii h)
  unfold tailFact at this
  rw [h] at this
  simpa [and_assoc] using this

theorem reserved_lower : ∀ r ∈ reservedWords, ∃ c cs, r = c :: cs ∧ lower c = true := by
  intro r hr
  have : ∀ r ∈ reservedWords, (match r with | [] => false | c :: _ => lower c) = true := by decide
  have := this r hr
  cases r with
  | nil => cases this
  | cons c cs => exact ⟨c, cs, rfl, this⟩

theorem ident_of {c : Char} {cs : Str} (hc : isStart c = true) (hl : lower c = false)
    (hcs : ∀ d ∈ cs, isWord d = true) : Ident (c :: cs) := by
  refine ⟨⟨c, cs, rfl, (isStart_iff c).mp hc, (word_iff _).mpr hcs⟩, ?_⟩
  intro r hr hp
  obtain ⟨d, ds, rfl, hd⟩ := reserved_lower r hr
  rw [List.cons_prefix_cons] at hp
  rw [hp.1, hl] at hd; cases hd

/-- The names of definitions are identifiers that do not begin with a lower-case letter. -/
theorem ident_cap {s : Str} (h : Identifier s) :
    Ident (capitalize s) ∧ ∃ c cs, capitalize s = c :: cs ∧ lower c = false := by
  cases s with
  | nil => exact h.elim
  | cons c cs =>
    obtain ⟨h1, -, h3⟩ := h
    obtain ⟨-, h4, h5⟩ := headFact_all c h1
    refine ⟨ident_of h4 h5 ?_, c.toUpper, _, rfl, h5⟩
    intro d hd
    obtain ⟨e, he, rfl⟩ := List.mem_map.mp hd
    exact (tailFact_all e (h3 e he)).2.2

theorem cap_not_export {s : Str} (h : Identifier s) : ¬ "export".toList <+: capitalize s := by
  obtain ⟨-, c, cs, hc, hl⟩ := ident_cap h
  rw [hc]
  intro hp
  rw [show "export".toList = 'e' :: "xport".toList from rfl, List.cons_prefix_cons] at hp
  rw [← hp.1] at hl; revert hl; decide

theorem builtin_lower : ∀ r ∈ builtinNames, ∃ c cs, r = c :: cs ∧ lower c = true := by
  intro r hr
  have : ∀ r ∈ builtinNames, (match r with | [] => false | c :: _ => lower c) = true := by decide
  have := this r hr
  cases r with
  | nil => cases this
  | cons c cs => exact ⟨c, cs, rfl, this⟩

theorem cap_not_builtin {s : Str} (h : Identifier s) : capitalize s ∉ builtinNames := by
  intro hm
  obtain ⟨-, c, cs, hc, hl⟩ := ident_cap h
  obtain ⟨d, ds, hd, hd'⟩ := builtin_lower _ hm
  rw [hc] at hd
  injection hd with h1 h2
  rw [h1, hd'] at hl; cases hl

theorem ident_upper {s : Str} (h : Identifier s) : Ident (upper s) := by
  cases s with
  | nil => exact h.elim
  | cons c cs =>
    obtain ⟨h1, -, h3⟩ := h
    obtain ⟨-, h4, h5⟩ := headFact_all c h1
    refine ident_of (cs := cs.map Char.toUpper) h4 h5 ?_
    intro d hd
    obtain ⟨e, he, rfl⟩ := List.mem_map.mp hd
    exact (tailFact_all e (h3 e he)).2.1

theorem identifier_head {s : Str} (h : Identifier s) : ∃ c cs, s = c :: cs ∧ isStart c = true := by
  cases s with
  | nil => exact h.elim
  | cons c cs => exact ⟨c, cs, rfl, (headFact_all c h.1).1⟩

/-- Variants are identifiers unless they begin with a reserved word. -/
theorem ident_variant {s : Str} (h : Identifier s) (hr : ∀ r ∈ reservedWords, ¬ r <+: s) : Ident s := by
  cases s with
  | nil => exact h.elim
  | cons c cs =>
    obtain ⟨h1, -, h3⟩ := h
    exact ⟨⟨c, cs, rfl, (isStart_iff c).mp (headFact_all c h1).1,
      (word_iff _).mpr fun d hd => (tailFact_all d (h3 d hd)).1⟩, hr⟩

theorem blank_ws {s : Str} (h : Whitespace s) : Blank s := by
  obtain ⟨n, -, rfl⟩ := h
  intro c hc
  exact Or.inl (List.eq_of_mem_replicate hc)

theorem layout_wsnl {s : Str} (h : WhitespaceNl s) : Layout s := by
  intro c hc
  rcases h.2 c hc with h | h
  · exact Or.inl h
  · exact Or.inr (Or.inr (Or.inl h))

/-! ### Bodies -/

def variantsText (vs : List (Str × Str)) : Str := joinWith ",".toList (vs.map fun v => v.1 ++ v.2)

theorem variantsText_cons (v w : Str × Str) (vs : List (Str × Str)) :
    variantsText (v :: w :: vs) = v.1 ++ v.2 ++ ",".toList ++ variantsText (w :: vs) := rfl
theorem variantsText_one (v : Str × Str) : variantsText [v] = v.1 ++ v.2 := rfl

theorem noWord_layout {l rest : Str} (hl : Layout l) (hr : NoHead isWord rest) : NoHead isWord (l ++ rest) := by
  cases l with
  | nil => exact hr
  | cons c l =>
    refine noHead_cons.mpr ?_
    cases hw : isWord c with
    | false => rfl
    | true =>
      have := (layout_iff _).mp hl c (by simp)
      rw [word_not_layout hw] at this; cases this

theorem variants_text {vs : List (Str × Str)}
    (h : ∀ v ∈ vs, Ident v.1 ∧ WhitespaceNl v.2) {rest : Str} (hr : NoHead isWord rest) :
    Variants (vs.map Prod.fst) (variantsText vs) rest := by
  induction vs with
  | nil => exact .nil _
  | cons v vs ih =>
    obtain ⟨h1, h2⟩ := h v (by simp)
    have ih := ih fun w hw => h w (by simp [hw])
    cases vs with
    | nil =>
      have := Variants.cons (t := v.1 ++ v.2) (rest := rest)
        ⟨v.2, [], [], by simp, h1, layout_wsnl h2, Or.inl rfl, layout_nil, by
          rw [wordEnd_iff]
          simpa using noWord_layout (layout_wsnl h2) hr⟩ (.nil rest)
      simpa [variantsText_one] using this
    | cons w vs =>
      rw [variantsText_cons]
      refine .cons ⟨v.2, ",".toList, [], by simp, h1, layout_wsnl h2, Or.inr rfl, layout_nil, ?_⟩ ih
      rw [wordEnd_iff]
      simp only [List.append_assoc]
      exact noWord_layout (layout_wsnl h2) (noHead_cons.mpr (by decide))

theorem variantsText_head {vs : List (Str × Str)} (h : ∀ v ∈ vs, Identifier v.1) (hne : vs ≠ []) (more : Str) :
    ∃ c cs, variantsText vs ++ more = c :: cs ∧ isStart c = true := by
  cases vs with
  | nil => exact absurd rfl hne
  | cons v vs =>
    obtain ⟨c, cs, hc, hs⟩ := identifier_head (h v (by simp))
    cases vs with
    | nil => exact ⟨c, cs ++ (v.2 ++ more), by rw [variantsText_one, hc]; simp, hs⟩
    | cons w vs => exact ⟨c, _, by rw [variantsText_cons, hc, List.append_assoc, List.append_assoc, List.append_assoc, List.cons_append], hs⟩

/-- The parser stops at the first variant that begins with a reserved word. -/
theorem variants_stop {vs : List (Str × Str)} (h : ∀ v ∈ vs, Identifier v.1 ∧ WhitespaceNl v.2)
    (hbad : ∃ v ∈ vs, ∃ r ∈ reservedWords, r <+: v.1) (more : Str) :
    ∃ c cs, (many enumVariantF (variantsText vs ++ more)).2 = c :: cs ∧ isStart c = true := by
  induction vs with
  | nil => obtain ⟨v, hv, -⟩ := hbad; cases hv
  | cons v vs ih =>
    obtain ⟨h1, h2⟩ := h v (by simp)
    by_cases hv : ∃ r ∈ reservedWords, r <+: v.1
    · obtain ⟨c, cs, hcs, hc⟩ := variantsText_head (vs := v :: vs) (fun w hw => (h w hw).1) (by simp) more
      refine ⟨c, cs, ?_, hc⟩
      have : enumVariantF (variantsText (v :: vs) ++ more) = none := by
        have hp : ∃ r ∈ reservedWords, r <+: variantsText (v :: vs) ++ more := by
          obtain ⟨r, hr, hrp⟩ := hv
          refine ⟨r, hr, hrp.trans ?_⟩
          cases vs with
          | nil => exact ⟨v.2 ++ more, by simp [variantsText_one]⟩
          | cons w vs => rw [variantsText_cons]; exact ⟨v.2 ++ (",".toList ++ (variantsText (w :: vs) ++ more)), by simp⟩
        rw [enumVariantF_eq]
        unfold identF
        rw [if_neg]
        · rfl
        · intro hall
          obtain ⟨r, hr, hrp⟩ := hp
          exact hall r (by rw [reserved_eq]; exact hr) hrp
      rw [many_eq enumVariantF_consumes, this]
      exact hcs
    · have hv' : ∀ r ∈ reservedWords, ¬ r <+: v.1 := fun r hr hp => hv ⟨r, hr, hp⟩
      have hbad' : ∃ v ∈ vs, ∃ r ∈ reservedWords, r <+: v.1 := by
        obtain ⟨w, hw, hwr⟩ := hbad
        rcases List.mem_cons.mp hw with rfl | hw
        · exact absurd hwr hv
        · exact ⟨w, hw, hwr⟩
      obtain ⟨c, cs, hcs, hc⟩ := ih (fun w hw => h w (by simp [hw])) hbad'
      cases vs with
      | nil => obtain ⟨_, hw, -⟩ := hbad'; cases hw
      | cons w vs =>
        refine ⟨c, cs, ?_, hc⟩
        obtain ⟨c', cs', hcs', hc'⟩ := variantsText_head (vs := w :: vs)
          (fun u hu => (h u (by simp [List.mem_cons.mp hu])).1) (by simp) more
        have hno := start_noLayout hcs' hc'
        have : enumVariantF (variantsText (v :: w :: vs) ++ more) = some (v.1, variantsText (w :: vs) ++ more) := by
          have hvar : Variant v.1 (v.1 ++ v.2 ++ ",".toList) (variantsText (w :: vs) ++ more) :=
            ⟨v.2, ",".toList, [], by simp, ident_variant h1 hv', layout_wsnl h2, Or.inr rfl, layout_nil, by
              rw [wordEnd_iff]
              simp only [List.append_assoc]
              exact noWord_layout (layout_wsnl h2) (noHead_cons.mpr (by decide))⟩
          have := variant_complete hvar (by
            rw [hno, hcs', noHead_cons]
            cases hq : (c' == ',') with
            | false => rfl
            | true => rw [beq_iff_eq] at hq; subst hq; revert hc'; decide)
          rw [variantsText_cons, List.append_assoc, this, hno]
        rw [many_eq enumVariantF_consumes, this]
        exact hcs

def fieldAst (f : Field) : Str × Unresolved := (upper f.ident, ⟨f.type, f.array, false⟩)

def fieldCore (f : Field) : Str :=
  upper f.ident ++ ":".toList ++ " ".toList ++ f.type ++ maybeArray f.array

def fieldsBody : List Field → Str
  | [] => []
  | [f] => fieldCore f
  | f :: g :: fs => fieldCore f ++ (",".toList ++ "\n    ".toList) ++ fieldsBody (g :: fs)

theorem fieldText_eq (f : Field) : fieldText f = "    ".toList ++ fieldCore f := by
  unfold fieldText fieldCore
  rw [show ": ".toList = ":".toList ++ " ".toList from rfl]
  simp only [List.append_assoc]

theorem fieldsText_eq (fs : List Field) (h : fs ≠ []) :
    joinWith ",\n".toList (fs.map fieldText) = "    ".toList ++ fieldsBody fs := by
  induction fs with
  | nil => exact absurd rfl h
  | cons f fs ih =>
    cases fs with
    | nil => exact fieldText_eq f
    | cons g fs =>
      have ih := ih (by simp)
      have e : joinWith ",\n".toList ((f :: g :: fs).map fieldText) =
        fieldText f ++ ",\n".toList ++ joinWith ",\n".toList ((g :: fs).map fieldText) := rfl
      have e2 : fieldsBody (f :: g :: fs) = fieldCore f ++ (",".toList ++ "\n    ".toList) ++ fieldsBody (g :: fs) := rfl
      rw [e, ih, e2, fieldText_eq, show ",\n".toList = ",".toList ++ "\n".toList from rfl,
        show "\n    ".toList = "\n".toList ++ "    ".toList from rfl]
      simp only [List.append_assoc]

theorem layout_nl4 : Layout "\n    ".toList := by
  rw [layout_iff]; decide
theorem layout_4 : Layout "    ".toList := by
  rw [layout_iff]; decide

theorem fields_text {fs : List Field} (h : ∀ f ∈ fs, Identifier f.ident ∧ Word f.type) (x : Str) :
    Fields (fs.map fieldAst) (fieldsBody fs) ("}".toList ++ x) := by
  induction fs with
  | nil => exact .nil _
  | cons f fs ih =>
    obtain ⟨h1, h2⟩ := h f (by simp)
    have ih := ih fun w hw => h w (by simp [hw])
    have ha : ∀ p : Char → Bool, p '[' = false → ∀ y, NoHead p y → NoHead p (maybeArray f.array ++ y) := by
      intro p hp y hy
      unfold maybeArray
      split
      · exact noHead_cons.mpr hp
      · exact hy
    cases fs with
    | nil =>
      have := Fields.field (n := upper f.ident) (u := ⟨f.type, f.array, false⟩) (t := fieldCore f) (ts := [])
        (rest := "}".toList ++ x) ⟨[], [], " ".toList, maybeArray f.array, [], [], [], by simp [fieldCore],
          ident_upper h1, blank_nil, rfl, blank_sp, h2, rfl, layout_nil, Or.inl rfl, layout_nil, by
            simp only [List.append_assoc, List.nil_append]
            exact blankEnd_word h2 (ha _ (by decide) _ (noHead_cons.mpr (by decide))), by
            rw [wordEnd_iff]
            simp only [List.append_assoc, List.nil_append]
            exact ha _ (by decide) _ (noHead_cons.mpr (by decide))⟩ (.nil _)
      rw [List.append_nil] at this
      exact this
    | cons g fs =>
      exact Fields.field (n := upper f.ident) (u := ⟨f.type, f.array, false⟩)
        (t := fieldCore f ++ (",".toList ++ "\n    ".toList)) (ts := fieldsBody (g :: fs))
        (rest := "}".toList ++ x) ⟨[], [], " ".toList, maybeArray f.array, [], ",".toList, "\n    ".toList, by
          simp [fieldCore],
          ident_upper h1, blank_nil, rfl, blank_sp, h2, rfl, layout_nil, Or.inr rfl, layout_nl4, by
            simp only [List.append_assoc, List.nil_append]
            exact blankEnd_word h2 (ha _ (by decide) _ (noHead_cons.mpr (by decide))), by
            rw [wordEnd_iff]
            simp only [List.append_assoc, List.nil_append]
            exact ha _ (by decide) _ (noHead_cons.mpr (by decide))⟩ ih

/-! ### Lines -/

/-- What a definition declares. -/
def Def.decl : Def → Option (Str × Ty)
  | .comment _ => none
  | .enum i _ _ _ _ vs => some (capitalize i, .enum (vs.map Prod.fst))
  | .struct i _ _ _ _ fs => some (capitalize i, .struct (fs.map fieldAst))

def astOf (ds : List Def) : AST := (ds.filterMap Def.decl).map fun p => .decl p.1 p.2

/-- No variant of the definition begins with a reserved word. -/
def Def.Unreserved : Def → Prop
  | .enum _ _ _ _ _ vs => ∀ v ∈ vs, ∀ r ∈ reservedWords, ¬ r <+: v.1
  | _ => True

/-- All types that may be referred to are words. -/
def Words (types : List Str) : Prop := ∀ t ∈ types, Word t

theorem line_enum (i w₁ w₂ op cl : Str) (vs : List (Str × Str)) :
    (Def.enum i w₁ w₂ op cl vs).line = capitalize i ++ ":".toList ++ w₁ ++ "enum".toList ++ w₂ ++
      ("{".toList ++ op) ++ variantsText vs ++ ("}".toList ++ cl) ++ "\n".toList := rfl
theorem line_struct (i w₁ w₂ op cl : Str) (fs : List Field) :
    (Def.struct i w₁ w₂ op cl fs).line = capitalize i ++ ":".toList ++ w₁ ++ "struct".toList ++ w₂ ++
      ("{".toList ++ op) ++ joinWith ",\n".toList (fs.map fieldText) ++ ("}".toList ++ cl) ++ "\n".toList := rfl
theorem line_comment (b : Str) : (Def.comment b).line = "#".toList ++ b ++ "\n".toList := rfl

theorem comment_noNl {types : List Str} {b : Str} (h : (Def.comment b).Ok types) : '\n' ∉ b := by
  intro hm
  have := h.2 '\n' hm
  revert this; decide

theorem struct_fields_ne {types : List Str} {i w₁ w₂ op cl : Str} {fs : List Field}
    (h : (Def.struct i w₁ w₂ op cl fs).Ok types) (ht : types ≠ []) : fs ≠ [] := by
  obtain ⟨-, -, -, -, -, ⟨n, ⟨h1, -⟩, hn⟩, -⟩ := h
  rintro rfl
  have : 0 < types.length := List.length_pos_iff.mpr ht
  simp only [List.length_nil] at hn
  omega

/-- The type in the text of a definition. -/
theorem type_text {types : List Str} (ht : types ≠ []) (hw : Words types) {d : Def} (h : d.Ok types)
    (hu : d.Unreserved) {n : Str} {ty : Ty} (hd : d.decl = some (n, ty)) :
    ∃ w t l, d.line = n ++ ":".toList ++ w ++ t ++ l ∧ Ident n ∧ ¬ "export".toList <+: n ∧ Blank w ∧ Type' ty t ∧
      Layout l := by
  cases d with
  | comment b => cases hd
  | enum i w₁ w₂ op cl vs =>
    injection hd with hd; injection hd with h1 h2; subst h1 h2
    obtain ⟨hi, hw₁, hw₂, hop, hcl, -, hvs⟩ := h
    refine ⟨w₁, "enum".toList ++ w₂ ++ "{".toList ++ op ++ variantsText vs ++ [] ++ "}".toList,
      cl ++ "\n".toList, ?_, (ident_cap hi).1, cap_not_export hi, blank_ws hw₁,
      .enum (blank_ws hw₂) (layout_wsnl hop) layout_nil
        (variants_text (fun v hv => ⟨ident_variant (hvs v hv).1 (hu v hv), (hvs v hv).2⟩)
          (noHead_cons.mpr (by decide))),
      layout_append (layout_wsnl hcl) layout_nl⟩
    rw [line_enum]; simp only [List.append_assoc, List.nil_append]
  | struct i w₁ w₂ op cl fs =>
    have hne := struct_fields_ne h ht
    injection hd with hd; injection hd with h1 h2; subst h1 h2
    obtain ⟨hi, hw₁, hw₂, hop, hcl, -, -, hfs⟩ := h
    refine ⟨w₁, "struct".toList ++ w₂ ++ "{".toList ++ (op ++ "    ".toList) ++ fieldsBody fs ++ [] ++ "}".toList,
      cl ++ "\n".toList, ?_, (ident_cap hi).1, cap_not_export hi, blank_ws hw₁,
      .struct (blank_ws hw₂) (layout_append (layout_wsnl hop) layout_4) layout_nil
        (fields_text (fun f hf => ⟨(hfs f hf).1, hw _ (hfs f hf).2⟩) []),
      layout_append (layout_wsnl hcl) layout_nl⟩
    rw [line_struct, fieldsText_eq fs hne]; simp only [List.append_assoc, List.nil_append]

/-- Definitions whose variants are fine are lines of the grammar. -/
theorem lines_def {types : List Str} (ht : types ≠ []) (hw : Words types) {d : Def} (h : d.Ok types)
    (hu : d.Unreserved) {a : AST} {rest : Str} (hl : Lines a rest) :
    Lines (astOf [d] ++ a) (d.line ++ rest) := by
  cases hd : d.decl with
  | none =>
    cases d with
    | comment b =>
      have e : astOf [.comment b] ++ a = a := rfl
      rw [e, line_comment]
      have := Lines.comment (b := []) (t := '#' :: b) (l := "\n".toList) blank_nil
        ⟨b, rfl, comment_noNl h, Or.inr ⟨rest, rfl⟩⟩ newlines_nl hl
      simpa using this
    | enum => cases hd
    | struct => cases hd
  | some p =>
    obtain ⟨n, ty⟩ := p
    obtain ⟨w, t, l, e, h1, h2, h3, h4, h5⟩ := type_text ht hw h hu hd
    have e2 : astOf [d] ++ a = .decl n ty :: a := by simp [astOf, hd]
    rw [e2, e]
    have := Lines.decl (b₁ := []) (b₂ := []) blank_nil h1 h2 blank_nil h3 h4 h5 hl
    simpa using this

/-- An enum with a variant beginning with a reserved word is not a line. -/
theorem line_bad {types : List Str} {d : Def} (h : d.Ok types) (hu : ¬ d.Unreserved) (rest : Str) :
    lineF (d.line ++ rest) = none := by
  cases d with
  | comment => exact absurd trivial hu
  | struct => exact absurd trivial hu
  | enum i w₁ w₂ op cl vs =>
    obtain ⟨hi, hw₁, hw₂, hop, hcl, -, hvs⟩ := h
    have hbad : ∃ v ∈ vs, ∃ r ∈ reservedWords, r <+: v.1 := by
      refine Classical.byContradiction fun hc => hu fun v hv r hr hp => hc ⟨v, hv, r, hr, hp⟩
    obtain ⟨hid, c, cs, hc, hlow⟩ := ident_cap hi
    have hstart : isStart c = true := by
      obtain ⟨c', cs', hc', hs⟩ := Ident.head hid
      rw [hc] at hc'; injection hc' with h1 _; subst h1; exact hs
    obtain ⟨X, hX⟩ : ∃ X, X = "{".toList ++ (op ++ (variantsText vs ++ ("}".toList ++ cl ++ "\n".toList ++ rest))) := ⟨_, rfl⟩
    have e : (Def.enum i w₁ w₂ op cl vs).line ++ rest =
        capitalize i ++ (":".toList ++ (w₁ ++ ("enum".toList ++ (w₂ ++ X)))) := by
      rw [line_enum, hX]; simp only [List.append_assoc]
    have hX' : X.dropWhile isBlank = X := by
      rw [hX]; exact dropWhile_noHead (noHead_cons.mpr (by decide))
    have hen : enumTypeF ("enum".toList ++ (w₂ ++ X)) = none := by
      rw [enumTypeF_eq]; unfold braced
      rw [dropWhile_noHead (s := "enum".toList ++ _) (noHead_cons.mpr (by decide)), litF_append]
      simp only
      rw [dropWhile_all ((blank_iff _).mp (blank_ws hw₂)), hX', hX, litF_append]
      simp only
      rw [dropWhile_all ((layout_iff _).mp (layout_wsnl hop))]
      obtain ⟨c', cs', hcs', hc'⟩ := variantsText_head (fun v hv => (hvs v hv).1)
        (by rintro rfl; obtain ⟨_, hv, -⟩ := hbad; cases hv) ("}".toList ++ cl ++ "\n".toList ++ rest)
      rw [start_noLayout hcs' hc']
      obtain ⟨c2, cs2, h2, hc2⟩ := variants_stop hvs hbad ("}".toList ++ cl ++ "\n".toList ++ rest)
      rw [h2, start_noLayout rfl hc2, litF_cons, if_neg]
      rintro ⟨k, hk⟩; have := (List.cons.inj hk).1; rw [← this] at hc2; revert hc2; decide
    have hst : structTypeF ("enum".toList ++ (w₂ ++ X)) = none := by
      rw [structTypeF_eq]; unfold braced
      rw [dropWhile_noHead (s := "enum".toList ++ _) (noHead_cons.mpr (by decide)), litF_cons, if_neg]
      rintro ⟨k, hk⟩; have := (List.cons.inj hk).1; revert this; decide
    have hnb : ∀ y, (capitalize i ++ y).dropWhile isBlank = capitalize i ++ y := by
      intro y
      rw [hc]; refine dropWhile_noHead (noHead_cons.mpr ?_)
      cases hb : isBlank c with
      | false => rfl
      | true => have := layout_of_blank hb; rw [word_not_layout (start_word hstart)] at this; cases this
    rw [e]
    unfold lineF orF
    rw [lineCommentF_eq, lineExportF_eq, lineDeclF_eq, hnb, commentF_eq, if_neg, litF_cons, if_neg]
    · simp only [Option.map]
      rw [identF_complete hid (rest := ":".toList ++ _) (noHead_cons.mpr (by decide))]
      simp only
      rw [dropWhile_noHead (s := ":".toList ++ _) (noHead_cons.mpr (by decide)), litF_append]
      simp only
      rw [dropWhile_all ((blank_iff _).mp (blank_ws hw₁)),
        dropWhile_noHead (s := "enum".toList ++ _) (noHead_cons.mpr (by decide))]
      have : typeF ("enum".toList ++ (w₂ ++ X)) = none := by
        unfold typeF orF
        simp only [F.bind]
        rw [hen]; simp only
        rw [hst]
      rw [this]
    · rintro ⟨k, hk⟩
      rw [hc] at hk
      have := (List.cons.inj hk).1
      rw [← this] at hlow; revert hlow; decide
    · rintro ⟨k, hk⟩
      rw [hc] at hk
      have := (List.cons.inj hk).1
      rw [← this] at hstart; revert hstart; decide

/-- Lines begin with `#` or a name. -/
theorem line_head {types : List Str} {d : Def} (h : d.Ok types) (rest : Str) :
    ∃ c cs, d.line ++ rest = c :: cs ∧ isLayout c = false := by
  have key : ∀ i, Identifier i → ∀ y, ∃ c cs, capitalize i ++ y = c :: cs ∧ isLayout c = false := by
    intro i hi y
    obtain ⟨c, cs, hc, hs⟩ := Ident.head (ident_cap hi).1
    exact ⟨c, cs ++ y, by rw [hc]; rfl, word_not_layout (start_word hs)⟩
  cases d with
  | comment b => exact ⟨'#', b ++ "\n".toList ++ rest, by rw [line_comment]; simp, by decide⟩
  | enum i w₁ w₂ op cl vs =>
    rw [line_enum]; simp only [List.append_assoc]; exact key i h.1 _
  | struct i w₁ w₂ op cl fs =>
    rw [line_struct]; simp only [List.append_assoc]; exact key i h.1 _

theorem noLayout_head {s : Str} (h : ∃ c cs, s = c :: cs ∧ isLayout c = false) :
    s.dropWhile isNl = s ∧ s.dropWhile isLayout = s := by
  obtain ⟨c, cs, rfl, hc⟩ := h
  refine ⟨dropWhile_noHead (noHead_cons.mpr ?_), dropWhile_noHead (noHead_cons.mpr hc)⟩
  cases hn : isNl c with
  | false => rfl
  | true => rw [layout_of_nl hn] at hc; cases hc

/-- A good line is read as one line. -/
theorem lineF_def {types : List Str} (ht : types ≠ []) (hw : Words types) {d : Def} (h : d.Ok types)
    (hu : d.Unreserved) {rest : Str} (hr : ∃ c cs, rest = c :: cs ∧ isLayout c = false) :
    ∃ x, lineF (d.line ++ rest) = some (x, rest) := by
  obtain ⟨r1, r2⟩ := noLayout_head hr
  cases hd : d.decl with
  | none =>
    cases d with
    | comment b =>
      have e : (Def.comment b).line ++ rest = '#' :: b ++ ("\n".toList ++ rest) := by
        rw [line_comment]; simp
      refine ⟨none, ?_⟩
      rw [e]
      unfold lineF orF
      rw [lineCommentF_eq, dropWhile_noHead (s := '#' :: b ++ _) (noHead_cons.mpr (by decide)),
        commentF_complete (t := '#' :: b) (rest := "\n".toList ++ rest) ⟨b, rfl, comment_noNl h, Or.inr ⟨rest, rfl⟩⟩]
      simp only [Option.map]
      rw [dropWhile_sub (fun _ h => h), dropWhile_all ((newlines_iff _).mp newlines_nl), r1]
    | enum => cases hd
    | struct => cases hd
  | some p =>
    obtain ⟨n, ty⟩ := p
    obtain ⟨w, t, l, e, h1, h2, h3, h4, h5⟩ := type_text ht hw h hu hd
    refine ⟨some (.decl n ty), ?_⟩
    have := lineF_decl (b₂ := []) (rest := rest) h1 h2 blank_nil h3 h4 h5
    rw [r2] at this
    rw [e, ← this]
    simp only [List.append_assoc, List.nil_append]

/-! ### Whole runs -/

def typesAfter (types : List Str) (ds : List Def) : List Str := ds.foldl (fun t d => addType t d.name) types

def exportAfter (e : Option (Option Str)) (ds : List Def) : Option (Option Str) :=
  ds.foldl (fun e d => if contains "struct".toList d.line then some d.name else e) e

/-- Every definition was possible at its time. -/
def AllOk : List Str → List Def → Prop
  | _, [] => True
  | types, d :: ds => d.Ok types ∧ AllOk (addType types d.name) ds

theorem loop_facts {n : Nat} {s s' : State} {ds : List Def} (h : Loop n s ds s') :
    AllOk s.types ds ∧ s'.text = s.text ++ ds.flatMap Def.line ∧ s'.export = exportAfter s.export ds := by
  induction h with
  | done => exact ⟨trivial, by simp, rfl⟩
  | full _ => exact ⟨trivial, by simp, rfl⟩
  | next _ hok _ ih =>
    obtain ⟨h1, h2, h3⟩ := ih
    exact ⟨⟨hok, h1⟩, by rw [h2]; simp [step], h3⟩

theorem mem_addType {types : List Str} {n : Option Str} {x : Str} :
    x ∈ addType types n ↔ x ∈ types ∨ n = some x := by
  cases n with
  | none => simp [addType]
  | some m =>
    unfold addType
    simp only
    split
    · rename_i hm
      constructor
      · exact Or.inl
      · rintro (h | h)
        · exact h
        · injection h with h; subst h; exact hm
    · simp only [List.mem_cons, Option.some.injEq]
      constructor
      · rintro (rfl | h)
        · exact Or.inr rfl
        · exact Or.inl h
      · rintro (h | rfl)
        · exact Or.inr h
        · exact Or.inl rfl

theorem addType_ne {types : List Str} (h : types ≠ []) (n : Option Str) : addType types n ≠ [] := by
  obtain ⟨x, hx⟩ := List.exists_mem_of_ne_nil _ h
  exact List.ne_nil_of_mem (mem_addType.mpr (Or.inl hx))

theorem ident_word {n : Str} (h : Ident n) : Word n := (word_iff _).mpr (Ident.word h)

theorem name_ident {types : List Str} {d : Def} (h : d.Ok types) {n : Str} (hn : d.name = some n) :
    Ident n ∧ n ∉ builtinNames := by
  cases d with
  | comment => cases hn
  | enum => injection hn with hn; subst hn; exact ⟨(ident_cap h.1).1, cap_not_builtin h.1⟩
  | struct => injection hn with hn; subst hn; exact ⟨(ident_cap h.1).1, cap_not_builtin h.1⟩

theorem words_add {types : List Str} (h : Words types) {d : Def} (hd : d.Ok types) :
    Words (addType types d.name) := by
  intro t ht
  rcases mem_addType.mp ht with ht | ht
  · exact h t ht
  · exact ident_word (name_ident hd ht).1

theorem lines_defs {types : List Str} (ht : types ≠ []) (hw : Words types) {ds : List Def} (h : AllOk types ds)
    (hu : ∀ d ∈ ds, d.Unreserved) {a : AST} {rest : Str} (hl : Lines a rest) :
    Lines (astOf ds ++ a) (ds.flatMap Def.line ++ rest) := by
  induction ds generalizing types with
  | nil => exact hl
  | cons d ds ih =>
    have := lines_def ht hw h.1 (hu d (by simp))
      (ih (addType_ne ht _) (words_add hw h.1) h.2 fun e he => hu e (by simp [he]))
    have e : astOf (d :: ds) = astOf [d] ++ astOf ds := by
      rw [show d :: ds = [d] ++ ds from rfl]
      simp only [astOf, List.filterMap_append, List.map_append]
    rw [e, List.flatMap_cons, List.append_assoc, List.append_assoc]
    exact this

/-- With a bad variant somewhere, the parser stops before the end. -/
theorem defs_bad {types : List Str} (ht : types ≠ []) (hw : Words types) {ds : List Def} (h : AllOk types ds)
    (hu : ¬ ∀ d ∈ ds, d.Unreserved) (rest : Str) :
    (many lineF (ds.flatMap Def.line ++ rest)).2 ≠ [] := by
  induction ds generalizing types with
  | nil => exact absurd (by intro d hd; cases hd) hu
  | cons d ds ih =>
    rw [List.flatMap_cons, List.append_assoc]
    by_cases hd : d.Unreserved
    · have hu' : ¬ ∀ d ∈ ds, d.Unreserved := by
        intro hall
        refine hu fun e he => ?_
        rcases List.mem_cons.mp he with rfl | he
        · exact hd
        · exact hall e he
      have ih := ih (addType_ne ht _) (words_add hw h.1) h.2 hu'
      cases ds with
      | nil => exact absurd (by intro d hd; cases hd) hu'
      | cons e ds =>
        have hr : ∃ c cs, (e :: ds).flatMap Def.line ++ rest = c :: cs ∧ isLayout c = false := by
          rw [List.flatMap_cons, List.append_assoc]; exact line_head h.2.1 _
        obtain ⟨x, hx⟩ := lineF_def ht hw h.1 hd hr
        rw [many_eq lineF_consumes, hx]
        exact ih
    · rw [many_eq lineF_consumes, line_bad h.1 hd]
      obtain ⟨c, cs, hc, -⟩ := line_head h.1 (ds.flatMap Def.line ++ rest)
      simp only
      rw [hc]; simp

theorem defs_bad_schema {types : List Str} (ht : types ≠ []) (hw : Words types) {ds : List Def}
    (h : AllOk types ds) (hu : ¬ ∀ d ∈ ds, d.Unreserved) (rest : Str) :
    ¬ ∃ ast, Schema ast (ds.flatMap Def.line ++ rest) := by
  rintro ⟨ast, hs⟩
  rw [← schema_iff, schema_ok_iff, schemaF_eq] at hs
  simp only [Option.some.injEq, Prod.mk.injEq] at hs
  have hr : ∃ c cs, ds.flatMap Def.line ++ rest = c :: cs ∧ isLayout c = false := by
    cases ds with
    | nil => exact absurd (by intro d hd; cases hd) hu
    | cons d ds => rw [List.flatMap_cons, List.append_assoc]; exact line_head h.1 _
  rw [(noLayout_head hr).1] at hs
  exact defs_bad ht hw h hu rest hs.2

theorem contains_iff (sub s : Str) : contains sub s = true ↔ sub <:+: s := by
  induction s with
  | nil => simp [contains]
  | cons c cs ih =>
    unfold contains
    rw [Bool.or_eq_true, List.isPrefixOf_iff_prefix, ih, List.infix_cons_iff]

theorem struct_contains (i w₁ w₂ op cl : Str) (fs : List Field) :
    "struct".toList <:+: (Def.struct i w₁ w₂ op cl fs).line := by
  rw [line_struct]
  refine ⟨capitalize i ++ ":".toList ++ w₁, w₂ ++ ("{".toList ++ op) ++
    joinWith ",\n".toList (fs.map fieldText) ++ ("}".toList ++ cl) ++ "\n".toList, ?_⟩
  simp only [List.append_assoc]

theorem exportAfter_append (e : Option (Option Str)) (a b : List Def) :
    exportAfter e (a ++ b) = exportAfter (exportAfter e a) b := by
  unfold exportAfter; rw [List.foldl_append]

theorem exportAfter_none {e : Option (Option Str)} {ds : List Def}
    (h : ∀ d ∈ ds, ¬ "struct".toList <:+: d.line) : exportAfter e ds = e := by
  induction ds with
  | nil => rfl
  | cons d ds ih =>
    show exportAfter (if contains "struct".toList d.line then some d.name else e) ds = e
    rw [if_neg (by rw [contains_iff]; exact h d (by simp))]
    exact ih fun e he => h e (by simp [he])

/-- The value of `export` at the end: the name of the last line containing `struct`. -/
theorem exportAfter_last (e : Option (Option Str)) (ds : List Def) :
    (∀ d ∈ ds, ¬ "struct".toList <:+: d.line) ∨
    ∃ pre d post, ds = pre ++ d :: post ∧ "struct".toList <:+: d.line ∧
      (∀ d ∈ post, ¬ "struct".toList <:+: d.line) ∧ exportAfter e ds = some d.name := by
  induction ds generalizing e with
  | nil => left; intro d hd; cases hd
  | cons d ds ih =>
    rcases ih (if contains "struct".toList d.line then some d.name else e) with h | ⟨pre, d', post, rfl, h1, h2, h3⟩
    · by_cases hd : "struct".toList <:+: d.line
      · right
        refine ⟨[], d, ds, rfl, hd, h, ?_⟩
        show exportAfter (if contains "struct".toList d.line then some d.name else e) ds = _
        rw [exportAfter_none h, if_pos ((contains_iff _ _).mpr hd)]
      · left
        intro x hx
        rcases List.mem_cons.mp hx with rfl | hx
        · exact hd
        · exact h x hx
    · right
      exact ⟨d :: pre, d', post, rfl, h1, h2, h3⟩

/-! ### Well-formedness -/

theorem decls_ast (ds : List Def) (e : List Str) :
    decls (astOf ds ++ e.map .export) = ds.filterMap Def.decl := by
  have h1 : ∀ l : List (Str × Ty), decls (l.map fun p => .decl p.1 p.2) = l := by
    intro l; induction l with
    | nil => rfl
    | cons x l ih => exact congrArg (List.cons x) ih
  have h2 : ∀ l : List Str, decls (l.map .export) = [] := by
    intro l; induction l with
    | nil => rfl
    | cons x l ih => exact ih
  have h3 : ∀ a b, decls (a ++ b) = decls a ++ decls b := fun a b => List.filterMap_append
  rw [h3, h2, List.append_nil]
  exact h1 _

theorem exports_ast (ds : List Def) (e : List Str) : exports (astOf ds ++ e.map .export) = e := by
  have h1 : ∀ l : List (Str × Ty), exports (l.map fun p => .decl p.1 p.2) = [] := by
    intro l; induction l with
    | nil => rfl
    | cons x l ih => exact ih
  have h2 : ∀ l : List Str, exports (l.map .export) = l := by
    intro l; induction l with
    | nil => rfl
    | cons x l ih => exact congrArg (List.cons x) ih
  have h3 : ∀ a b, exports (a ++ b) = exports a ++ exports b := fun a b => List.filterMap_append
  rw [h3, h2]
  unfold astOf
  rw [h1, List.nil_append]

theorem names_ast (ds : List Def) : (ds.filterMap Def.decl).map Prod.fst = ds.filterMap Def.name := by
  induction ds with
  | nil => rfl
  | cons d ds ih => cases d <;> simp [List.filterMap_cons, Def.decl, Def.name, ih]

theorem mem_enum {ds : List Def} {n : Str} {vs : List Str} :
    (n, Ty.enum vs) ∈ ds.filterMap Def.decl ↔
      ∃ i w₁ w₂ op cl ws, Def.enum i w₁ w₂ op cl ws ∈ ds ∧ n = capitalize i ∧ vs = ws.map Prod.fst := by
  rw [List.mem_filterMap]
  constructor
  · rintro ⟨d, hd, h⟩
    cases d with
    | comment => cases h
    | struct => simp [Def.decl] at h
    | enum i w₁ w₂ op cl ws =>
      simp only [Def.decl, Option.some.injEq, Prod.mk.injEq, Ty.enum.injEq] at h
      exact ⟨i, w₁, w₂, op, cl, ws, hd, h.1.symm, h.2.symm⟩
  · rintro ⟨i, w₁, w₂, op, cl, ws, hd, rfl, rfl⟩
    exact ⟨_, hd, rfl⟩

theorem mem_struct {ds : List Def} {n : Str} {gs : List (Str × Unresolved)} :
    (n, Ty.struct gs) ∈ ds.filterMap Def.decl ↔
      ∃ i w₁ w₂ op cl fs, Def.struct i w₁ w₂ op cl fs ∈ ds ∧ n = capitalize i ∧ gs = fs.map fieldAst := by
  rw [List.mem_filterMap]
  constructor
  · rintro ⟨d, hd, h⟩
    cases d with
    | comment => cases h
    | enum => simp [Def.decl] at h
    | struct i w₁ w₂ op cl fs =>
      simp only [Def.decl, Option.some.injEq, Prod.mk.injEq, Ty.struct.injEq] at h
      exact ⟨i, w₁, w₂, op, cl, fs, hd, h.1.symm, h.2.symm⟩
  · rintro ⟨i, w₁, w₂, op, cl, fs, hd, rfl, rfl⟩
    exact ⟨_, hd, rfl⟩

theorem fieldNames_iff (fs : List Field) :
    FieldNamesOk (fs.map fieldAst) ↔ ∀ pre f post, fs = pre ++ f :: post → (∀ g ∈ pre, g.type ∈ builtinNames) →
      upper f.ident ∉ pre.map fun g => upper g.ident := by
  unfold FieldNamesOk
  constructor
  · intro h pre f post e hp
    have := h (pre.map fieldAst) (fieldAst f) (post.map fieldAst) (by rw [e]; simp)
      (by
        intro g hg
        obtain ⟨g', hg', rfl⟩ := List.mem_map.mp hg
        exact hp g' hg')
    rwa [List.map_map] at this
  · intro h pre f post e hp
    obtain ⟨pre', l, e1, rfl, e3⟩ := List.map_eq_append_iff.mp e
    obtain ⟨f', post', rfl, rfl, rfl⟩ := List.map_eq_cons_iff.mp e3
    have := h pre' f' post' e1 fun g hg => hp (fieldAst g) (List.mem_map.mpr ⟨g, hg, rfl⟩)
    rwa [List.map_map]

theorem allOk_split {types : List Str} {pre : List Def} {d : Def} {post : List Def}
    (h : AllOk types (pre ++ d :: post)) : d.Ok (typesAfter types pre) := by
  induction pre generalizing types with
  | nil => exact h.1
  | cons e pre ih => exact ih h.2

theorem mem_typesAfter {types : List Str} {ds : List Def} {x : Str} :
    x ∈ typesAfter types ds ↔ x ∈ types ∨ x ∈ ds.filterMap Def.name := by
  induction ds generalizing types with
  | nil => simp [typesAfter]
  | cons d ds ih =>
    show x ∈ typesAfter (addType types d.name) ds ↔ _
    rw [ih, mem_addType, List.filterMap_cons]
    cases d.name with
    | none => simp
    | some n =>
      simp only [Option.some.injEq, List.mem_cons]
      constructor
      · rintro ((h | h) | h)
        · exact Or.inl h
        · exact Or.inr (Or.inl h.symm)
        · exact Or.inr (Or.inr h)
      · rintro (h | h | h)
        · exact Or.inl (Or.inl h)
        · exact Or.inl (Or.inr h.symm)
        · exact Or.inr h

theorem pkt_builtin {x : Str} : x ∈ pktTypes ↔ x ∈ builtinNames := by
  simp only [pktTypes, builtinNames, List.mem_cons, List.not_mem_nil, or_false]
  constructor <;> intro h <;> rcases h with h | h | h | h | h | h | h | h <;> simp [h]

/-- Fields refer to builtin types and to types declared before. -/
theorem refers_earlier {ds : List Def} (h : AllOk pktTypes ds) {e : List Str} {n m : Str}
    (hr : Refers (astOf ds ++ e.map .export) n m) :
    ∃ pre d post, ds = pre ++ d :: post ∧ d.name = some n ∧ (m ∈ builtinNames ∨ m ∈ pre.filterMap Def.name) := by
  obtain ⟨gs, hg, g, hgm, rfl⟩ := hr
  rw [decls_ast, mem_struct] at hg
  obtain ⟨i, w₁, w₂, op, cl, fs, hd, rfl, rfl⟩ := hg
  obtain ⟨f, hf, rfl⟩ := List.mem_map.mp hgm
  obtain ⟨pre, post, rfl⟩ := List.append_of_mem hd
  refine ⟨pre, _, post, rfl, rfl, ?_⟩
  obtain ⟨-, -, -, -, -, -, -, hfs⟩ := allOk_split h
  have := (hfs f hf).2
  rw [mem_typesAfter, pkt_builtin] at this
  exact this

theorem names_idx {ds : List Def} (hn : (ds.filterMap Def.name).Nodup) {pre : List Def} {d : Def} {post : List Def}
    (e : ds = pre ++ d :: post) {n m : Str} (hd : d.name = some n) (hm : m ∈ pre.filterMap Def.name) :
    (ds.filterMap Def.name).idxOf m < (ds.filterMap Def.name).idxOf n := by
  have e2 : ds.filterMap Def.name = pre.filterMap Def.name ++ n :: post.filterMap Def.name := by
    rw [e, List.filterMap_append, List.filterMap_cons, hd]
  rw [e2] at hn ⊢
  have hnn : n ∉ pre.filterMap Def.name := by
    intro hc
    rw [List.nodup_append] at hn
    exact hn.2.2 n hc n (by simp) rfl
  rw [List.idxOf_append, if_pos hm, List.idxOf_append, if_neg hnn]
  have := List.idxOf_lt_length_iff.mpr hm
  omega

theorem declared_names {ds : List Def} {e : List Str} {n : Str} :
    Declared (astOf ds ++ e.map .export) n ↔ n ∈ ds.filterMap Def.name := by
  unfold Declared
  rw [decls_ast, ← names_ast, List.mem_map]
  constructor
  · rintro ⟨t, ht⟩; exact ⟨_, ht, rfl⟩
  · rintro ⟨⟨n, t⟩, ht, rfl⟩; exact ⟨t, ht⟩

theorem allOk_mem {types : List Str} {ds : List Def} (h : AllOk types ds) {d : Def} (hd : d ∈ ds) :
    ∃ types', d.Ok types' := by
  obtain ⟨pre, post, rfl⟩ := List.append_of_mem hd
  exact ⟨_, allOk_split h⟩

theorem names_not_builtin {types : List Str} {ds : List Def} (h : AllOk types ds) {n : Str}
    (hn : n ∈ ds.filterMap Def.name) : n ∉ builtinNames := by
  obtain ⟨d, hd, hdn⟩ := List.mem_filterMap.mp hn
  obtain ⟨_, hok⟩ := allOk_mem h hd
  exact (name_ident hok hdn).2

theorem refers_idx {ds : List Def} (h : AllOk pktTypes ds) (hn : (ds.filterMap Def.name).Nodup) {e : List Str}
    {n m : Str} (hr : Relation.TransGen (Refers (astOf ds ++ e.map .export)) n m) :
    m ∈ ds.filterMap Def.name → (ds.filterMap Def.name).idxOf m < (ds.filterMap Def.name).idxOf n := by
  have one : ∀ {a b}, Refers (astOf ds ++ e.map .export) a b → b ∈ ds.filterMap Def.name →
      (ds.filterMap Def.name).idxOf b < (ds.filterMap Def.name).idxOf a := by
    intro a b hab hb
    obtain ⟨pre, d, post, e1, e2, e3⟩ := refers_earlier h hab
    rcases e3 with e3 | e3
    · exact absurd e3 (names_not_builtin h hb)
    · exact names_idx hn e1 e2 e3
  induction hr with
  | single hab => exact one hab
  | tail _ hbc ih =>
    intro hc
    have h1 := one hbc hc
    have hb : _ ∈ ds.filterMap Def.name := declared_names (e := e).mp (by
      obtain ⟨fs, hfs, -⟩ := hbc; exact ⟨_, hfs⟩)
    have := ih hb
    omega

/-- The schema of a run is well-formed exactly if the names are distinct, enums have distinct variants, field names
are fine, and the exported name is that of a struct. -/
theorem wf_iff {ds : List Def} (h : AllOk pktTypes ds) (e : List Str) :
    WF (astOf ds ++ e.map .export) ↔
      (ds.filterMap Def.name).Nodup ∧
      (∀ i w₁ w₂ op cl vs, Def.enum i w₁ w₂ op cl vs ∈ ds → (vs.map Prod.fst).Nodup) ∧
      (∀ i w₁ w₂ op cl fs, Def.struct i w₁ w₂ op cl fs ∈ ds →
        ∀ pre f post, fs = pre ++ f :: post → (∀ g ∈ pre, g.type ∈ builtinNames) →
          upper f.ident ∉ pre.map fun g => upper g.ident) ∧
      ∃ i w₁ w₂ op cl fs, Def.struct i w₁ w₂ op cl fs ∈ ds ∧ e = [capitalize i] := by
  constructor
  · intro hwf
    refine ⟨?_, ?_, ?_, ?_⟩
    · have := hwf.unique; rwa [decls_ast, names_ast] at this
    · intro i w₁ w₂ op cl vs hm
      exact (hwf.enums (capitalize i) (vs.map Prod.fst) (by
        rw [decls_ast, mem_enum]; exact ⟨_, _, _, _, _, _, hm, rfl, rfl⟩)).2.2
    · intro i w₁ w₂ op cl fs hm
      exact (fieldNames_iff fs).mp (hwf.fieldNames (capitalize i) (fs.map fieldAst) (by
        rw [decls_ast, mem_struct]; exact ⟨_, _, _, _, _, _, hm, rfl, rfl⟩))
    · obtain ⟨x, gs, h1, h2⟩ := hwf.exported
      rw [exports_ast] at h1
      rw [decls_ast, mem_struct] at h2
      obtain ⟨i, w₁, w₂, op, cl, fs, hm, rfl, -⟩ := h2
      exact ⟨i, w₁, w₂, op, cl, fs, hm, h1⟩
  · rintro ⟨h1, h2, h3, i, w₁, w₂, op, cl, fs, hm, he⟩
    refine ⟨⟨capitalize i, fs.map fieldAst, ?_, ?_⟩, ?_, ?_, ?_, ?_, ?_, ?_⟩
    · rw [exports_ast, he]
    · rw [decls_ast, mem_struct]; exact ⟨_, _, _, _, _, _, hm, rfl, rfl⟩
    · rw [decls_ast, names_ast]; exact h1
    · intro n vs hn
      rw [decls_ast, mem_enum] at hn
      obtain ⟨i, w₁, w₂, op, cl, ws, hm, rfl, rfl⟩ := hn
      obtain ⟨_, -, -, -, -, -, hlen, -⟩ := allOk_mem h hm
      exact ⟨by rw [List.length_map]; exact hlen.1, by rw [List.length_map]; exact hlen.2, h2 _ _ _ _ _ _ hm⟩
    · intro n m hr
      obtain ⟨pre, d, post, rfl, -, hm⟩ := refers_earlier h hr
      rcases hm with hm | hm
      · exact Or.inl hm
      · exact Or.inr (declared_names.mpr (by rw [List.filterMap_append]; exact List.mem_append_left _ hm))
    · intro n gs hg f hf
      rw [decls_ast, mem_struct] at hg
      obtain ⟨i, w₁, w₂, op, cl, fs, hm, rfl, rfl⟩ := hg
      obtain ⟨f', -, rfl⟩ := List.mem_map.mp hf
      rintro ⟨-, ho⟩; cases ho
    · intro n hn
      have hd : n ∈ ds.filterMap Def.name := by
        obtain ⟨m, hnm, -⟩ := Relation.TransGen.head'_iff.mp hn
        obtain ⟨fs, hfs, -⟩ := hnm
        exact declared_names.mp ⟨_, hfs⟩
      exact Nat.lt_irrefl _ (refers_idx h h1 hn hd)
    · intro n gs hg
      rw [decls_ast, mem_struct] at hg
      obtain ⟨i, w₁, w₂, op, cl, fs, hm, rfl, rfl⟩ := hg
      exact (fieldNames_iff fs).mpr (h3 _ _ _ _ _ _ hm)

theorem words_pkt : Words pktTypes := by
  intro t ht
  rw [word_iff]
  revert t ht
  decide

theorem unreserved_iff (ds : List Def) : (∀ d ∈ ds, d.Unreserved) ↔
    ∀ i w₁ w₂ op cl vs, Def.enum i w₁ w₂ op cl vs ∈ ds → ∀ v ∈ vs, ∀ r ∈ reservedWords, ¬ r <+: v.1 := by
  constructor
  · intro h i w₁ w₂ op cl vs hm; exact h _ hm
  · intro h d hd
    cases d with
    | comment => trivial
    | struct => trivial
    | enum => exact h _ _ _ _ _ _ hd

end Packetc.Fuzz
