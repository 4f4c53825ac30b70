import Verif.Js.Program
/-!
# The statements that read a packet determine its fields (for C103)
-/

namespace Packetc.Inverse
open Js Check

mutual
/-- The same fields, as far as the statements that read them tell. -/
def alikeFs : List (FieldOf RType) → List (FieldOf RType) → Prop
  | [], [] => True
  | f :: fs, g :: gs => alikeF f g ∧ alikeFs fs gs
  | _, _ => False
def alikeF : FieldOf RType → FieldOf RType → Prop
  | ⟨n, k, t, a, o⟩, ⟨n', k', t', a', o'⟩ => n = n' ∧ a = a' ∧ o = o' ∧ alikeT k k' t t'
def alikeT (k k' : Str) : RType → RType → Prop
  | .builtin b, .builtin b' => (b = .string ∧ b' = .string) ∨ (b ≠ .string ∧ b' ≠ .string ∧ k = k')
  | .enum _, .enum _ => True
  | .struct fs, .struct gs => alikeFs fs gs
  | _, _ => False
end

theorem path_snoc {st : List Str} (h : st ≠ []) (n : Str) : path (st ++ [n]) = .prop (path st) n := by
  cases st with
  | nil => exact absurd rfl h
  | cons x xs => simp [path, List.foldl_append]

theorem path_inj {st : List Str} (h : st ≠ []) {n n' : Str} (he : path (st ++ [n]) = path (st ++ [n'])) : n = n' := by
  rw [path_snoc h, path_snoc h] at he
  injection he

/-- No field begins like this. -/
def Term (r : List Stmt) : Prop := (∃ l x r', r = .assign l (.var x) :: r') ∨ ∃ c e r', r = .ifRet c e :: r'

def isStruct : RType → Bool
  | .struct _ => true
  | _ => false

theorem builtin_read {b : Builtin} (hb : b ≠ .string) (i : Bool) (st : List Str) (k : Str) :
    readType i st k (.builtin b) = [.assign (path st) (readCall k)] := by
  cases b <;> first | exact absurd rfl hb | rfl

theorem readCall_inj {k k' : Str} (h : readCall k = readCall k') : k = k' := by
  injection h with _ h
  exact List.append_cancel_left h

/-- How the statements for a type begin. -/
inductive Begin (st : List Str) (k : Str) (i : Bool) : RType → List Stmt → Prop
  | str : Begin st k i (.builtin .string) [.letS (Gen.varname st "len".toList) false (readCall "uint32".toList),
     .assign (path st) (.call1 reader "read_string".toList (.var (Gen.varname st "len".toList)))]
  | num {b} : b ≠ .string → Begin st k i (.builtin b) [.assign (path st) (readCall k)]
  | enum {e : REnum} {c e1} : Begin st k i (.enum e) [.letS (Gen.varname st "temp".toList) false (.call0 reader e1),
      .ifAssign c (path st) (.var (Gen.varname st "temp".toList)) (.prop reader "failed".toList) .tru]
  | struct {fs} : i = true → Begin st k i (.struct fs)
      ([.letS (Gen.bindname st) true .obj] ++ readFields [Gen.bindname st] fs ++ [.assign (path st) (.var (Gen.bindname st))])
  | item {fs} : i = false → Begin st k i (.struct fs) (readFields st fs)

theorem begins (st : List Str) (k : Str) (i : Bool) (t : RType) : Begin st k i t (readType i st k t) := by
  cases t with
  | builtin b =>
    by_cases hb : b = .string
    · subst hb; exact .str
    · rw [builtin_read hb]; exact .num hb
  | enum e => exact .enum
  | struct fs =>
    cases i
    · exact .item rfl
    · exact .struct rfl

/-- The statements for a field, without the test whether it is there. -/
def fieldBody (st : List Str) (k : Str) (t : RType) (a : Bool) : List Stmt :=
  if a then
    [.letS (Gen.varname st "len".toList) false (readCall "uint32".toList),
     .assign (path st) (.new1 "Array".toList (.var (Gen.varname st "len".toList))),
     .forS (Gen.varname st "index".toList) (.var (Gen.varname st "len".toList))
       ([.letS (Gen.varname st "item".toList) true (match t with | .struct _ => .obj | _ => .undef)] ++
        readType false [Gen.varname st "item".toList] k t ++
        [.assign (.index (path st) (.var (Gen.varname st "index".toList))) (.var (Gen.varname st "item".toList))])]
  else readType true st k t

theorem readField_eq (st : List Str) (n k : Str) (t : RType) (a o : Bool) : readField st ⟨n, k, t, a, o⟩ =
    if o then [.ifElse (.gt (readCall "uint8".toList) (.num 0)) (fieldBody (st ++ [n]) k t a) [.assign (path (st ++ [n])) .undef]]
    else fieldBody (st ++ [n]) k t a := by
  cases t <;> cases o <;> cases a <;> simp [readField, fieldBody]

/-- The first statement of a field. -/
theorem fieldBody_begins (st : List Str) (k : Str) (t : RType) (a : Bool) :
    (∃ x b e r, fieldBody st k t a = .letS x b e :: r) ∨ ∃ l k', fieldBody st k t a = [.assign l (readCall k')] := by
  cases a with
  | true => exact .inl ⟨_, _, _, _, rfl⟩
  | false =>
    show (∃ x b e r, readType true st k t = _) ∨ ∃ l k', readType true st k t = _
    have h := begins st k true t
    generalize readType true st k t = l at h
    cases h with
    | str => exact .inl ⟨_, _, _, _, rfl⟩
    | num => exact .inr ⟨_, _, rfl⟩
    | enum => exact .inl ⟨_, _, _, _, rfl⟩
    | struct => exact .inl ⟨_, _, _, _, rfl⟩
    | item h => cases h

theorem field_not_term (st : List Str) (f : FieldOf RType) (r : List Stmt) : ¬ Term (readField st f ++ r) := by
  obtain ⟨n, k, t, a, o⟩ := f
  rw [readField_eq]
  cases o with
  | true => rintro (⟨_, _, _, h⟩ | ⟨_, _, _, h⟩) <;> cases h
  | false =>
    rcases fieldBody_begins (st ++ [n]) k t a with ⟨_, _, _, _, h⟩ | ⟨_, _, h⟩ <;>
    · simp only [Bool.false_eq_true, if_false]
      rw [h]
      rintro (⟨_, _, _, h⟩ | ⟨_, _, _, h⟩) <;> cases h

mutual
theorem fields_alike : ∀ (fs : List (FieldOf RType)) {s : List Str} (_ : s ≠ []) {gs : List (FieldOf RType)} {r r' : List Stmt}
    (_ : Term r) (_ : Term r'), readFields s fs ++ r = readFields s gs ++ r' → alikeFs fs gs ∧ r = r'
  | [], s, hs, gs, r, r', hr, hr', h => by
    cases gs with
    | nil => exact ⟨True.intro, h⟩
    | cons g gs =>
      rw [readFields, readFields, List.append_assoc, List.nil_append] at h
      exact absurd (h ▸ hr : Term _) (field_not_term s g _)
  | f :: fs, s, hs, gs, r, r', hr, hr', h => by
    cases gs with
    | nil =>
      rw [readFields, readFields, List.append_assoc, List.nil_append] at h
      exact absurd (h ▸ hr' : Term _) (field_not_term s f _)
    | cons g gs =>
      rw [readFields, readFields, List.append_assoc, List.append_assoc] at h
      obtain ⟨h1, h2⟩ := field_alike f hs h
      obtain ⟨h3, h4⟩ := fields_alike fs hs hr hr' h2
      exact ⟨⟨h1, h3⟩, h4⟩
theorem field_alike : ∀ (f : FieldOf RType) {s : List Str} (_ : s ≠ []) {g : FieldOf RType} {r r' : List Stmt},
    readField s f ++ r = readField s g ++ r' → alikeF f g ∧ r = r'
  | ⟨n, k, t, a, o⟩, s, hs, ⟨n', k', t', a', o'⟩, r, r', h => by
    have hbody : ∀ {r r' : List Stmt}, fieldBody (s ++ [n]) k t a ++ r = fieldBody (s ++ [n']) k' t' a' ++ r' →
        n = n' ∧ a = a' ∧ alikeT k k' t t' ∧ r = r' := by
      intro r r' h
      cases a with
      | true =>
        cases a' with
        | true =>
          unfold fieldBody at h
          simp only [if_true, List.cons_append, List.nil_append, List.cons.injEq, Stmt.letS.injEq, Stmt.assign.injEq, Stmt.forS.injEq] at h
          obtain ⟨-, ⟨h1, -⟩, ⟨-, -, ⟨-, -, h2⟩, h3⟩, h4⟩ := h
          have hn := path_inj hs h1
          subst hn
          have hi : isStruct t = isStruct t' := by
            cases t <;> cases t' <;> first | rfl | cases h2
          obtain ⟨h5, -⟩ := item_alike t (by simp) hi (.inl ⟨_, _, _, rfl⟩) (.inl ⟨_, _, _, rfl⟩) h3
          exact ⟨rfl, rfl, h5, h4⟩
        | false =>
          exfalso
          have hb := begins (s ++ [n']) k' true t'
          simp only [fieldBody, if_true, Bool.false_eq_true, if_false] at h
          generalize readType true (s ++ [n']) k' t' = l at hb h
          cases hb <;> simp_all
      | false =>
        cases a' with
        | true =>
          exfalso
          have hb := begins (s ++ [n]) k true t
          simp only [fieldBody, if_true, Bool.false_eq_true, if_false] at h
          generalize readType true (s ++ [n]) k t = l at hb h
          cases hb <;> simp_all
        | false =>
          obtain ⟨h1, h2, h3⟩ := type_alike t hs (by simpa [fieldBody] using h)
          exact ⟨h1, rfl, h2, h3⟩
    rw [readField_eq, readField_eq] at h
    cases o with
    | true =>
      cases o' with
      | true =>
        simp only [if_true, List.cons_append, List.nil_append, List.cons.injEq, Stmt.ifElse.injEq] at h
        obtain ⟨⟨-, h1, -⟩, h2⟩ := h
        obtain ⟨h3, h4, h5, -⟩ := hbody (r := []) (r' := []) (by rw [h1])
        exact ⟨⟨h3, h4, rfl, h5⟩, h2⟩
      | false =>
        exfalso
        simp only [if_true, Bool.false_eq_true, if_false] at h
        rcases fieldBody_begins (s ++ [n']) k' t' a' with ⟨_, _, _, _, hb⟩ | ⟨_, _, hb⟩ <;> rw [hb] at h <;> cases h
    | false =>
      cases o' with
      | true =>
        exfalso
        simp only [if_true, Bool.false_eq_true, if_false] at h
        rcases fieldBody_begins (s ++ [n]) k t a with ⟨_, _, _, _, hb⟩ | ⟨_, _, hb⟩ <;> rw [hb] at h <;> cases h
      | false =>
        obtain ⟨h3, h4, h5, h6⟩ := hbody h
        exact ⟨⟨h3, h4, rfl, h5⟩, h6⟩
theorem type_alike : ∀ (t : RType) {s : List Str} (_ : s ≠ []) {n n' k k' : Str} {t' : RType} {r r' : List Stmt},
    readType true (s ++ [n]) k t ++ r = readType true (s ++ [n']) k' t' ++ r' → n = n' ∧ alikeT k k' t t' ∧ r = r'
  | .struct fs, s, hs, n, n', k, k', t', r, r', h => by
    cases t' with
    | struct gs =>
      rw [readType, readType] at h
      simp only [if_true, List.cons_append, List.nil_append, List.cons.injEq, Stmt.letS.injEq, List.append_assoc] at h
      obtain ⟨⟨h1, -, -⟩, h2⟩ := h
      rw [h1] at h2
      obtain ⟨h3, h4⟩ := fields_alike fs (by simp) (.inl ⟨_, _, _, rfl⟩) (.inl ⟨_, _, _, rfl⟩) h2
      simp only [List.cons.injEq, Stmt.assign.injEq] at h4
      exact ⟨path_inj hs h4.1.1, h3, h4.2⟩
    | builtin b =>
      exfalso
      have hb := begins (s ++ [n']) k' true (.builtin b)
      generalize readType true (s ++ [n']) k' (.builtin b) = l at hb h
      rw [readType] at h
      cases hb <;> simp_all
    | enum b =>
      exfalso
      rw [readType, readType] at h
      simp_all
  | .enum b, s, hs, n, n', k, k', t', r, r', h => by
    have hb := begins (s ++ [n']) k' true t'
    generalize readType true (s ++ [n']) k' t' = l at hb h
    rw [readType] at h
    cases hb with
    | enum =>
      simp only [List.cons_append, List.nil_append, List.cons.injEq, Stmt.ifAssign.injEq] at h
      exact ⟨path_inj hs h.2.1.2.1, True.intro, h.2.2⟩
    | _ => simp_all
  | .builtin b, s, hs, n, n', k, k', t', r, r', h => by
    have hb := begins (s ++ [n']) k' true t'
    have hb' := begins (s ++ [n]) k true (.builtin b)
    generalize readType true (s ++ [n']) k' t' = l at hb h
    generalize readType true (s ++ [n]) k (.builtin b) = l' at hb' h
    cases hb' with
    | str =>
      cases hb with
      | str =>
        simp only [List.cons_append, List.nil_append, List.cons.injEq, Stmt.assign.injEq] at h
        exact ⟨path_inj hs h.2.1.1, .inl ⟨rfl, rfl⟩, h.2.2⟩
      | _ => simp_all [readCall]
    | num h1 =>
      cases hb with
      | num h2 =>
        simp only [List.cons_append, List.nil_append, List.cons.injEq, Stmt.assign.injEq] at h
        exact ⟨path_inj hs h.1.1, .inr ⟨h1, h2, readCall_inj h.1.2⟩, h.2⟩
      | _ => simp_all
theorem item_alike : ∀ (t : RType) {s : List Str} (_ : s ≠ []) {k k' : Str} {t' : RType} (_ : isStruct t = isStruct t') {r r' : List Stmt}
    (_ : Term r) (_ : Term r'), readType false s k t ++ r = readType false s k' t' ++ r' → alikeT k k' t t' ∧ r = r'
  | .struct fs, s, hs, k, k', .struct gs, hi, r, r', hr, hr', h => by
    rw [readType, readType] at h
    exact fields_alike fs hs hr hr' h
  | .enum b, s, hs, k, k', t', hi, r, r', hr, hr', h => by
    have hb := begins s k' false t'
    generalize readType false s k' t' = l at hb h
    rw [readType] at h
    cases hb with
    | enum =>
      simp only [List.cons_append, List.nil_append, List.cons.injEq, Stmt.ifAssign.injEq] at h
      exact ⟨True.intro, h.2.2⟩
    | item => cases hi
    | _ => simp_all
  | .builtin b, s, hs, k, k', t', hi, r, r', hr, hr', h => by
    have hb := begins s k' false t'
    have hb' := begins s k false (.builtin b)
    generalize readType false s k' t' = l at hb h
    generalize readType false s k (.builtin b) = l' at hb' h
    cases hb' with
    | str =>
      cases hb with
      | str =>
        simp only [List.cons_append, List.nil_append, List.cons.injEq] at h
        exact ⟨.inl ⟨rfl, rfl⟩, h.2.2⟩
      | item => cases hi
      | _ => simp_all [readCall]
    | num h1 =>
      cases hb with
      | num h2 =>
        simp only [List.cons_append, List.nil_append, List.cons.injEq, Stmt.assign.injEq] at h
        exact ⟨.inr ⟨h1, h2, readCall_inj h.1.2⟩, h.2⟩
      | item => cases hi
      | _ => simp_all
end

end Packetc.Inverse
