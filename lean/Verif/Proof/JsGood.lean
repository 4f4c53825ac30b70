import Verif.Proof.JsParse
import Verif.Proof.JsWire
/-!
# The generated methods can be parsed
-/

namespace Packetc.Js
open Check Gen

theorem ident_append {a b : Str} (ha : isIdent a = true) (hb : ∀ c ∈ b, isIdPart c = true) : isIdent (a ++ b) = true := by
  cases a with
  | nil => cases ha
  | cons c cs =>
    rw [List.cons_append]
    unfold isIdent at *
    simp only [Bool.and_eq_true, List.all_eq_true, List.mem_append] at *
    exact ⟨ha.1, fun d hd => hd.elim (ha.2 d) (hb d)⟩

theorem ident_parts {a : Str} (ha : isIdent a = true) : ∀ c ∈ a, isIdPart c = true := by
  cases a with
  | nil => cases ha
  | cons c cs =>
    unfold isIdent at ha
    simp only [Bool.and_eq_true, List.all_eq_true] at ha
    intro d hd
    rcases List.mem_cons.1 hd with rfl | hd
    · have := ha.1
      unfold isIdPart Char.isAlphanum
      simp only [Bool.or_eq_true] at *
      exact this.imp Or.inl id
    · exact ha.2 d hd

/-- Names with an underscore are no keywords. -/
theorem under_bindable {x : Str} (h : '_' ∈ x) : bindable x = true := by
  unfold bindable
  simp only [Bool.and_eq_true, Bool.not_eq_true', List.contains_eq_mem, decide_eq_false_iff_not]
  have hr : ∀ x ∈ reservedWords, '_' ∉ x := by decide
  refine ⟨fun hm => hr x hm h, ?_⟩
  rintro rfl
  revert h
  decide

theorem ident_join : ∀ (x : Str) (xs : List Str), isIdent x = true → (∀ y ∈ xs, isIdent y = true) →
    isIdent (joinWith "_".toList (x :: xs)) = true
  | x, [], hx, _ => hx
  | x, y :: ys, hx, h => by
    show isIdent (x ++ "_".toList ++ joinWith "_".toList (y :: ys)) = true
    have := ident_join y ys (h y List.mem_cons_self) (fun z hz => h z (List.mem_cons_of_mem _ hz))
    exact ident_append (ident_append hx (by decide)) (ident_parts this)

/-- A name stack that names something. -/
def StackOk (st : List Str) : Prop :=
  ∃ x xs, st = x :: xs ∧ isIdent x = true ∧ (bindable x = true ∨ x = "this".toList) ∧ ∀ y ∈ xs, isIdent y = true
/-- The same, not beginning with `this`. -/
def StackVar (st : List Str) : Prop :=
  ∃ x xs, st = x :: xs ∧ isIdent x = true ∧ bindable x = true ∧ ∀ y ∈ xs, isIdent y = true

theorem StackVar.ok {st} (h : StackVar st) : StackOk st := by
  obtain ⟨x, xs, h1, h2, h3, h4⟩ := h
  exact ⟨x, xs, h1, h2, Or.inl h3, h4⟩
theorem StackOk.push {st} (h : StackOk st) {n : Str} (hn : isIdent n = true) : StackOk (st ++ [n]) := by
  obtain ⟨x, xs, rfl, h2, h3, h4⟩ := h
  exact ⟨x, xs ++ [n], rfl, h2, h3, fun y hy => (List.mem_append.1 hy).elim (h4 y) (fun hy => by simp at hy; rw [hy]; exact hn)⟩
theorem StackVar.push {st} (h : StackVar st) {n : Str} (hn : isIdent n = true) : StackVar (st ++ [n]) := by
  obtain ⟨x, xs, rfl, h2, h3, h4⟩ := h
  exact ⟨x, xs ++ [n], rfl, h2, h3, fun y hy => (List.mem_append.1 hy).elim (h4 y) (fun hy => by simp at hy; rw [hy]; exact hn)⟩
theorem StackVar.one {x : Str} (h : GoodName x) : StackVar [x] := ⟨x, [], rfl, h.1, h.2, by simp⟩

theorem good_foldl {e : Expr} (h : Good 0 e) (xs : List Str) (hx : ∀ y ∈ xs, isIdent y = true) :
    Good 0 (xs.foldl Expr.prop e) := by
  induction xs generalizing e with
  | nil => exact h
  | cons y ys ih => exact ih (e := .prop e y) ⟨h, hx y List.mem_cons_self⟩ (fun z hz => hx z (List.mem_cons_of_mem _ hz))

theorem StackOk.path {st} (h : StackOk st) : Good 0 (path st) := by
  obtain ⟨x, xs, rfl, h2, h3, h4⟩ := h
  exact good_foldl (e := .var x) ⟨h2, h3⟩ xs h4

theorem target_foldl {e : Expr} (h : isTarget e = true) (xs : List Str) : isTarget (xs.foldl Expr.prop e) = true := by
  induction xs generalizing e with
  | nil => exact h
  | cons y ys ih => exact ih (e := .prop e y) rfl

theorem StackVar.target {st} (h : StackVar st) : isTarget (Js.path st) = true ∧ Good 0 (Js.path st) := by
  refine ⟨?_, h.ok.path⟩
  obtain ⟨x, xs, rfl, h2, h3, h4⟩ := h
  refine target_foldl (e := .var x) ?_ xs
  show (!decide (x = "this".toList)) = true
  rw [decide_eq_false (bindable_ne h3 (by decide))]
  rfl

theorem StackOk.join {st} (h : StackOk st) : isIdent (joinWith "_".toList st) = true := by
  obtain ⟨x, xs, rfl, h2, h3, h4⟩ := h
  exact ident_join x xs h2 h4

theorem StackOk.varname {st} (h : StackOk st) {n : Str} (hn : ∀ c ∈ n, isIdPart c = true) : GoodName (varname st n) := by
  unfold Gen.varname
  refine ⟨ident_append (ident_append h.join (by decide)) hn, under_bindable ?_⟩
  simp only [List.mem_append]
  exact Or.inl (Or.inr (by decide))

theorem StackOk.bindname {st} (h : StackOk st) {n : Str} (hn : isIdent n = true) : GoodName (bindname (st ++ [n])) := by
  refine ⟨(h.push hn).join, under_bindable ?_⟩
  obtain ⟨x, xs, rfl, h2, h3, h4⟩ := h
  unfold Gen.bindname
  cases xs with
  | nil =>
    show '_' ∈ x ++ "_".toList ++ _
    simp
  | cons y ys =>
    show '_' ∈ x ++ "_".toList ++ _
    simp

theorem GoodName.var {x : Str} (h : GoodName x) : Good 0 (.var x) := ⟨h.1, Or.inl h.2⟩

theorem goodSs_append {a b : List Stmt} (ha : GoodSs a) (hb : GoodSs b) : GoodSs (a ++ b) := by
  induction a with
  | nil => exact hb
  | cons s ss ih => exact ⟨ha.1, ih ha.2⟩

theorem good_reader : Good 0 reader := ⟨by decide, Or.inl (by decide)⟩
theorem good_writer : Good 0 writer := ⟨by decide, Or.inl (by decide)⟩

theorem good_read {t : Str} (h : ∀ c ∈ t, isIdPart c = true) : Good 0 (readCall t) :=
  ⟨good_reader, ident_append (by decide) h⟩
theorem good_write {t : Str} (h : ∀ c ∈ t, isIdPart c = true) {e : Expr} (he : Good 4 e) : Good 0 (writeCall t e) :=
  ⟨good_writer, ident_append (by decide) h, he⟩

theorem builtin_parts (b : Builtin) : ∀ c ∈ builtinName b, isIdPart c = true := by cases b <;> decide
theorem repr_parts (r : EnumRepr) : ∀ c ∈ reprName r, isIdPart c = true := by cases r <;> decide

theorem good_undef : Good 4 .undef := Nat.le_of_ble_eq_true rfl
theorem good_obj : Good 4 .obj := Nat.le_of_ble_eq_true rfl
theorem good_null : Good 4 .null := Nat.le_of_ble_eq_true rfl
theorem good_tru : Good 4 .tru := Nat.le_of_ble_eq_true rfl
theorem good_num (i : Int) : Good 4 (.num i) := Nat.le_of_ble_eq_true rfl

/-! ### write -/

mutual
theorem good_writeStruct {st : List Str} (hst : StackOk st) : (fs : List (FieldOf RType)) → identFields fs = true → SoundFs fs →
    GoodSs (writeStruct st fs)
  | [], _, _ => trivial
  | f :: fs, hi, hs => by
    unfold identFields at hi
    simp only [Bool.and_eq_true] at hi
    exact goodSs_append (good_writeField hst f hi.1 hs.1) (good_writeStruct hst fs hi.2 hs.2)
theorem good_writeField {st : List Str} (hst : StackOk st) : (f : FieldOf RType) → identField f = true → SoundF f →
    GoodSs (writeField st f)
  | ⟨name, tyName, ty, array, optional⟩, hi, hs => by
    unfold identField at hi
    simp only [Bool.and_eq_true] at hi
    have arr : ∀ st : List Str, StackOk st → GoodSs (if array then
        let item := Gen.varname st "item".toList
        let index := Gen.varname st "index".toList
        [.expr (writeCall "uint32".toList (.prop (path st) "length".toList)),
         .forS index (.prop (path st) "length".toList)
           (.letS item false (.index (path st) (.var index)) :: writeType [item] tyName ty)]
      else writeType st tyName ty) := by
      intro st hst
      cases array with
      | false => exact good_writeType hst tyName ty hi.2 hs
      | true =>
        have hit := hst.varname (n := "item".toList) (by decide)
        have hix := hst.varname (n := "index".toList) (by decide)
        have hl : Good 0 (.prop (path st) "length".toList) := ⟨hst.path, by decide⟩
        exact ⟨good_write (by decide) (hl.mono (by omega)), ⟨hix, hl.mono (by omega), ⟨hit, hst.path, hix.var.mono (by omega)⟩,
          good_writeType (StackVar.one hit).ok tyName ty hi.2 hs⟩, trivial⟩
    cases optional with
    | false => exact arr _ (hst.push hi.1)
    | true =>
      have hb := hst.bindname hi.1
      exact ⟨⟨hb, (hst.push hi.1).path.mono (by omega)⟩, ⟨hb.var.mono (by omega), (good_write (by decide) (good_num 0)).mono (by omega),
        good_write (by decide) (good_num 1), arr _ (StackVar.one hb).ok⟩, trivial⟩
theorem good_writeType {st : List Str} (hst : StackOk st) (tn : Str) : (t : RType) → identType t = true →
    ((∀ b, t = .builtin b → tn = builtinName b) ∧ SoundT t) → GoodSs (writeType st tn t)
  | .builtin b, _, hs => by
    have hl : Good 0 (.prop (path st) "length".toList) := ⟨hst.path, by decide⟩
    have hp := hst.path.mono (l := 4) (by omega)
    have hn : ∀ c ∈ tn, isIdPart c = true := by rw [hs.1 b rfl]; exact builtin_parts b
    cases b with
    | string => exact ⟨good_write (by decide) (hl.mono (by omega)), good_write (by decide) hp, trivial⟩
    | _ => exact ⟨good_write hn hp, trivial⟩
  | .enum e, _, _ => ⟨good_write (repr_parts _) ⟨by omega, hst.path.mono (by omega)⟩, trivial⟩
  | .struct fs, hi, hs => good_writeStruct hst fs hi hs.2
end

/-! ### read -/

mutual
theorem good_readFields {st : List Str} (hst : StackVar st) : (fs : List (FieldOf RType)) → identFields fs = true → SoundFs fs →
    GoodSs (readFields st fs)
  | [], _, _ => trivial
  | f :: fs, hi, hs => by
    unfold identFields at hi
    simp only [Bool.and_eq_true] at hi
    exact goodSs_append (good_readField hst f hi.1 hs.1) (good_readFields hst fs hi.2 hs.2)
theorem good_readField {st : List Str} (hst : StackVar st) : (f : FieldOf RType) → identField f = true → SoundF f →
    GoodSs (readField st f)
  | ⟨name, tyName, ty, array, optional⟩, hi, hs => by
    unfold identField at hi
    simp only [Bool.and_eq_true] at hi
    have hst' := hst.push hi.1
    have body : ∀ init, Good 4 init → GoodSs (if array then
        let len := Gen.varname (st ++ [name]) "len".toList
        let index := Gen.varname (st ++ [name]) "index".toList
        let item := Gen.varname (st ++ [name]) "item".toList
        [.letS len false (readCall "uint32".toList),
         .assign (path (st ++ [name])) (.new1 "Array".toList (.var len)),
         .forS index (.var len)
           ([.letS item true init] ++ readType false [item] tyName ty ++
            [.assign (.index (path (st ++ [name])) (.var index)) (.var item)])]
      else readType true (st ++ [name]) tyName ty) := by
      intro init hinit
      cases array with
      | false => exact good_readType hst' true (fun _ => hst.ok.bindname hi.1) tyName ty hi.2 hs
      | true =>
        have hit := hst'.ok.varname (n := "item".toList) (by decide)
        have hix := hst'.ok.varname (n := "index".toList) (by decide)
        have hlen := hst'.ok.varname (n := "len".toList) (by decide)
        refine ⟨⟨hlen, (good_read (by decide)).mono (by omega)⟩, ⟨hst'.target, by decide, by decide, hlen.var.mono (by omega)⟩,
          ⟨hix, hlen.var.mono (by omega), ?_⟩, trivial⟩
        exact goodSs_append (goodSs_append ⟨⟨hit, hinit⟩, trivial⟩ (good_readType (StackVar.one hit) false (fun h => by cases h) tyName ty hi.2 hs))
          ⟨⟨⟨rfl, hst'.ok.path, hix.var.mono (by omega)⟩, hit.var.mono (by omega)⟩, trivial⟩
    cases optional with
    | false =>
      refine body _ ?_
      cases ty <;> exact good_obj
    | true =>
      refine ⟨⟨⟨by omega, (good_read (by decide)).mono (by omega), Nat.le_refl 1⟩, body _ ?_, ⟨hst'.target, good_undef⟩, trivial⟩, trivial⟩
      cases ty <;> exact good_obj
theorem good_readType {st : List Str} (hst : StackVar st) (init : Bool) (hb : init = true → GoodName (bindname st)) (tn : Str) : (t : RType) → identType t = true →
    ((∀ b, t = .builtin b → tn = builtinName b) ∧ SoundT t) → GoodSs (readType init st tn t)
  | .builtin b, _, hs => by
    have hn : ∀ c ∈ tn, isIdPart c = true := by rw [hs.1 b rfl]; exact builtin_parts b
    have hlen := hst.ok.varname (n := "len".toList) (by decide)
    cases b with
    | string =>
      exact ⟨⟨hlen, (good_read (by decide)).mono (by omega)⟩, ⟨hst.target, good_reader, by decide, hlen.var.mono (by omega)⟩, trivial⟩
    | _ => exact ⟨⟨hst.target, (good_read hn).mono (by omega)⟩, trivial⟩
  | .enum e, _, _ => by
    have ht := hst.ok.varname (n := "temp".toList) (by decide)
    refine ⟨⟨ht, (good_read (repr_parts _)).mono (by omega)⟩, ⟨?_, ⟨hst.target, ht.var.mono (by omega)⟩,
      ⟨rfl, good_reader, by decide⟩, good_tru⟩, trivial⟩
    exact ⟨by omega, ⟨by omega, Nat.le_of_ble_eq_true rfl, ht.var.mono (by omega)⟩, by omega, ht.var.mono (by omega), Nat.le_of_ble_eq_true rfl⟩
  | .struct fs, hi, hs => by
    cases init with
    | false => exact good_readFields hst fs hi hs.2
    | true =>
      have hb := hb rfl
      exact goodSs_append (goodSs_append ⟨⟨hb, good_obj⟩, trivial⟩ (good_readFields (StackVar.one hb) fs hi hs.2))
        ⟨⟨hst.target, hb.var.mono (by omega)⟩, trivial⟩
end

theorem good_readBody {e : Export} (hn : GoodName e.name) (hi : identFields e.fields = true) (hs : SoundFs e.fields) :
    GoodSs (readBody e) := by
  have hv : ∀ x : Str, isIdent x = true → bindable x = true → Good 4 (.var x) := fun x h1 h2 => ⟨h1, Or.inl h2⟩
  refine goodSs_append (goodSs_append ⟨⟨⟨by decide, by decide⟩, by decide, by decide, hv _ (by decide) (by decide)⟩,
    ⟨⟨by decide, by decide⟩, ⟨by decide, Or.inl (by decide)⟩, by decide, hv _ hn.1 hn.2⟩, trivial⟩
    (good_readFields ⟨_, [], rfl, by decide, by decide, by simp⟩ _ hi hs)) ?_
  exact ⟨⟨⟨good_reader, by decide⟩, good_null⟩, hv _ (by decide) (by decide), trivial⟩

theorem good_writeBody {e : Export} (hi : identFields e.fields = true) (hs : SoundFs e.fields) :
    GoodSs (writeBody e) := by
  refine goodSs_append (goodSs_append ⟨⟨⟨by decide, by decide⟩, by omega, ⟨by decide, Or.inl (by decide)⟩,
    ⟨by decide, by decide, by decide, Or.inl (by decide)⟩, by decide, by decide⟩, trivial⟩
    (good_writeStruct ⟨_, [], rfl, by decide, Or.inr rfl, by simp⟩ _ hi hs)) ?_
  exact ⟨⟨good_writer, by decide⟩, trivial⟩

end Packetc.Js
