import Verif.Proof.RustFile
import Verif.Proof.RustPrint
import Verif.Proof.RustAccept
import Verif.Proof.JsPlain
import Verif.Rust.File
/-!
# The emitted file is parsed to the definitions and functions
-/

namespace Packetc.Rs
open Ast Check WellFormed RustGen
open Js (isIdent isIdPart builtinName mem_decls SoundEnum)

/-! ### names -/

theorem notMarker {x : Str} (h : '_' ∈ x) (hl : 1 < x.length) : x ∉ markers := by
  have : ∀ m ∈ markers, '_' ∈ m → ¬ 1 < m.length := by decide
  exact fun hm => this x hm h hl

/-- A name stack that names something. -/
def StackGood (st : List Str) : Prop := ∃ x xs, st = x :: xs ∧ GoodVar x ∧ ∀ y ∈ xs, isIdent y = true

theorem StackGood.one {x : Str} (h : GoodVar x) : StackGood [x] := ⟨x, [], rfl, h, by simp⟩
theorem StackGood.push {st} (h : StackGood st) {n : Str} (hn : isIdent n = true) : StackGood (st ++ [n]) := by
  obtain ⟨x, xs, rfl, h2, h4⟩ := h
  exact ⟨x, xs ++ [n], rfl, h2, fun y hy => (List.mem_append.1 hy).elim (h4 y) (fun hy => by simp at hy; rw [hy]; exact hn)⟩

theorem good_foldl {e : Expr} (h : GoodP e) (xs : List Str) (hx : ∀ y ∈ xs, isIdent y = true) : GoodP (xs.foldl Expr.field e) := by
  induction xs generalizing e with
  | nil => exact h
  | cons y ys ih => exact ih (e := .field e y) ⟨h, hx y List.mem_cons_self⟩ (fun z hz => hx z (List.mem_cons_of_mem _ hz))

theorem StackGood.path {st} (h : StackGood st) : GoodP (path st) := by
  obtain ⟨x, xs, rfl, h2, h4⟩ := h
  exact good_foldl (e := .var x) h2 xs h4

theorem StackGood.join {st} (h : StackGood st) : isIdent (joinWith "_".toList st) = true := by
  obtain ⟨x, xs, rfl, h2, h4⟩ := h
  exact Js.ident_join x xs h2.1 h4

theorem ident_ne_nil {x : Str} (h : isIdent x = true) : 0 < x.length := by
  cases x with
  | nil => cases h
  | cons c cs => exact Nat.succ_pos _

theorem StackGood.varname {st} (h : StackGood st) {n : Str} (hn : ∀ c ∈ n, isIdPart c = true) : GoodVar (Gen.varname st n) := by
  unfold Gen.varname
  refine ⟨Js.ident_append (Js.ident_append h.join (by decide)) hn, notMarker ?_ ?_⟩
  · simp only [List.mem_append]
    exact Or.inl (Or.inr (by decide))
  · have := ident_ne_nil h.join
    simp only [List.length_append]
    have : "_".toList.length = 1 := rfl
    omega

theorem StackGood.bindname {st} (h : StackGood st) {n : Str} (hn : isIdent n = true) : GoodVar (Gen.bindname (st ++ [n])) := by
  have hj := (h.push hn).join
  refine ⟨hj, ?_⟩
  obtain ⟨x, xs, rfl, h2, h4⟩ := h
  have hx := ident_ne_nil h2.1
  unfold Gen.bindname
  have h1 : "_".toList.length = 1 := rfl
  cases xs with
  | nil =>
    show x ++ "_".toList ++ _ ∉ markers
    refine notMarker (by simp) ?_
    have := ident_ne_nil hn
    simp only [List.length_append, joinWith]
    omega
  | cons y ys =>
    show x ++ "_".toList ++ joinWith "_".toList (y :: (ys ++ [n])) ∉ markers
    have hj' : isIdent (joinWith "_".toList (y :: (ys ++ [n]))) = true :=
      Js.ident_join _ _ (h4 y List.mem_cons_self) fun z hz => (List.mem_append.1 hz).elim (fun hz => h4 z (List.mem_cons_of_mem _ hz))
        (fun hz => by simp at hz; rw [hz]; exact hn)
    refine notMarker (by simp) ?_
    have := ident_ne_nil hj'
    simp only [List.length_append]
    omega

theorem goodSs_append {a b : List Stmt} (ha : GoodSs a) (hb : GoodSs b) : GoodSs (a ++ b) := by
  induction a with
  | nil => exact hb
  | cons s ss ih => exact ⟨ha.1, ih ha.2⟩

theorem builtin_ident (b : Builtin) : isIdent (builtinName b) = true ∧ isIdent (rustName (builtinName b)) = true := by
  cases b <;> decide

variable {ast : AST} {r : Resolved}

theorem checked_legal (hc : Checked ast r) : Print.Legal ast := by
  obtain ⟨ord, text, -, hp, -⟩ := hc
  exact Parser.schema_legal ((Parser.schema_iff _ _).mp hp)

theorem decl_ident (hc : Checked ast r) {n : Str} {t : Ast.Ty} (h : .decl n t ∈ ast) : isIdent n = true :=
  Js.isIdent_of_legal (checked_legal hc _ h).1

/-- The name of a type, in the schema and in Rust. -/
theorem entry_ident (hc : Checked ast r) {tn : Str} {t : RType} (h : Entry ast r.types tn t) :
    isIdent tn = true ∧ isIdent (rustName tn) = true := by
  cases h with
  | builtin b hb => rw [hb]; exact builtin_ident b
  | enum vs e hb hd _ _ => rw [rustName_user hb]; exact ⟨decl_ident hc hd, decl_ident hc hd⟩
  | struct fs fs' rfs hb hd hp hn hr => rw [rustName_user hb]; exact ⟨decl_ident hc hd, decl_ident hc hd⟩

theorem field_ident (hc : Checked ast r) {tn : Str} {fs : List (FieldOf RType)} (h : Entry ast r.types tn (.struct fs)) :
    (∀ f ∈ fs, isIdent f.name = true) ∧ ∀ f ∈ fs, r.types.get f.tyName = some (f.tyName, f.ty) := by
  cases h with
  | struct gs gs' _ hb hd hp hnm hR =>
    refine ⟨fun f hf => ?_, fun f hf => (hR f hf).1⟩
    have : f.name ∈ gs'.map Prod.fst := hnm ▸ List.mem_map_of_mem hf
    obtain ⟨g, hg, he⟩ := List.mem_map.1 this
    rw [← he]
    exact Js.isIdent_of_legal ((checked_legal hc _ hd).2.2 g (hp.mem_iff.1 hg)).1

/-! ### the functions -/

theorem good_len {st : List Str} (hst : StackGood st) : Good false (.cast (.len (path st)) "u32".toList) := ⟨rfl, hst.path, by decide⟩
theorem good_readLen : Good false (.cast (.read "uint32".toList) "usize".toList) := ⟨rfl, ⟨by decide, by decide⟩, by decide⟩

theorem repr_parts (e : EnumRepr) : (∀ c ∈ Gen.reprName e, isIdPart c = true) ∧ Gen.reprName e ≠ "string".toList ∧ isIdent (reprType e) = true := by
  cases e <;> decide

theorem builtin_string {b : Builtin} (h : b ≠ .string) : builtinName b ≠ "string".toList := by
  cases b <;> first | exact absurd rfl h | decide

mutual
theorem good_writeType (hc : Checked ast r) {st : List Str} (hst : StackGood st) (tn : Str) : (t : RType) → r.types.get tn = some (tn, t) →
    GoodSs (writeType st tn t)
  | .builtin b, hg => by
    obtain ⟨-, -, hE⟩ := (checked_entries hc).2.2 _ _ _ hg
    cases hE with
    | builtin _ hb =>
      have hw : GoodSs [.write tn (path st)] := ⟨⟨Js.ident_parts (hb ▸ (builtin_ident b).1), hst.path.good _⟩, True.intro⟩
      cases b
      case string =>
        unfold writeType
        exact ⟨⟨by decide, good_len hst⟩, ⟨by decide, hst.path⟩, True.intro⟩
      all_goals
        unfold writeType
        exact hw
  | .enum e, hg => by
    unfold writeType
    exact ⟨⟨(repr_parts e.repr).1, rfl, hst.path.good _, (repr_parts e.repr).2.2⟩, True.intro⟩
  | .struct fs, hg => by
    obtain ⟨-, -, hE⟩ := (checked_entries hc).2.2 _ _ _ hg
    unfold writeType
    exact good_writeFields hc hst fs (field_ident hc hE).1 (field_ident hc hE).2
theorem good_writeFields (hc : Checked ast r) {st : List Str} (hst : StackGood st) : (fs : List (FieldOf RType)) →
    (∀ f ∈ fs, isIdent f.name = true) → (∀ f ∈ fs, r.types.get f.tyName = some (f.tyName, f.ty)) → GoodSs (writeStruct st fs)
  | [], _, _ => by unfold writeStruct; exact True.intro
  | f :: fs, h1, h2 => by
    unfold writeStruct
    exact goodSs_append (good_writeField hc hst f (h1 f List.mem_cons_self) (h2 f List.mem_cons_self))
      (good_writeFields hc hst fs (fun g hg => h1 g (List.mem_cons_of_mem _ hg)) fun g hg => h2 g (List.mem_cons_of_mem _ hg))
theorem good_writeField (hc : Checked ast r) {st : List Str} (hst : StackGood st) : (f : FieldOf RType) → isIdent f.name = true →
    r.types.get f.tyName = some (f.tyName, f.ty) → GoodSs (writeField st f)
  | ⟨name, tn, ty, array, optional⟩, h1, h2 => by
    have arr : ∀ st' : List Str, StackGood st' → GoodSs (if array then
        [.write "uint32".toList (.cast (.len (path st')) "u32".toList),
          .forIter (Gen.varname st' "item".toList) (path st') (writeType [Gen.varname st' "item".toList] tn ty)]
        else writeType st' tn ty) := by
      intro st' hst'
      cases array with
      | false => exact good_writeType hc hst' tn ty h2
      | true =>
        have hv : GoodVar (Gen.varname st' "item".toList) := hst'.varname (by decide)
        exact ⟨⟨by decide, good_len hst'⟩, ⟨hv, hst'.path, good_writeType hc (StackGood.one hv) tn ty h2⟩, True.intro⟩
    have h1 : isIdent name = true := h1
    cases optional with
    | false =>
      unfold writeField
      exact arr _ (hst.push h1)
    | true =>
      unfold writeField
      exact ⟨⟨(hst.push h1).path, by decide, True.intro, hst.bindname h1, ⟨by decide, True.intro⟩, arr _ (StackGood.one (hst.bindname h1))⟩, True.intro⟩
end

mutual
theorem good_readType (hc : Checked ast r) {st : List Str} (hst : StackGood st) (tn : Str) : (t : RType) → r.types.get tn = some (tn, t) →
    GoodSs (readType st tn t)
  | .builtin b, hg => by
    obtain ⟨-, -, hE⟩ := (checked_entries hc).2.2 _ _ _ hg
    cases hE with
    | builtin _ hb =>
      have hw : b ≠ .string → GoodSs [.assign (path st) (.read tn)] := fun hne =>
        ⟨⟨hst.path, Js.ident_parts (hb ▸ (builtin_ident b).1), hb ▸ builtin_string hne⟩, True.intro⟩
      cases b
      case string =>
        unfold readType
        have hv : GoodVar (Gen.varname st "len".toList) := hst.varname (by decide)
        exact ⟨⟨hv, good_readLen⟩, ⟨hst.path, hv⟩, True.intro⟩
      all_goals
        unfold readType
        exact hw (by decide)
  | .enum e, hg => by
    obtain ⟨-, -, hE⟩ := (checked_entries hc).2.2 _ _ _ hg
    unfold readType
    exact ⟨⟨hst.path, (entry_ident hc hE).1, (repr_parts e.repr).1, (repr_parts e.repr).2.1⟩, True.intro⟩
  | .struct fs, hg => by
    obtain ⟨-, -, hE⟩ := (checked_entries hc).2.2 _ _ _ hg
    unfold readType
    exact good_readFields hc hst fs (field_ident hc hE).1 (field_ident hc hE).2
theorem good_readFields (hc : Checked ast r) {st : List Str} (hst : StackGood st) : (fs : List (FieldOf RType)) →
    (∀ f ∈ fs, isIdent f.name = true) → (∀ f ∈ fs, r.types.get f.tyName = some (f.tyName, f.ty)) → GoodSs (readStruct st fs)
  | [], _, _ => by unfold readStruct; exact True.intro
  | f :: fs, h1, h2 => by
    unfold readStruct
    exact goodSs_append (good_readField hc hst f (h1 f List.mem_cons_self) (h2 f List.mem_cons_self))
      (good_readFields hc hst fs (fun g hg => h1 g (List.mem_cons_of_mem _ hg)) fun g hg => h2 g (List.mem_cons_of_mem _ hg))
theorem good_readField (hc : Checked ast r) {st : List Str} (hst : StackGood st) : (f : FieldOf RType) → isIdent f.name = true →
    r.types.get f.tyName = some (f.tyName, f.ty) → GoodSs (readField st f)
  | ⟨name, tn, ty, array, optional⟩, h1, h2 => by
    have h1 : isIdent name = true := h1
    have h2 : r.types.get tn = some (tn, ty) := h2
    have hd : isIdent (rustName tn) = true := (entry_ident hc ((checked_entries hc).2.2 _ _ _ h2).2.2).2
    have arr : ∀ st' : List Str, StackGood st' → GoodSs (if array then
        [.letS false (Gen.varname st' "len".toList) (.cast (.read "uint32".toList) "usize".toList),
         .reserve (path st') (.var (Gen.varname st' "len".toList)),
         .forRange (.var (Gen.varname st' "len".toList))
          ([.letS true (Gen.varname st' "item".toList) (.dflt (rustName tn))] ++ readType [Gen.varname st' "item".toList] tn ty ++
            [.push (path st') (.var (Gen.varname st' "item".toList))])]
        else readType st' tn ty) := by
      intro st' hst'
      cases array with
      | false => exact good_readType hc hst' tn ty h2
      | true =>
        have hv : GoodVar (Gen.varname st' "item".toList) := hst'.varname (by decide)
        have hl : GoodVar (Gen.varname st' "len".toList) := hst'.varname (by decide)
        refine ⟨⟨hl, good_readLen⟩, ⟨hst'.path, hl⟩, ⟨hl, ?_⟩, True.intro⟩
        exact goodSs_append (goodSs_append ⟨⟨hv, hd⟩, True.intro⟩ (good_readType hc (StackGood.one hv) tn ty h2)) ⟨⟨hst'.path, hv⟩, True.intro⟩
    cases optional with
    | false =>
      unfold readField
      exact arr _ (hst.push h1)
    | true =>
      unfold readField
      have hb := hst.bindname h1
      exact ⟨⟨⟨by decide, by decide⟩, goodSs_append (goodSs_append ⟨⟨hb, hd⟩, True.intro⟩ (arr _ (StackGood.one hb)))
        ⟨⟨(hst.push h1).path, hb⟩, True.intro⟩⟩, True.intro⟩
end

theorem good_bodies (hc : Checked ast r) : GoodSs (writeBody r.export) ∧ GoodSs (readBody r.export) := by
  obtain ⟨hk, hg, hall⟩ := checked_entries hc
  obtain ⟨h1, h2⟩ := field_ident hc (hall _ _ _ hg).2.2
  exact ⟨good_writeFields hc (StackGood.one ⟨by decide, by decide⟩) _ h1 h2, good_readFields hc (StackGood.one ⟨by decide, by decide⟩) _ h1 h2⟩

/-! ### the definitions -/

theorem good_structItem (hc : Checked ast r) {n : Str} {fs : List (FieldOf RType)} (h : Entry ast r.types n (.struct fs)) :
    GoodItem (structItem n fs) := by
  refine ⟨(entry_ident hc h).1, fun f hf => ?_⟩
  obtain ⟨g, hg, rfl⟩ := List.mem_map.1 hf
  obtain ⟨h1, h2⟩ := field_ident hc h
  have hE := ((checked_entries hc).2.2 _ _ _ (h2 g hg)).2.2
  refine ⟨h1 g hg, ?_⟩
  show isIdent (fieldTypename g.tyName g.ty) = true
  rw [← name_eq hE]
  exact (entry_ident hc hE).2

theorem good_enumItem (hc : Checked ast r) {n : Str} {e : REnum} (h : Entry ast r.types n (.enum e)) : GoodItem (enumItem n e) := by
  have hs := h.enum_sound
  have hv : ∀ v ∈ e.variants, isIdent v.name = true := by
    cases h with
    | enum vs e hb hd h1 h2 =>
      intro v hv
      have : v.name ∈ vs := h2.names ▸ List.mem_map_of_mem hv
      exact Js.isIdent_of_legal ((checked_legal hc _ hd).2.2 _ this)
  refine ⟨(entry_ident hc h).1, (repr_parts e.repr).2.2, fun v hm => ?_, ?_, fun a hm => ?_⟩
  · obtain ⟨w, hw, rfl⟩ := List.mem_map.1 hm
    exact hv w hw
  · obtain ⟨w, ws, hw, -⟩ := head_arm hs
    rw [hw]
    exact hv w (by rw [hw]; exact List.mem_cons_self)
  · obtain ⟨w, hw, rfl⟩ := List.mem_map.1 hm
    exact hv w hw

theorem good_items (hc : Checked ast r) : ∀ i ∈ itemsOf r.types, GoodItem i := by
  obtain ⟨hk, -, hall⟩ := checked_entries hc
  intro i hi
  rcases mem_items hi with ⟨n, m, fs, h1, rfl⟩ | ⟨n, m, e, h1, rfl⟩
  · exact good_structItem hc (hall _ _ _ (Map.mem_get hk h1)).2.2
  · exact good_enumItem hc (hall _ _ _ (Map.mem_get hk h1)).2.2

/-! ### the file -/

theorem part_emit {g : Gen.GenCtx → Gen.GenCtx} {t : Str} (h : g (Gen.GenCtx.new []) = Js.emit (Gen.GenCtx.new []) t) : part g = some t := by
  unfold part
  rw [h]
  rfl

theorem defPart_struct (n m : Str) (fs : List (FieldOf RType)) : defPart (n, m, .struct fs) = some (structItem n fs).print :=
  part_emit (genDefStruct_eq fs n [])

theorem defPart_enum (n m : Str) (e : REnum) (h : e.variants ≠ []) (h' : ∀ v ∈ e.variants, v.value < 32) :
    defPart (n, m, .enum e) = some (enumItem n e).print :=
  part_emit (genDefEnum_eq e n [] h h')

theorem defParts_eq {types : TypeMap} (h : ∀ n m e, (n, m, .enum e) ∈ types → e.variants ≠ [] ∧ ∀ v ∈ e.variants, v.value < 32) :
    defParts types = some (printItems (itemsOf types)) := by
  induction types with
  | nil => rfl
  | cons d types ih =>
    have ih := ih fun n m e he => h n m e (List.mem_cons_of_mem _ he)
    unfold defParts
    rw [ih]
    obtain ⟨n, m, t⟩ := d
    cases t with
    | builtin b => rfl
    | struct fs =>
      rw [defPart_struct]
      rfl
    | enum e =>
      obtain ⟨h1, h2⟩ := h n m e List.mem_cons_self
      rw [defPart_enum _ _ _ h1 h2]
      rfl

theorem rustFile_eq (hc : Checked ast r) : rustFile r = some (genCommon ++ printItems (itemsOf r.types) ++
    printWrite r.export.name (writeBody r.export) ++ printRead r.export.name (readBody r.export)) := by
  obtain ⟨hk, -, hall⟩ := checked_entries hc
  have hw : part (genWriteImpl r.export r.export.name) = some (printWrite r.export.name (writeBody r.export)) := by
    unfold part
    dsimp only
    rw [(genWriteImpl_eq r.export r.export.name []).1, (genWriteImpl_eq r.export r.export.name []).2]
    rfl
  have hr : part (genReadImpl r.export r.export.name) = some (printRead r.export.name (readBody r.export)) := by
    unfold part
    dsimp only
    rw [(genReadImpl_eq r.export r.export.name []).1, (genReadImpl_eq r.export r.export.name []).2]
    rfl
  unfold rustFile
  rw [defParts_eq, hw, hr]
  · rfl
  · intro n m e he
    have hs := (hall _ _ _ (Map.mem_get hk he)).2.2.enum_sound
    obtain ⟨w, ws, hw, -⟩ := head_arm hs
    exact ⟨by rw [hw]; simp, fun v hv => Nat.lt_of_lt_of_le (sound_value hs hv) (by cases e.repr <;> decide)⟩

/-- What the emitted file is parsed to. -/
theorem rustFile_parses (hc : Checked ast r) : ∃ text, rustFile r = some text ∧
    parseText text = some ⟨itemsOf r.types, (r.export.name, writeBody r.export), (r.export.name, readBody r.export)⟩ := by
  obtain ⟨hk, hg, hall⟩ := checked_entries hc
  have hE := (hall _ _ _ hg).2.2
  have hn := (entry_ident hc hE).1
  exact ⟨_, rustFile_eq hc, parseText_print (good_items hc) hn hn (good_bodies hc).1 (good_bodies hc).2⟩

theorem emitted_iff (hc : Checked ast r) {s : Source} :
    Emitted r s ↔ s = ⟨itemsOf r.types, (r.export.name, writeBody r.export), (r.export.name, readBody r.export)⟩ := by
  obtain ⟨text, h1, h2⟩ := rustFile_parses hc
  constructor
  · rintro ⟨text', h3, h4⟩
    rw [h1] at h3
    cases h3
    rw [h2] at h4
    exact (Option.some.inj h4).symm
  · rintro rfl
    exact ⟨text, h1, h2⟩

mutual
theorem good_locals : (s : Stmt) → GoodS s → ∀ x ∈ s.locals, GoodVar x
  | .matchOpt _ _ _ _ y body, h, x, hx => by
    rcases List.mem_cons.1 hx with rfl | hx
    · exact h.2.2.2.1
    · exact good_localsOf body h.2.2.2.2 x hx
  | .forIter y _ body, h, x, hx => by
    rcases List.mem_cons.1 hx with rfl | hx
    · exact h.1
    · exact good_localsOf body h.2.2 x hx
  | .letS _ y _, h, x, hx => by
    cases List.mem_singleton.1 hx
    exact h.1
  | .ifGt _ _ body, h, x, hx => good_localsOf body h.2 x hx
  | .forRange _ body, h, x, hx => good_localsOf body h.2 x hx
  | .write _ _, _, x, hx => nomatch hx
  | .assign _ _, _, x, hx => nomatch hx
  | .reserve _ _, _, x, hx => nomatch hx
  | .push _ _, _, x, hx => nomatch hx
theorem good_localsOf : (ss : List Stmt) → GoodSs ss → ∀ x ∈ localsOf ss, GoodVar x
  | [], _, _, hx => nomatch hx
  | s :: ss, h, x, hx => (List.mem_append.1 hx).elim (good_locals s h.1 x) (good_localsOf ss h.2 x)
end

theorem GoodVar.allowed {x : Str} (h : GoodVar x) : x ∉ keywords ∧ x ≠ "writer".toList ∧ x ≠ "reader".toList :=
  ⟨fun hk => h.2 (List.mem_append_right _ hk), fun hx => h.2 (hx ▸ by decide), fun hx => h.2 (hx ▸ by decide)⟩

/-! ### moves -/

/-- No statement of the block moves anything. -/
def Quiet : List Stmt → Prop
  | [] => True
  | s :: ss => s.MovesOk ∧ s.moved = [] ∧ Quiet ss

theorem Quiet.append {a b : List Stmt} (ha : Quiet a) (hb : Quiet b) : Quiet (a ++ b) := by
  induction a with
  | nil => exact hb
  | cons s ss ih => exact ⟨ha.1, ha.2.1, ih ha.2.2⟩

theorem Quiet.last {a : List Stmt} (ha : Quiet a) : ∀ xs, MovesLast xs a := by
  induction a with
  | nil => exact fun _ => True.intro
  | cons s ss ih => exact fun xs => ⟨ha.1, Or.inl ha.2.1, ih ha.2.2 _⟩

/-- Only the last statement moves something, which is declared by the first. -/
theorem moves_block {m : Bool} {x t : Str} {a : List Stmt} {s : Stmt} (ha : Quiet a) (hs : s.MovesOk) (hx : s.moved = [x]) :
    MovesLast [] ([.letS m x (.dflt t)] ++ a ++ [s]) := by
  have key : ∀ (a : List Stmt), Quiet a → ∀ xs, x ∈ xs → MovesLast xs (a ++ [s]) := by
    intro a
    induction a with
    | nil => exact fun _ xs hm => ⟨hs, Or.inr ⟨rfl, fun y hy => by rw [hx, List.mem_singleton] at hy; rw [hy]; exact hm⟩, True.intro⟩
    | cons b a ih => exact fun ha xs hm => ⟨ha.1, Or.inl ha.2.1, ih ha.2.2 _ (List.mem_append_left _ hm)⟩
  exact ⟨True.intro, Or.inl rfl, key a ha _ (by simp [Stmt.declared])⟩

mutual
theorem quiet_writeType (st : List Str) (tn : Str) : (t : RType) → Quiet (writeType st tn t)
  | .builtin b => by cases b <;> (unfold writeType; simp [Quiet, Stmt.MovesOk, Stmt.moved])
  | .enum e => by unfold writeType; simp [Quiet, Stmt.MovesOk, Stmt.moved]
  | .struct fs => by unfold writeType; exact quiet_writeStruct st fs
theorem quiet_writeStruct (st : List Str) : (fs : List (FieldOf RType)) → Quiet (writeStruct st fs)
  | [] => by unfold writeStruct; exact True.intro
  | f :: fs => by unfold writeStruct; exact (quiet_writeField st f).append (quiet_writeStruct st fs)
theorem quiet_writeField (st : List Str) : (f : FieldOf RType) → Quiet (writeField st f)
  | ⟨name, tn, ty, array, optional⟩ => by
    have arr : ∀ st' : List Str, Quiet (if array then
        [.write "uint32".toList (.cast (.len (path st')) "u32".toList),
          .forIter (Gen.varname st' "item".toList) (path st') (writeType [Gen.varname st' "item".toList] tn ty)]
        else writeType st' tn ty) := by
      intro st'
      cases array with
      | false => exact quiet_writeType st' tn ty
      | true => exact ⟨True.intro, rfl, (quiet_writeType _ tn ty).last _, rfl, True.intro⟩
    cases optional with
    | false => unfold writeField; exact arr _
    | true =>
      unfold writeField
      exact ⟨⟨True.intro, Or.inl rfl, (arr _).last _⟩, rfl, True.intro⟩
end

mutual
theorem quiet_readType (st : List Str) (tn : Str) : (t : RType) → Quiet (readType st tn t)
  | .builtin b => by cases b <;> (unfold readType; simp [Quiet, Stmt.MovesOk, Stmt.moved, Expr.moved])
  | .enum e => by unfold readType; simp [Quiet, Stmt.MovesOk, Stmt.moved, Expr.moved]
  | .struct fs => by unfold readType; exact quiet_readStruct st fs
theorem quiet_readStruct (st : List Str) : (fs : List (FieldOf RType)) → Quiet (readStruct st fs)
  | [] => by unfold readStruct; exact True.intro
  | f :: fs => by unfold readStruct; exact (quiet_readField st f).append (quiet_readStruct st fs)
theorem quiet_readField (st : List Str) : (f : FieldOf RType) → Quiet (readField st f)
  | ⟨name, tn, ty, array, optional⟩ => by
    have arr : ∀ st' : List Str, Quiet (if array then
        [.letS false (Gen.varname st' "len".toList) (.cast (.read "uint32".toList) "usize".toList),
         .reserve (path st') (.var (Gen.varname st' "len".toList)),
         .forRange (.var (Gen.varname st' "len".toList))
          ([.letS true (Gen.varname st' "item".toList) (.dflt (rustName tn))] ++ readType [Gen.varname st' "item".toList] tn ty ++
            [.push (path st') (.var (Gen.varname st' "item".toList))])]
        else readType st' tn ty) := by
      intro st'
      cases array with
      | false => exact quiet_readType st' tn ty
      | true => exact ⟨True.intro, rfl, True.intro, rfl, moves_block (quiet_readType _ tn ty) True.intro rfl, rfl, True.intro⟩
    cases optional with
    | false => unfold readField; exact arr _
    | true =>
      unfold readField
      exact ⟨moves_block (arr _) True.intro rfl, rfl, True.intro⟩
end

end Packetc.Rs
