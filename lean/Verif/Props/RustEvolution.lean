import Verif.Proof.RustEvolution
import Verif.Props.Bridge
import Verif.Props.Outgrow
/-!
# C104: Rust programs compiled from different versions of a schema
-/

namespace Packetc.Props
open Ast Check WellFormed Rs RustGen Evolution
open Js (SmallEnums mem_decls)

/-- C104, full statement: Rust programs keep understanding each other when fields are appended to the exported struct (the old program
reads the old fields), when variants are added at the end of enums (the new program reads the old packets) and when things are renamed. -/
def C104_claim : Prop := ∀ (lib : Lib) (old new : AST) (r₁ r₂ : Resolved) (s₁ s₂ : Source) (P₁ P₂ : Prog), Checked old r₁ → Checked new r₂ →
  NamesFit old → NamesFit new → Built r₁ s₁ P₁ → Built r₂ s₂ P₂ → SmallEnums old → SmallEnums new → ∀ lim, lim ≤ 2 ^ 32 → lim ≤ lib.maxItems + 1 →
  (∀ added, Appends old new added → ∀ vs bytes, ValFs lim r₂.export.fields vs → runWrite lib P₂ s₂.write.2 (.struct vs) = some bytes →
    ∃ us more rest, vs = us ++ more ∧ readDefault lib P₁ s₁ bytes = .ok (.struct us) rest) ∧
  (AddsVariants old new → ∀ vs bytes, ValFs lim r₁.export.fields vs → runWrite lib P₁ s₁.write.2 (.struct vs) = some bytes →
    readDefault lib P₂ s₂ bytes = .ok (.struct vs) []) ∧
  ∀ τ, Renames τ old new → ∀ vs bytes, ValFs lim r₁.export.fields vs → runWrite lib P₁ s₁.write.2 (.struct vs) = some bytes →
    ∃ us, readDefault lib P₂ s₂ bytes = .ok (.struct us) [] ∧ SameFs r₁.export.fields r₂.export.fields vs us

/-! ### places of variants -/

theorem variant_at {vs : List Str} {e : REnum} (h : EnumResolved vs e) {i : Nat} {w : EnumVariant} (hw : e.variants[i]? = some w) :
    w.value = i ∧ vs[i]? = some w.name := by
  have h1 := congrArg (fun l => l[i]?) h.values
  have h2 := congrArg (fun l => l[i]?) h.names
  simp only [List.getElem?_map, hw, Option.map_some] at h1 h2
  refine ⟨?_, h2.symm⟩
  by_cases hi : i < vs.length
  · rw [List.getElem?_range hi] at h1
    exact Option.some.inj h1
  · rw [List.getElem?_eq_none (by simpa using hi)] at h1
    cases h1

theorem variant_there {vs us : List Str} {e e' : REnum} (h₁ : EnumResolved vs e) (h₂ : EnumResolved us e') (hl : vs.length ≤ us.length)
    {w : EnumVariant} (hw : w ∈ e.variants) :
    ∃ (i : Nat) (w' : EnumVariant), e.variants[i]? = some w ∧ e'.variants[i]? = some w' ∧ w'.value = w.value := by
  obtain ⟨i, hi⟩ := List.mem_iff_getElem?.1 hw
  have l1 : e.variants.length = vs.length := by rw [← h₁.names, List.length_map]
  have l2 : e'.variants.length = us.length := by rw [← h₂.names, List.length_map]
  have hlt : i < e.variants.length := (List.getElem?_eq_some_iff.1 hi).1
  have hlt' : i < e'.variants.length := by omega
  refine ⟨i, e'.variants[i], hi, List.getElem?_eq_getElem hlt', ?_⟩
  rw [(variant_at h₂ (List.getElem?_eq_getElem hlt')).1, (variant_at h₁ hi).1]

theorem longer_variant {vs us : List Str} {e e' : REnum} (h₁ : EnumResolved vs e) (h₂ : EnumResolved us e') (hl : Longer vs us) :
    ∀ w ∈ e.variants, ∃ w' ∈ e'.variants, w'.name = w.name ∧ w'.value = w.value := by
  intro w hw
  obtain ⟨more, rfl⟩ := hl
  obtain ⟨i, w', a, b, c⟩ := variant_there h₁ h₂ (by rw [List.length_append]; omega) hw
  refine ⟨w', List.mem_of_getElem? b, ?_, c⟩
  have h3 := (variant_at h₁ a).2
  have h4 := (variant_at h₂ b).2
  rw [List.getElem?_append_left (List.getElem?_eq_some_iff.1 h3).1, h3] at h4
  exact (Option.some.inj h4).symm

theorem longer_back {vs us : List Str} {e e' : REnum} (o₂ : EnumOk us) (h₁ : EnumResolved vs e) (h₂ : EnumResolved us e') (hl : Longer vs us) :
    ∀ w ∈ e.variants, ∀ w' ∈ e'.variants, w.name = w'.name → w.value = w'.value := by
  intro w hw w' hw' hn
  obtain ⟨w'', h3, h4, h5⟩ := longer_variant h₁ h₂ hl w hw
  have := sound_name_inj ⟨us, o₂, h₂⟩ h3 hw' (h4.trans hn)
  rw [← this, h5]

section
variable {lib : Lib} {old new : AST} {r₁ r₂ : Resolved} {s₁ s₂ : Source} {P₁ P₂ : Prog}

/-! ### renaming -/

/-- C104: after a renaming, the Rust programs read the same from the same data. -/
theorem C104_rename {τ : Str → Str} (hr : Renames τ old new) (ho : AllInOrder old) (k₁ : Checked old r₁) (k₂ : Checked new r₂)
    (n₁ : NamesFit old) (n₂ : NamesFit new) (b₁ : Built r₁ s₁ P₁) (b₂ : Built r₂ s₂ P₂)
    (z₁ : ∀ n vs, Used old n → .decl n (.enum vs) ∈ old → vs.length ≤ 31)
    (z₂ : ∀ n vs, Used new n → .decl n (.enum vs) ∈ new → vs.length ≤ 31) (data rest : List UInt8) :
    (∀ vs, readDefault lib P₁ s₁ data = .ok (.struct vs) rest →
      ∃ us, readDefault lib P₂ s₂ data = .ok (.struct us) rest ∧ SameFs r₁.export.fields r₂.export.fields vs us) ∧
    ∀ us, readDefault lib P₂ s₂ data = .ok (.struct us) rest →
      ∃ vs, readDefault lib P₁ s₁ data = .ok (.struct vs) rest ∧ SameFs r₁.export.fields r₂.export.fields vs us := by
  obtain ⟨c₁, h₁⟩ := k₁.compiled
  obtain ⟨c₂, h₂⟩ := k₂.compiled
  have hs : SimFs _ _ _ r₁.export.fields r₂.export.fields := renames_sim hr ho h₁ h₂
  have fwd : ∀ vs, readDefault lib P₁ s₁ data = .ok (.struct vs) rest →
      ∃ us, readDefault lib P₂ s₂ data = .ok (.struct us) rest ∧ SameFs r₁.export.fields r₂.export.fields vs us := by
    intro vs h
    obtain ⟨bs, qs, rfl, h3, h4⟩ := (C93_reads_partial lib k₁ n₁ b₁ z₁ _ _ _).1 h
    cases h3
    obtain ⟨us, h5, h6⟩ := same_fields (fun e e' he => ⟨(rename_enum he).1, fun w hw => by
      obtain ⟨vs, us, hl, -, -, a, b⟩ := he
      exact variant_there a b (by omega) hw⟩) _ _ bs vs hs h4
    exact ⟨us, (C93_reads_partial lib k₂ n₂ b₂ z₂ _ _ _).2 ⟨bs, us, rfl, rfl, h5⟩, h6⟩
  refine ⟨fwd, fun us h => ?_⟩
  obtain ⟨bs, qs, hd, h3, h4⟩ := (C93_reads_partial lib k₂ n₂ b₂ z₂ _ _ _).1 h
  cases h3
  obtain ⟨vs, h5, -⟩ := same_fields (P := flip (EnumRel fun vs us => us.length = vs.length)) (fun e e' he => ⟨(rename_enum he).1.symm, fun w hw => by
    obtain ⟨vs, us, hl, -, -, a, b⟩ := he
    exact variant_there b a (by omega) hw⟩) _ _ bs us (simFs_symm _ _ hs) h4
  have hv := (C93_reads_partial lib k₁ n₁ b₁ z₁ data (.struct vs) rest).2 ⟨bs, vs, hd, rfl, h5⟩
  obtain ⟨us', h6, h7⟩ := fwd vs hv
  rw [h] at h6
  cases h6
  exact ⟨vs, hv, h7⟩

/-! ### more variants -/

theorem adds_small (ha : AddsVariants old new) (hs : SmallEnums new) : ∀ n vs, Used old n → .decl n (.enum vs) ∈ old → vs.length ≤ 31 := by
  intro n vs hu hd
  obtain ⟨more, h⟩ := ha.enums n vs hu (mem_decls.2 hd)
  have := hs n _ (mem_decls.1 h)
  rw [List.length_append] at this
  omega

/-- C104: if variants are added at the end of enums, no enum outgrows its representation and no field can be overtaken, then the old
program reads from data what the new one does, if that has no new variants (and otherwise fails). -/
theorem C104_variants_reads (ha : AddsVariants old new) (hw : SameWidths old new) (ho : AllInOrder old) (k₁ : Checked old r₁) (k₂ : Checked new r₂)
    (n₁ : NamesFit old) (n₂ : NamesFit new) (b₁ : Built r₁ s₁ P₁) (b₂ : Built r₂ s₂ P₂) (hs : SmallEnums new)
    (data rest : List UInt8) (vs : List (Str × Val)) :
    readDefault lib P₁ s₁ data = .ok (.struct vs) rest ↔
      readDefault lib P₂ s₂ data = .ok (.struct vs) rest ∧ ValFs (2 ^ 32) r₁.export.fields vs := by
  obtain ⟨c₁, h₁⟩ := k₁.compiled
  obtain ⟨c₂, h₂⟩ := k₂.compiled
  have hsim : SimFs _ _ _ r₁.export.fields r₂.export.fields := adds_sim ha hw hs ho h₁ h₂
  have hn := checked_noOptArrays k₁
  rw [C93_reads_partial lib k₁ n₁ b₁ (adds_small ha hs), C93_reads_partial lib k₂ n₂ b₂ fun n vs _ h => hs n vs h]
  constructor
  · rintro ⟨bs, qs, rfl, h3, h4⟩
    cases h3
    refine ⟨⟨bs, vs, rfl, rfl, equal_fields (fun e e' he => ⟨(grows_enum he).1, ?_⟩) _ _ bs vs hsim h4⟩, hasFs_val _ hn.1 hn.2 bs vs h4⟩
    obtain ⟨_, _, hl, -, -, a, b⟩ := he
    exact longer_variant a b hl.1
  · rintro ⟨⟨bs, qs, rfl, h3, h4⟩, hv⟩
    cases h3
    refine ⟨bs, vs, rfl, rfl, back_fields (fun e e' he => ⟨(grows_enum he).1, ?_⟩) _ hn.1 hn.2 _ bs vs hsim hv h4⟩
    obtain ⟨_, _, hl, -, o, a, b⟩ := he
    exact longer_back o a b hl.1

/-- C104, exactly: if variants are added at the end of enums and no field can be overtaken, then the new program reads all packets of
the old one if and only if no enum outgrows its representation. What is missing from the full statement: enums that do, for which
it is false. -/
theorem C104_variants_exact_partial (ha : AddsVariants old new) (ho : AllInOrder old) (k₁ : Checked old r₁) (k₂ : Checked new r₂)
    (n₁ : NamesFit old) (n₂ : NamesFit new) (b₁ : Built r₁ s₁ P₁) (b₂ : Built r₂ s₂ P₂) (hs : SmallEnums new) {lim : Nat} (h0 : 1 < lim)
    (h1 : lim ≤ 2 ^ 32) (h2 : lim ≤ lib.maxItems + 1) :
    (∀ vs bytes rest, ValFs lim r₁.export.fields vs → runWrite lib P₁ s₁.write.2 (.struct vs) = some bytes →
      readDefault lib P₂ s₂ (bytes ++ rest) = .ok (.struct vs) rest) ↔ SameWidths old new := by
  obtain ⟨c₁, e₁⟩ := k₁.compiled
  obtain ⟨c₂, e₂⟩ := k₂.compiled
  constructor
  · intro h
    have hl := lastFs_val h0 _ (checked_sound k₁) (fits_export k₁ n₁ (b₁.has k₁)).2.2
    have hw := C91_write lib k₁ n₁ b₁ (valFs_mono h1 _ _ hl)
    have hr := h _ _ [] hl hw
    have hr' := C92_round_trip_partial lib k₁ n₁ b₁ (adds_small ha hs) h1 h2 hl hw []
    obtain ⟨bs, qs, hb, h3, h4⟩ := (C93_reads_partial lib k₂ n₂ b₂ (fun n vs _ h => hs n vs h) _ _ _).1 hr
    cases h3
    obtain ⟨bs', qs, hb', h3, h5⟩ := (C93_reads_partial lib k₁ n₁ b₁ (adds_small ha hs) _ _ _).1 hr'
    cases h3
    obtain rfl : bs = bs' := by rw [List.append_nil, List.append_nil] at hb hb'; rw [← hb, ← hb']
    have hsim : SimFs Eq (fun a b => b = a) (EnumRel Longer) r₁.export.fields r₂.export.fields := by
      obtain ⟨env, text, r, hf, -, p, -, c, x⟩ := id e₁
      obtain ⟨-, -, n, -⟩ := typeCheck_final hf.1 (parsed_noBuiltinDecl p) c
      exact compiled_sim (adds_longer ha ho) n (by rw [ha.top]; exact n) e₁ e₂
    have hn := checked_noOptArrays k₁
    have hge := last_ge_fields _ hn.1 hn.2 _ bs hsim h4
    have hle := last_le_fields _ bs h5
    have hmono := full_le_fields (fun e e' => longer_repr) _ _ hsim
    exact widths_of_full ha ho e₁ e₂ (show fullSizeFs r₁.export.fields = fullSizeFs r₂.export.fields by omega)
  · intro hw vs bytes rest hv hwr
    have := C92_round_trip_partial lib k₁ n₁ b₁ (adds_small ha hs) h1 h2 hv hwr rest
    exact ((C104_variants_reads ha hw ho k₁ k₂ n₁ n₂ b₁ b₂ hs _ _ _).1 this).1

/-! ### more fields -/

theorem hasFs_names {lib : Lib} : (fs : List (FieldOf RType)) → ∀ bs ps, HasFs lib fs bs ps → ps.map Prod.fst = fs.map FieldOf.name
  | [], bs, ps, h => by rw [h.2]; rfl
  | f :: fs, bs, ps, h => by
    obtain ⟨x₁, x₂, v, qs, rfl, rfl, -, h1⟩ := h
    rw [List.map_cons, List.map_cons, hasFs_names fs _ _ h1]

theorem fieldOk_names {c : TypeMap} {fs : List (Str × Unresolved)} {rs : List RField} (h : List.Forall₂ (FieldOk c) fs rs) :
    rs.map FieldOf.name = fs.map Prod.fst := by
  induction h with
  | nil => rfl
  | cons a _ ih => rw [List.map_cons, List.map_cons, ih, a.name]

/-- C104: if fields are appended to the exported struct and no field can be overtaken, then the old program reads all that the new one
reads, without the new fields. What is missing from the full statement: schemas in which a field can be overtaken. -/
theorem C104_append_partial {added : List (Str × Unresolved)} (ha : Appends old new added) (ho : AllInOrder old) (ho' : AllInOrder new)
    (k₁ : Checked old r₁) (k₂ : Checked new r₂)
    (n₁ : NamesFit old) (n₂ : NamesFit new) (b₁ : Built r₁ s₁ P₁) (b₂ : Built r₂ s₂ P₂)
    (z₁ : ∀ n vs, Used old n → .decl n (.enum vs) ∈ old → vs.length ≤ 31)
    (z₂ : ∀ n vs, Used new n → .decl n (.enum vs) ∈ new → vs.length ≤ 31) {data rest : List UInt8} {vs : List (Str × Val)}
    (h : readDefault lib P₂ s₂ data = .ok (.struct vs) rest) :
    ∃ us more bs, vs = us ++ more ∧ more.map Prod.fst = added.map Prod.fst ∧ readDefault lib P₁ s₁ data = .ok (.struct us) (bs ++ rest) := by
  obtain ⟨c₁, h₁⟩ := k₁.compiled
  obtain ⟨c₂, h₂⟩ := k₂.compiled
  obtain ⟨gs, fs, c, hx, hs, -, hadd⟩ := append_sim ha ho ho' h₁ h₂
  have hx : r₂.export.fields = gs ++ fs := hx
  obtain ⟨bs, qs, rfl, h3, h4⟩ := (C93_reads_partial lib k₂ n₂ b₂ z₂ _ _ _).1 h
  cases h3
  rw [hx] at h4
  obtain ⟨bs₁, bs₂, us, more, rfl, rfl, h5, h6⟩ := (hasFs_append gs _ _).1 h4
  refine ⟨us, more, bs₂, rfl, ?_, (C93_reads_partial lib k₁ n₁ b₁ z₁ _ _ _).2 ⟨bs₁, us, by rw [List.append_assoc], rfl,
    equal_fields (P := flip (EnumRel Eq)) (fun e e' he => ⟨(enumRel_eq he).1.symm, ?_⟩) gs r₁.export.fields bs₁ us ?_ h5⟩⟩
  · rw [hasFs_names fs _ _ h6, fieldOk_names hadd]
  · obtain ⟨_, us, rfl, -, -, a, b⟩ := he
    exact longer_variant b a ⟨[], (List.append_nil _).symm⟩
  · have := simFs_symm _ _ hs
    rw [show flip (Eq : Str → Str → Prop) = Eq from by funext a b; exact propext eq_comm,
      show flip (fun a b : Str => b = a) = fun a b => b = a from by funext a b; exact propext eq_comm] at this
    exact this

end

/-! ### examples -/

theorem enum8_checked : Checked enum8Ast (resultFor enum8Ast) := checked_of (text := enum8Text) (by decide +kernel) (by rfl)
theorem enum9_checked : Checked enum9Ast (resultFor enum9Ast) := checked_of (text := enum9Text) (by decide +kernel) (by rfl)
theorem enum8_names : NamesFit enum8Ast := namesFit_of (by decide)
theorem enum9_names : NamesFit enum9Ast := namesFit_of (by decide)

theorem enum9_widths : ¬ SameWidths enum8Ast enum9Ast := by
  intro h
  have hu : Used enum8Ast "E".toList := ⟨"P".toList, rfl, .tail .refl ⟨_, by
    exact List.mem_cons_of_mem _ List.mem_cons_self, ("e".toList, ⟨"E".toList, false, false⟩), List.mem_cons_self, rfl⟩⟩
  have := h "E".toList enum8Variants (enum8Variants ++ ["J".toList]) hu List.mem_cons_self List.mem_cons_self
  revert this
  decide

/-- The full statement is false of the code: with a ninth variant, an enum takes two bytes instead of one. -/
theorem C104_false : ¬ C104_claim := by
  intro h
  have b₁ := built_of enum8_checked enum8_names
  have b₂ := built_of enum9_checked enum9_names
  refine enum9_widths ((C104_variants_exact_partial (lib := leLib 100) enum9_adds enum8_inOrder enum8_checked enum9_checked enum8_names
    enum9_names b₁ b₂ enum89_small.2 (lim := 2) (by decide) (by decide) (by decide)).1 fun vs bytes rest hv hw => ?_)
  have := (h (leLib 100) _ _ _ _ _ _ _ _ enum8_checked enum9_checked enum8_names enum9_names b₁ b₂ enum89_small.1 enum89_small.2 2
    (by decide) (by decide)).2.1 enum9_adds vs bytes hv hw
  obtain ⟨bs, qs, h1, h2, h3⟩ := (C93_reads_partial (leLib 100) enum9_checked enum9_names b₂ (fun n vs _ h => enum89_small.2 n vs h) _ _ _).1 this
  exact (C93_reads_partial (leLib 100) enum9_checked enum9_names b₂ (fun n vs _ h => enum89_small.2 n vs h) _ _ _).2
    ⟨bs, qs, by rw [h1, List.append_nil], h2, h3⟩

theorem enum3_checked : Checked enumAst (resultFor enumAst) := checked_of (text := enumText) (by decide +kernel) (by rfl)
theorem enum4_checked : Checked enum4Ast (resultFor enum4Ast) := checked_of (text := enum4Text) (by decide +kernel) (by rfl)
theorem renamed_checked : Checked renamedAst (resultFor renamedAst) := checked_of (text := renamedText) (by decide +kernel) (by rfl)
theorem long_checked : Checked longAst (resultFor longAst) := checked_of (text := longText) (by decide +kernel) (by rfl)

theorem renamed_small : SmallEnums renamedAst := by
  intro n vs h
  unfold renamedAst at h
  simp only [List.mem_cons, Node.decl.injEq, Ty.enum.injEq, reduceCtorEq, and_false, or_false, List.not_mem_nil] at h
  rw [h.2]
  decide

/-- Schemas and data for the theorems: `E::B` is `F::Y` after the renaming and is still `E::B` after `D` was added, and a number was
appended to a text. -/
example :
    (Renames newName enumAst renamedAst ∧ AllInOrder enumAst ∧ SmallEnums enumAst ∧ SmallEnums renamedAst ∧ NamesFit enumAst ∧ NamesFit renamedAst ∧
      (∃ s P, Built (resultFor enumAst) s P ∧
        readDefault (leLib 100) P s [2, 9] = .ok (.struct [("e".toList, .variant "E".toList "B".toList)]) [9]) ∧
      ∃ s P, Built (resultFor renamedAst) s P ∧
        readDefault (leLib 100) P s [2, 9] = .ok (.struct [("f".toList, .variant "F".toList "Y".toList)]) [9]) ∧
    (AddsVariants enumAst enum4Ast ∧ SameWidths enumAst enum4Ast ∧ SmallEnums enum4Ast ∧ NamesFit enum4Ast ∧
      ∃ s P, Built (resultFor enum4Ast) s P ∧
        readDefault (leLib 100) P s [2, 9] = .ok (.struct [("e".toList, .variant "E".toList "B".toList)]) [9] ∧
        readDefault (leLib 100) P s [8, 9] = .ok (.struct [("e".toList, .variant "E".toList "D".toList)]) [9]) ∧
    (Appends stringAst longAst [("n".toList, ⟨"uint8".toList, false, false⟩)] ∧ AllInOrder stringAst ∧ AllInOrder longAst ∧
      SmallEnums stringAst ∧ SmallEnums longAst ∧ NamesFit stringAst ∧ NamesFit longAst ∧
      ∃ s P, Built (resultFor longAst) s P ∧ readDefault (leLib 100) P s [1, 0, 0, 0, 104, 7, 9] =
        .ok (.struct [("s".toList, .str "h".toList), ("n".toList, .num (.int 7))]) [9]) := by
  have n₁ : NamesFit enumAst := namesFit_of (by decide)
  have n₂ : NamesFit renamedAst := namesFit_of (by decide)
  have n₃ : NamesFit enum4Ast := namesFit_of (by decide)
  have n₄ : NamesFit stringAst := namesFit_of (by decide)
  have n₅ : NamesFit longAst := namesFit_of (by decide)
  refine ⟨⟨renamed_renames, enum_inOrder, enum_small, renamed_small, n₁, n₂, ⟨_, _, built_of enum3_checked n₁, ?_⟩, _, _, built_of renamed_checked n₂, ?_⟩,
    ⟨enum4_adds, enum4_widths, enum4_small, n₃, _, _, built_of enum4_checked n₃, ?_, ?_⟩,
    long_appends, string_inOrder, long_inOrder, string_small, long_small, n₄, n₅, _, _, built_of long_checked n₅, ?_⟩
  · exact (C93_reads_partial _ enum3_checked n₁ (built_of enum3_checked n₁) (fun n vs _ h => enum_small n vs h) _ _ _).2
      ⟨[2], _, rfl, rfl, [2], [], _, [], rfl, rfl, ⟨rfl, ⟨"B".toList, 1⟩, .tail _ (.head _), by decide, rfl⟩, rfl, rfl⟩
  · exact (C93_reads_partial _ renamed_checked n₂ (built_of renamed_checked n₂) (fun n vs _ h => renamed_small n vs h) _ _ _).2
      ⟨[2], _, rfl, rfl, [2], [], _, [], rfl, rfl, ⟨rfl, ⟨"Y".toList, 1⟩, .tail _ (.head _), by decide, rfl⟩, rfl, rfl⟩
  · exact (C93_reads_partial _ enum4_checked n₃ (built_of enum4_checked n₃) (fun n vs _ h => enum4_small n vs h) _ _ _).2
      ⟨[2], _, rfl, rfl, [2], [], _, [], rfl, rfl, ⟨rfl, ⟨"B".toList, 1⟩, .tail _ (.head _), by decide, rfl⟩, rfl, rfl⟩
  · exact (C93_reads_partial _ enum4_checked n₃ (built_of enum4_checked n₃) (fun n vs _ h => enum4_small n vs h) _ _ _).2
      ⟨[8], _, rfl, rfl, [8], [], _, [], rfl, rfl, ⟨rfl, ⟨"D".toList, 3⟩, .tail _ (.tail _ (.tail _ (.head _))), by decide, rfl⟩, rfl, rfl⟩
  · exact (C93_reads_partial _ long_checked n₅ (built_of long_checked n₅) (fun n vs _ h => long_small n vs h) _ _ _).2
      ⟨[1, 0, 0, 0, 104, 7], _, rfl, rfl, [1, 0, 0, 0, 104], [7], _, _, rfl, rfl, ⟨[1, 0, 0, 0], "h".toList, rfl, rfl, by decide, rfl⟩,
        [7], [], _, [], rfl, rfl, ⟨rfl, rfl⟩, rfl, rfl⟩

end Packetc.Props
