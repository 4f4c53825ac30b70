import Verif.Proof.RustCheck
/-!
# Which schemas give Rust that is accepted
-/

namespace Packetc.Rs
open Ast Check WellFormed
open Js (Scalar scalarOf reprScalar SoundEnum builtinName AllT AllFs AllF allFs_iff mem_decls decl_once final_struct forall2_names)
open RustGen (fieldTypename reprType)

theorem itemOf_name {x : Str × (Str × RType)} {i : Item} (h : itemOf x = some i) : i.name = x.1 := by
  obtain ⟨n, m, t⟩ := x
  cases t with
  | builtin b => cases h
  | enum e => cases h; rfl
  | struct fs => cases h; rfl

theorem items_names (types : TypeMap) (h : types.keys.Nodup) : ((itemsOf types).map Item.name).Nodup := by
  have key : List.Sublist ((itemsOf types).map Item.name) types.keys := by
    unfold itemsOf Map.keys
    induction types with
    | nil => exact List.Sublist.refl _
    | cons x types ih =>
      have ih := ih (List.nodup_cons.1 h).2
      rw [List.filterMap_cons, List.map_cons]
      cases hx : itemOf x with
      | none => exact ih.cons _
      | some i =>
        show List.Sublist (i.name :: _) _
        rw [itemOf_name hx]
        exact ih.cons_cons _
  exact key.nodup h

theorem itemNamed_of {items : List Item} (h : (items.map Item.name).Nodup) {i : Item} (hi : i ∈ items) : itemNamed items i.name = some i := by
  unfold itemNamed
  induction items with
  | nil => cases hi
  | cons j items ih =>
    rw [List.find?_cons]
    rcases List.mem_cons.1 hi with rfl | hi'
    · simp
    · have hne : j.name ≠ i.name := fun e => (List.nodup_cons.1 h).1 (e ▸ List.mem_map_of_mem hi')
      rw [decide_eq_false hne]
      exact ih (List.nodup_cons.1 h).2 hi'

section
variable {ast : AST} {r : Resolved}

theorem item_struct (hk : r.types.keys.Nodup) {n m : Str} {fs : List (FieldOf RType)} (h : r.types.get n = some (m, .struct fs)) :
    structItem n fs ∈ itemsOf r.types ∧ itemNamed (itemsOf r.types) n = some (structItem n fs) := by
  have hm : structItem n fs ∈ itemsOf r.types := List.mem_filterMap.2 ⟨_, Map.get_mem h, rfl⟩
  exact ⟨hm, itemNamed_of (items_names _ hk) hm⟩

theorem item_enum (hk : r.types.keys.Nodup) {n m : Str} {e : REnum} (h : r.types.get n = some (m, .enum e)) :
    enumItem n e ∈ itemsOf r.types ∧ itemNamed (itemsOf r.types) n = some (enumItem n e) := by
  have hm : enumItem n e ∈ itemsOf r.types := List.mem_filterMap.2 ⟨_, Map.get_mem h, rfl⟩
  exact ⟨hm, itemNamed_of (items_names _ hk) hm⟩

/-- A used struct of the schema is in the result. -/
theorem used_struct (hc : Checked ast r) {n : Str} {fs : List (Str × Unresolved)} (hu : Used ast n) (hd : .decl n (.struct fs) ∈ ast) :
    ∃ (fs' : List (Str × Unresolved)) (rfs : List (FieldOf RType)), r.types.get n = some (n, .struct rfs) ∧ fs'.Perm fs ∧
      rfs.map FieldOf.name = fs'.map Prod.fst := by
  obtain ⟨ord, text, hord, hp, ht⟩ := hc
  have hnb := Props.parsed_noBuiltinDecl hp
  obtain ⟨c, hf, he, hg, hk, h1, h2⟩ := Props.typeCheck_final hord hnb ht
  obtain ⟨-, rfs, p, hget, -⟩ := hf.struct n fs (mem_decls.2 hd)
  obtain ⟨fs', rfs', h3, h4, h5⟩ := final_struct hf hnb hget hd
  cases h4
  exact ⟨fs', rfs, by rw [h1 n hu, hget], h3, forall2_names h5⟩

/-- A used enum of the schema is in the result. -/
theorem used_enum (hc : Checked ast r) {n : Str} {vs : List Str} (hu : Used ast n) (hd : .decl n (.enum vs) ∈ ast) :
    ∃ e, r.types.get n = some (n, .enum e) ∧ EnumOk vs ∧ EnumResolved vs e := by
  obtain ⟨ord, text, hord, hp, ht⟩ := hc
  have hnb := Props.parsed_noBuiltinDecl hp
  obtain ⟨c, hf, he, hg, hk, h1, h2⟩ := Props.typeCheck_final hord hnb ht
  obtain ⟨h3, h4⟩ := hf.enum n vs (mem_decls.2 hd)
  exact ⟨_, by rw [h1 n hu, h4], h3, Props.enumSpec_resolved h3⟩

theorem checked_once (hc : Checked ast r) {n : Str} {t t' : Ast.Ty} (h : .decl n t ∈ ast) (h' : .decl n t' ∈ ast) : t = t' := by
  obtain ⟨ord, text, hord, hp, ht⟩ := hc
  obtain ⟨c, hf, -⟩ := Props.typeCheck_final hord (Props.parsed_noBuiltinDecl hp) ht
  exact decl_once hf h h'

theorem checked_noBuiltin (hc : Checked ast r) {n : Str} {t : Ast.Ty} (h : .decl n t ∈ ast) : n ∉ builtinNames := by
  obtain ⟨ord, text, hord, hp, ht⟩ := hc
  exact Props.parsed_noBuiltinDecl hp n ⟨t, mem_decls.2 h⟩

theorem entry_at (hc : Checked ast r) {n m : Str} {t : RType} (h : (n, (m, t)) ∈ r.types) :
    r.types.get n = some (n, t) ∧ Used ast n ∧ Entry ast r.types n t := by
  obtain ⟨hk, -, hall⟩ := checked_entries hc
  have h1 := Map.mem_get hk h
  obtain ⟨rfl, h2, h3⟩ := hall _ _ _ h1
  exact ⟨h1, h2, h3⟩

mutual
theorem know_type (hc : Checked ast r) (hn : ∀ n fs, Used ast n → .decl n (.struct fs) ∈ ast → (fs.map Prod.fst).Nodup) (tn : Str) :
    (t : RType) → r.types.get tn = some (tn, t) → KnowT (itemsOf r.types) tn t
  | .builtin b, hg => by
    obtain ⟨-, -, hE⟩ := (checked_entries hc).2.2 _ _ _ hg
    cases hE with
    | builtin _ hb => exact hb
  | .enum e, hg => by
    obtain ⟨hk, -, hall⟩ := checked_entries hc
    obtain ⟨-, -, hE⟩ := hall _ _ _ hg
    exact ⟨(item_enum hk hg).2, name_eq hE⟩
  | .struct fs, hg => by
    obtain ⟨hk, -, hall⟩ := checked_entries hc
    obtain ⟨-, hu, hE⟩ := hall _ _ _ hg
    have hname := name_eq hE
    cases hE with
    | struct gs gs' _ hb hd hp hnm hR =>
      refine ⟨(item_struct hk hg).2, hname, ?_, know_fields hc hn fs hR⟩
      rw [hnm]
      exact (hp.map _).nodup_iff.2 (hn tn gs hu hd)
theorem know_fields (hc : Checked ast r) (hn : ∀ n fs, Used ast n → .decl n (.struct fs) ∈ ast → (fs.map Prod.fst).Nodup) :
    (fs : List (FieldOf RType)) → (∀ f ∈ fs, r.types.get f.tyName = some (f.tyName, f.ty) ∧ ¬ (f.array = true ∧ f.optional = true)) →
    KnowFs (itemsOf r.types) fs
  | [], _ => True.intro
  | f :: fs, h => ⟨know_field hc hn f (h f (by simp)).1 (h f (by simp)).2, know_fields hc hn fs fun g hg => h g (by simp [hg])⟩
theorem know_field (hc : Checked ast r) (hn : ∀ n fs, Used ast n → .decl n (.struct fs) ∈ ast → (fs.map Prod.fst).Nodup) :
    (f : FieldOf RType) → r.types.get f.tyName = some (f.tyName, f.ty) → ¬ (f.array = true ∧ f.optional = true) →
    KnowF (itemsOf r.types) f
  | ⟨_, tn, t, _, _⟩, h, h' => ⟨know_type hc hn tn t h, h'⟩
end

/-- The statements writing the field are accepted. -/
def WritesField (ast : AST) (f : Str × Unresolved) : Prop :=
  (f.2.array = true → f.2.name = "string".toList ∨ ∃ fs, .decl f.2.name (.struct fs) ∈ ast) ∧
  (f.2.optional = true → f.2.name ≠ "string".toList)

def WritesFields (ast : AST) (fs : List (FieldOf RType)) : Prop :=
  ∀ f ∈ fs, WritesField ast (f.name, ⟨f.tyName, f.array, f.optional⟩)

mutual
theorem wOk_type (hc : Checked ast r) (tn : Str) : (t : RType) → r.types.get tn = some (tn, t) →
    (wOkT true t = true ↔ AllT (WritesFields ast) t)
  | .builtin b, _ => by
    refine iff_of_true ?_ True.intro
    cases b <;> rfl
  | .enum _, _ => iff_of_true rfl True.intro
  | .struct fs, hg => by
    obtain ⟨-, -, hE⟩ := (checked_entries hc).2.2 _ _ _ hg
    cases hE with
    | struct gs gs' _ hb hd hp hnm hR => exact wOk_fields hc fs hR
theorem wOk_fields (hc : Checked ast r) : (fs : List (FieldOf RType)) →
    (∀ f ∈ fs, r.types.get f.tyName = some (f.tyName, f.ty) ∧ ¬ (f.array = true ∧ f.optional = true)) →
    (wOkFs fs = true ↔ WritesFields ast fs ∧ AllFs (WritesFields ast) fs)
  | [], _ => iff_of_true rfl ⟨fun f hf => (by cases hf), True.intro⟩
  | f :: fs, h => by
    have h1 := wOk_field hc f (h f (by simp)).1 (h f (by simp)).2
    have h2 := wOk_fields hc fs fun g hg => h g (by simp [hg])
    show (wOkF f && wOkFs fs) = true ↔ (∀ g ∈ f :: fs, _) ∧ AllF (WritesFields ast) f ∧ AllFs (WritesFields ast) fs
    rw [Bool.and_eq_true, h1, h2, List.forall_mem_cons]
    unfold WritesFields
    tauto
theorem wOk_field (hc : Checked ast r) : (f : FieldOf RType) → r.types.get f.tyName = some (f.tyName, f.ty) →
    ¬ (f.array = true ∧ f.optional = true) →
    (wOkF f = true ↔ WritesField ast (f.name, ⟨f.tyName, f.array, f.optional⟩) ∧ AllF (WritesFields ast) f)
  | ⟨name, tn, t, array, optional⟩, h, h' => by
    have ih := wOk_type hc tn t h
    obtain ⟨-, -, hE⟩ := (checked_entries hc).2.2 _ _ _ h
    show wOkF ⟨name, tn, t, array, optional⟩ = true ↔ ((array = true → tn = _ ∨ ∃ fs, .decl tn (.struct fs) ∈ ast) ∧
      (optional = true → tn ≠ _)) ∧ AllT (WritesFields ast) t
    cases optional with
    | true =>
      have ha : array = false := by
        cases array with
        | false => rfl
        | true => exact absurd ⟨rfl, rfl⟩ h'
      subst ha
      have key : (wOkF ⟨name, tn, t, false, true⟩ = true) ↔ (tn ≠ "string".toList ∧ wOkT true t = true) := by
        have hs : "string".toList ∈ builtinNames := by decide
        cases hE with
        | builtin b hb =>
          have hb : tn = builtinName b := hb
          subst hb
          cases b <;> first | exact iff_of_true rfl ⟨by decide, rfl⟩ | exact iff_of_false (by intro h; cases h) fun h => h.1 rfl
        | enum vs e hb hd _ _ => exact iff_of_true rfl ⟨fun e => hb (e ▸ hs), rfl⟩
        | struct fs fs' rfs hb hd _ _ _ => exact (and_iff_right fun (e : tn = "string".toList) => hb (e ▸ hs)).symm
      rw [key, ih]
      simp
    | false =>
      cases array with
      | false =>
        show wOkT true t = true ↔ _
        rw [ih]
        simp
      | true =>
        show wOkT false t = true ↔ _
        have key : (wOkT false t = true) ↔ ((tn = "string".toList ∨ ∃ fs, .decl tn (.struct fs) ∈ ast) ∧ wOkT true t = true) := by
          cases hE with
          | builtin b hb =>
            have hb : tn = builtinName b := hb
            have hno : ¬ ∃ fs, .decl tn (.struct fs) ∈ ast := fun ⟨fs, hd⟩ => checked_noBuiltin hc hd (hb ▸ builtin_mem b)
            rw [or_iff_left hno]
            subst hb
            cases b <;> decide
          | enum vs e hb hd _ _ =>
            refine iff_of_false (by intro h; cases h) ?_
            rintro ⟨h | ⟨fs, hd'⟩, -⟩
            · exact hb (show tn ∈ builtinNames by rw [h]; decide)
            · cases checked_once hc hd hd'
          | struct fs fs' rfs hb hd _ _ _ => exact (and_iff_right (Or.inr ⟨fs, hd⟩)).symm
        rw [key, ih]
        simp
end

/-- What is needed of the names and sizes of types, said of the schema. -/
structure DefsFit (ast : AST) : Prop where
  types : ∀ n t, Used ast n → .decl n t ∈ ast → n ∉ keywords ∧ n ∉ taken
  fields : ∀ n fs, Used ast n → .decl n (.struct fs) ∈ ast → (fs.map Prod.fst).Nodup ∧ ∀ f ∈ fs, f.1 ∉ keywords
  enums : ∀ n vs, Used ast n → .decl n (.enum vs) ∈ ast → vs.length ≤ 31 ∧ ∀ v ∈ vs, v ∉ keywords ∧ v ≠ "Error".toList

theorem struct_names (rfs : List (FieldOf RType)) :
    (rfs.map fun f => (f.name, (⟨fieldTypename f.tyName f.ty, f.array, f.optional⟩ : FieldTy))).map Prod.fst = rfs.map FieldOf.name := by
  simp

theorem clear_of (hc : Checked ast r) (h : ∀ n t, Used ast n → .decl n t ∈ ast → n ∉ taken) : Clear (itemsOf r.types) := by
  intro n hn
  unfold itemNamed
  rw [List.find?_eq_none]
  intro i hi he
  have he : i.name = n := of_decide_eq_true he
  have ht : n ∈ taken := by
    unfold taken
    rcases List.mem_append.1 hn with hn | hn
    · exact List.mem_append_left _ hn
    · refine List.mem_append_right _ ?_
      simp only [List.mem_cons, List.not_mem_nil, or_false] at hn
      rcases hn with rfl | rfl <;> decide
  rcases mem_items hi with ⟨n', m, fs, hm, rfl⟩ | ⟨n', m, e, hm, rfl⟩
  · obtain ⟨-, hu, hE⟩ := entry_at hc hm
    have he : n' = n := he
    cases hE with
    | struct gs gs' _ hb hd _ _ _ => exact h n' _ hu hd (he ▸ ht)
  · obtain ⟨-, hu, hE⟩ := entry_at hc hm
    have he : n' = n := he
    cases hE with
    | enum vs _ hb hd _ _ => exact h n' _ hu hd (he ▸ ht)

/-- Numbers in `try_from`. -/
theorem arm_fits {e : REnum} (hs : SoundEnum e) {vs : List Str} (h : EnumResolved vs e) :
    (∃ b, bits (reprType e.repr) = some b ∧ (∀ v ∈ e.variants.map fun v => (v.name, v.value), v.2 < b) ∧
      ∀ a ∈ e.variants.map fun v => ((Gen.i32Shl1 v.value).getD 0, v.name), 0 ≤ a.1 ∧ a.1 < 2 ^ b) ↔ vs.length ≤ 31 := by
  have hb : bits (reprType e.repr) = some (reprBits e.repr) := by cases e.repr <;> decide
  have hlen : e.variants.length = vs.length := by
    have := congrArg List.length h.names
    simpa using this
  have hval : ∀ k, k < vs.length → ∃ w ∈ e.variants, w.value = k := by
    intro k hk
    have : k ∈ e.variants.map EnumVariant.value := by
      rw [h.values, List.mem_range]
      omega
    obtain ⟨w, hw, rfl⟩ := List.mem_map.1 this
    exact ⟨w, hw, rfl⟩
  have hlt : ∀ w ∈ e.variants, w.value < vs.length := by
    intro w hw
    have : w.value ∈ e.variants.map EnumVariant.value := List.mem_map_of_mem hw
    rw [h.values, List.mem_range] at this
    omega
  constructor
  · rintro ⟨b, -, -, h3⟩
    by_contra hgt
    obtain ⟨w, hw, hv⟩ := hval 31 (by omega)
    have := (h3 _ (List.mem_map_of_mem hw)).1
    have this : 0 ≤ (Gen.i32Shl1 w.value).getD 0 := this
    rw [hv] at this
    exact absurd this (by decide)
  · intro hle
    refine ⟨_, hb, ?_, ?_⟩
    · intro v hv
      obtain ⟨w, hw, rfl⟩ := List.mem_map.1 hv
      exact sound_value hs hw
    · intro a ha
      obtain ⟨w, hw, rfl⟩ := List.mem_map.1 ha
      have h1 := sound_value hs hw
      have h2 := hlt w hw
      have h3 : (Gen.i32Shl1 w.value).getD 0 = 2 ^ w.value := by
        have : w.value < 31 := by omega
        generalize w.value = k at this
        interval_cases k <;> rfl
      show 0 ≤ (Gen.i32Shl1 w.value).getD 0 ∧ (Gen.i32Shl1 w.value).getD 0 < 2 ^ _
      rw [h3]
      exact ⟨by positivity, pow_lt_pow_right₀ (by norm_num) h1⟩

theorem accepted_defs (hc : Checked ast r) : (∀ i ∈ itemsOf r.types, ItemAccepted (itemsOf r.types) i) ↔ DefsFit ast := by
  obtain ⟨hk, -, hall⟩ := checked_entries hc
  constructor
  · intro h
    have hst : ∀ n fs, Used ast n → .decl n (.struct fs) ∈ ast → (n ∉ keywords ∧ n ∉ taken) ∧
        (fs.map Prod.fst).Nodup ∧ ∀ f ∈ fs, f.1 ∉ keywords := by
      intro n fs hu hd
      obtain ⟨fs', rfs, hg, hp, hn⟩ := used_struct hc hu hd
      obtain ⟨h1, h2, h3, h4⟩ := h _ (item_struct hk hg).1
      rw [struct_names] at h3
      refine ⟨⟨h1, h2⟩, ?_, ?_⟩
      · rw [hn] at h3
        exact (hp.map _).nodup_iff.1 h3
      · intro f hf
        have : f.1 ∈ rfs.map FieldOf.name := by
          rw [hn]
          exact List.mem_map_of_mem (hp.mem_iff.2 hf)
        obtain ⟨g, hg, he⟩ := List.mem_map.1 this
        rw [← he]
        exact (h4 _ (List.mem_map_of_mem hg)).1
    have hen : ∀ n vs, Used ast n → .decl n (.enum vs) ∈ ast → (n ∉ keywords ∧ n ∉ taken) ∧
        vs.length ≤ 31 ∧ ∀ v ∈ vs, v ∉ keywords ∧ v ≠ "Error".toList := by
      intro n vs hu hd
      obtain ⟨e, hg, hok, hr⟩ := used_enum hc hu hd
      obtain ⟨h1, h2, h3, h4, h5, h6, h7, h8⟩ := h _ (item_enum hk hg).1
      refine ⟨⟨h1, h2⟩, (arm_fits ⟨vs, hok, hr⟩ hr).1 h5, ?_⟩
      intro v hv
      have : v ∈ e.variants.map EnumVariant.name := by rw [hr.names]; exact hv
      obtain ⟨w, hw, he⟩ := List.mem_map.1 this
      rw [← he]
      exact h6 _ (List.mem_map_of_mem (f := fun v : EnumVariant => (v.name, v.value)) hw)
    refine ⟨?_, fun n fs hu hd => (hst n fs hu hd).2, fun n vs hu hd => (hen n vs hu hd).2⟩
    intro n t hu hd
    cases t with
    | enum vs => exact (hen n vs hu hd).1
    | struct fs => exact (hst n fs hu hd).1
  · intro h i hi
    have hcl := clear_of hc fun n t hu hd => (h.types n t hu hd).2
    rcases mem_items hi with ⟨n, m, rfs, hm, rfl⟩ | ⟨n, m, e, hm, rfl⟩
    · obtain ⟨-, hu, hE⟩ := entry_at hc hm
      cases hE with
      | struct gs gs' _ hb hd hp hn hR =>
        obtain ⟨h1, h2⟩ := h.types n _ hu hd
        obtain ⟨h3, h4⟩ := h.fields n gs hu hd
        refine ⟨h1, h2, ?_, ?_⟩
        · rw [struct_names, hn]
          exact (hp.map _).nodup_iff.2 h3
        · intro f hf
          obtain ⟨g, hg, rfl⟩ := List.mem_map.1 hf
          have : g.name ∈ gs'.map Prod.fst := by
            rw [← hn]
            exact List.mem_map_of_mem hg
          obtain ⟨g', hg', he⟩ := List.mem_map.1 this
          refine ⟨?_, ?_⟩
          · show g.name ∉ keywords
            rw [← he]
            exact h4 g' (hp.mem_iff.1 hg')
          · obtain ⟨h5, h6⟩ := hR g hg
            obtain ⟨-, -, hE'⟩ := hall _ _ _ h5
            show known _ (fieldTypename g.tyName g.ty) = true
            rw [← name_eq hE']
            exact known_rust hcl _ (know_type hc (fun n fs hu hd => (h.fields n fs hu hd).1) _ _ h5)
    · obtain ⟨-, hu, hE⟩ := entry_at hc hm
      cases hE with
      | enum vs _ hb hd hok hr =>
        obtain ⟨h1, h2⟩ := h.types n _ hu hd
        obtain ⟨h3, h4⟩ := h.enums n vs hu hd
        have hn1 : (e.variants.map fun v => (v.name, v.value)).map Prod.fst = vs := by
          rw [← hr.names, List.map_map]
          rfl
        have hn2 : (e.variants.map fun v => (v.name, v.value)).map Prod.snd = e.variants.map EnumVariant.value := by
          rw [List.map_map]
          rfl
        refine ⟨h1, h2, ?_, ?_, (arm_fits ⟨vs, hok, hr⟩ hr).2 h3, ?_, ?_, ?_⟩
        · rw [hn1]; exact hok.2.2
        · rw [hn2, hr.values]
          exact List.nodup_range
        · intro v hv
          refine h4 v.1 ?_
          rw [← hn1]
          exact List.mem_map_of_mem hv
        · have hne : e.variants ≠ [] := by
            intro h0
            have := hr.names
            rw [h0] at this
            have := hok.1
            rw [← hr.names, h0] at this
            simp at this
          rw [hn1, ← hr.names]
          cases hv : e.variants with
          | nil => exact absurd hv hne
          | cons w ws => exact List.mem_cons_self
        · intro a ha
          obtain ⟨w, hw, rfl⟩ := List.mem_map.1 ha
          rw [hn1, ← hr.names]
          exact List.mem_map_of_mem (f := EnumVariant.name) hw

/-- The functions, provided that the definitions are all right. -/
theorem accepted_functions (hc : Checked ast r) (hd : DefsFit ast) :
    ReadAccepted (itemsOf r.types) r.export.name (readBody r.export) ∧
    (WriteAccepted (itemsOf r.types) r.export.name (writeBody r.export) ↔
      ∀ n fs, Used ast n → .decl n (.struct fs) ∈ ast → ∀ f ∈ fs, WritesField ast f) := by
  have hcl := clear_of hc fun n t hu hd' => (hd.types n t hu hd').2
  obtain ⟨hk, hg, hall⟩ := checked_entries hc
  have hkn := know_type hc (fun n fs hu h => (hd.fields n fs hu h).1) _ _ hg
  obtain ⟨k1, k2, k3, k4⟩ := hkn
  constructor
  · obtain ⟨Δ, h1, -⟩ := readT_check hcl r.export.name (.struct r.export.fields) ⟨k1, k2, k3, k4⟩
      [⟨"output".toList, false, .ref true (.named r.export.name)⟩] "output".toList [] ⟨.ref true (.named r.export.name), false, false⟩ rfl
      ⟨true, by rw [k2]; rfl⟩ (Or.inl rfl)
    unfold ReadAccepted
    have : readBody r.export = readType ["output".toList] r.export.name (.struct r.export.fields) := rfl
    rw [this, h1]
    rfl
  · have h1 := writeT_check hcl r.export.name (.struct r.export.fields) ⟨k1, k2, k3, k4⟩
      [⟨"input".toList, false, .ref false (.named r.export.name)⟩] "input".toList [] false ⟨.ref false (.named r.export.name), false, false⟩ rfl
      (by rw [k2]; exact .ref false false)
    unfold WriteAccepted
    have : writeBody r.export = writeType ["input".toList] r.export.name (.struct r.export.fields) := rfl
    rw [this, h1]
    refine Iff.trans ?_ (checked_fields hc (WritesField ast))
    refine Iff.trans ?_ (wOk_type hc _ _ hg)
    show (if wOkFs r.export.fields = true then some _ else none).isSome = true ↔ wOkFs r.export.fields = true
    cases wOkFs r.export.fields <;> simp
end

end Packetc.Rs
