import Verif.Proof.RustRead
import Verif.Proof.JsVars
import Verif.Props.Wire
/-!
# Accepted schemas meet what the emitted functions need
-/

namespace Packetc.Rs
open Ast Check WellFormed
open Js (Scalar scalarOf reprScalar SoundEnum builtinName final_entry decl_once forall2_names forall2_right mem_decls)
open RustGen (resolveTypename fieldTypename)

theorem rustName_builtin (b : Builtin) : rustName (builtinName b) = fieldTypename (builtinName b) (.builtin b) := by
  cases b <;> rfl

/-- The Rust name of a builtin type is one of Rust's own. -/
theorem rustName_prim (b : Builtin) : rustName (builtinName b) ∈ primNames := by
  cases b <;> decide

theorem prim_default (b : Builtin) : primDefault (rustName (builtinName b)) = dfltT (builtinName b) (.builtin b) := by
  cases b <;> rfl

theorem builtin_mem (b : Builtin) : builtinName b ∈ builtinNames := by
  cases b <;> decide

theorem rustName_user {tn : Str} (h : tn ∉ builtinNames) : rustName tn = tn := by
  have hne : ∀ n ∈ builtinNames, tn ≠ n := fun n hn e => h (e ▸ hn)
  have : resolveTypename tn = none := by
    unfold resolveTypename
    rw [if_neg (hne _ (by decide)), if_neg (hne _ (by decide)), if_neg (hne _ (by decide)), if_neg (hne _ (by decide)),
      if_neg (hne _ (by decide)), if_neg (hne _ (by decide)), if_neg (hne _ (by decide)), if_neg (hne _ (by decide))]
  unfold rustName
  rw [this]
  rfl

/-- What an entry of the type map is. -/
inductive Entry (ast : AST) (types : TypeMap) (n : Str) : RType → Prop
  | builtin (b) : n = builtinName b → Entry ast types n (.builtin b)
  | enum (vs e) : n ∉ builtinNames → .decl n (.enum vs) ∈ ast → EnumOk vs → EnumResolved vs e → Entry ast types n (.enum e)
  | struct (fs fs' : List (Str × Unresolved)) (rfs : List (FieldOf RType)) : n ∉ builtinNames → .decl n (.struct fs) ∈ ast → fs'.Perm fs → rfs.map FieldOf.name = fs'.map Prod.fst →
      (∀ f ∈ rfs, types.get f.tyName = some (f.tyName, f.ty) ∧ ¬ (f.array = true ∧ f.optional = true)) → Entry ast types n (.struct rfs)

theorem Entry.enum_sound {ast types n e} (h : Entry ast types n (.enum e)) : SoundEnum e := by
  cases h with
  | enum vs e hb hd h1 h2 => exact ⟨vs, h1, h2⟩

theorem checked_entries {ast : AST} {r : Resolved} (hc : Checked ast r) :
    r.types.keys.Nodup ∧ r.types.get r.export.name = some (r.export.name, .struct r.export.fields) ∧
    ∀ n m t, r.types.get n = some (m, t) → m = n ∧ Used ast n ∧ Entry ast r.types n t := by
  obtain ⟨ord, text, hord, hp, ht⟩ := hc
  have hnb := Props.parsed_noBuiltinDecl hp
  obtain ⟨c, hf, he, hg, hk, h1, h2⟩ := Props.typeCheck_final hord hnb ht
  have hue : Used ast r.export.name := ⟨_, he, .refl⟩
  refine ⟨hk, by rw [h1 _ hue, hg], fun n m t hgt => ?_⟩
  have hu : Used ast n := by
    by_contra hn
    rw [h2 n hn] at hgt
    cases hgt
  rw [h1 n hu] at hgt
  refine ⟨hf.named _ _ hgt, hu, ?_⟩
  have hdec : ∀ ty, .decl n ty ∈ ast → n ∉ builtinNames := fun ty hd => hnb n ⟨ty, mem_decls.2 hd⟩
  rcases final_entry hf hgt with ⟨hb, b, rfl, hnm⟩ | ⟨vs, e, hd, rfl⟩ | ⟨fs, fs', rfs, hd, hperm, rfl, hR⟩
  · exact .builtin b hnm
  · obtain ⟨h3, h4⟩ := hf.enum n vs (mem_decls.2 hd)
    rw [h4] at hgt
    cases hgt
    exact .enum vs _ (hdec _ hd) hd h3 (Props.enumSpec_resolved h3)
  · refine .struct fs fs' rfs (hdec _ hd) hd hperm (forall2_names hR) fun f hfm => ?_
    obtain ⟨g, hgm, hok⟩ := forall2_right hR f hfm
    have hu' : Used ast g.2.name := Props.used_field hu (mem_decls.2 hd) (hperm.mem_iff.1 hgm)
    rw [hok.tyName, h1 _ hu', hok.ty]
    refine ⟨rfl, ?_⟩
    rw [hok.array, hok.optional]
    exact hok.flags

theorem findSome_of {α β} {g : α → Option β} {l : List α} {a : β} (h1 : ∀ x ∈ l, g x = none ∨ g x = some a) (h2 : ∃ x ∈ l, g x = some a) :
    l.findSome? g = some a := by
  induction l with
  | nil => obtain ⟨x, hx, -⟩ := h2; cases hx
  | cons y l ih =>
    rw [List.findSome?_cons]
    rcases h1 y (by simp) with h | h
    · rw [h]
      refine ih (fun x hx => h1 x (by simp [hx])) ?_
      obtain ⟨x, hx, hx'⟩ := h2
      rcases List.mem_cons.1 hx with rfl | hx
      · rw [h] at hx'; cases hx'
      · exact ⟨x, hx, hx'⟩
    · rw [h]

theorem mem_items {types : TypeMap} {i : Item} (h : i ∈ itemsOf types) :
    (∃ n m fs, (n, (m, .struct fs)) ∈ types ∧ i = structItem n fs) ∨ ∃ n m e, (n, (m, .enum e)) ∈ types ∧ i = enumItem n e := by
  obtain ⟨⟨n, m, t⟩, h1, h2⟩ := List.mem_filterMap.1 h
  cases t with
  | builtin b => cases h2
  | enum e => cases h2; exact Or.inr ⟨n, m, e, h1, rfl⟩
  | struct fs => cases h2; exact Or.inl ⟨n, m, fs, h1, rfl⟩

theorem enum_found {types : TypeMap} (hk : types.keys.Nodup) {P : Prog} (hP : P.items.Perm (itemsOf types)) {n m : Str} {e : REnum}
    (h : types.get n = some (m, .enum e)) : P.enum? n = some (e.variants.map fun v => (v.name, v.value),
      e.variants.map fun v => ((Gen.i32Shl1 v.value).getD 0, v.name)) := by
  refine findSome_of (fun i hi => ?_) ⟨enumItem n e, hP.mem_iff.2 (List.mem_filterMap.2 ⟨_, Map.get_mem h, rfl⟩), if_pos rfl⟩
  rcases mem_items (hP.mem_iff.1 hi) with ⟨n', m', fs, -, rfl⟩ | ⟨n', m', e', hm, rfl⟩
  · exact Or.inl rfl
  · by_cases hn : n' = n
    · subst hn
      have := Map.mem_get hk hm
      rw [h] at this
      cases this
      exact Or.inr (if_pos rfl)
    · exact Or.inl (if_neg hn)

section
variable {ast : AST} {r : Resolved} {P : Prog}

theorem dflt_fields_eq (fs : List (FieldOf RType)) (h : ∀ f ∈ fs, P.dflt (rustName f.tyName) = dfltT f.tyName f.ty ∧
      rustName f.tyName = fieldTypename f.tyName f.ty) :
    (fs.map fun f => (f.name, ⟨fieldTypename f.tyName f.ty, f.array, f.optional⟩) : List (Str × FieldTy)).map
      (fun f => (f.1, if f.2.opt then Val.none else if f.2.vec then .vec [] else P.dflt f.2.base)) = dfltFs fs := by
  induction fs with
  | nil => rfl
  | cons f fs ih =>
    rw [List.map_cons, List.map_cons, ih fun g hg => h g (by simp [hg])]
    obtain ⟨h1, h2⟩ := h f (by simp)
    obtain ⟨n, tn, t, a, o⟩ := f
    rw [← h2, h1]
    rfl

theorem name_eq {types : TypeMap} {tn : Str} {t : RType} (h : Entry ast types tn t) : rustName tn = fieldTypename tn t := by
  cases h with
  | builtin b hb => rw [hb]; exact rustName_builtin b
  | enum vs e hb hd _ _ => exact rustName_user hb
  | struct fs fs' rfs hb hd hp hn hr => exact rustName_user hb

mutual
theorem fits_type (hc : Checked ast r) (hn : NamesFit ast) (hP : P.HasItems (itemsOf r.types)) (tn : Str) :
    (t : RType) → r.types.get tn = some (tn, t) → FitsT P tn t ∧ DefT P tn t
  | .builtin b, hg => by
    obtain ⟨-, -, hE⟩ := (checked_entries hc).2.2 _ _ _ hg
    cases hE with
    | builtin _ hb =>
      refine ⟨hb, ?_⟩
      show P.dflt (rustName tn) = _
      rw [hb, hP.prim _ (rustName_prim b), prim_default]
      intro hm
      obtain ⟨i, hi, he⟩ := List.mem_map.1 hm
      have hused : ∀ n m t, (n, (m, t)) ∈ r.types → Used ast n := fun n m t h =>
        ((checked_entries hc).2.2 n m t (Map.mem_get (checked_entries hc).1 h)).2.1
      rcases mem_items hi with ⟨n, m, fs, h1, rfl⟩ | ⟨n, m, e, h1, rfl⟩
      · have he : n = rustName (builtinName b) := he
        exact hn.types _ (rustName_prim b) (he ▸ hused _ _ _ h1)
      · have he : n = rustName (builtinName b) := he
        exact hn.types _ (rustName_prim b) (he ▸ hused _ _ _ h1)
  | .enum e, hg => by
    obtain ⟨hk, -, hall⟩ := checked_entries hc
    obtain ⟨-, -, hE⟩ := hall _ _ _ hg
    refine ⟨⟨hE.enum_sound, enum_found hk hP.perm hg⟩, ?_⟩
    show P.dflt (rustName tn) = .variant tn _
    rw [name_eq hE]
    exact hP.enum _ _ _ _ _ (List.mem_filterMap.2 ⟨_, Map.get_mem hg, rfl⟩)
  | .struct fs, hg => by
    obtain ⟨hk, -, hall⟩ := checked_entries hc
    obtain ⟨-, hu, hE⟩ := hall _ _ _ hg
    have hname := name_eq hE
    cases hE with
    | struct gs gs' _ hb hd hp hnm hR =>
      have hin := fits_fields hc hn hP fs hR
      refine ⟨⟨?_, hin.1⟩, ?_, hin.2⟩
      · rw [hnm]
        exact (hp.map _).nodup_iff.2 (hn.fields tn gs hu hd)
      · rw [hname]
        refine (hP.struct _ _ (List.mem_filterMap.2 ⟨_, Map.get_mem hg, rfl⟩)).trans ?_
        show Val.struct _ = Val.struct _
        rw [dflt_fields_eq]
        intro f hf
        obtain ⟨-, -, hE'⟩ := hall _ _ _ (hR f hf).1
        refine ⟨?_, name_eq hE'⟩
        have : ∀ (l : List (FieldOf RType)), f ∈ l → DefFs P l → P.dflt (rustName f.tyName) = dfltT f.tyName f.ty := by
          intro l
          induction l with
          | nil => intro h; cases h
          | cons g l ih =>
            intro h h'
            rcases List.mem_cons.1 h with rfl | h
            · obtain ⟨_, tn, t, a, o⟩ := f
              exact h'.1.1.dflt
            · exact ih h h'.2
        exact this fs hf hin.2
theorem fits_fields (hc : Checked ast r) (hn : NamesFit ast) (hP : P.HasItems (itemsOf r.types)) : (fs : List (FieldOf RType)) →
    (∀ f ∈ fs, r.types.get f.tyName = some (f.tyName, f.ty) ∧ ¬ (f.array = true ∧ f.optional = true)) → FitsFs P fs ∧ DefFs P fs
  | [], _ => ⟨True.intro, True.intro⟩
  | f :: fs, h => by
    obtain ⟨h1, h2⟩ := h f (by simp)
    have h3 := fits_field hc hn hP f h1
    have h4 := fits_fields hc hn hP fs fun g hg => h g (by simp [hg])
    refine ⟨⟨?_, h4.1⟩, ?_, h4.2⟩
    · obtain ⟨_, tn, t, a, o⟩ := f
      exact h3.1
    · obtain ⟨_, tn, t, a, o⟩ := f
      exact ⟨h3.2, h2⟩
theorem fits_field (hc : Checked ast r) (hn : NamesFit ast) (hP : P.HasItems (itemsOf r.types)) : (f : FieldOf RType) →
    r.types.get f.tyName = some (f.tyName, f.ty) → FitsT P f.tyName f.ty ∧ DefT P f.tyName f.ty
  | ⟨_, tn, t, _, _⟩, h => fits_type hc hn hP tn t h
end

/-- All that is needed about the exported type. -/
theorem fits_export (hc : Checked ast r) (hn : NamesFit ast) (hP : P.HasItems (itemsOf r.types)) :
    FitsT P r.export.name (.struct r.export.fields) ∧ DefT P r.export.name (.struct r.export.fields) :=
  fits_type hc hn hP _ _ (checked_entries hc).2.1

end

end Packetc.Rs
