import Verif.Spec.Conform
import Verif.Proof.Declared
import Verif.Props.Inverse
/-!
# Values of the declared types hold packets (proofs for C119)
-/

namespace Packetc.Props
open Ast Check Gen WellFormed Js Module

/-- What is used of a compiled schema. -/
structure Known (a : AST) (c : TypeMap) (m : TsModule) : Prop where
  final : Final a c
  wf : WF a
  nb : NoBuiltinDecl a
  ld : Loadable a
  desc : Describes a m

/-- The names of a type: in the namespace and in the class. -/
def PathOf (m : TsModule) (p : List Str) (k : Str) : Prop := p = [tsType k] ∨ (k ∉ builtinNames ∧ p = [m.space, k])

theorem conf_tsType_builtin (b : Builtin) :
    tsType (builtinName b) = if scalarOf b = none then "string".toList else "number".toList := by
  cases b <;> decide +kernel

theorem builtinName_known (b : Builtin) : builtinName b ∈ builtinNames := by cases b <;> decide +kernel

theorem via_enumSpec (enumOk : List (Str × Nat) → Num → Prop) (vs : List Str) (n : Num) :
    viaDecl enumOk (enumSpec vs) n ↔ enumOk vs.zipIdx n := by
  unfold viaDecl enumSpec
  rw [List.map_map]
  have : ((fun v : EnumVariant => (v.name, v.value)) ∘ fun v : Str × Nat => (⟨v.1, v.2⟩ : EnumVariant)) = id := by
    funext v
    rfl
  rw [this, List.map_id]

section
variable {a : AST} {c : TypeMap} {m : TsModule} (K : Known a c m)
include K

theorem Known.same {k : Str} {t u : Ast.Ty} (h1 : (k, t) ∈ decls a) (h2 : (k, u) ∈ decls a) : t = u :=
  (Prod.mk.inj (List.inj_on_of_nodup_map K.wf.unique h1 h2 rfl)).2

theorem Known.enumDecl {k : Str} {vs : List Str} (hu : Used a k) (hd : (k, .enum vs) ∈ decls a) (hne : k ≠ m.className) :
    .enum k vs.zipIdx ∈ m.decls := by
  obtain ⟨td, h1, h2⟩ := List.mem_map.1 ((K.desc.used k).2 ⟨hu, K.nb k ⟨_, hd⟩, hne⟩)
  cases td with
  | enum k' us =>
    cases h2
    obtain ⟨ws, h3, rfl⟩ := K.desc.enums _ _ h1
    cases K.same (mem_decls.2 h3) hd
    exact h1
  | interface k' ms =>
    cases h2
    obtain ⟨ws, h3, -⟩ := K.desc.structs _ _ h1
    cases K.same (mem_decls.2 h3) hd

theorem Known.structDecl {k : Str} {fs : List (Str × Unresolved)} (hu : Used a k) (hd : (k, .struct fs) ∈ decls a)
    (hne : k ≠ m.className) : ∃ ms, .interface k ms ∈ m.decls ∧ ms.Perm (fs.map memberOf) := by
  obtain ⟨td, h1, h2⟩ := List.mem_map.1 ((K.desc.used k).2 ⟨hu, K.nb k ⟨_, hd⟩, hne⟩)
  cases td with
  | enum k' us =>
    cases h2
    obtain ⟨ws, h3, -⟩ := K.desc.enums _ _ h1
    cases K.same (mem_decls.2 h3) hd
  | interface k' ms =>
    cases h2
    obtain ⟨ws, h3, h4⟩ := K.desc.structs _ _ h1
    cases K.same (mem_decls.2 h3) hd
    exact ⟨ms, h1, h4⟩

/-- Declared names are no reserved names. -/
theorem Known.reserved {td : TsDecl} (h : td ∈ m.decls) : td.name ∉ reservedTypeNames := by
  have hu := ((K.desc.used td.name).1 (List.mem_map_of_mem h)).1
  cases td with
  | enum k us =>
    obtain ⟨ws, h3, -⟩ := K.desc.enums _ _ h
    exact (K.ld.typeNames k _ hu h3).2
  | interface k ms =>
    obtain ⟨ws, h3, -⟩ := K.desc.structs _ _ h
    exact (K.ld.typeNames k _ hu h3).2

theorem Known.builtin {k : Str} {b : Builtin} (h : c.get k = some (k, .builtin b)) : k = builtinName b := by
  by_cases hk : k ∈ builtinNames
  · rw [K.final.builtin k hk] at h
    obtain ⟨b', h1, h2⟩ := builtin_entry h
    cases h1
    exact h2
  · exact absurd rfl (final_not_builtin K.final h hk b)

theorem Known.declared {k : Str} {t : RType} (h : c.get k = some (k, t)) (ht : ∀ b, t ≠ .builtin b) :
    k ∉ builtinNames ∧ Declared a k := by
  have hk : k ∉ builtinNames := by
    intro hk
    rw [K.final.builtin k hk] at h
    obtain ⟨b', h1, h2⟩ := builtin_entry h
    exact ht b' h1
  refine ⟨hk, ?_⟩
  by_contra hd
  rw [K.final.other k hk hd] at h
  cases h

theorem Known.enum {k : Str} {e : REnum} (h : c.get k = some (k, .enum e)) :
    k ∉ builtinNames ∧ ∃ vs, (k, .enum vs) ∈ decls a ∧ e = enumSpec vs := by
  obtain ⟨hk, t, hd⟩ := K.declared h (by simp)
  refine ⟨hk, ?_⟩
  cases t with
  | enum vs =>
    rw [(K.final.enum k vs hd).2] at h
    cases h
    exact ⟨vs, hd, rfl⟩
  | struct fs =>
    obtain ⟨-, rfs, p, h1, -⟩ := K.final.struct k fs hd
    rw [h1] at h
    cases h

theorem Known.struct {k : Str} {rfs : List RField} (h : c.get k = some (k, .struct rfs)) :
    k ∉ builtinNames ∧ ∃ fs fs', (k, .struct fs) ∈ decls a ∧ List.Perm fs' fs ∧ List.Forall₂ (FieldOk c) fs' rfs := by
  obtain ⟨hk, t, hd⟩ := K.declared h (by simp)
  refine ⟨hk, ?_⟩
  cases t with
  | enum vs =>
    rw [(K.final.enum k vs hd).2] at h
    cases h
  | struct fs =>
    obtain ⟨-, rfs', p, h1, -, -, h2⟩ := K.final.struct k fs hd
    rw [h1] at h
    cases h
    exact ⟨fs, _, hd, List.filter_append_perm _ _, h2⟩

/-- The type of a field of a used struct is used, and is not the export. -/
theorem Known.inner {k : Str} {fs : List (Str × Unresolved)} (hu : Used a k) (hd : (k, .struct fs) ∈ decls a)
    {f : Str × Unresolved} (hf : f ∈ fs) : Used a f.2.name ∧ f.2.name ≠ m.className := by
  obtain ⟨e, h1, h2⟩ := hu
  have hr : Refers a k f.2.name := ⟨fs, hd, f, hf, rfl⟩
  refine ⟨⟨e, h1, h2.tail hr⟩, ?_⟩
  intro hc
  have he : e = m.className := by
    have := K.desc.names.1
    rw [h1] at this
    injection this
  rw [hc, ← he] at hr
  exact K.wf.acyclic e (Relation.TransGen.tail' h2 hr)

omit K in
theorem tsType_declared {k : Str} (hk : k ∉ builtinNames) : tsType k = k := by
  unfold tsType
  rw [if_neg (fun h => hk (by rw [h]; decide)), if_neg hk]

omit K in
theorem PathOf.names {p : List Str} {k : Str} (h : PathOf m p k) (hk : k ∉ builtinNames) : NamesType m p k := by
  rcases h with h | ⟨-, h⟩
  · rw [tsType_declared hk] at h
    exact .inl h
  · exact .inr h

omit K in
theorem PathOf.name_eq {p : List Str} {k n : Str} (h : PathOf m p k) (hk : k ∉ builtinNames) (hn : NamesType m p n) : n = k := by
  rcases PathOf.names h hk with rfl | rfl <;> rcases hn with hn | hn <;> simp at hn
  · exact hn.symm
  · exact hn.symm

/-- A reserved name is not the path of a declared type. -/
theorem Known.not_reserved {w : Str} (hw : w ∈ reservedTypeNames) {td : TsDecl} (hd : td ∈ m.decls) : ¬ NamesType m [w] td.name := by
  rintro (h | h)
  · simp only [List.cons.injEq, and_true] at h
    exact K.reserved hd (h ▸ hw)
  · simp at h

theorem Known.path_reserved {p : List Str} {k : Str} (h : PathOf m p k) (hk : k ∉ builtinNames) (hu : Used a k)
    (hd : Declared a k) {w : Str} (hw : w ∈ reservedTypeNames) : p ≠ [w] := by
  rintro rfl
  obtain ⟨t, ht⟩ := hd
  rcases PathOf.names h hk with h | h
  · simp only [List.cons.injEq, and_true] at h
    exact (K.ld.typeNames k t hu (mem_decls.1 ht)).2 (h ▸ hw)
  · simp at h

variable {enumOk : List (Str × Nat) → Num → Prop} {heap : List Obj}

/-- The object has a property of the type of the field. -/
def FieldConf (enumOk : List (Str × Nat) → Num → Prop) (m : TsModule) (heap : List Obj) (q : Str → List Str) (o : Obj)
    (f : Str × Unresolved) : Prop :=
  ∃ w t, o.get f.1 = .ok w ∧ ((f.2.optional = true ∧ t = ⟨["undefined".toList], false⟩) ∨ t = ⟨q f.2.name, f.2.array⟩) ∧
    Conforms enumOk m heap t w

omit K in
theorem conf_items {t : RType} {p : List Str} {S : Str → Prop} {N : Scalar → Num → Prop} {E : REnum → Num → Prop}
    (ih : ∀ j v, DeclaredT S N E t j → Rep heap j v → Conforms enumOk m heap ⟨p, false⟩ v) :
    ∀ {js : List JVal} {items : List Val}, (∀ j ∈ js, DeclaredT S N E t j) → RepItems heap 0 js items →
      items.length = js.length ∧ ∀ v ∈ items, Conforms enumOk m heap ⟨p, false⟩ v
  | [], items, _, hr => by
    have hr : items = [] := hr
    subst hr
    simp
  | j :: js, items, h, hr => by
    obtain ⟨w, ws, rfl, h1, h2⟩ := hr
    obtain ⟨h3, h4⟩ := conf_items ih (fun x hx => h x (List.mem_cons_of_mem _ hx)) h2
    refine ⟨by simp [h3], fun v hv => ?_⟩
    rcases List.mem_cons.1 hv with rfl | hv
    · exact ih j _ (h j List.mem_cons_self) h1
    · exact h4 v hv

omit K in
theorem items_conf {t : RType} {p : List Str} {E : REnum → Num → Prop}
    (ih : ∀ v, Conforms enumOk m heap ⟨p, false⟩ v → ∃ j, DeclaredT (fun _ => True) (fun _ _ => True) E t j ∧ Rep heap j v) :
    ∀ {items : List Val}, (∀ v ∈ items, Conforms enumOk m heap ⟨p, false⟩ v) →
      ∃ js : List JVal, js.length = items.length ∧ (∀ j ∈ js, DeclaredT (fun _ => True) (fun _ _ => True) E t j) ∧
        RepItems heap 0 js items
  | [], _ => ⟨[], rfl, by simp, rfl⟩
  | v :: items, h => by
    obtain ⟨j, h1, h2⟩ := ih v (h v List.mem_cons_self)
    obtain ⟨js, h3, h4, h5⟩ := items_conf ih fun x hx => h x (List.mem_cons_of_mem _ hx)
    refine ⟨j :: js, by simp [h3], fun x hx => ?_, v, items, rfl, h2, h5⟩
    rcases List.mem_cons.1 hx with rfl | hx
    · exact h1
    · exact h4 x hx

mutual
theorem conf_type {S : Str → Prop} {N : Scalar → Num → Prop} : (t : RType) → ∀ k, c.get k = some (k, t) → Used a k → k ≠ m.className →
    ∀ p, PathOf m p k → ∀ j v, DeclaredT S N (viaDecl enumOk) t j → Rep heap j v → Conforms enumOk m heap ⟨p, false⟩ v
  | .builtin b, k, hk, hu, hne, p, hp, j, v, hd, hr => by
    have hkb := K.builtin hk
    subst hkb
    have hp' : p = [tsType (builtinName b)] := by
      rcases hp with hp | ⟨hp, -⟩
      · exact hp
      · exact absurd (builtinName_known b) hp
    subst hp'
    cases hs : scalarOf b with
    | none =>
      simp only [DeclaredT, hs] at hd
      obtain ⟨s, rfl, -⟩ := hd
      have hr : v = .str s := hr
      subst hr
      rw [conf_tsType_builtin, if_pos hs]
      exact .string s
    | some sc =>
      simp only [DeclaredT, hs] at hd
      obtain ⟨n, rfl, -⟩ := hd
      have hr : v = .num n := hr
      subst hr
      rw [conf_tsType_builtin, if_neg (by rw [hs]; simp)]
      exact .number n
  | .enum e, k, hk, hu, hne, p, hp, j, v, hd, hr => by
    obtain ⟨hkb, vs, hdec, rfl⟩ := K.enum hk
    obtain ⟨n, rfl, hn⟩ := hd
    have hr : v = .num n := hr
    subst hr
    exact .enum (PathOf.names hp hkb) (K.enumDecl hu hdec hne) ((via_enumSpec _ _ _).1 hn)
  | .struct rfs, k, hk, hu, hne, p, hp, j, v, hd, hr => by
    obtain ⟨hkb, fs, fs', hdec, hperm, hall⟩ := K.struct hk
    obtain ⟨ps, rfl, hps⟩ := hd
    obtain ⟨i, pr, props, rfl, -, hi, hrp⟩ := hr
    obtain ⟨ms, hms, hmp⟩ := K.structDecl hu hdec hne
    have hf := conf_fields rfs fs' hall (fun f hf => K.inner hu hdec (hperm.mem_iff.1 hf)) (fun k => [tsType k])
      (fun k => .inl rfl) ps (.obj pr props) hps hrp
    have hx : ∀ x ∈ ms, ∃ w t, (Obj.obj pr props).get x.name = .ok w ∧ t ∈ memberType x ∧ Conforms enumOk m heap t w := by
      intro x hx
      obtain ⟨f, hff, rfl⟩ := List.mem_map.1 (hmp.mem_iff.1 hx)
      obtain ⟨w, t, h1, h2, h3⟩ := hf f (hperm.mem_iff.2 hff)
      refine ⟨w, t, h1, ?_, h3⟩
      unfold memberType memberOf
      rcases h2 with ⟨h2, rfl⟩ | rfl
      · rw [if_pos h2]
        exact List.mem_cons_self
      · split
        · exact List.mem_cons_of_mem _ List.mem_cons_self
        · exact List.mem_cons_self
    classical
    have : Nonempty Val := ⟨.undef⟩
    have : Nonempty TsAtom := ⟨⟨[], false⟩⟩
    choose! value type h1 h2 h3 using hx
    exact .interface value type (PathOf.names hp hkb) hms hi h1 h2 h3
theorem conf_fields {S : Str → Prop} {N : Scalar → Num → Prop} : (rfs : List RField) → ∀ fs, List.Forall₂ (FieldOk c) fs rfs →
    (∀ f ∈ fs, Used a f.2.name ∧ f.2.name ≠ m.className) → ∀ q : Str → List Str, (∀ k, PathOf m (q k) k) → ∀ ps o,
    DeclaredFs S N (viaDecl enumOk) rfs ps → RepProps heap 0 ps o → ∀ f ∈ fs, FieldConf enumOk m heap q o f
  | [], fs, hall, _, _, _, _, _, _, _ => by
    cases hall
    simp
  | rf :: rfs, fs, hall, hin, q, hq, ps, o, hps, hr => by
    cases hall with
    | cons h1 h2 =>
      obtain ⟨p, ps, rfl, hp, hps⟩ := hps
      intro g hg
      rcases List.mem_cons.1 hg with rfl | hg
      · exact conf_field rf g h1 (hin _ List.mem_cons_self) q hq p o hp hr.1
      · exact conf_fields rfs _ h2 (fun f hf => hin f (List.mem_cons_of_mem _ hf)) q hq ps o hps hr.2 g hg
theorem conf_field {S : Str → Prop} {N : Scalar → Num → Prop} : (rf : RField) → ∀ f, FieldOk c f rf →
    (Used a f.2.name ∧ f.2.name ≠ m.className) → ∀ q : Str → List Str, (∀ k, PathOf m (q k) k) → ∀ p o,
    DeclaredF S N (viaDecl enumOk) rf p → RepProp heap 0 p o → FieldConf enumOk m heap q o f
  | ⟨n, tn, t, ar, opt⟩, f, hf, hin, q, hq, ⟨pn, j⟩, o, hd, hr => by
    obtain ⟨e1, e2, e3, e4, -, hty⟩ := hf
    simp only at e1 e2 e3 e4 hty
    obtain ⟨hn, hd⟩ := hd
    simp only at hn hd
    have key := conf_type (S := S) (N := N) t f.2.name hty hin.1 hin.2 (q f.2.name) (hq _)
    obtain ⟨w, hw, hr⟩ := hr
    rw [hn, e1] at hw
    rcases hd with ⟨h1, h2⟩ | hd
    · rw [h2] at hr
      exact ⟨w, _, hw, .inl ⟨e4 ▸ h1, rfl⟩, .undef hr⟩
    · refine ⟨w, _, hw, .inr rfl, ?_⟩
      rw [← e3]
      cases ar with
      | false => exact key j w hd hr
      | true =>
        obtain ⟨js, hj, hl, hjs⟩ := hd
        rw [hj] at hr
        obtain ⟨i, items, rfl, -, hi, hr⟩ := hr
        obtain ⟨h3, h4⟩ := conf_items (fun j v => key j v) hjs hr
        exact .array hi (by omega) h4
end

mutual
theorem type_conf : (t : RType) → ∀ k, c.get k = some (k, t) → Used a k → k ≠ m.className →
    ∀ p, PathOf m p k → ∀ v, Conforms enumOk m heap ⟨p, false⟩ v →
    ∃ j, DeclaredT (fun _ => True) (fun _ _ => True) (viaDecl enumOk) t j ∧ Rep heap j v
  | .builtin b, k, hk, hu, hne, p, hp, v, hc => by
    have hkb := K.builtin hk
    subst hkb
    have hp' : p = [tsType (builtinName b)] := by
      rcases hp with hp | ⟨hp, -⟩
      · exact hp
      · exact absurd (builtinName_known b) hp
    have hts : p = [if scalarOf b = none then "string".toList else "number".toList] := by
      rw [hp', conf_tsType_builtin]
    have hres : ∀ {n : Str} {td : TsDecl}, td ∈ m.decls → td.name = n → ¬ NamesType m p n := by
      intro n td h1 h2
      rw [hts, ← h2]
      refine K.not_reserved ?_ h1
      split <;> decide
    generalize hat : (⟨p, false⟩ : TsAtom) = at' at hc
    cases hc with
    | number n =>
      injection hat with hat
      rw [hts] at hat
      cases hs : scalarOf b with
      | none => rw [hs] at hat; exact absurd hat (by decide)
      | some sc =>
        refine ⟨.num n, ?_, rfl⟩
        simp only [DeclaredT, hs]
        exact ⟨n, rfl, trivial⟩
    | string s =>
      injection hat with hat
      rw [hts] at hat
      cases hs : scalarOf b with
      | none =>
        refine ⟨.str s, ?_, rfl⟩
        simp only [DeclaredT, hs]
        exact ⟨s, rfl, trivial⟩
      | some sc => rw [hs, if_neg (by simp)] at hat; exact absurd hat (by decide)
    | undef =>
      injection hat with hat
      rw [hts] at hat
      exfalso
      revert hat
      split <;> decide
    | enum h1 h2 h3 =>
      injection hat with hat
      subst hat
      exact absurd h1 (hres h2 rfl)
    | array => injection hat with _ hat; cases hat
    | interface value type h1 h2 =>
      injection hat with hat
      subst hat
      exact absurd h1 (hres h2 rfl)
  | .enum e, k, hk, hu, hne, p, hp, v, hc => by
    obtain ⟨hkb, vs, hdec, rfl⟩ := K.enum hk
    have hpr := fun {w} (hw : w ∈ reservedTypeNames) => K.path_reserved hp hkb hu ⟨_, hdec⟩ hw
    generalize hat : (⟨p, false⟩ : TsAtom) = at' at hc
    cases hc with
    | number n => injection hat with hat; exact absurd hat (hpr (by decide))
    | string s => injection hat with hat; exact absurd hat (hpr (by decide))
    | undef => injection hat with hat; exact absurd hat (hpr (by decide))
    | array => injection hat with _ hat; cases hat
    | enum h1 h2 h3 =>
      injection hat with hat
      subst hat
      obtain rfl := PathOf.name_eq hp hkb h1
      obtain ⟨us, h4, rfl⟩ := K.desc.enums _ _ h2
      cases K.same (mem_decls.2 h4) hdec
      exact ⟨_, ⟨_, rfl, (via_enumSpec _ _ _).2 h3⟩, rfl⟩
    | interface value type h1 h2 =>
      injection hat with hat
      subst hat
      obtain rfl := PathOf.name_eq hp hkb h1
      obtain ⟨us, h4, -⟩ := K.desc.structs _ _ h2
      cases K.same (mem_decls.2 h4) hdec
  | .struct rfs, k, hk, hu, hne, p, hp, v, hc => by
    obtain ⟨hkb, fs, fs', hdec, hperm, hall⟩ := K.struct hk
    have hpr := fun {w} (hw : w ∈ reservedTypeNames) => K.path_reserved hp hkb hu ⟨_, hdec⟩ hw
    generalize hat : (⟨p, false⟩ : TsAtom) = at' at hc
    cases hc with
    | number n => injection hat with hat; exact absurd hat (hpr (by decide))
    | string s => injection hat with hat; exact absurd hat (hpr (by decide))
    | undef => injection hat with hat; exact absurd hat (hpr (by decide))
    | array => injection hat with _ hat; cases hat
    | enum h1 h2 h3 =>
      injection hat with hat
      subst hat
      obtain rfl := PathOf.name_eq hp hkb h1
      obtain ⟨us, h4, -⟩ := K.desc.enums _ _ h2
      cases K.same (mem_decls.2 h4) hdec
    | interface value type h1 h2 h3 h4 h5 h6 =>
      injection hat with hat
      subst hat
      obtain rfl := PathOf.name_eq hp hkb h1
      obtain ⟨us, h7, h8⟩ := K.desc.structs _ _ h2
      cases K.same (mem_decls.2 h7) hdec
      obtain ⟨ps, h9, h10⟩ := fields_conf rfs fs' hall (fun f hf => K.inner hu hdec (hperm.mem_iff.1 hf)) (fun k => [tsType k])
        (fun k => .inl rfl) _ (fun f hf => by
          have hx := h8.mem_iff.2 (List.mem_map_of_mem (f := memberOf) (hperm.mem_iff.1 hf))
          refine ⟨_, _, h4 _ hx, ?_, h6 _ hx⟩
          have := h5 _ hx
          unfold memberType at this
          split at this
          · rename_i ho
            rcases List.mem_cons.1 this with h | h
            · exact .inl ⟨ho, h⟩
            · exact .inr (List.mem_singleton.1 h)
          · exact .inr (List.mem_singleton.1 this))
      exact ⟨.obj ps, ⟨ps, rfl, h9⟩, _, _, _, rfl, Nat.zero_le _, h3, h10⟩
theorem fields_conf : (rfs : List RField) → ∀ fs, List.Forall₂ (FieldOk c) fs rfs →
    (∀ f ∈ fs, Used a f.2.name ∧ f.2.name ≠ m.className) → ∀ q : Str → List Str, (∀ k, PathOf m (q k) k) → ∀ o,
    (∀ f ∈ fs, FieldConf enumOk m heap q o f) →
    ∃ ps, DeclaredFs (fun _ => True) (fun _ _ => True) (viaDecl enumOk) rfs ps ∧ RepProps heap 0 ps o
  | [], fs, hall, _, _, _, _, _ => ⟨[], rfl, trivial⟩
  | rf :: rfs, fs, hall, hin, q, hq, o, hf => by
    cases hall with
    | cons h1 h2 =>
      obtain ⟨p, h3, h4⟩ := field_conf rf _ h1 (hin _ List.mem_cons_self) q hq o (hf _ List.mem_cons_self)
      obtain ⟨ps, h5, h6⟩ := fields_conf rfs _ h2 (fun f hf => hin f (List.mem_cons_of_mem _ hf)) q hq o
        fun f hff => hf f (List.mem_cons_of_mem _ hff)
      exact ⟨p :: ps, ⟨p, ps, rfl, h3, h5⟩, h4, h6⟩
theorem field_conf : (rf : RField) → ∀ f, FieldOk c f rf → (Used a f.2.name ∧ f.2.name ≠ m.className) → ∀ q : Str → List Str,
    (∀ k, PathOf m (q k) k) → ∀ o, FieldConf enumOk m heap q o f →
    ∃ p, DeclaredF (fun _ => True) (fun _ _ => True) (viaDecl enumOk) rf p ∧ RepProp heap 0 p o
  | ⟨n, tn, t, ar, opt⟩, f, hf, hin, q, hq, o, hc => by
    obtain ⟨e1, e2, e3, e4, -, hty⟩ := hf
    simp only at e1 e2 e3 e4 hty
    have key := type_conf t f.2.name hty hin.1 hin.2 (q f.2.name) (hq _)
    obtain ⟨w, at', hw, ht, hc⟩ := hc
    rcases ht with ⟨ho, rfl⟩ | rfl
    · refine ⟨⟨n, .undef⟩, ⟨rfl, .inl ⟨e4.trans ho, rfl⟩⟩, w, by rw [e1]; exact hw, ?_⟩
      have hnr := fun {td} (hd : td ∈ m.decls) => K.not_reserved (w := "undefined".toList) (by decide) hd
      generalize hat : (⟨["undefined".toList], false⟩ : TsAtom) = at' at hc
      cases hc with
      | number n => injection hat with hat; exact absurd hat (by decide)
      | string s => injection hat with hat; exact absurd hat (by decide)
      | undef h => exact h
      | array => injection hat with _ hat; cases hat
      | enum h1 h2 h3 =>
        injection hat with hat
        subst hat
        exact absurd h1 (hnr h2)
      | interface value type h1 h2 =>
        injection hat with hat
        subst hat
        exact absurd h1 (hnr h2)
    · rw [← e3] at hc
      cases ar with
      | false =>
        obtain ⟨j, h1, h2⟩ := key w hc
        exact ⟨⟨n, j⟩, ⟨rfl, .inr h1⟩, w, by rw [e1]; exact hw, h2⟩
      | true =>
        generalize hat : (⟨q f.2.name, true⟩ : TsAtom) = at' at hc
        cases hc with
        | number n => injection hat with _ hat; cases hat
        | string s => injection hat with _ hat; cases hat
        | undef h => injection hat with _ hat; cases hat
        | enum h1 h2 h3 => injection hat with _ hat; cases hat
        | interface value type h1 h2 => injection hat with _ hat; cases hat
        | array h1 h2 h3 =>
          injection hat with hat
          subst hat
          obtain ⟨js, h4, h5, h6⟩ := items_conf key h3
          exact ⟨⟨n, .arr js⟩, ⟨rfl, .inr ⟨js, rfl, by omega, h5⟩⟩, _, by rw [e1]; exact hw, _, _, rfl, Nat.zero_le _, h1, h6⟩
end

end
end Packetc.Props
