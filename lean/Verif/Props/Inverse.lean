import Verif.Spec.Inverse
import Verif.Proof.Inverse
import Verif.Props.Unused
import Verif.Props.Text
/-!
# C103: what the generated file tells about the schema
-/

namespace Packetc.Props
open Ast Check Gen WellFormed Js Module Inverse

/-- What is stored under a name that is not predefined. -/
theorem final_not_builtin {a : AST} {c : TypeMap} (hc : Final a c) {k : Str} {t : RType} (h : c.get k = some (k, t))
    (hk : k ∉ builtinNames) (b : Builtin) : t ≠ .builtin b := by
  rintro rfl
  by_cases hd : Declared a k
  · obtain ⟨t, hd⟩ := hd
    cases t with
    | enum vs => rw [(hc.enum k vs hd).2] at h; cases h
    | struct fs =>
      obtain ⟨-, rfs, p, h1, -⟩ := hc.struct k fs hd
      rw [h1] at h
      cases h
  · rw [hc.other k hk hd] at h
    cases h

/-- Names of types that are read and declared alike. -/
theorem alike_name {a b : AST} {c d : TypeMap} (hc : Final a c) (hd : Final b d) {k k' : Str} {t t' : RType}
    (h1 : c.get k = some (k, t)) (h2 : d.get k' = some (k', t')) (h : alikeT k k' t t') (ht : tsType k = tsType k') : k = k' := by
  have hkey : ∀ {a : AST} {c : TypeMap} (_ : Final a c) {k : Str} {t : RType}, c.get k = some (k, t) →
      (∃ b, t = .builtin b ∧ k = builtinName b) ∨ ((∀ b, t ≠ .builtin b) ∧ tsType k = k) := by
    intro a c hc k t h
    by_cases hk : k ∈ builtinNames
    · rw [hc.builtin k hk] at h
      obtain ⟨b, h1, h2⟩ := builtin_entry h
      exact .inl ⟨b, h1, h2⟩
    · refine .inr ⟨final_not_builtin hc h hk, ?_⟩
      unfold tsType
      rw [if_neg (fun h => hk (by rw [h]; decide)), if_neg hk]
  rcases hkey hc h1 with ⟨x, rfl, e1⟩ | ⟨n1, e1⟩ <;> rcases hkey hd h2 with ⟨y, rfl, e2⟩ | ⟨n2, e2⟩
  · rcases h with ⟨rfl, rfl⟩ | ⟨-, -, h⟩
    · rw [e1, e2]
    · exact h
  · cases t' <;> first | exact absurd rfl (n2 _) | cases h
  · cases t <;> first | exact absurd rfl (n1 _) | cases h
  · rw [e1, e2] at ht
    exact ht

theorem align {a b : AST} {c d : TypeMap} (hc : Final a c) (hd : Final b d) : ∀ {fs gs : List (Str × Unresolved)} {rfs rgs : List RField},
    List.Forall₂ (FieldOk c) fs rfs → List.Forall₂ (FieldOk d) gs rgs → alikeFs rfs rgs →
    (∀ f ∈ fs, ∀ g ∈ gs, f.1 = g.1 → tsType f.2.name = tsType g.2.name) →
    fs = gs ∧ ∀ f ∈ fs, ∃ t t', c.get f.2.name = some (f.2.name, t) ∧ d.get f.2.name = some (f.2.name, t') ∧
      alikeT f.2.name f.2.name t t'
  | _, _, _, _, .nil, .nil, _, _ => ⟨rfl, fun f hf => by cases hf⟩
  | _, _, _, _, .nil, .cons _ _, h, _ => by cases h
  | _, _, _, _, .cons _ _, .nil, h, _ => by cases h
  | f :: fs, g :: gs, ⟨n, k, t, ar, o⟩ :: rfs, ⟨n', k', t', ar', o'⟩ :: rgs, .cons h1 h2, .cons h3 h4, ⟨⟨e1, e2, e3, h5⟩, h6⟩, hts => by
    obtain ⟨ih1, ih2⟩ := align hc hd h2 h4 h6 fun f hf g hg => hts f (List.mem_cons_of_mem _ hf) g (List.mem_cons_of_mem _ hg)
    obtain ⟨x, ⟨y, z, w⟩⟩ := f
    obtain ⟨x', ⟨y', z', w'⟩⟩ := g
    obtain ⟨a1, a2, a3, a4, -, a5⟩ := h1
    obtain ⟨b1, b2, b3, b4, -, b5⟩ := h3
    simp only at a1 a2 a3 a4 a5 b1 b2 b3 b4 b5
    subst a1 a2 a3 a4 b1 b2 b3 b4 e1 e2 e3
    have hn := alike_name hc hd a5 b5 h5 (hts _ List.mem_cons_self _ List.mem_cons_self rfl)
    subst hn
    refine ⟨by rw [ih1], fun f hf => ?_⟩
    rcases List.mem_cons.1 hf with rfl | hf
    · exact ⟨t, t', a5, b5, h5⟩
    · exact ih2 f hf

/-- Two compiled schemas whose texts declare the same, and fields of the same name in a type that both use. -/
theorem described_alike {a b : AST} {m : TsModule} (ha : Describes a m) (hb : Describes b m) (hwa : WF a) (hwb : WF b)
    (hna : NoBuiltinDecl a) (hla : Loadable a) {n : Str} {fs gs} (hn : Used a n) (hn' : Used b n)
    (hd : (n, .struct fs) ∈ decls a) (hd' : (n, .struct gs) ∈ decls b) {f g} (hf : f ∈ fs) (hg : g ∈ gs) (he : f.1 = g.1) :
    tsType f.2.name = tsType g.2.name := by
  have hua : ∀ {t}, .decl n t ∈ a → t = .struct fs := fun h =>
    (Prod.mk.inj (List.inj_on_of_nodup_map hwa.unique (mem_decls.2 h) hd rfl)).2
  have hub : ∀ {t}, .decl n t ∈ b → t = .struct gs := fun h =>
    (Prod.mk.inj (List.inj_on_of_nodup_map hwb.unique (mem_decls.2 h) hd' rfl)).2
  have hna' := hla.members n fs hn (mem_decls.1 hd)
  by_cases hc : n = m.className
  · subst hc
    obtain ⟨fs', h1, h2⟩ := ha.params
    obtain ⟨gs', h3, h4⟩ := hb.params
    cases hua h1
    cases hub h3
    have hnd : (m.params.map TsMember.name).Nodup := by
      rw [(h2.map TsMember.name).nodup_iff, List.map_map]
      exact hna'
    have hp := List.inj_on_of_nodup_map hnd (h2.mem_iff.2 (List.mem_map_of_mem hf)) (h4.mem_iff.2 (List.mem_map_of_mem hg)) he
    unfold paramOf at hp
    simp only [TsMember.mk.injEq, List.cons.injEq, TsAtom.mk.injEq] at hp
    have hq := hp.2.2.1.1
    unfold qualPath at hq
    by_cases h5 : f.2.name ∈ builtinNames <;> by_cases h6 : g.2.name ∈ builtinNames
    · rw [if_pos h5, if_pos h6] at hq
      injection hq
    · rw [if_pos h5, if_neg h6] at hq
      simp at hq
    · rw [if_neg h5, if_pos h6] at hq
      simp at hq
    · rw [if_neg h5, if_neg h6] at hq
      simp only [List.cons.injEq, and_true, true_and] at hq
      rw [hq]
  · obtain ⟨td, h1, h2⟩ := List.mem_map.1 ((ha.used n).2 ⟨hn, hna n ⟨_, hd⟩, hc⟩)
    cases td with
    | enum k vs =>
      cases h2
      obtain ⟨us, h3, -⟩ := ha.enums _ _ h1
      cases hua h3
    | interface k ms =>
      cases h2
      obtain ⟨fs', h3, h4⟩ := ha.structs _ _ h1
      obtain ⟨gs', h5, h6⟩ := hb.structs _ _ h1
      cases hua h3
      cases hub h5
      have hnd : (ms.map TsMember.name).Nodup := by
        rw [(h4.map TsMember.name).nodup_iff, List.map_map]
        exact hna'
      have hp := List.inj_on_of_nodup_map hnd (h4.mem_iff.2 (List.mem_map_of_mem hf)) (h6.mem_iff.2 (List.mem_map_of_mem hg)) he
      unfold memberOf at hp
      simp only [TsMember.mk.injEq, List.cons.injEq, TsAtom.mk.injEq, and_true] at hp
      exact hp.2.2.1

/-- What is known of a schema from the module that was generated for it. -/
theorem compiled_known {a : AST} {e : Artifact} (hc : Compiled a e) {m : TsModule} (hm : load e.code = some m) :
    ∃ c, Final a c ∧ c.get m.className = some (m.className, .struct e.fields) ∧ WF a ∧ NoBuiltinDecl a ∧ Loadable a ∧ Describes a m ∧
      ∃ rm wm, m.methods = [rm, wm] ∧ rm.body = readBody ⟨m.className, e.fields⟩ := by
  obtain ⟨hd, hn⟩ := C60_describes hc hm
  have hl := (C60_needs hc (by rw [hm]; simp)).1
  obtain ⟨ds, tds, fs, fs', R, -, hmod, -, -⟩ := compiled_load hc hm
  obtain ⟨env, text, r, hfair, -, hp, -, ht, he⟩ := hc
  have hnb := parsed_noBuiltinDecl hp
  obtain ⟨c, hf, hex, hg, -, -, -⟩ := typeCheck_final hfair.1 hnb ht
  rw [he] at hg
  rw [hn]
  refine ⟨c, hf, hg, R.wf, hnb, hl, hd, ?_⟩
  rw [hmod]
  exact ⟨_, _, rfl, rfl⟩

theorem fieldOk_unique {c : TypeMap} : ∀ {fs gs : List (Str × Unresolved)} {rfs : List RField}, List.Forall₂ (FieldOk c) fs rfs →
    List.Forall₂ (FieldOk c) gs rfs → fs = gs
  | _, _, _, .nil, .nil => rfl
  | (x, ⟨y, z, w⟩) :: _, (x', ⟨y', z', w'⟩) :: _, _, .cons ⟨a1, a2, a3, a4, _, _⟩ h2, .cons ⟨b1, b2, b3, b4, _, _⟩ h4 => by
    rw [fieldOk_unique h2 h4]
    simp only at a1 a2 a3 a4 b1 b2 b3 b4
    rw [← a1, ← a2, ← a3, ← a4, ← b1, ← b2, ← b3, ← b4]

theorem same_reach {a b : AST} {e₁ e₂ : Artifact} (h₁ : Compiled a e₁) (h₂ : Compiled b e₂) {m : TsModule}
    (hm₁ : load e₁.code = some m) (hm₂ : load e₂.code = some m) :
    ∀ n, Used a n → Used b n ∧ ∀ t, .decl n t ∈ a → ∃ u, .decl n u ∈ b ∧ LikeTy t u ∧
      (AllInOrder a → AllInOrder b → t = u) := by
  obtain ⟨c, hc, gc, wa, na, la, da, rm, wm, em, eb⟩ := compiled_known h₁ hm₁
  obtain ⟨d, hd, gd, wb, nb, lb, db, rm', wm', em', eb'⟩ := compiled_known h₂ hm₂
  rw [em] at em'
  cases em'
  rw [eb] at eb'
  have htop : alikeFs e₁.fields e₂.fields := by
    unfold readBody at eb'
    simp only [List.cons_append, List.nil_append, List.cons.injEq, true_and] at eb'
    exact (fields_alike _ (by simp) (.inr ⟨_, _, _, rfl⟩) (.inr ⟨_, _, _, rfl⟩) eb').1
  have hfields : ∀ {n : Str} {t t' : RType} {fs}, Used a n → Used b n → c.get n = some (n, t) → d.get n = some (n, t') →
      alikeT n n t t' → (n, .struct fs) ∈ decls a → ∃ gs, (n, .struct gs) ∈ decls b ∧ fs.Perm gs ∧
        (AllInOrder a → AllInOrder b → fs = gs) ∧ ∀ f ∈ fs, ∃ t t', c.get f.2.name = some (f.2.name, t) ∧ d.get f.2.name = some (f.2.name, t') ∧
          alikeT f.2.name f.2.name t t' := by
    intro n t t' fs hu hu' h1 h2 hal hdecl
    obtain ⟨-, rfs, -, h3, -⟩ := hc.struct n fs hdecl
    rw [h1] at h3
    cases h3
    cases t' with
    | builtin _ => cases hal
    | enum _ => cases hal
    | struct rgs =>
      obtain ⟨fs', fs'', h4, h5, h6⟩ := hc.fields h1
      have := (Prod.mk.inj (List.inj_on_of_nodup_map hc.nodup h4 hdecl rfl)).2
      cases this
      obtain ⟨gs, gs', h7, h8, h9⟩ := hd.fields h2
      obtain ⟨h10, h11⟩ := align hc hd h6 h9 hal fun f hf g hg he =>
        described_alike da db wa wb na la hu hu' h4 h7 (h5.mem_iff.1 hf) (h8.mem_iff.1 hg) he
      subst h10
      refine ⟨gs, h7, h5.symm.trans h8, fun ha hb => ?_, fun f hf => h11 f (h5.mem_iff.2 hf)⟩
      obtain ⟨rfs', h12, h13⟩ := hc.inOrder h4 (ha n _ hu h4)
      rw [h1] at h12
      cases h12
      obtain ⟨rgs', h14, h15⟩ := hd.inOrder h7 (hb n _ hu' h7)
      rw [h2] at h14
      cases h14
      exact (fieldOk_unique h13 h6).trans (fieldOk_unique h9 h15)
  have hmain : ∀ n, Used a n → Used b n ∧ ∃ t t', c.get n = some (n, t) ∧ d.get n = some (n, t') ∧ alikeT n n t t' := by
    rintro n ⟨e, he, hr⟩
    rw [da.names.1] at he
    cases he
    induction hr with
    | refl => exact ⟨⟨_, db.names.1, .refl⟩, _, _, gc, gd, htop⟩
    | @tail n k hr hk ih =>
      obtain ⟨hu', t, t', h1, h2, h3⟩ := ih
      obtain ⟨fs, hdecl, f, hf, rfl⟩ := hk
      obtain ⟨gs, h4, h5, -, h6⟩ := hfields ⟨_, da.names.1, hr⟩ hu' h1 h2 h3 hdecl
      exact ⟨used_ref hu' ⟨gs, h4, f, h5.mem_iff.1 hf, rfl⟩, h6 f hf⟩
  intro n hn
  obtain ⟨hu', t, t', h1, h2, h3⟩ := hmain n hn
  refine ⟨hu', fun ty hty => ?_⟩
  cases ty with
  | struct fs =>
    obtain ⟨gs, h4, h5, h6, -⟩ := hfields hn hu' h1 h2 h3 (mem_decls.2 hty)
    exact ⟨_, mem_decls.1 h4, .struct h5, fun ha hb => by rw [h6 ha hb]⟩
  | enum vs =>
    have hne : n ≠ m.className := by
      rintro rfl
      obtain ⟨fs, h4, -⟩ := da.params
      have := (Prod.mk.inj (List.inj_on_of_nodup_map wa.unique (mem_decls.2 h4) (mem_decls.2 hty) rfl)).2
      cases this
    obtain ⟨td, h4, h5⟩ := List.mem_map.1 ((da.used n).2 ⟨hn, na n ⟨_, mem_decls.2 hty⟩, hne⟩)
    cases td with
    | interface k ms =>
      cases h5
      obtain ⟨fs, h6, -⟩ := da.structs _ _ h4
      have := (Prod.mk.inj (List.inj_on_of_nodup_map wa.unique (mem_decls.2 h6) (mem_decls.2 hty) rfl)).2
      cases this
    | enum k us =>
      cases h5
      obtain ⟨vs', h6, h7⟩ := da.enums _ _ h4
      have := (Prod.mk.inj (List.inj_on_of_nodup_map wa.unique (mem_decls.2 h6) (mem_decls.2 hty) rfl)).2
      cases this
      obtain ⟨ws, h8, h9⟩ := db.enums _ _ h4
      rw [h7] at h9
      have := congrArg (List.map Prod.fst) h9
      rw [List.zipIdx_map_fst, List.zipIdx_map_fst] at this
      subst this
      exact ⟨_, h8, .enum, fun _ _ => rfl⟩

/-- C103, full statement: the generated file determines everything in the schema that is used. -/
def C103_claim : Prop := ∀ (a b : AST) (e₁ e₂ : Artifact), Compiled a e₁ → Compiled b e₂ → Usable e₁ → e₁.code = e₂.code → SameUsed a b

theorem LikeTy.symm {t u : Ty} (h : LikeTy t u) : LikeTy u t := by
  cases h with
  | enum => exact .enum
  | struct h => exact .struct h.symm

/-- C103, what holds: if the files generated for two schemas are the same module (whatever the comment in their first line), then the
schemas export the same type, use the same types, and declare these alike, up to the order of the fields. What is missing: the
order of the fields, which the file does not tell if the compiler may change it (see `C103_exact`); and files that TypeScript
rejects. -/
theorem C103_module_partial {a b : AST} {e₁ e₂ : Artifact} (h₁ : Compiled a e₁) (h₂ : Compiled b e₂) (hl : load e₁.code ≠ none)
    (h : load e₁.code = load e₂.code) : LikeUsed a b := by
  obtain ⟨m, hm⟩ := Option.ne_none_iff_exists'.1 hl
  have hm' := h ▸ hm
  have hab := same_reach h₁ h₂ hm hm'
  have hba := same_reach h₂ h₁ hm' hm
  refine ⟨?_, fun n => ⟨fun h => (hab n h).1, fun h => (hba n h).1⟩, fun n h t ht => ?_, fun n h u hu => ?_⟩
  · rw [(C60_describes h₁ hm).1.names.1, (C60_describes h₂ hm').1.names.1]
  · obtain ⟨u, h1, h2, -⟩ := (hab n h).2 t ht
    exact ⟨u, h1, h2⟩
  · obtain ⟨t, h1, h2, -⟩ := (hba n h).2 u hu
    exact ⟨t, h1, LikeTy.symm h2⟩

/-- C103: if no field can be overtaken, the order of fields is the same, too. -/
theorem C103_ordered_partial {a b : AST} (ha : AllInOrder a) (hb : AllInOrder b) {e₁ e₂ : Artifact} (h₁ : Compiled a e₁)
    (h₂ : Compiled b e₂) (hl : load e₁.code ≠ none) (h : load e₁.code = load e₂.code) : SameUsed a b := by
  have hlike := C103_module_partial h₁ h₂ hl h
  obtain ⟨m, hm⟩ := Option.ne_none_iff_exists'.1 hl
  have hm' := h ▸ hm
  refine ⟨hlike.exported, fun n hn t => ⟨fun ht => ?_, fun ht => ?_⟩⟩
  · obtain ⟨u, h1, -, h2⟩ := (same_reach h₁ h₂ hm hm' n hn).2 t ht
    rw [h2 ha hb]
    exact h1
  · obtain ⟨u, h1, -, h2⟩ := (same_reach h₂ h₁ hm' hm n ((hlike.used n).1 hn)).2 t ht
    rw [h2 hb ha]
    exact h1

/-- C103, exactly: if no field can be overtaken, then a (valid) file generated for one schema can be generated for the other one if and
only if they agree in everything that is used. -/
theorem C103_exact {env : Env} (hf : env.Fair) (hline : OneLine env) {s t : Str} {a b : AST} (ha : Parser.schema s = .ok a)
    (hb : Parser.schema t = .ok b) (hoa : AllInOrder a) (hob : AllInOrder b) (hw : WF b) {code : Str}
    (h : compile env s = .ok code) (hl : load code ≠ none) :
    (∃ env' : Env, env'.Fair ∧ OneLine env' ∧ compile env' t = .ok code) ↔ SameUsed a b := by
  have hmk : ∀ {env : Env} {s : Str} {a : AST}, env.Fair → OneLine env → Parser.schema s = .ok a → compile env s = .ok code →
      ∃ e : Artifact, Compiled a e ∧ e.code = code := by
    intro env s a hf hline ha h
    obtain ⟨ast, r, hp, ht, -⟩ := compile_ok hf h
    rw [ha] at hp
    cases hp
    exact ⟨⟨r.export, code⟩, ⟨env, s, r, hf, hline, ha, h, ht, rfl⟩, rfl⟩
  constructor
  · rintro ⟨env', hf', hline', h'⟩
    obtain ⟨e₁, h1, e1⟩ := hmk hf hline ha h
    obtain ⟨e₂, h2, e2⟩ := hmk hf' hline' hb h'
    exact C103_ordered_partial hoa hob h1 h2 (by rw [e1]; exact hl) (by rw [e1, e2])
  · intro hs
    obtain ⟨env', hf', hv, hn, h'⟩ := C74_same_texts hf ha hb hs hw h
    refine ⟨env', hf', ⟨?_, ?_⟩, h'⟩
    · rw [hv]; exact hline.1
    · rw [hn]; exact hline.2

/-- `reorderText` with the fields of `S` in the other order. -/
def sortedText : Str :=
  "E: struct { x: uint8 }\nA: struct { e: E }\nS: struct { n: uint8, a: A }\nexport S".toList

def sortedAst : AST :=
  [.decl "E".toList (.struct [("x".toList, ⟨"uint8".toList, false, false⟩)]),
   .decl "A".toList (.struct [("e".toList, ⟨"E".toList, false, false⟩)]),
   .decl "S".toList (.struct [("n".toList, ⟨"uint8".toList, false, false⟩), ("a".toList, ⟨"A".toList, false, false⟩)]),
   .export "S".toList]

theorem sorted_parses : Parser.schema sortedText = .ok sortedAst := by decide +kernel

def sortedRun : Artifact := ⟨⟨"S".toList, [fieldN, fieldA]⟩, exampleCode id sortedText⟩

theorem sorted_compiled : Compiled sortedAst sortedRun :=
  compiled_of (ord := id) sorted_parses (fun _ => .refl _) rfl rfl

theorem same_text : exampleCode id reorderText = exampleCode id sortedText := by
  have h : typeCheck (sampleEnv id).ordTypes reorderAst = typeCheck (sampleEnv id).ordTypes sortedAst := rfl
  unfold exampleCode compile
  rw [reorder_parses, sorted_parses]
  simp only [h]

theorem same_code : runOne.code = sortedRun.code := by
  simp only [runOne, sortedRun]
  rw [same_text]

theorem reorder_differs : ¬ SameUsed reorderAst sortedAst := by
  intro hs
  have := (hs.decl "S".toList ⟨_, rfl, .refl⟩ (.struct [("n".toList, ⟨"uint8".toList, false, false⟩), ("a".toList, ⟨"A".toList, false, false⟩)])).2
    (by unfold sortedAst; exact List.mem_cons_of_mem _ (List.mem_cons_of_mem _ List.mem_cons_self))
  revert this
  unfold reorderAst
  decide

/-- C103 is false: the file does not tell in which order the fields of `S` are declared. -/
theorem C103_false : ¬ C103_claim := by
  intro h
  exact reorder_differs (h _ _ _ _ runOne_compiled sorted_compiled (plain_usable runOne_compiled reorder_plain) same_code)

/-- Different schemas with the same file; and an ordered schema with a valid file. -/
example : LikeUsed reorderAst sortedAst ∧ ¬ SameUsed reorderAst sortedAst ∧
    ∃ e, Compiled orderedAst e ∧ AllInOrder orderedAst ∧ load e.code ≠ none := by
  refine ⟨C103_module_partial runOne_compiled sorted_compiled (plain_usable runOne_compiled reorder_plain).loads
    (by rw [same_code]), reorder_differs, ?_⟩
  have hc := compiled_of (ord := id) ordered_parses (fun _ => .refl _) rfl rfl
  exact ⟨_, hc, ordered_inOrder, (plain_usable hc (plain_of (by decide))).loads⟩

end Packetc.Props
