import Verif.Proof.CheckUnused
import Verif.Props.Interop
/-!
# C74: only the declarations that are used matter
-/

namespace Packetc.Props
open Ast Check WellFormed Js Gen

theorem sameUsed_on {a b : AST} (h : SameUsed a b) : SameOn (Used a) a b := by
  refine ⟨fun n hn t => ?_, ?_⟩
  · rw [mem_decls, mem_decls]; exact h.decl n hn t
  · rintro n fs ⟨e, he, hr⟩ hd f hf
    exact ⟨e, he, hr.tail ⟨fs, hd, f, hf, rfl⟩⟩

theorem removeUnused_keys {v : List Str} {c : TypeMap} (h : c.keys.Nodup) : (removeUnused v c).keys.Nodup :=
  List.Nodup.sublist (List.Sublist.map _ List.filter_sublist) h

theorem map_perm {c d : TypeMap} (hc : c.keys.Nodup) (hd : d.keys.Nodup) (h : ∀ n, c.get n = d.get n) : c.Perm d := by
  refine (List.perm_ext_iff_of_nodup (List.Nodup.of_map _ hc) (List.Nodup.of_map _ hd)).2 ?_
  rintro ⟨n, e⟩
  rw [Map.mem_iff_get hc, Map.mem_iff_get hd, h]

/-- C74: for every run of the checker on one schema there is one on the other with the same result. -/
theorem C74_resolved {a b : AST} (hna : NoBuiltinDecl a) (hnb : NoBuiltinDecl b) (hs : SameUsed a b) (hb : WF b)
    {ord} (hord : FairOrd ord) {r} (h : typeCheck ord a = .ok r) :
    ∃ ord' r', FairOrd ord' ∧ typeCheck ord' b = .ok r' ∧ r'.export = r.export ∧ r'.types.Perm r.types := by
  have hwa := (C12_accepts_iff_wellformed hord a hna).1 ⟨r, h⟩
  obtain ⟨e, fs, he, hfs⟩ := hwa.exported
  obtain ⟨c, l, ⟨B, u, hA⟩, hty, hge, hfol⟩ := typeCheck_follow (b := b) (sameUsed_on hs) (by
    rintro n ⟨e', he', hr⟩
    rw [he] at he'
    cases he'
    cases hr with
    | refl => exact Or.inl ⟨_, hfs⟩
    | tail _ hr => exact (hwa.closed _ _ hr).symm) hord h
  obtain ⟨r', hr'⟩ := (C12_accepts_iff_wellformed (firstThese_fair l) b hnb).2 hb
  refine ⟨_, r', firstThese_fair l, hr', ?_⟩
  obtain ⟨d, ⟨B', u', hA'⟩, hty', hge', hag⟩ := hfol r' hr'
  obtain ⟨_, _, _, -, -, hex, -⟩ := typeCheck_run hord h
  obtain ⟨_, _, _, -, -, hex', -⟩ := typeCheck_run (firstThese_fair l) hr'
  have hname : r'.export.name = r.export.name := by
    have := hs.exported
    rw [hex, hex'] at this
    simpa using this.symm
  have hu : Used a r.export.name := ⟨_, hex, .refl⟩
  have hexp : r'.export = r.export := by
    have h1 := hag _ hu
    rw [hge, ← hname, hge'] at h1
    cases hx : r'.export with
    | mk n' fs' =>
      cases hy : r.export with
      | mk n fs =>
        rw [hx, hy] at hname
        rw [hx, hy] at h1
        simp only at hname h1
        cases h1
        rw [hname]
  refine ⟨hexp, ?_⟩
  rw [hty, hty', hexp]
  refine map_perm (removeUnused_keys hA'.keys) (removeUnused_keys hA.keys) fun n => ?_
  have key : ∀ c : TypeMap, (removeUnused (exportVisited [r.export.name] r.export.fields) c).get n =
      if decide (n ∈ exportVisited [r.export.name] r.export.fields) then c.get n else none := fun c =>
    Map.get_filter c (fun k => decide (k ∈ exportVisited [r.export.name] r.export.fields)) n
  rw [key, key]
  by_cases hn : n ∈ exportVisited [r.export.name] r.export.fields
  · rw [(hA.final hna).visited_iff hge] at hn
    rw [hag n ⟨_, hex, hn⟩]
  · simp only [hn, decide_false, Bool.false_eq_true, if_false]

/-- Any list as the enumeration of its permutations. -/
noncomputable def enumerateAs (l k : TypeMap) : TypeMap := open Classical in if l.Perm k then l else k

theorem enumerateAs_fair (l k : TypeMap) : (enumerateAs l k).Perm k := by
  unfold enumerateAs
  split
  · assumption
  · exact .refl _

/-- C74: two schemas that export the same type and declare alike what it uses compile to the same texts, if both are
well-formed: each text that a run of the compiler can generate for one can be generated for the other. -/
theorem C74_same_texts {env : Env} (hf : env.Fair) {s t : Str} {a b : AST} (ha : Parser.schema s = .ok a)
    (hb : Parser.schema t = .ok b) (hs : SameUsed a b) (hw : WF b) {code : Str} (h : compile env s = .ok code) :
    ∃ env' : Env, env'.Fair ∧ env'.version = env.version ∧ env'.now = env.now ∧ compile env' t = .ok code := by
  unfold compile at h
  rw [ha] at h
  simp only at h
  cases hr : typeCheck env.ordTypes a with
  | error f => rw [hr] at h; cases f <;> cases h
  | ok r =>
    rw [hr] at h
    simp only at h
    obtain ⟨ord', r', hf', hr', he, hp⟩ := C74_resolved (parsed_noBuiltinDecl ha) (parsed_noBuiltinDecl hb) hs hw hf.1 hr
    refine ⟨⟨env.version, env.now, ord', enumerateAs (env.ordDecls r.types)⟩, ⟨hf', enumerateAs_fair _⟩, rfl, rfl, ?_⟩
    unfold compile
    rw [hb]
    simp only [hr']
    have hg : generate env.version env.now (enumerateAs (env.ordDecls r.types)) r' =
        generate env.version env.now env.ordDecls r := by
      have : enumerateAs (env.ordDecls r.types) r'.types = env.ordDecls r.types :=
        if_pos ((hf.2 _).trans hp.symm)
      simp only [generate, this, he]
    rw [hg]
    exact h

/-- Declarations in another order are the same for this purpose. -/
theorem sameUsed_perm {a b : AST} (h : a.Perm b) (hw : WF a) : SameUsed a b := by
  obtain ⟨e, fs, he, -⟩ := hw.exported
  have hp := exports_perm h
  rw [he] at hp
  exact ⟨by rw [he, List.singleton_perm.1 hp], fun n _ t => h.mem_iff⟩

/-- Adding a declaration that is not used. -/
theorem sameUsed_add {a : AST} (hw : WF a) {n : Str} {t : Ty} (hd : ¬ Declared a n) (hb : n ∉ builtinNames) :
    SameUsed a (.decl n t :: a) := by
  refine ⟨rfl, fun m hm u => ⟨List.mem_cons_of_mem _, fun h => ?_⟩⟩
  rcases List.mem_cons.1 h with h | h
  · exfalso
    cases h
    obtain ⟨e, fs, he, hfs⟩ := hw.exported
    obtain ⟨e', he', hr⟩ := hm
    rw [he] at he'
    cases he'
    cases hr with
    | refl => exact hd ⟨_, hfs⟩
    | tail _ hr =>
      rcases hw.closed _ _ hr with h | h
      · exact hb h
      · exact hd h
  · exact h

/-- C74: the order of declarations does not matter. -/
theorem C74_order {env : Env} (hf : env.Fair) {s t : Str} {a b : AST} (ha : Parser.schema s = .ok a)
    (hb : Parser.schema t = .ok b) (hp : a.Perm b) {code : Str} (h : compile env s = .ok code) :
    ∃ env' : Env, env'.Fair ∧ env'.version = env.version ∧ env'.now = env.now ∧ compile env' t = .ok code := by
  have hw : WF a := by
    refine (C12_text hf.1 ha).1 ?_
    unfold compile at h
    rw [ha] at h
    simp only at h
    cases hr : typeCheck env.ordTypes a with
    | error f => rw [hr] at h; cases f <;> cases h
    | ok r => exact ⟨r, rfl⟩
  exact C74_same_texts hf ha hb (sameUsed_perm hp hw) (wf_perm hp hw) h

/-- C74: if moreover no field can be overtaken, then the programs of all runs on both schemas have the same export. -/
theorem C74_same_export {a b : AST} (hs : SameUsed a b) (hi : AllInOrder a) {e₁ e₂ : Artifact} (h₁ : Compiled a e₁)
    (h₂ : Compiled b e₂) : e₁.toExport = e₂.toExport := by
  obtain ⟨v₁, t₁, r₁, f₁, -, p₁, -, c₁, x₁⟩ := h₁
  obtain ⟨v₂, t₂, r₂, f₂, -, p₂, -, c₂, x₂⟩ := h₂
  have hw₁ := (C12_text f₁.1 p₁).1 ⟨_, c₁⟩
  obtain ⟨e, fs, he, -⟩ := hw₁.exported
  have hU : ∀ n, Used b n → Used a n := by
    rintro n ⟨e', he', hr⟩
    rw [← hs.exported, he] at he'
    cases he'
    refine ⟨e, he, ?_⟩
    induction hr with
    | refl => exact .refl
    | tail _ hr ih =>
      obtain ⟨gs, hd, f, hf, rfl⟩ := hr
      exact ih.tail ⟨gs, mem_decls.2 ((hs.decl _ ⟨e, he, ih⟩ _).2 (mem_decls.1 hd)), f, hf, rfl⟩
  have hs' : SameUsed b a := ⟨hs.exported.symm, fun n hn t => (hs.decl n (hU n hn) t).symm⟩
  obtain ⟨ord, r, hf, hr, hx, -⟩ := C74_resolved (parsed_noBuiltinDecl p₂) (parsed_noBuiltinDecl p₁) hs' hw₁ f₂.1 c₂
  rw [← x₁, ← x₂, ← hx]
  exact (export_eq_of_inOrder f₁.1 hf (parsed_noBuiltinDecl p₁) hi c₁ hr).1

def unusedText : Str := "U: struct { a: A, e: E }\n".toList ++ exampleText

def unusedDecl : Ty := .struct [("a".toList, ⟨"A".toList, false, false⟩), ("e".toList, ⟨"E".toList, false, false⟩)]

theorem unused_parses : Parser.schema unusedText = .ok (.decl "U".toList unusedDecl :: exampleAst) := by decide +kernel

/-- The schema of the other examples, with a declaration that is not used, and its declarations reversed. -/
example : SameUsed exampleAst (.decl "U".toList unusedDecl :: exampleAst) ∧ WF (.decl "U".toList unusedDecl :: exampleAst) ∧
    exampleAst.Perm exampleAst.reverse ∧ SameUsed orderedAst orderedAst.reverse ∧ AllInOrder orderedAst := by
  have hw := (C12_text (ord := id) (fun _ => .refl _) example_parses).1 example_accepted
  refine ⟨sameUsed_add hw ?_ (by decide), (C12_text (ord := id) (fun _ => .refl _) unused_parses).1 ⟨_, rfl⟩,
    (List.reverse_perm _).symm, sameUsed_perm (List.reverse_perm _).symm
      ((C12_text (ord := id) (fun _ => .refl _) ordered_parses).1 ⟨_, rfl⟩), ordered_inOrder⟩
  rintro ⟨t, ht⟩
  have : "U".toList ∈ (decls exampleAst).map Prod.fst := List.mem_map_of_mem (f := Prod.fst) ht
  revert this
  clear ht
  decide

end Packetc.Props
