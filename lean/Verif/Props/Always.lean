import Verif.Props.Events
import Verif.Props.Blame
import Verif.Props.Check
/-!
# C18, C50, C71 and C73: exactly when they fail
-/

namespace Packetc.Props
open Ast Check WellFormed

section
open Cli

/-! ## C50, C71 -/

/-- An output path that is not that of a file below the output directory. -/
theorem bad_stem {path out n : Str} (hn : fileName (components path) = some n)
    (hs : fileStem n = ".".toList ∨ fileStem n = "..".toList) :
    ∃ q, formatPath path path out .typeScript false = .ok q ∧ ∀ l name, q ≠ components out ++ l ++ [.normal name] := by
  unfold formatPath formatPathText
  rw [if_neg (by simp), hn]
  show ∃ q, Outcome.ok (components (withExtension (collect (components out ++ [.normal (fileStem n)])) "ts".toList)) = .ok q ∧ _
  refine ⟨_, rfl, fun l name => ?_⟩
  rcases hs with hs | hs <;> rw [hs]
  · have e1 : collect (components out ++ [.normal ".".toList]) = join (collect (components out)) ".".toList := collect_snoc _ _
    by_cases hne : collect (components out) = []
    · have e2 : components out = [] := by
        have := components_collect out
        rw [hne] at this
        rw [← this]
        decide
      have e3 : components (withExtension (collect ([] ++ [Comp.normal ".".toList])) "ts".toList) = [.cur] := by decide
      rw [e2, e3]
      intro h
      have h2 := congrArg List.getLast? h
      rw [List.getLast?_append] at h2
      simp at h2
    · have e2 : components (collect (components out ++ [.normal ".".toList])) = components out := by
        rw [e1, components_dot hne, components_collect]
      intro h
      have hl := congrArg List.length h
      rw [List.length_append, List.length_append, List.length_singleton] at hl
      rcases withExtension_components (text := collect (components out ++ [.normal ".".toList])) (x := "ts".toList)
        (by decide) (by decide) (by decide) with ⟨h3, h4⟩ | ⟨m, h3, h4⟩
      · rw [h4, e2] at hl
        omega
      · rw [h4, e2, List.length_append, List.length_dropLast, List.length_singleton] at hl
        have : 0 < (components out).length := by
          rw [e2] at h3
          rw [fileName_some h3]
          simp
        omega
  · have e2 : components (collect (components out ++ [.normal "..".toList])) = components out ++ [.parent] := by
      have e0 : collect (components out ++ [.normal "..".toList]) = collect (components out ++ [.parent]) := by
        rw [collect_snoc, collect_snoc]
        rfl
      rw [e0]
      exact components_collect_plain out (l := [.parent]) (by intro c hc; rw [List.mem_singleton.1 hc]; trivial)
    have e3 : fileName (components out ++ [.parent]) = none := by simp [fileName]
    have e4 : components (withExtension (collect (components out ++ [.normal "..".toList])) "ts".toList) = components out ++ [.parent] := by
      unfold withExtension
      rw [e2, e3]
      exact e2
    rw [e4]
    intro h
    have h2 := congrArg List.getLast? h
    simp at h2

/-- C71, exactly: a run on a file that compiles writes below the output directory if and only if the stem of the file is not `.` or
`..`. What is missing from the full statement: files with these stems. Runs on directories (`C71_below_partial`) have no exceptions. -/
theorem C71_exact_partial {env : Str → Env} {disk : Disk} {path out n text code : Str} (hn : fileName (components path) = some n)
    (hc : compile (env path) text = .ok code) (h1 : disk.mkdir 0 = true) (h2 : disk.write 0 = none) :
    (∀ q ∈ writesOf (mainT env disk .typeScript path out (some (.file (some text)))).2, Below out q) ↔
      fileStem n ≠ ".".toList ∧ fileStem n ≠ "..".toList := by
  constructor
  · intro h
    by_contra hs
    have hs : fileStem n = ".".toList ∨ fileStem n = "..".toList := by
      by_contra h'
      exact hs ⟨fun e => h' (.inl e), fun e => h' (.inr e)⟩
    obtain ⟨q, hq, hb⟩ := bad_stem (out := out) hn hs
    have h3 := single_place (st := fun _ => none) hq hc h1 h2
    have h4 : q ∈ writesOf (mainT env disk .typeScript path out (some (.file (some text)))).2 := by
      by_contra hn
      have h4 := replay_other hn fun _ => none
      rw [← (main_recorded env disk .typeScript path out (some (.file (some text))) fun _ => none).2, h3] at h4
      simp [Store.set] at h4
    obtain ⟨d, m, h5, -⟩ := h q h4
    exact hb _ _ h5
  · intro h
    refine C71_below_partial env disk path out (.file (some text)) True.intro fun c m _ hm => ?_
    rw [hn] at hm
    cases hm
    exact h

example : fileName (components "d/x.pkt".toList) = some "x.pkt".toList ∧ fileStem "x.pkt".toList ≠ ".".toList ∧
    fileStem "x.pkt".toList ≠ "..".toList ∧ (∃ code, compile (exampleEnv "d/x.pkt".toList) exampleText = .ok code) ∧
    fileName (components "d/..pkt".toList) = some "..pkt".toList ∧ fileStem "..pkt".toList = ".".toList ∧
    fileStem "...pkt".toList = "..".toList :=
  ⟨by decide, by decide, by decide, example_compiles, by decide, by decide, by decide⟩

/-- C50, exactly: `x.pkt` goes to `out/x.ts` if and only if `x` has no dot after its first character and is not `.` itself. What is
missing from the full statement: the other names. -/
theorem C50_exact_partial {env : Str → Env} {disk : Disk} {path out : Str} {cs : List Comp} {stem text code : Str}
    (hp : components path = cs ++ [.normal (stem ++ ".pkt".toList)]) (hs : stem ≠ [])
    (hc : compile (env path) text = .ok code) (h1 : disk.mkdir 0 = true) (h2 : disk.write 0 = none) :
    (∀ st, main env disk .typeScript path out (some (.file (some text))) st =
      (.ok (), st.set (components out ++ [.normal (stem ++ ".ts".toList)]) (some code))) ↔
      (∀ b a, stem = b ++ '.' :: a → b = []) ∧ stem ≠ ".".toList := by
  constructor
  · intro h
    have h0 := h fun _ => none
    have key : ∀ q, main env disk .typeScript path out (some (.file (some text))) (fun _ => none) =
        (.ok (), Store.set (fun _ => none) q (some code)) → q = components out ++ [.normal (stem ++ ".ts".toList)] := by
      intro q hq
      rw [h0] at hq
      have h3 := congrFun (Prod.mk.inj hq).2 (components out ++ [.normal (stem ++ ".ts".toList)])
      simp only [Store.set, if_true] at h3
      by_contra hne
      rw [if_neg (fun e => hne e.symm)] at h3
      cases h3
    have hfs : fileStem (stem ++ ".pkt".toList) = stem := fileStem_append (ext := "pkt".toList) (by decide) hs
    have hdots : stem ≠ ".".toList ∧ stem ≠ "..".toList := by
      by_contra hx
      have hx : stem = ".".toList ∨ stem = "..".toList := by
        by_contra h'
        exact hx ⟨fun e => h' (.inl e), fun e => h' (.inr e)⟩
      obtain ⟨q, hq, hb⟩ := bad_stem (path := path) (out := out) (n := stem ++ ".pkt".toList) (by rw [hp, fileName_append]) (by rwa [hfs])
      exact hb [] _ (by rw [List.append_nil]; exact key q (single_place hq hc h1 h2))
    refine ⟨fun b a he => ?_, hdots.1⟩
    by_contra hb
    obtain ⟨b', a', he', ha'⟩ : ∃ b' a', stem = b' ++ '.' :: a' ∧ '.' ∉ a' ∧ b' ≠ [] := by
      rcases dot_cases stem with hn | ⟨b', a', he', ha'⟩
      · exact absurd (by rw [he]; simp) hn
      · refine ⟨b', a', he', ha', fun hb' => ?_⟩
        rw [hb', he] at he'
        cases b with
        | nil => exact hb rfl
        | cons x b =>
          rw [List.nil_append, List.cons_append] at he'
          exact ha' ((List.cons.inj he').2 ▸ by simp)
    obtain ⟨ha1, ha2⟩ := ha'
    have h3 := key _ (C50_truncated (by rw [hp, he']) ha2 ha1 (he' ▸ hdots.2) hc h1 h2)
    have h4 := congrArg List.length (Comp.normal.inj (List.cons.inj (List.append_cancel_left h3)).1)
    rw [he'] at h4
    simp at h4
  · rintro ⟨h3, h4⟩ st
    exact C50_single_partial hp hs h3 h4 hc h1 h2

example : components "d/x.pkt".toList = [.normal "d".toList] ++ [.normal ("x".toList ++ ".pkt".toList)] ∧ "x".toList ≠ [] ∧
    (∃ code, compile (exampleEnv "d/x.pkt".toList) exampleText = .ok code) ∧
    ¬ (∀ b a, "a.b".toList = b ++ '.' :: a → b = []) :=
  ⟨by decide, by decide, example_compiles, fun h => absurd (h ['a'] ['b'] (by decide)) (by decide)⟩

/-! ## C73 -/

/-- C73 fails for every message: a message tells nothing about where the file is. If some schema gives the error, then so does every
run on a directory whose only file has the same content, whatever its name (given the same hash seed and clock). -/
theorem C73_false_always {env : Str → Env} (he : ∀ p q, env p = env q) {p text m : Str}
    (hm : runOne env p (some text) = .err (.compile m)) (disk : Disk) (dir out : Str) (st : Store) {n : Str} (hv : ValidName n)
    (hn : extension n = some "pkt".toList) :
    (main env disk .typeScript dir out (some (.dir [⟨n, true, .file (some text)⟩] true)) st).1 = .err (.compile m) :=
  one_fails hn hv (C73_path_not_used (he _ _) hm)

example : (∀ p q, exampleEnv p = exampleEnv q) ∧ ∃ m, runOne exampleEnv "a".toList (some []) = .err (.compile m) :=
  ⟨fun _ _ => rfl, empty_fails _⟩

end

/-! ## C18 -/

theorem decls_append (a b : AST) : decls (a ++ b) = decls a ++ decls b := List.filterMap_append

theorem exports_append (a b : AST) : exports (a ++ b) = exports a ++ exports b := List.filterMap_append

/-- The names of the fields are only used for the check of the names. -/
theorem wf_names {a b : AST} {n : Str} {fs gs : List (Str × Unresolved)} (hm : gs.map Prod.snd = fs.map Prod.snd) (hg : FieldNamesOk gs)
    (h : WF (a ++ .decl n (.struct fs) :: b)) : WF (a ++ .decl n (.struct gs) :: b) := by
  have e1 : ∀ hs, decls (a ++ .decl n (.struct hs) :: b) = decls a ++ (n, .struct hs) :: decls b := fun hs => decls_append _ _
  have e2 : ∀ hs, exports (a ++ .decl n (.struct hs) :: b) = exports a ++ exports b := fun hs => exports_append _ _
  have hstr : ∀ k hs, (k, Ty.struct hs) ∈ decls (a ++ .decl n (.struct gs) :: b) → hs = gs ∨ (k, Ty.struct hs) ∈ decls (a ++ .decl n (.struct fs) :: b) := by
    intro k hs hk
    rw [e1] at hk ⊢
    rcases List.mem_append.1 hk with hk | hk
    · exact .inr (List.mem_append_left _ hk)
    · rcases List.mem_cons.1 hk with hk | hk
      · cases hk
        exact .inl rfl
      · exact .inr (List.mem_append_right _ (List.mem_cons_of_mem _ hk))
  have hin : ∀ hs, (n, Ty.struct hs) ∈ decls (a ++ .decl n (.struct hs) :: b) := fun hs => by
    rw [e1]
    exact List.mem_append_right _ List.mem_cons_self
  have hmem : ∀ k (t : Ty), (∀ hs, t ≠ .struct hs) → ((k, t) ∈ decls (a ++ .decl n (.struct gs) :: b) ↔
      (k, t) ∈ decls (a ++ .decl n (.struct fs) :: b)) := by
    intro k t ht
    rw [e1, e1]
    simp only [List.mem_append, List.mem_cons, Prod.mk.injEq]
    exact ⟨fun h => h.imp_right fun h => h.imp_left fun h => absurd h.2 (ht _), fun h => h.imp_right fun h => h.imp_left fun h => absurd h.2 (ht _)⟩
  have hsnd : ∀ g ∈ gs, ∃ f ∈ fs, f.2 = g.2 := by
    intro g hgm
    have : g.2 ∈ fs.map Prod.snd := hm ▸ List.mem_map_of_mem hgm
    exact List.mem_map.1 this
  have hkey : ∀ k hs, (k, Ty.struct hs) ∈ decls (a ++ .decl n (.struct gs) :: b) →
      ∃ hs', (k, Ty.struct hs') ∈ decls (a ++ .decl n (.struct fs) :: b) ∧ ∀ g ∈ hs, ∃ f ∈ hs', f.2 = g.2 := by
    intro k hs hk
    rw [e1] at hk
    rcases List.mem_append.1 hk with hk | hk
    · exact ⟨hs, by rw [e1]; exact List.mem_append_left _ hk, fun g hg => ⟨g, hg, rfl⟩⟩
    · rcases List.mem_cons.1 hk with hk | hk
      · cases hk
        exact ⟨fs, hin fs, hsnd⟩
      · exact ⟨hs, by rw [e1]; exact List.mem_append_right _ (List.mem_cons_of_mem _ hk), fun g hg => ⟨g, hg, rfl⟩⟩
  have hfst : (decls (a ++ .decl n (.struct gs) :: b)).map Prod.fst = (decls (a ++ .decl n (.struct fs) :: b)).map Prod.fst := by
    rw [e1, e1, List.map_append, List.map_append]
    rfl
  have hdec : ∀ m, Declared (a ++ .decl n (.struct fs) :: b) m → Declared (a ++ .decl n (.struct gs) :: b) m := by
    rintro m ⟨t, ht⟩
    have : m ∈ (decls (a ++ .decl n (.struct gs) :: b)).map Prod.fst := by
      rw [hfst]
      exact List.mem_map_of_mem (f := Prod.fst) ht
    obtain ⟨x, hx, rfl⟩ := List.mem_map.1 this
    exact ⟨x.2, hx⟩
  have href : ∀ k m, Refers (a ++ .decl n (.struct gs) :: b) k m → Refers (a ++ .decl n (.struct fs) :: b) k m := by
    rintro k m ⟨hs, h1, g, h2, h3⟩
    obtain ⟨hs', h4, h5⟩ := hkey k hs h1
    obtain ⟨f, h6, h7⟩ := h5 g h2
    exact ⟨hs', h4, f, h6, by rw [h7]; exact h3⟩
  refine ⟨?_, hfst ▸ h.unique, fun k vs hk => h.enums k vs ((hmem k _ fun _ => by simp).1 hk), fun k m hr => (h.closed k m (href k m hr)).imp_right (hdec m),
    ?_, fun k hr => h.acyclic k (Relation.TransGen.mono href _ _ hr), ?_⟩
  · obtain ⟨e, es, h1, h2⟩ := h.exported
    rw [e2] at h1
    rw [e1] at h2
    rcases List.mem_append.1 h2 with h2 | h2
    · exact ⟨e, es, by rw [e2]; exact h1, by rw [e1]; exact List.mem_append_left _ h2⟩
    · rcases List.mem_cons.1 h2 with h2 | h2
      · cases h2
        exact ⟨n, gs, by rw [e2]; exact h1, hin gs⟩
      · exact ⟨e, es, by rw [e2]; exact h1, by rw [e1]; exact List.mem_append_right _ (List.mem_cons_of_mem _ h2)⟩
  · intro k hs hk g hg'
    obtain ⟨hs', h4, h5⟩ := hkey k hs hk
    obtain ⟨f, h6, h7⟩ := h5 g hg'
    rw [← h7]
    exact h.noOptArray k hs' h4 f h6
  · intro k hs hk
    rcases hstr k hs hk with rfl | hk
    · exact hg
    · exact h.fieldNames k hs hk

/-- C18, exactly: given an accepted schema and one of its structs, the checker makes sure that the names of the fields differ (it
rejects the schema with any other names that repeat) if and only if all fields but the last one have builtin types. What is missing
from the full statement: all other structs. -/
theorem C18_exact_partial {ord} (hord : FairOrd ord) {a b : AST} {n : Str} {fs : List (Str × Unresolved)}
    (hnb : NoBuiltinDecl (a ++ .decl n (.struct fs) :: b)) (h : ∃ r, typeCheck ord (a ++ .decl n (.struct fs) :: b) = .ok r) :
    (∀ names : List Str, names.length = fs.length → (∃ r, typeCheck ord (a ++ .decl n (.struct (names.zip (fs.map Prod.snd))) :: b) = .ok r) →
      names.Nodup) ↔ ∀ g ∈ fs.dropLast, g.2.name ∈ builtinNames := by
  have hnb' : ∀ gs, NoBuiltinDecl (a ++ .decl n (.struct gs) :: b) := by
    rintro gs m ⟨t, ht⟩
    have e1 : ∀ hs, decls (a ++ .decl n (.struct hs) :: b) = decls a ++ (n, .struct hs) :: decls b := fun hs => decls_append _ _
    have : m ∈ (decls (a ++ .decl n (.struct fs) :: b)).map Prod.fst := by
      have := List.mem_map_of_mem (f := Prod.fst) ht
      rw [e1, List.map_append] at this ⊢
      exact this
    obtain ⟨x, hx, rfl⟩ := List.mem_map.1 this
    exact hnb _ ⟨x.2, hx⟩
  constructor
  · intro hall f hf
    by_contra hnf
    cases fs using List.reverseRecOn with
    | nil => simp at hf
    | append_singleton init g =>
      rw [List.dropLast_concat] at hf
      have hlen : (init.map Prod.fst ++ [f.1]).length = (init ++ [g]).length := by simp
      have hz : (init.map Prod.fst ++ [f.1]).zip ((init ++ [g]).map Prod.snd) = init ++ [(f.1, g.2)] := by
        rw [List.map_append, List.zip_append (by simp), List.zip_map']
        simp
      have hwf := (C12_accepts_iff_wellformed hord _ hnb).1 h
      have hnod := hall _ hlen (by
        rw [hz]
        refine (C12_accepts_iff_wellformed hord _ (hnb' _)).2 (wf_names (by simp) ?_ hwf)
        intro pre x post he hpre
        rcases List.eq_nil_or_concat post with rfl | ⟨post', y, rfl⟩
        · obtain ⟨rfl, -⟩ := List.append_inj' he rfl
          exact absurd (hpre f hf) hnf
        · rw [List.concat_eq_append, ← List.cons_append, ← List.append_assoc] at he
          obtain ⟨e1, -⟩ := List.append_inj' he rfl
          exact hwf.fieldNames n (init ++ [g]) (by rw [decls_append]; exact List.mem_append_right _ List.mem_cons_self) pre x (post' ++ [g])
            (by rw [e1]; simp) hpre)
      rw [List.nodup_append] at hnod
      exact hnod.2.2 f.1 (List.mem_map_of_mem hf) f.1 (by simp) rfl
  · intro hb names hlen hr
    obtain ⟨r, hr⟩ := hr
    have := C18_builtin_structs hord (hnb' _) hr (n := n) (fs := names.zip (fs.map Prod.snd)) (by simp) (by
      intro g hg
      have h1 : g.2 ∈ ((names.zip (fs.map Prod.snd)).dropLast).map Prod.snd := List.mem_map_of_mem hg
      rw [List.map_dropLast, List.map_snd_zip (by simp [hlen]), ← List.map_dropLast] at h1
      obtain ⟨x, hx, hx2⟩ := List.mem_map.1 h1
      rw [← hx2]
      exact hb x hx)
    rwa [List.map_fst_zip (by simp [hlen])] at this

/-- A struct with a field of enum type that is not the last one. -/
example : ∃ a b n fs, dupFieldAst = a ++ .decl n (.struct fs) :: b ∧ NoBuiltinDecl dupFieldAst ∧ (∃ r, typeCheck id dupFieldAst = .ok r) ∧
    ¬ ∀ g ∈ fs.dropLast, g.2.name ∈ builtinNames := by
  have hp : Parser.schema dupFieldText = .ok dupFieldAst := by decide +kernel
  refine ⟨[dupFieldAst.head (by decide)], dupFieldAst.drop 2, "S".toList, _, rfl, parsed_noBuiltinDecl hp, ⟨_, rfl⟩, ?_⟩
  decide

end Packetc.Props
