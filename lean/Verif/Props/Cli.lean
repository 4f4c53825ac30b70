import Verif.Proof.Cli
import Verif.Props.Gen
/-!
# Properties of the command line tool: C47-C53

The input directory is `.dir es b`; `Valid` says that names are possible file names, different within a directory.
-/

namespace Packetc.Props
open Cli

/-! ## Example: a directory with two schemas, one in a subdirectory, and another file -/

def exampleTree (content : Option Str) : Tree :=
  .dir [⟨"a.pkt".toList, true, .file (some exampleText)⟩, ⟨"notes.txt".toList, true, .file none⟩,
    ⟨"sub".toList, true, .dir [⟨"b.c.pkt".toList, true, .file content⟩] true⟩] true

def exampleEnv : Str → Env := fun _ => ⟨"0.1".toList, "now".toList, id, id⟩

theorem exampleTree_valid (c) : (exampleTree c).Valid := by
  refine ⟨by simp, ?_, trivial, trivial, ⟨by simp, ?_, trivial, trivial⟩, trivial⟩
  · intro n hn
    simp only [List.map_cons, List.map_nil, List.mem_cons, List.not_mem_nil, or_false] at hn
    rcases hn with rfl | rfl | rfl <;> refine ⟨?_, ?_, ?_, ?_⟩ <;> decide
  · intro n hn
    simp only [List.map_cons, List.map_nil, List.mem_cons, List.not_mem_nil, or_false] at hn
    subst hn
    refine ⟨?_, ?_, ?_, ?_⟩ <;> decide

theorem exampleTree_schema (c) : SchemaAt (exampleTree c) ["sub".toList, "b.c.pkt".toList] c :=
  ⟨.dir _ _ ⟨"sub".toList, true, .dir [⟨"b.c.pkt".toList, true, .file c⟩] true⟩ _ _ (by simp)
      (.dir _ _ ⟨"b.c.pkt".toList, true, .file c⟩ _ _ (by simp) (.file _)),
    ["sub".toList], "b.c".toList, by decide, by decide⟩

theorem exampleTree_only (c) : ∀ p c', SchemaAt (exampleTree c) p c' →
    (p = ["a.pkt".toList] ∧ c' = some exampleText) ∨ (p = ["sub".toList, "b.c.pkt".toList] ∧ c' = c) := by
  intro p c' h
  have h := (mem_schemaList _ ⟨_, _, rfl⟩ (p, c')).2 h
  have e : schemaList (exampleTree c) =
      [(["a.pkt".toList], some exampleText), (["sub".toList, "b.c.pkt".toList], c)] := by rfl
  have h : (p, c') ∈ schemaList (exampleTree c) := h
  rw [e] at h
  simpa only [List.mem_cons, Prod.mk.injEq, List.not_mem_nil, or_false] using h

theorem exampleTree_accessible (c) : (exampleTree c).Accessible := by
  refine ⟨rfl, fun _ => rfl, fun _ => rfl, ⟨rfl, rfl, fun _ => rfl, trivial⟩, trivial⟩

/-- The whole example directory compiles. -/
theorem exampleTree_compiles : ∃ ss, runAll exampleEnv "in".toList (exampleTree (some exampleText)) = .ok ss := by
  refine (runAll_succeeds (exampleTree_valid _)).2 ⟨exampleTree_accessible _, fun p c h => ?_⟩
  obtain ⟨code, hc⟩ := example_compiles
  rcases exampleTree_only _ p c h with ⟨rfl, rfl⟩ | ⟨rfl, rfl⟩ <;> exact ⟨code, exampleText, rfl, hc⟩

/-! ## C47 -/

/-- C47: if some `.pkt` file below the input directory cannot be read or does not compile, the command fails and every
file is as before. -/
theorem C47_all_or_nothing {env : Str → Env} {disk : Disk} {dir out : Str} {es b} (hv : (Tree.dir es b).Valid)
    {p : List Str} {c : Option Str} (hs : SchemaAt (.dir es b) p c) (hbad : ¬ ∃ code, CompilesTo env dir p c code)
    (st : Store) :
    ∃ o, main env disk .typeScript dir out (some (.dir es b)) st = (o, st) ∧ o ≠ .ok () :=
  main_dir_not fun h => hbad (((runAll_succeeds hv).1 h).2 p c hs)

/-- C47: with names in UTF-8 and fair hash orders, the command returns success or an error: no panic, no endless loop. -/
theorem C47_returns {env : Str → Env} (hf : ∀ p, (env p).Fair) {disk : Disk} {dir out : Str} {es b}
    (hu : (Tree.dir es b).Utf8) (st : Store) :
    (main env disk .typeScript dir out (some (.dir es b)) st).1.Returns := by
  have hone : ∀ path c, (runOne env path c).Returns := by
    intro path c
    unfold runOne
    cases c with
    | none => exact .inr ⟨_, rfl⟩
    | some text =>
      have := C27_compile_total (hf path) text
      simp only
      cases hc : compile (env path) text with
      | ok code => exact .inl ⟨_, rfl⟩
      | parseError m => exact .inr ⟨_, rfl⟩
      | checkError m => exact .inr ⟨_, rfl⟩
      | panic => exact absurd hc this.1
      | diverge => exact absurd hc this.2
  unfold main
  simp only
  rcases visitFiles_returns hone (.dir es b) hu dir [] with ⟨ss, hr⟩ | ⟨e, hr⟩
  · rw [show runAll env dir (.dir es b) = .ok ss from hr]
    exact saveAll_returns ss 0 st
  · rw [show runAll env dir (.dir es b) = .err e from hr]
    exact .inr ⟨e, rfl⟩

/-- The hypotheses of C47 hold of the example tree with a broken second schema, and of one that cannot be read. -/
example : (exampleTree (some "struct".toList)).Valid ∧
    SchemaAt (exampleTree none) ["sub".toList, "b.c.pkt".toList] none ∧
    (¬ ∃ code, CompilesTo exampleEnv "in".toList ["sub".toList, "b.c.pkt".toList] (some "struct".toList) code) ∧
    (¬ ∃ code, CompilesTo exampleEnv "in".toList ["sub".toList, "b.c.pkt".toList] none code) ∧
    (exampleTree none).Utf8 := by
  refine ⟨exampleTree_valid _, exampleTree_schema _, ?_, ?_, ⟨rfl, trivial⟩, ⟨rfl, trivial⟩, ⟨rfl, ⟨rfl, trivial⟩, trivial⟩, trivial⟩
  · rintro ⟨code, text, ht, hc⟩
    cases ht
    have hp : ∀ ast, Parser.schema "struct".toList ≠ .ok ast := by
      have : (match Parser.schema "struct".toList with | .err _ => true | _ => false) = true := by decide +kernel
      intro ast h
      rw [h] at this
      cases this
    obtain ⟨ast, r, h, _⟩ := compile_ok (fair_id _ _) hc
    exact hp ast h
  · rintro ⟨code, text, ht, hc⟩
    cases ht

/-! ## C48 -/

/-- C48: the compiled schemas are those of the `.pkt` files below the directory. -/
theorem C48_exactly {env : Str → Env} {dir : Str} {es b ss} (hv : (Tree.dir es b).Valid)
    (h : runAll env dir (.dir es b) = .ok ss) (s : Schema) :
    s ∈ ss ↔ ∃ p c, SchemaAt (.dir es b) p c ∧ s.path = below dir p ∧ CompilesTo env dir p c s.generated :=
  runAll_mem hv h s

/-- C48: each is compiled once, and different files have different paths. -/
theorem C48_once {env : Str → Env} {dir : Str} {es b ss} (hv : (Tree.dir es b).Valid)
    (h : runAll env dir (.dir es b) = .ok ss) :
    (ss.map Schema.path).Nodup ∧ ∀ p c p' c', SchemaAt (.dir es b) p c → SchemaAt (.dir es b) p' c' →
      below dir p = below dir p' → p = p' :=
  ⟨runAll_nodup hv h, fun _ _ _ _ h1 h2 => below_inj (at_valid h1.1 hv) (at_valid h2.1 hv)⟩

/-- C48: the run gets as far as saving exactly when every directory can be listed and every schema compiles. -/
theorem C48_succeeds {env : Str → Env} {dir : Str} {es b} (hv : (Tree.dir es b).Valid) :
    (∃ ss, runAll env dir (.dir es b) = .ok ss) ↔
      (Tree.dir es b).Accessible ∧ ∀ p c, SchemaAt (.dir es b) p c → ∃ code, CompilesTo env dir p c code :=
  runAll_succeeds hv

/-- C48: the order in which directories are listed does not matter. -/
theorem C48_order {env : Str → Env} {dir : Str} {es b es' b' ss} (hv : (Tree.dir es b).Valid)
    (hr : Reordered (.dir es b) (.dir es' b')) (h : runAll env dir (.dir es b) = .ok ss) :
    ∃ ss', runAll env dir (.dir es' b') = .ok ss' ∧ ss.Perm ss' :=
  runAll_reordered hv hr h

/-- The example directory meets the hypotheses, and can be listed in another order. -/
example : (exampleTree (some exampleText)).Valid ∧
    (∃ ss, runAll exampleEnv "in".toList (exampleTree (some exampleText)) = .ok ss) ∧
    Reordered (.dir [⟨"a.pkt".toList, true, .file (some exampleText)⟩, ⟨"b".toList, true, .file none⟩] true)
      (.dir [⟨"b".toList, true, .file none⟩, ⟨"a.pkt".toList, true, .file (some exampleText)⟩] true) := by
  refine ⟨exampleTree_valid _, exampleTree_compiles, .dir _ _ _
    [(⟨"a.pkt".toList, true, .file (some exampleText)⟩, ⟨"a.pkt".toList, true, .file (some exampleText)⟩),
     (⟨"b".toList, true, .file none⟩, ⟨"b".toList, true, .file none⟩)] (.refl _) (.swap _ _ _) ?_ ?_⟩
  · intro p hp
    simp only [List.mem_cons, List.not_mem_nil, or_false] at hp
    rcases hp with rfl | rfl <;> exact ⟨rfl, rfl⟩
  · intro p hp
    simp only [List.mem_cons, List.not_mem_nil, or_false] at hp
    rcases hp with rfl | rfl <;> exact .file _

/-! ## C49 -/

/-- C49: `d/x.pkt` goes to `out/d/x.ts`. -/
theorem C49_mirror {es b} (hv : (Tree.dir es b).Valid) {p c} (h : SchemaAt (.dir es b) p c) (dir out : Str) :
    ∃ q, formatPath (below dir p) dir out .typeScript true = .ok q ∧ OutPath out p q := by
  obtain ⟨d, stem, rfl, hs⟩ := h.2
  exact ⟨_, formatPath_preserve dir out hs (at_valid h.1 hv), d, stem, rfl, rfl⟩

/-- C49: different schemas have different outputs. -/
theorem C49_no_collision {es b} (hv : (Tree.dir es b).Valid) {p c p' c'} (h : SchemaAt (.dir es b) p c)
    (h' : SchemaAt (.dir es b) p' c') (hne : p ≠ p') (dir out : Str) :
    formatPath (below dir p) dir out .typeScript true ≠ formatPath (below dir p') dir out .typeScript true := by
  obtain ⟨q, hq, ho⟩ := C49_mirror hv h dir out
  obtain ⟨q', hq', ho'⟩ := C49_mirror hv h' dir out
  rw [hq, hq']
  intro he
  cases he
  exact hne (outPath_inj ho ho')

/-- C49: after a successful run every schema's code is at its place, and all other files are as before. -/
theorem C49_written {env : Str → Env} {disk : Disk} {dir out : Str} {es b} (hv : (Tree.dir es b).Valid) {st st' : Store}
    (h : main env disk .typeScript dir out (some (.dir es b)) st = (.ok (), st')) :
    (∀ p c, SchemaAt (.dir es b) p c → ∃ code q, CompilesTo env dir p c code ∧ OutPath out p q ∧ st' q = some code) ∧
      ∀ q, (¬ ∃ p c, SchemaAt (.dir es b) p c ∧ OutPath out p q) → st' q = st q := by
  by_cases hr : ∃ ss, runAll env dir (.dir es b) = .ok ss
  · obtain ⟨ss, hr⟩ := hr
    rw [main_dir hr] at h
    obtain ⟨qs, hpl, hnd, hlen, hall⟩ := runAll_placed (out := out) hv hr
    have hfine : ∀ j < ss.length, disk.Fine (0 + j) := by
      by_contra hc
      simp only [not_forall] at hc
      obtain ⟨m, hm, hbad⟩ : ∃ m, (m < ss.length ∧ ¬ disk.Fine (0 + m)) ∧
          ∀ j < m, ¬ (j < ss.length ∧ ¬ disk.Fine (0 + j)) := by
        obtain ⟨j, hj, hb⟩ := hc
        classical
        exact ⟨Nat.find (p := fun m => m < ss.length ∧ ¬ disk.Fine (0 + m)) ⟨j, hj, hb⟩,
          Nat.find_spec (p := fun m => m < ss.length ∧ ¬ disk.Fine (0 + m)) ⟨j, hj, hb⟩,
          fun i hi => Nat.find_min (p := fun m => m < ss.length ∧ ¬ disk.Fine (0 + m)) ⟨j, hj, hb⟩ hi⟩
      obtain ⟨st'', h1, _⟩ := saveAll_fails hpl hnd 0 m st hm.1
        (fun j hj => by have := hbad j hj; simp only [not_and, not_not] at this; exact this (by omega)) hm.2
      rw [h1] at h
      cases h
    obtain ⟨st'', h1, h2, h3⟩ := saveAll_fine hpl hnd 0 st hfine
    rw [h1] at h
    cases h
    constructor
    · intro p c hs
      obtain ⟨code, hc⟩ := ((runAll_succeeds hv).1 ⟨ss, hr⟩).2 p c hs
      have hm := (runAll_mem hv hr ⟨below dir p, code⟩).2 ⟨p, c, hs, rfl, hc⟩
      obtain ⟨j, hj, he⟩ := List.getElem_of_mem hm
      have hj' : j < qs.length := by omega
      obtain ⟨p', c', hs', hp', ho⟩ := hall j ss[j] qs[j] (List.getElem?_eq_getElem hj) (List.getElem?_eq_getElem hj')
      rw [he] at hp'
      have := below_inj (at_valid hs.1 hv) (at_valid hs'.1 hv) hp'
      subst this
      refine ⟨code, qs[j], hc, ho, ?_⟩
      rw [h2 j ss[j] qs[j] (List.getElem?_eq_getElem hj) (List.getElem?_eq_getElem hj'), he]
    · intro q hq
      refine h3 q fun hmem => hq ?_
      obtain ⟨j, hj, rfl⟩ := List.getElem_of_mem hmem
      have hj' : j < ss.length := by omega
      obtain ⟨p, c, hs, _, ho⟩ := hall j ss[j] qs[j] (List.getElem?_eq_getElem hj') (List.getElem?_eq_getElem hj)
      exact ⟨p, c, hs, ho⟩
  · obtain ⟨o, ho, hne⟩ := main_dir_not (disk := disk) (out := out) (st := st) hr
    rw [ho] at h
    cases h
    exact absurd rfl hne

/-- C49: when everything compiles and no file operation fails, the run succeeds. -/
theorem C49_succeeds {env : Str → Env} {disk : Disk} {dir out : Str} {es b} (hv : (Tree.dir es b).Valid)
    (ha : (Tree.dir es b).Accessible) (hc : ∀ p c, SchemaAt (.dir es b) p c → ∃ code, CompilesTo env dir p c code)
    (hd : ∀ k, disk.mkdir k = true ∧ disk.write k = none) (st : Store) :
    ∃ st', main env disk .typeScript dir out (some (.dir es b)) st = (.ok (), st') := by
  obtain ⟨ss, hr⟩ := (runAll_succeeds hv).2 ⟨ha, hc⟩
  rw [main_dir hr]
  obtain ⟨qs, hpl, hnd, _, _⟩ := runAll_placed (out := out) hv hr
  obtain ⟨st', h, _⟩ := saveAll_fine hpl hnd 0 st fun j _ => hd _
  exact ⟨st', h⟩

/-- In the example, `in/sub/b.c.pkt` goes to `out/sub/b.c.ts`. -/
example : formatPath (below "in".toList ["sub".toList, "b.c.pkt".toList]) "in".toList "out".toList .typeScript true =
      .ok [.normal "out".toList, .normal "sub".toList, .normal "b.c.ts".toList] ∧
    ∃ st', main exampleEnv ⟨fun _ => true, fun _ => none⟩ .typeScript "in".toList "out".toList
      (some (exampleTree (some exampleText))) (fun _ => none) = (.ok (), st') :=
  ⟨by rfl, by
    obtain ⟨ss, h⟩ := exampleTree_compiles
    obtain ⟨h1, h2⟩ := (runAll_succeeds (exampleTree_valid _)).1 ⟨ss, h⟩
    exact C49_succeeds (exampleTree_valid _) h1 h2 (fun _ => ⟨rfl, rfl⟩) _⟩

/-! ## C50 -/

/-- C50, full statement: a file called `x.pkt` goes to `out/x.ts`. -/
def C50_claim : Prop := ∀ (env : Str → Env) (disk : Disk) (path out : Str) (cs : List Comp) (stem text code : Str) (st : Store),
  components path = cs ++ [.normal (stem ++ ".pkt".toList)] → stem ≠ [] → compile (env path) text = .ok code →
  disk.mkdir 0 = true → disk.write 0 = none →
  main env disk .typeScript path out (some (.file (some text))) st =
    (.ok (), st.set (components out ++ [.normal (stem ++ ".ts".toList)]) (some code))

/-- What a run on one file does. -/
theorem single_place {env : Str → Env} {disk : Disk} {path out : Str} {q : List Comp} {text code : Str} {st : Store}
    (hp : formatPath path path out .typeScript false = .ok q)
    (hc : compile (env path) text = .ok code) (h1 : disk.mkdir 0 = true) (h2 : disk.write 0 = none) :
    main env disk .typeScript path out (some (.file (some text))) st = (.ok (), st.set q (some code)) := by
  have hone : runOne env path (some text) = .ok ⟨path, code⟩ := by
    unfold runOne; simp only; rw [hc]
  unfold main
  simp only
  rw [hone]
  simp only
  rw [hp]
  exact saveOne_fine ⟨h1, h2⟩

theorem single_path {path out : Str} {cs : List Comp} {stem : Str}
    (hp : components path = cs ++ [.normal (stem ++ ".pkt".toList)]) (hs : stem ≠ []) (hd : stem ≠ ".".toList)
    (hdd : stem ≠ "..".toList) :
    formatPath path path out .typeScript false = .ok (components out ++ [.normal (fileStem stem ++ ".ts".toList)]) := by
  have hfs : fileStem (stem ++ ".pkt".toList) = stem := fileStem_append (ext := "pkt".toList) (by decide) hs
  have hv : ValidName (stem ++ ".pkt".toList) := components_valid (p := path) (by rw [hp]; simp)
  obtain ⟨t, ht, hq⟩ := formatPathText_single out (file := path) (base := path) (n := stem ++ ".pkt".toList)
    (by rw [hp, fileName_append]) (by rw [hfs]; exact ⟨hs, fun h => hv.2.1 (List.mem_append_left _ h), hd, hdd⟩)
  rw [hfs] at hq
  unfold formatPath
  rw [ht]
  show Outcome.ok (components t) = _
  rw [hq]

theorem single_run {env : Str → Env} {disk : Disk} {path out : Str} {cs : List Comp} {stem text code : Str} {st : Store}
    (hp : components path = cs ++ [.normal (stem ++ ".pkt".toList)]) (hs : stem ≠ []) (hd : stem ≠ ".".toList)
    (hdd : stem ≠ "..".toList)
    (hc : compile (env path) text = .ok code) (h1 : disk.mkdir 0 = true) (h2 : disk.write 0 = none) :
    main env disk .typeScript path out (some (.file (some text))) st =
      (.ok (), st.set (components out ++ [.normal (fileStem stem ++ ".ts".toList)]) (some code)) :=
  single_place (single_path hp hs hd hdd) hc h1 h2

/-- C50 is false: `a.b.pkt` goes to `out/a.ts`. -/
theorem C50_false : ¬ C50_claim := by
  intro h
  obtain ⟨code, hc⟩ := example_compiles
  have hp : components "a.b.pkt".toList = [] ++ [.normal ("a.b".toList ++ ".pkt".toList)] := by decide
  have hc' : compile (exampleEnv "a.b.pkt".toList) exampleText = .ok code := hc
  generalize exampleText = text at hc'
  have h1 := h exampleEnv ⟨fun _ => true, fun _ => none⟩ "a.b.pkt".toList "out".toList [] "a.b".toList text code
    (fun _ => none) hp (by decide) hc' rfl rfl
  rw [single_run hp (by decide) (by decide) (by decide) hc' rfl rfl] at h1
  have h2 : (Store.set (fun _ => none) (components "out".toList ++ [.normal (fileStem "a.b".toList ++ ".ts".toList)])
      (some code)) (components "out".toList ++ [.normal "a.ts".toList]) =
      (Store.set (fun _ => none) (components "out".toList ++ [.normal ("a.b".toList ++ ".ts".toList)])
      (some code)) (components "out".toList ++ [.normal "a.ts".toList]) := by
    rw [(Prod.mk.inj h1).2]
  have e1 : components "out".toList ++ [.normal "a.ts".toList] =
      components "out".toList ++ [.normal (fileStem "a.b".toList ++ ".ts".toList)] := by decide
  have e2 : components "out".toList ++ [.normal "a.ts".toList] ≠
      components "out".toList ++ [.normal ("a.b".toList ++ ".ts".toList)] := by decide
  unfold Store.set at h2
  rw [if_pos e1, if_neg e2] at h2
  cases h2

/-- C50 for stems without a dot after their first character, other than `.` itself. What is missing: stems with such a
dot, and `.`, for which it is false: see `C50_truncated` and `C50_dot`. -/
theorem C50_single_partial {env : Str → Env} {disk : Disk} {path out : Str} {cs : List Comp} {stem text code : Str}
    {st : Store} (hp : components path = cs ++ [.normal (stem ++ ".pkt".toList)]) (hs : stem ≠ [])
    (hdot : ∀ b a, stem = b ++ '.' :: a → b = []) (hd : stem ≠ ".".toList)
    (hc : compile (env path) text = .ok code) (h1 : disk.mkdir 0 = true) (h2 : disk.write 0 = none) :
    main env disk .typeScript path out (some (.file (some text))) st =
      (.ok (), st.set (components out ++ [.normal (stem ++ ".ts".toList)]) (some code)) := by
  rw [single_run hp hs hd (by
    rintro rfl
    exact absurd (hdot ".".toList [] (by decide)) (by decide)) hc h1 h2]
  have : fileStem stem = stem := by
    rcases dot_cases stem with h | ⟨b, a, rfl, ha⟩
    · exact fileStem_plain h
    · have := hdot b a rfl
      subst this
      unfold fileStem
      rw [rsplitDot_append _ _ ha]; rfl
  rw [this]

/-- C50: for all other stems (apart from `.` and `..`) the part after the last dot is lost, so that `x.a.pkt` and
`x.b.pkt` have the same output. -/
theorem C50_truncated {env : Str → Env} {disk : Disk} {path out : Str} {cs : List Comp} {b a text code : Str}
    {st : Store} (hp : components path = cs ++ [.normal (b ++ '.' :: a ++ ".pkt".toList)]) (hb : b ≠ []) (ha : '.' ∉ a)
    (hdd : b ++ '.' :: a ≠ "..".toList)
    (hc : compile (env path) text = .ok code) (h1 : disk.mkdir 0 = true) (h2 : disk.write 0 = none) :
    main env disk .typeScript path out (some (.file (some text))) st =
      (.ok (), st.set (components out ++ [.normal (b ++ ".ts".toList)]) (some code)) := by
  rw [single_run hp (by simp) (by
    intro h
    rw [show ".".toList = ['.'] by decide] at h
    cases b with
    | nil => exact hb rfl
    | cons x b => simp at h) hdd hc h1 h2, fileStem_append ha hb]

theorem dot_path {path out : Str} {cs os : List Comp} {o : Str}
    (hp : components path = cs ++ [.normal "..pkt".toList]) (ho : components out = os ++ [.normal o]) :
    formatPath path path out .typeScript false = .ok (os ++ [.normal (fileStem o ++ ".ts".toList)]) := by
  have e1 : collect (components out ++ [.normal ".".toList]) = join (collect (components out)) ".".toList := collect_snoc _ _
  have hne : collect (components out) ≠ [] := by
    intro h
    have := components_collect out
    rw [h, ho] at this
    simp [components, splitSlash, parsePiece] at this
  have e2 : components (collect (components out ++ [.normal ".".toList])) = os ++ [.normal o] := by
    rw [e1, components_dot hne, components_collect, ho]
  have e4 : fileStem "..pkt".toList = ".".toList := by decide
  unfold formatPath formatPathText
  rw [if_neg (by simp), hp, fileName_append]
  show Outcome.ok (components (withExtension (collect (components out ++ [.normal (fileStem "..pkt".toList)])) "ts".toList)) = _
  rw [e4]
  rcases withExtension_components (text := collect (components out ++ [.normal ".".toList])) (x := "ts".toList)
    (by decide) (by decide) (by decide) with ⟨h3, -⟩ | ⟨n, h3, h4⟩
  · rw [e2, fileName_append] at h3
    cases h3
  · rw [e2, fileName_append] at h3
    cases h3
    rw [h4, e2, List.dropLast_concat, List.append_assoc (fileStem o)]
    rfl

/-- C50: a file called `..pkt` is not written into the output directory `os/o`, but beside it, to `os/o.ts` (where `o`
loses its extension, if any). -/
theorem C50_dot {env : Str → Env} {disk : Disk} {path out : Str} {cs os : List Comp} {o text code : Str}
    {st : Store} (hp : components path = cs ++ [.normal "..pkt".toList]) (ho : components out = os ++ [.normal o])
    (hc : compile (env path) text = .ok code) (h1 : disk.mkdir 0 = true) (h2 : disk.write 0 = none) :
    main env disk .typeScript path out (some (.file (some text))) st =
      (.ok (), st.set (os ++ [.normal (fileStem o ++ ".ts".toList)]) (some code)) :=
  single_place (dot_path hp ho) hc h1 h2

/-- C50: for a file called `...pkt` the tool tries to write to the parent of the output directory. -/
theorem C50_dots {path out : Str} {cs : List Comp} (hp : components path = cs ++ [.normal "...pkt".toList]) :
    formatPath path path out .typeScript false = .ok (components out ++ [.parent]) := by
  have e4 : fileStem "...pkt".toList = "..".toList := by decide
  have e2 : components (collect (components out ++ [.normal "..".toList])) = components out ++ [.parent] := by
    have e0 : collect (components out ++ [.normal "..".toList]) = collect (components out ++ [.parent]) := by
      rw [collect_snoc, collect_snoc]
      rfl
    rw [e0]
    exact components_collect_plain out (l := [.parent]) (by intro c hc; rw [List.mem_singleton.1 hc]; trivial)
  have e3 : fileName (components out ++ [.parent]) = none := by simp [fileName]
  unfold formatPath formatPathText
  rw [if_neg (by simp), hp, fileName_append]
  show Outcome.ok (components (withExtension (collect (components out ++ [.normal (fileStem "...pkt".toList)])) "ts".toList)) = _
  rw [e4]
  unfold withExtension
  rw [e2, e3]
  show Outcome.ok (components (collect (components out ++ [.normal "..".toList]))) = _
  rw [e2]

example : (components "d/x.pkt".toList = [.normal "d".toList] ++ [.normal ("x".toList ++ ".pkt".toList)]) ∧
    (∀ b a, "x".toList = b ++ '.' :: a → b = []) ∧ (∃ code, compile (exampleEnv "d/x.pkt".toList) exampleText = .ok code) ∧
    components "d/..pkt".toList = [.normal "d".toList] ++ [.normal "..pkt".toList] ∧
    components "x/o".toList = [.normal "x".toList] ++ [.normal "o".toList] ∧
    components "...pkt".toList = [] ++ [.normal "...pkt".toList] := by
  refine ⟨by decide, fun b a h => ?_, example_compiles, by decide, by decide, by decide⟩
  rw [show "x".toList = ['x'] by decide] at h
  cases b with
  | nil => rfl
  | cons x b => simp at h

/-! ## C51 -/

/-- C51, full statement: if there is nothing at the input path, the command fails. -/
def C51_claim : Prop := ∀ env disk path out st, (main env disk .typeScript path out none st).1 ≠ .ok ()

/-- C51 is false, for every missing input. -/
theorem C51_false_always (env disk path out st) : main env disk .typeScript path out none st = (.ok (), st) := rfl

theorem C51_false : ¬ C51_claim := fun h => h exampleEnv ⟨fun _ => true, fun _ => none⟩ [] [] (fun _ => none) rfl

/-- C51 for everything else that is missing: an input file that cannot be read; a schema in the input directory that
cannot be read (for instance a dangling link); a directory that cannot be listed. What is missing: an input path at
which there is nothing. -/
theorem C51_missing_partial {env : Str → Env} {disk : Disk} {path out : Str} {t : Tree} (hv : t.Valid)
    (h : t = .file none ∨ (∃ es b, t = .dir es b) ∧ ((∃ p, SchemaAt t p none) ∨ ¬ t.Accessible)) (st : Store) :
    ∃ o, main env disk .typeScript path out (some t) st = (o, st) ∧ o ≠ .ok () := by
  rcases h with rfl | ⟨⟨es, b, rfl⟩, h⟩
  · exact ⟨.err .io, rfl, by simp⟩
  · refine main_dir_not fun hr => ?_
    obtain ⟨ha, hc⟩ := (runAll_succeeds hv).1 hr
    rcases h with ⟨p, hp⟩ | h
    · obtain ⟨_, _, h, _⟩ := hc p none hp
      cases h
    · exact h ha

example : (exampleTree none).Valid ∧ ∃ p, SchemaAt (exampleTree none) p none :=
  ⟨exampleTree_valid _, _, exampleTree_schema none⟩

/-! ## C52 -/

/-- C52: when the `m`-th save is the first to fail, the command fails; the outputs before it are complete; the outputs
after it, and all other files, are as before; its own output is whatever the failed operation left. -/
theorem C52_failed_write {env : Str → Env} {disk : Disk} {dir out : Str} {es b ss} (hv : (Tree.dir es b).Valid)
    (hr : runAll env dir (.dir es b) = .ok ss) {m : Nat} (hm : m < ss.length)
    (hbefore : ∀ j < m, disk.mkdir j = true ∧ disk.write j = none)
    (hfail : disk.mkdir m = false ∨ ∃ left, disk.write m = some left) (st : Store) :
    ∃ st', main env disk .typeScript dir out (some (.dir es b)) st = (.err .io, st') ∧
      (∀ (j : Nat) (s : Schema) p q, ss[j]? = some s → s.path = below dir p → (∃ c, SchemaAt (.dir es b) p c) →
        OutPath out p q →
        (j < m → st' q = some s.generated) ∧ (m < j → st' q = st q) ∧
        (j = m → disk.mkdir m = false → st' q = st q) ∧
        (j = m → ∀ left, disk.mkdir m = true → disk.write m = some left → st' q = left)) ∧
      ∀ q, (¬ ∃ p c, SchemaAt (.dir es b) p c ∧ OutPath out p q) → st' q = st q := by
  rw [main_dir hr]
  obtain ⟨qs, hpl, hnd, hlen, hall⟩ := runAll_placed (out := out) hv hr
  obtain ⟨st', h1, h2, h3, h4, h5, h6⟩ := saveAll_fails hpl hnd 0 m st hm
    (fun j hj => by rw [Nat.zero_add]; exact hbefore j hj)
    (by
      rw [Nat.zero_add]
      rintro ⟨g1, g2⟩
      rcases hfail with h | ⟨l, h⟩
      · rw [g1] at h; cases h
      · rw [g2] at h; cases h)
  rw [Nat.zero_add] at h4 h5
  refine ⟨st', h1, ?_, ?_⟩
  · rintro j s p q hj hsp ⟨c, hs⟩ ho
    obtain ⟨hjl, rfl⟩ := List.getElem?_eq_some_iff.1 hj
    have hjq : j < qs.length := by omega
    have hq := List.getElem?_eq_getElem hjq
    obtain ⟨p', c', hs', hp', ho'⟩ := hall j _ _ hj hq
    rw [hsp] at hp'
    have := below_inj (at_valid hs.1 hv) (at_valid hs'.1 hv) hp'
    subst this
    have := outPath_unique ho' ho
    subst this
    exact ⟨h2 j _ _ hj hq, h3 j _ hq, fun e => h4 _ (e ▸ hq), fun e left => h5 _ left (e ▸ hq)⟩
  · intro q hq
    refine h6 q fun hmem => hq ?_
    obtain ⟨j, hj, rfl⟩ := List.getElem_of_mem hmem
    have hj' : j < ss.length := by omega
    obtain ⟨p, c, hs, _, ho⟩ := hall j ss[j] qs[j] (List.getElem?_eq_getElem hj') (List.getElem?_eq_getElem hj)
    exact ⟨p, c, hs, ho⟩

/-- The example run has two saves; the second may fail. -/
example : ∃ ss, runAll exampleEnv "in".toList (exampleTree (some exampleText)) = .ok ss ∧ 1 < ss.length := by
  obtain ⟨ss, h⟩ := exampleTree_compiles
  have hl := ((runAll_ok (exampleTree_valid _)).1 h).2.length_eq
  have e : (schemaList (exampleTree (some exampleText))).length = 2 := rfl
  exact ⟨ss, h, by rw [← hl]; exact Nat.lt_of_lt_of_eq (by decide) e.symm⟩

/-! ## C53 -/

/-- What `str::to_lowercase` makes of one character: an ASCII character becomes its lower case; any other character
becomes something nonempty without the letters `t` and `s` (it depends on the context for the Greek final sigma, which
is why this is a relation). -/
def LowerPiece (c : Char) (p : Str) : Prop :=
  (c.toNat < 128 → p = [c.toLower]) ∧ (128 ≤ c.toNat → p ≠ [] ∧ 't' ∉ p ∧ 's' ∉ p)

/-- What is assumed of `str::to_lowercase`: it works character by character. -/
def LowerLaw (lower : Str → Str) : Prop := ∀ s, ∃ ps : List Str, lower s = ps.flatten ∧ List.Forall₂ LowerPiece s ps

theorem ascii_lower (c d : Char) (hd : d = 't' ∨ d = 's') (hc : c.toNat < 128) (h : c.toLower = d) :
    c = d ∨ c = d.toUpper := by
  have key : ∀ n < 128, ∀ d ∈ ['t', 's'], (Char.ofNat n).toLower = d → Char.ofNat n = d ∨ Char.ofNat n = d.toUpper := by
    decide +kernel
  have := key c.toNat hc d (by rcases hd with rfl | rfl <;> simp)
  rw [Char.ofNat_toNat] at this
  exact this h

theorem lower_first {c : Char} {p rest : Str} {d : Char} {l : Str} (hd : d = 't' ∨ d = 's') (h : LowerPiece c p)
    (he : p ++ rest = d :: l) : (c = d ∨ c = d.toUpper) ∧ rest = l := by
  by_cases hc : c.toNat < 128
  · rw [h.1 hc] at he
    simp only [List.singleton_append, List.cons.injEq] at he
    exact ⟨ascii_lower c d hd hc he.1, he.2⟩
  · obtain ⟨h1, h2, h3⟩ := h.2 (by omega)
    cases p with
    | nil => exact absurd rfl h1
    | cons x p =>
      simp only [List.cons_append, List.cons.injEq] at he
      simp only [List.mem_cons, not_or] at h2 h3
      rcases hd with rfl | rfl
      · exact absurd he.1.symm h2.1
      · exact absurd he.1.symm h3.1

/-- C53: exactly these four spellings are accepted. With any other argument nothing is done. -/
theorem C53_language {lower : Str → Str} (hl : LowerLaw lower) (env : Str → Env) (disk : Disk) (arg path out : Str)
    (input : Option Tree) (st : Store) :
    if arg ∈ ["ts".toList, "TS".toList, "Ts".toList, "tS".toList] then
      command lower env disk arg path out input st =
        (some (main env disk .typeScript path out input st).1, (main env disk .typeScript path out input st).2)
    else command lower env disk arg path out input st = (none, st) := by
  have key : lower arg = "ts".toList ↔ arg ∈ ["ts".toList, "TS".toList, "Ts".toList, "tS".toList] := by
    obtain ⟨ps, he, hf⟩ := hl arg
    rw [he]
    constructor
    · intro h
      rw [show "ts".toList = ['t', 's'] by decide] at h
      cases hf with
      | nil => cases h
      | @cons c p cs ps h1 hf =>
        obtain ⟨hc, h⟩ := lower_first (.inl rfl) h1 h
        cases hf with
        | nil => cases h
        | @cons c' p' cs' ps' h2 hf =>
          obtain ⟨hc', h⟩ := lower_first (.inr rfl) h2 h
          cases hf with
          | nil => rcases hc with rfl | rfl <;> rcases hc' with rfl | rfl <;> decide
          | @cons c'' p'' cs'' ps'' h3 hf =>
            simp only [List.flatten_cons, List.append_eq_nil_iff] at h
            by_cases hx : c''.toNat < 128
            · rw [h3.1 hx] at h; cases h.1
            · exact absurd h.1 (h3.2 (by omega)).1
    · intro h
      simp only [List.mem_cons, List.not_mem_nil, or_false] at h
      have two : ∀ c d : Char, c.toNat < 128 → d.toNat < 128 → arg = [c, d] → ps.flatten = [c.toLower, d.toLower] := by
        rintro c d h1 h2 rfl
        cases hf with
        | cons g1 hf =>
          cases hf with
          | cons g2 hf => cases hf; rw [g1.1 h1, g2.1 h2]; rfl
      rcases h with h | h | h | h
      · exact two 't' 's' (by decide) (by decide) h
      · exact two 'T' 'S' (by decide) (by decide) h
      · exact two 'T' 's' (by decide) (by decide) h
      · exact two 't' 'S' (by decide) (by decide) h
  unfold command langFromStr
  split_ifs with h1 h2 h2
  · rfl
  · exact absurd (key.2 h1) h2
  · exact absurd (key.1 h2) h1
  · rfl

/-- A lower-casing function that meets the law: ASCII only. -/
example : LowerLaw fun s => s.map Char.toLower := by
  intro s
  refine ⟨s.map fun c => [c.toLower], ?_, ?_⟩
  · induction s with
    | nil => rfl
    | cons c s ih => simp only [List.map_cons, List.flatten_cons, ← ih, List.singleton_append]
  · induction s with
    | nil => exact .nil
    | cons c s ih =>
      refine .cons ⟨fun _ => rfl, fun hc => ⟨by simp, ?_, ?_⟩⟩ ih
      all_goals
        have e : c.toLower = c := by
          rw [Char.toLower, dif_neg]
          rintro ⟨_, h⟩
          have h : c.val.toNat ≤ 90 := h
          have : 128 ≤ c.val.toNat := hc
          omega
        simp only [e, List.mem_singleton]
        rintro rfl
        revert hc
        decide

end Packetc.Props
