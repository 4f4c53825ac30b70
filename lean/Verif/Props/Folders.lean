import Verif.Proof.FolderTree
import Verif.Proof.CliEvents
import Verif.Props.Cli
/-!
# Runs on a file system (C107-C109)
-/

namespace Packetc.Props
open Cli

/-! ## The two models of the file system agree -/

theorem saveAll_congr {d d' : Disk} {base out : Str} {lang : Lang} : (ss : List Schema) → (k : Nat) →
    (∀ j, k ≤ j → d.mkdir j = d'.mkdir j ∧ d.write j = d'.write j) → ∀ st, saveAll d base out lang k ss st = saveAll d' base out lang k ss st
  | [], _, _, _ => rfl
  | s :: ss, k, h, st => by
    have h1 : ∀ q, saveOne d k s q st = saveOne d' k s q st := fun q => by
      unfold saveOne
      rw [(h k (Nat.le_refl k)).1, (h k (Nat.le_refl k)).2]
    have ih := saveAll_congr (d := d) (d' := d') (base := base) (out := out) (lang := lang) ss (k + 1)
      fun j hj => h j (Nat.le_of_succ_le hj)
    unfold saveAll
    simp only [h1, ih]

theorem saveAllF_outcome {cwd : List Str} {base out : Str} {lang : Lang} : (ss : List Schema) → (k : Nat) → (fs : Files) →
    ∃ d : Disk, ∀ st, (saveAll d base out lang k ss st).1 = (saveAllF cwd base out lang ss fs).1
  | [], _, _ => ⟨⟨fun _ => true, fun _ => none⟩, fun _ => rfl⟩
  | s :: ss, k, fs => by
    cases hp : formatPath s.path base out lang true with
    | err e => exact ⟨⟨fun _ => true, fun _ => none⟩, fun st => by unfold saveAll saveAllF; rw [hp]⟩
    | panic => exact ⟨⟨fun _ => true, fun _ => none⟩, fun st => by unfold saveAll saveAllF; rw [hp]⟩
    | diverge => exact ⟨⟨fun _ => true, fun _ => none⟩, fun st => by unfold saveAll saveAllF; rw [hp]⟩
    | ok q =>
      have hcases : ∀ fs, (∃ fs', saveOneF cwd s q fs = (.ok (), fs')) ∨ ∃ fs', saveOneF cwd s q fs = (.err .io, fs') := by
        intro fs
        unfold saveOneF
        split
        · exact .inr ⟨_, rfl⟩
        · split
          · exact .inr ⟨_, rfl⟩
          · exact .inl ⟨_, rfl⟩
      rcases hcases fs with ⟨fs', h1⟩ | ⟨fs', h1⟩
      · obtain ⟨d, hd⟩ := saveAllF_outcome (cwd := cwd) (base := base) (out := out) (lang := lang) ss (k + 1) fs'
        refine ⟨⟨fun j => if j = k then true else d.mkdir j, fun j => if j = k then none else d.write j⟩, fun st => ?_⟩
        unfold saveAll saveAllF
        rw [hp]
        simp only
        rw [h1, saveOne_fine ⟨by simp, by simp⟩]
        simp only
        rw [← hd]
        rw [saveAll_congr (d' := d) ss (k + 1) fun j hj => by
          have : j ≠ k := by omega
          simp [this]]
      · refine ⟨⟨fun _ => false, fun _ => none⟩, fun st => ?_⟩
        unfold saveAll saveAllF
        rw [hp]
        simp only
        rw [h1]
        simp [saveOne]

/-- C107: `mainF` is `main` on a disk whose operations fail just when the files there make them fail, so that what has been
shown of `main` for any disk (C47-C53, C69-C72) holds of its outcome. -/
theorem C107_refines (env : Str → Env) (cwd : List Str) (lang : Lang) (path out : Str) (input : Option Tree) (fs : Files) :
    ∃ d : Disk, ∀ st, (main env d lang path out input st).1 = (mainF env cwd lang path out input fs).1 := by
  cases input with
  | none => exact ⟨⟨fun _ => true, fun _ => none⟩, fun _ => rfl⟩
  | some t =>
    cases t with
    | dir es b =>
      unfold main mainF
      simp only
      cases runAll env path (.dir es b) with
      | ok ss => exact saveAllF_outcome ss 0 fs
      | err e => exact ⟨⟨fun _ => true, fun _ => none⟩, fun _ => rfl⟩
      | panic => exact ⟨⟨fun _ => true, fun _ => none⟩, fun _ => rfl⟩
      | diverge => exact ⟨⟨fun _ => true, fun _ => none⟩, fun _ => rfl⟩
    | file c =>
      unfold main mainF
      simp only
      cases runOne env path c with
      | err e => exact ⟨⟨fun _ => true, fun _ => none⟩, fun _ => rfl⟩
      | panic => exact ⟨⟨fun _ => true, fun _ => none⟩, fun _ => rfl⟩
      | diverge => exact ⟨⟨fun _ => true, fun _ => none⟩, fun _ => rfl⟩
      | ok s =>
        simp only
        cases formatPath s.path path out lang false with
        | err e => exact ⟨⟨fun _ => true, fun _ => none⟩, fun _ => rfl⟩
        | panic => exact ⟨⟨fun _ => true, fun _ => none⟩, fun _ => rfl⟩
        | diverge => exact ⟨⟨fun _ => true, fun _ => none⟩, fun _ => rfl⟩
        | ok q =>
          simp only
          unfold saveOneF
          split
          · exact ⟨⟨fun _ => false, fun _ => none⟩, fun st => by simp [saveOne]⟩
          · split
            · exact ⟨⟨fun _ => false, fun _ => none⟩, fun st => by simp [saveOne]⟩
            · exact ⟨⟨fun _ => true, fun _ => none⟩, fun st => by simp [saveOne]⟩

/-! ## C107 -/

/-- C107, full statement: a run on a directory all of whose schemas compile succeeds, if nothing at the output paths is in
the way (a file where a directory is needed, a directory where a file is to be). -/
def C107_claim : Prop :=
  ∀ (env : Str → Env) (cwd : List Str) (path out : Str) (fs : Files) (dir place : List Str) (es : List (EntryOf Tree)) (b : Bool),
  fs.Sound → fs cwd = some .dir → Found fs cwd path dir (.dir es b) → Leads cwd out place → AllCompile env path fs dir →
  (∀ r c q, fs.Schema dir r c → OutFile place r q → Free fs q) →
  ∃ fs', mainF env cwd .typeScript path out (some (.dir es b)) fs = (.ok (), fs')

/-- C107: when a run on a directory succeeds. -/
theorem C107_exact {env : Str → Env} {cwd : List Str} {path out : Str} {fs : Files} {dir place : List Str} {es b}
    (hs : fs.Sound) (hc : fs cwd = some .dir) (hf : Found fs cwd path dir (.dir es b)) (ho : Leads cwd out place) :
    (∃ fs', mainF env cwd .typeScript path out (some (.dir es b)) fs = (.ok (), fs')) ↔
      AllCompile env path fs dir ∧ (∀ r c q, fs.Schema dir r c → OutFile place r q → Free fs q) ∧ ¬ Clash fs dir := by
  obtain ⟨o, fs', h, _, _, h1, h2⟩ := folder_run (env := env) (path := path) hs hc hf.2.2 ho
  constructor
  · rintro ⟨fs1, h3⟩
    rw [h] at h3
    by_contra hno
    exact h2 hno (Prod.mk.inj h3).1
  · rintro ⟨k1, k2⟩
    refine ⟨fs', ?_⟩
    rw [h, (h1 k1 k2).1]

/-- C107 if no schema `….pkt` stands beside a directory `….ts` that has a schema in it, and what is there after the run.
What is missing: such directories, for which it is false, see `C107_exact`. -/
theorem C107_files_partial {env : Str → Env} {cwd : List Str} {path out : Str} {fs : Files} {dir place : List Str} {es b}
    (hs : fs.Sound) (hc : fs cwd = some .dir) (hf : Found fs cwd path dir (.dir es b)) (ho : Leads cwd out place)
    (ha : AllCompile env path fs dir) (hw : ∀ r c q, fs.Schema dir r c → OutFile place r q → Free fs q) (hn : ¬ Clash fs dir) :
    ∃ fs', mainF env cwd .typeScript path out (some (.dir es b)) fs = (.ok (), fs') ∧ After env path dir place fs fs' := by
  obtain ⟨o, fs', h, _, _, h1, _⟩ := folder_run (env := env) (path := path) hs hc hf.2.2 ho
  obtain ⟨h2, h3⟩ := h1 ha ⟨hw, hn⟩
  exact ⟨fs', by rw [h, h2], h3⟩

/-- C107: nothing is in the way where the output directory does not exist yet and can be made. -/
theorem C107_fresh {fs : Files} {dir place : List Str} (hs : fs.Sound) (hp : fs place = none)
    (hf : ∀ p, p <+: place → ∀ c, fs p ≠ some (.file c)) {r c q} (_ : fs.Schema dir r c) (ho : OutFile place r q) : Free fs q := by
  obtain ⟨d, stem, -, rfl⟩ := ho
  have hnone : ∀ p, place <+: p → fs p = none := by
    intro p hpp
    by_contra hne
    by_cases he : place = p
    · exact hne (he ▸ hp)
    · rw [hs.above hne hpp he] at hp
      cases hp
  rw [List.append_assoc]
  refine ⟨fun p h1 _ c => ?_, by rw [hnone _ (List.prefix_append _ _)]; simp⟩
  rcases List.prefix_or_prefix_of_prefix h1 (List.prefix_append place _) with h2 | h2
  · exact hf p h2 c
  · rw [hnone p h2]
    simp

/-- The output of a run on one file. -/
theorem single_file {env : Str → Env} {cwd : List Str} {path out : Str} {fs : Files} {place : List Str} {c : Option Str}
    {cs : List Comp} {stem : Str} (hs : fs.Sound) (hc : fs cwd = some .dir) (ho : Leads cwd out place)
    (hp : components path = cs ++ [.normal (stem ++ ".pkt".toList)]) (h1 : stem ≠ []) (h2 : stem ≠ ".".toList) (h3 : stem ≠ "..".toList) :
    (∀ text code, c = some text → compile (env path) text = .ok code → Free fs (place ++ [fileStem stem ++ ".ts".toList]) →
      ∃ fs', mainF env cwd .typeScript path out (some (.file c)) fs = (.ok (), fs') ∧
        Written fs fs' (place ++ [fileStem stem ++ ".ts".toList]) code) ∧
    (∀ fs', mainF env cwd .typeScript path out (some (.file c)) fs = (.ok (), fs') →
      (∃ text code, c = some text ∧ compile (env path) text = .ok code) ∧ Free fs (place ++ [fileStem stem ++ ".ts".toList])) := by
  obtain ⟨hd, names, hcomp, hh, rfl⟩ := leads_iff ho
  have hval : ∀ n ∈ names, ValidName n := fun n hn =>
    components_valid (p := out) (by rw [hcomp]; exact List.mem_append_right _ (List.mem_map_of_mem hn))
  have hq : formatPath path path out .typeScript false = .ok (hd ++ (names ++ [fileStem stem ++ ".ts".toList]).map Comp.normal) := by
    rw [single_path hp h1 h2 h3, hcomp]
    simp
  obtain ⟨k1, k2⟩ : (∀ text code, c = some text → compile (env path) text = .ok code →
      mainF env cwd .typeScript path out (some (.file c)) fs =
        saveOneF cwd ⟨path, code⟩ (hd ++ (names ++ [fileStem stem ++ ".ts".toList]).map Comp.normal) fs) ∧
      ((¬ ∃ text code, c = some text ∧ compile (env path) text = .ok code) → ∀ fs',
        mainF env cwd .typeScript path out (some (.file c)) fs ≠ (.ok (), fs')) := by
    unfold mainF
    simp only
    constructor
    · rintro text code rfl hcc
      have : runOne env path (some text) = .ok ⟨path, code⟩ := by unfold runOne; simp only; rw [hcc]
      rw [this]
      simp only
      rw [hq]
    · intro hno fs' he
      cases hr : runOne env path c with
      | ok s =>
        unfold runOne at hr
        cases c with
        | none => cases hr
        | some text =>
          simp only at hr
          cases hcc : compile (env path) text with
          | ok code => exact hno ⟨text, code, rfl, hcc⟩
          | parseError m => rw [hcc] at hr; cases hr
          | checkError m => rw [hcc] at hr; cases hr
          | panic => rw [hcc] at hr; cases hr
          | diverge => rw [hcc] at hr; cases hr
      | err e => rw [hr] at he; cases he
      | panic => rw [hr] at he; cases he
      | diverge => rw [hr] at he; cases he
  constructor
  · intro text code ht hcc hfree
    obtain ⟨fs', h4, h5⟩ := (saveOneF_tidy hs hh hc ⟨path, code⟩ names (fileStem stem ++ ".ts".toList) hval).1 hfree
    exact ⟨fs', by rw [k1 text code ht hcc, h4], h5⟩
  · intro fs' he
    by_cases hex : ∃ text code, c = some text ∧ compile (env path) text = .ok code
    · refine ⟨hex, ?_⟩
      obtain ⟨text, code, ht, hcc⟩ := hex
      by_contra hno
      rw [k1 text code ht hcc, (saveOneF_tidy hs hh hc ⟨path, code⟩ names (fileStem stem ++ ".ts".toList) hval).2 hno] at he
      cases he
    · exact absurd he (k2 hex fs')

/-- C107: when a run on one file succeeds. (For where the output is, see C50.) -/
theorem C107_single {env : Str → Env} {cwd : List Str} {path out : Str} {fs : Files} {dir place : List Str} {c : Option Str}
    {cs : List Comp} {stem : Str} (hs : fs.Sound) (hc : fs cwd = some .dir) (_ : Found fs cwd path dir (.file c))
    (ho : Leads cwd out place) (hp : components path = cs ++ [.normal (stem ++ ".pkt".toList)]) (h1 : stem ≠ [])
    (h2 : stem ≠ ".".toList) (h3 : stem ≠ "..".toList) :
    (∃ fs', mainF env cwd .typeScript path out (some (.file c)) fs = (.ok (), fs')) ↔
      (∃ text code, c = some text ∧ compile (env path) text = .ok code) ∧ Free fs (place ++ [fileStem stem ++ ".ts".toList]) := by
  obtain ⟨k1, k2⟩ := single_file (env := env) (path := path) (out := out) (c := c) hs hc ho hp h1 h2 h3
  constructor
  · rintro ⟨fs', h⟩
    exact k2 fs' h
  · rintro ⟨⟨text, code, h4, h5⟩, h6⟩
    obtain ⟨fs', h7, _⟩ := k1 text code h4 h5 h6
    exact ⟨fs', h7⟩

/-! ### examples -/

/-- The file system with these items. -/
def ofList (l : List (List Str × Item)) : Files := fun p => (l.find? fun e => e.1 == p).map Prod.snd

theorem ofList_mem {l : List (List Str × Item)} {p : List Str} {i : Item} (h : ofList l p = some i) : (p, i) ∈ l := by
  unfold ofList at h
  cases hf : l.find? fun e => e.1 == p with
  | none => rw [hf] at h; cases h
  | some e =>
    rw [hf] at h
    have h1 := List.find?_some hf
    have h2 := List.mem_of_find?_eq_some hf
    simp only [beq_iff_eq] at h1
    simp only [Option.map_some, Option.some.injEq] at h
    rw [← h1, ← h]
    exact h2

theorem ofList_sound {l : List (List Str × Item)} (h0 : ofList l [] = some .dir)
    (h : ∀ e ∈ l, e.1 = [] ∨ ofList l e.1.dropLast = some .dir) (hn : ∀ e ∈ l, ∀ n ∈ e.1, ValidName n) : (ofList l).Sound := by
  refine ⟨h0, fun p n hp => ?_, fun p hp => ?_⟩
  · obtain ⟨i, hi⟩ := Option.ne_none_iff_exists'.1 hp
    have := h _ (ofList_mem hi)
    simpa using this
  · obtain ⟨i, hi⟩ := Option.ne_none_iff_exists'.1 hp
    exact hn _ (ofList_mem hi)

/-- `in/a.pkt` beside `in/a.ts/b.pkt`. -/
def clashList (text : Str) : List (List Str × Item) :=
  [([], .dir), (["in".toList], .dir), (["in".toList, "a.pkt".toList], .file (some text)),
    (["in".toList, "a.ts".toList], .dir), (["in".toList, "a.ts".toList, "b.pkt".toList], .file (some text))]

def clashEntries (text : Str) : List (EntryOf Tree) :=
  [⟨"a.pkt".toList, true, .file (some text)⟩,
    ⟨"a.ts".toList, true, .dir [⟨"b.pkt".toList, true, .file (some text)⟩] true⟩]

theorem clash_sound (text : Str) : (ofList (clashList text)).Sound := by
  refine ofList_sound rfl (fun e he => ?_) fun e he n hn => ?_
  · simp only [clashList, List.mem_cons, List.not_mem_nil, or_false] at he
    rcases he with rfl | rfl | rfl | rfl | rfl
    · exact .inl rfl
    all_goals exact .inr rfl
  · simp only [clashList, List.mem_cons, List.not_mem_nil, or_false] at he
    rcases he with rfl | rfl | rfl | rfl | rfl <;>
      simp only [List.mem_cons, List.not_mem_nil, or_false] at hn
    · subst hn
      refine ⟨?_, ?_, ?_, ?_⟩ <;> decide
    · rcases hn with rfl | rfl <;> refine ⟨?_, ?_, ?_, ?_⟩ <;> decide
    · rcases hn with rfl | rfl <;> refine ⟨?_, ?_, ?_, ?_⟩ <;> decide
    · rcases hn with rfl | rfl | rfl <;> refine ⟨?_, ?_, ?_, ?_⟩ <;> decide

theorem clash_children (text : Str) (p : List Str) (n : Str) : ofList (clashList text) (p ++ [n]) ≠ none ↔
    (p = [] ∧ n = "in".toList) ∨ (p = ["in".toList] ∧ (n = "a.pkt".toList ∨ n = "a.ts".toList)) ∨
      (p = ["in".toList, "a.ts".toList] ∧ n = "b.pkt".toList) := by
  constructor
  · intro h
    obtain ⟨i, hi⟩ := Option.ne_none_iff_exists'.1 h
    have := ofList_mem hi
    simp only [clashList, List.mem_cons, List.not_mem_nil, or_false, Prod.mk.injEq] at this
    rcases this with ⟨h, _⟩ | ⟨h, _⟩ | ⟨h, _⟩ | ⟨h, _⟩ | ⟨h, _⟩
    · simp at h
    · obtain ⟨rfl, h2⟩ := List.append_inj' (s₁ := p) (s₂ := []) h rfl
      exact .inl ⟨rfl, by simpa using h2⟩
    · obtain ⟨rfl, h2⟩ := List.append_inj' (s₁ := p) (s₂ := ["in".toList]) h rfl
      exact .inr (.inl ⟨rfl, .inl (List.cons.inj h2).1⟩)
    · obtain ⟨rfl, h2⟩ := List.append_inj' (s₁ := p) (s₂ := ["in".toList]) h rfl
      exact .inr (.inl ⟨rfl, .inr (List.cons.inj h2).1⟩)
    · obtain ⟨rfl, h2⟩ := List.append_inj' (s₁ := p) (s₂ := ["in".toList, "a.ts".toList]) h rfl
      exact .inr (.inr ⟨rfl, (List.cons.inj h2).1⟩)
  · rintro (⟨rfl, rfl⟩ | ⟨rfl, rfl | rfl⟩ | ⟨rfl, rfl⟩) <;> exact Option.some_ne_none _

theorem clash_found (text : Str) : Found (ofList (clashList text)) [] "in".toList ["in".toList] (.dir (clashEntries text) true) := by
  refine ⟨by decide, walk_goes _ _ _ rfl, .dir _ _ rfl (by show ["a.pkt".toList, "a.ts".toList].Nodup; decide) (fun n => ?_) ?_ ?_⟩
  · rw [clash_children]
    simp [clashEntries]
  · intro e he
    simp only [clashEntries, List.mem_cons, List.not_mem_nil, or_false] at he
    rcases he with rfl | rfl <;> rfl
  · intro e he
    simp only [clashEntries, List.mem_cons, List.not_mem_nil, or_false] at he
    rcases he with rfl | rfl
    · exact .file _ _ rfl
    · refine .dir _ _ rfl (by simp) (fun n => ?_) (by simp) ?_
      · rw [clash_children]
        simp
      · intro e he
        rw [List.mem_singleton.1 he]
        exact .file _ _ rfl

theorem clash_compiles : AllCompile exampleEnv "in".toList (ofList (clashList exampleText)) ["in".toList] := by
  obtain ⟨code, hc⟩ := example_compiles
  intro r c h
  have := ofList_mem h.1
  refine ⟨code, exampleText, ?_, hc⟩
  simp only [clashList, List.mem_cons, List.not_mem_nil, or_false, Prod.mk.injEq] at this
  rcases this with ⟨_, h⟩ | ⟨_, h⟩ | ⟨_, h⟩ | ⟨_, h⟩ | ⟨_, h⟩ <;> first | (cases h; done) | (cases h; rfl)

/-- C107 is false: `in/a.pkt` goes to `out/a.ts`, and `in/a.ts/b.pkt` to `out/a.ts/b.ts`. -/
theorem C107_false : ¬ C107_claim := by
  intro h
  have hs := clash_sound exampleText
  have hl : Leads [] "out".toList ["out".toList] := ⟨.name _ _ _ _ True.intro (.here _), [], ["out".toList], by decide, by simp⟩
  obtain ⟨fs', h1⟩ := h exampleEnv [] "in".toList "out".toList (ofList (clashList exampleText)) ["in".toList] ["out".toList] _ _
    hs rfl (clash_found _) hl clash_compiles fun r c q hsc ho => C107_fresh hs rfl (fun p hp c => by
      rcases List.prefix_concat_iff.1 (show p <+: [] ++ ["out".toList] from hp) with rfl | hp
      · rw [show ofList (clashList exampleText) ([] ++ ["out".toList]) = none from rfl]; simp
      · rw [List.prefix_nil.1 hp, hs.root]; simp) hsc ho
  refine ((C107_exact hs rfl (clash_found _) hl).1 ⟨fs', h1⟩).2.2 ⟨[], "a".toList, ["b.pkt".toList], some exampleText, some exampleText, ⟨rfl, [], "a".toList, rfl, by decide⟩,
    ⟨rfl, ["a.ts".toList], "b".toList, rfl, by decide⟩⟩

/-! ## C108 -/

theorem shows_dir {fs : Files} {p : List Str} {es b} (h : Shows fs p (.dir es b)) : fs p = some .dir := by
  cases h with
  | dir _ _ h => exact h

/-- C108: a run on a directory that has succeeded can be repeated, also where the output directory lies in the input
directory, and changes nothing then (if the version, the time and the iteration orders are the same). -/
theorem C108_again {env : Str → Env} {cwd : List Str} {path out : Str} {fs fs' : Files} {dir place : List Str} {es b}
    (hs : fs.Sound) (hc : fs cwd = some .dir) (hf : Found fs cwd path dir (.dir es b)) (ho : Leads cwd out place)
    (h : mainF env cwd .typeScript path out (some (.dir es b)) fs = (.ok (), fs')) {dir' : List Str} {t' : Tree}
    (hf' : Found fs' cwd path dir' t') :
    mainF env cwd .typeScript path out (some t') fs' = (.ok (), fs') := by
  obtain ⟨ha, hcw⟩ := (C107_exact hs hc hf ho).1 ⟨fs', h⟩
  obtain ⟨o, fs1, h1, hs', _, h2, _⟩ := folder_run (env := env) (path := path) hs hc hf.2.2 ho
  rw [h] at h1
  obtain ⟨-, rfl⟩ := Prod.mk.inj h1
  have hafter := (h2 ha hcw).2
  have hdirs : ∀ p, fs p = some .dir → fs' p = some .dir := fun p hp => after_kept hcw hafter hp
  have hd : dir' = dir := by
    have := walk_kept hdirs _ _ _ (goes_walk hf.2.1)
    rw [goes_walk hf'.2.1] at this
    exact Except.ok.inj this
  subst hd
  have hdir : fs' dir' = some .dir := hdirs _ (shows_dir hf.2.2)
  cases t' with
  | file c =>
    have := hf'.2.2
    cases this with
    | file _ _ hx => rw [hdir] at hx; cases hx
  | dir es' b' =>
    obtain ⟨o, fs2, k1, _, _, k2, _⟩ := folder_run (env := env) (path := path) hs' (hdirs _ hc) hf'.2.2 ho
    obtain ⟨rfl, k3⟩ := k2 (after_allCompile hcw hafter ha) (after_canWrite ha hcw hafter)
    rw [k1, after_unique ha (after_after hcw hafter k3) hafter]

/-- C108: and at another time, or with another version, it leaves just what it would have left without the first run. -/
theorem C108_later {env env' : Str → Env} {cwd : List Str} {path out : Str} {fs fs' fs'' : Files} {dir place : List Str} {es b}
    (hs : fs.Sound) (hc : fs cwd = some .dir) (hf : Found fs cwd path dir (.dir es b)) (ho : Leads cwd out place)
    (h : mainF env cwd .typeScript path out (some (.dir es b)) fs = (.ok (), fs'))
    (h' : mainF env' cwd .typeScript path out (some (.dir es b)) fs = (.ok (), fs'')) {dir' : List Str} {t' : Tree}
    (hf' : Found fs' cwd path dir' t') :
    mainF env' cwd .typeScript path out (some t') fs' = (.ok (), fs'') := by
  obtain ⟨ha, hcw⟩ := (C107_exact hs hc hf ho).1 ⟨fs', h⟩
  obtain ⟨ha', _⟩ := (C107_exact hs hc hf ho).1 ⟨fs'', h'⟩
  obtain ⟨o, fs1, h1, hs', _, h2, _⟩ := folder_run (env := env) (path := path) hs hc hf.2.2 ho
  rw [h] at h1
  obtain ⟨-, rfl⟩ := Prod.mk.inj h1
  have hafter := (h2 ha hcw).2
  obtain ⟨o', fs1', h1', _, _, h2', _⟩ := folder_run (env := env') (path := path) hs hc hf.2.2 ho
  rw [h'] at h1'
  obtain ⟨-, rfl⟩ := Prod.mk.inj h1'
  have hafter' := (h2' ha' hcw).2
  have hdirs : ∀ p, fs p = some .dir → fs' p = some .dir := fun p hp => after_kept hcw hafter hp
  have hd : dir' = dir := by
    have := walk_kept hdirs _ _ _ (goes_walk hf.2.1)
    rw [goes_walk hf'.2.1] at this
    exact Except.ok.inj this
  subst hd
  have hdir : fs' dir' = some .dir := hdirs _ (shows_dir hf.2.2)
  cases t' with
  | file c =>
    have := hf'.2.2
    cases this with
    | file _ _ hx => rw [hdir] at hx; cases hx
  | dir es' b' =>
    obtain ⟨o, fs2, k1, _, _, k2, _⟩ := folder_run (env := env') (path := path) hs' (hdirs _ hc) hf'.2.2 ho
    obtain ⟨rfl, k3⟩ := k2 (after_allCompile hcw hafter ha') (after_canWrite ha hcw hafter)
    rw [k1, after_unique ha' (after_after hcw hafter k3) hafter']

/-- C108: after the run, the input path still leads to the same directory, and there is a tree there. -/
theorem C108_found {env : Str → Env} {cwd : List Str} {path out : Str} {fs fs' : Files} {dir place : List Str} {es b}
    (hs : fs.Sound) (hfin : {p | fs p ≠ none}.Finite) (hc : fs cwd = some .dir) (hf : Found fs cwd path dir (.dir es b))
    (ho : Leads cwd out place) (h : mainF env cwd .typeScript path out (some (.dir es b)) fs = (.ok (), fs')) :
    ∃ t', Found fs' cwd path dir t' := by
  obtain ⟨ha, hcw⟩ := (C107_exact hs hc hf ho).1 ⟨fs', h⟩
  obtain ⟨o, fs1, h1, hs', _, h2, _⟩ := folder_run (env := env) (path := path) hs hc hf.2.2 ho
  rw [h] at h1
  obtain ⟨-, rfl⟩ := Prod.mk.inj h1
  have hafter := (h2 ha hcw).2
  have hdirs : ∀ p, fs p = some .dir → fs' p = some .dir := fun p hp => after_kept hcw hafter hp
  obtain ⟨t', ht⟩ := shows_tree hs' (after_finite hfin hafter) (dir := dir) (by rw [hdirs _ (shows_dir hf.2.2)]; simp)
  exact ⟨t', hf.1, walk_goes _ _ _ (walk_kept hdirs _ _ _ (goes_walk hf.2.1)), ht⟩

/-- C108: a run on one file `….pkt` that has succeeded can be repeated in the same way. -/
theorem C108_single {env : Str → Env} {cwd : List Str} {path out : Str} {fs fs' : Files} {dir place : List Str} {c : Option Str}
    {cs : List Comp} {stem : Str} (hs : fs.Sound) (hc : fs cwd = some .dir) (hf : Found fs cwd path dir (.file c))
    (ho : Leads cwd out place) (hp : components path = cs ++ [.normal (stem ++ ".pkt".toList)]) (h1 : stem ≠ [])
    (h2 : stem ≠ ".".toList) (h3 : stem ≠ "..".toList)
    (h : mainF env cwd .typeScript path out (some (.file c)) fs = (.ok (), fs')) :
    Found fs' cwd path dir (.file c) ∧ mainF env cwd .typeScript path out (some (.file c)) fs' = (.ok (), fs') := by
  obtain ⟨⟨text, code, k1, k2⟩, k3⟩ := (single_file (env := env) (path := path) (out := out) (c := c) hs hc ho hp h1 h2 h3).2 fs' h
  obtain ⟨fs1, k4, hw⟩ := (single_file (env := env) (path := path) (out := out) (c := c) hs hc ho hp h1 h2 h3).1 text code k1 k2 k3
  rw [h] at k4
  obtain ⟨-, rfl⟩ := Prod.mk.inj k4
  have hv : ∀ n ∈ place ++ [fileStem stem ++ ".ts".toList], ValidName n := by
    obtain ⟨hd, names, hcomp, hh, rfl⟩ := leads_iff ho
    intro n hn
    rcases List.mem_append.1 hn with hn | hn
    · rcases List.mem_append.1 hn with hn | hn
      · exact hs.names _ (by rw [(walk_up hs hd cwd hh hc).2]; simp) n hn
      · exact components_valid (p := out) (by rw [hcomp]; exact List.mem_append_right _ (List.mem_map_of_mem hn))
    · rw [List.mem_singleton.1 hn]
      have hst : '/' ∉ stem := fun hx =>
        (components_valid (p := path) (n := stem ++ ".pkt".toList) (by rw [hp]; simp)).2.1 (List.mem_append_left _ hx)
      have hfs : '/' ∉ fileStem stem := fun hx => hst ((fileStem_prefix stem).subset hx)
      have := valid_ext (x := "ts".toList) (fileStem_ne h1) hfs (by decide) (by decide) (by decide)
      rwa [List.append_assoc] at this
  have hs' : fs'.Sound := written_sound hs (by simp) hv k3 hw
  have hdirs : ∀ p, fs p = some .dir → fs' p = some .dir := fun p hpd => by
    rw [written_kept k3 hw (by rw [hpd]; simp) fun e => k3.2 (e ▸ hpd), hpd]
  have hdir : fs' dir = some (.file c) := by
    obtain ⟨_, hwk, hsh⟩ := hf
    have hwk := goes_walk hwk
    rw [hp] at hwk
    obtain ⟨m, _, _, rfl⟩ := walk_snoc hwk
    cases hsh with
    | file _ _ hx =>
      rw [written_kept k3 hw (by rw [hx]; simp) ?_, hx]
      intro e
      have := (List.append_inj' (show m ++ [stem ++ ".pkt".toList] = _ from e) rfl).2
      simp only [List.cons.injEq, and_true] at this
      exact pkt_ne_ts this
  refine ⟨⟨hf.1, walk_goes _ _ _ (walk_kept hdirs _ _ _ (goes_walk hf.2.1)), .file _ _ hdir⟩, ?_⟩
  have hfree : Free fs' (place ++ [fileStem stem ++ ".ts".toList]) :=
    ⟨fun p hpp hne c' => by rw [hw.2.1 p hpp hne]; simp, by rw [hw.1]; simp⟩
  obtain ⟨fs2, k5, hw'⟩ := (single_file (env := env) (path := path) (out := out) (c := c) hs' (hdirs _ hc) ho hp h1 h2 h3).1
    text code k1 k2 hfree
  rw [k5]
  congr 1
  funext p
  by_cases hpp : p <+: place ++ [fileStem stem ++ ".ts".toList]
  · by_cases hne : p = place ++ [fileStem stem ++ ".ts".toList]
    · rw [hne, hw.1, hw'.1]
    · rw [hw.2.1 p hpp hne, hw'.2.1 p hpp hne]
  · exact hw'.2.2 p hpp

/-! ## C109 -/

/-- A changed output path: something with `.ts`, or no name at all. -/
theorem formatPath_ts {file base out : Str} {b : Bool} {q : List Comp} (h : formatPath file base out .typeScript b = .ok q) :
    (∀ n, Comp.normal n ∈ q → ValidName n) ∧ ∀ n, fileName q = some n → ∃ stem, stem ≠ [] ∧ n = stem ++ ".ts".toList := by
  unfold formatPath at h
  cases ht : formatPathText file base out .typeScript b with
  | err e => rw [ht] at h; cases h
  | panic => rw [ht] at h; cases h
  | diverge => rw [ht] at h; cases h
  | ok text =>
    rw [ht] at h
    cases h
    refine ⟨fun n hn => components_valid hn, fun n hn => ?_⟩
    obtain ⟨t, rfl⟩ := formatPathText_ext ht
    rcases withExtension_components (text := t) (x := "ts".toList) (by decide) (by decide) (by decide) with ⟨h1, h2⟩ | ⟨m, h1, h2⟩
    · rw [h2, h1] at hn
      cases hn
    · have hv : ValidName m := components_valid (p := t) (by rw [fileName_some h1]; simp)
      rw [h2, fileName_append, Option.some.injEq] at hn
      refine ⟨fileStem m, fileStem_ne hv.1, ?_⟩
      rw [← hn, List.append_assoc]
      rfl

theorem onlyTs_trans {fs fs1 fs2 : Files} (h : OnlyTs fs fs1) (h' : OnlyTs fs1 fs2) : OnlyTs fs fs2 := by
  intro p hp
  rcases h p hp with h1 | ⟨⟨c, h1⟩, ⟨t, h2⟩, h3⟩
  · rcases h' p (by rw [h1]; exact hp) with h4 | ⟨⟨c, h4⟩, h5, h6⟩
    · exact .inl (by rw [h4, h1])
    · exact .inr ⟨⟨c, by rw [← h1, h4]⟩, h5, h6⟩
  · rcases h' p (by rw [h2]; simp) with h4 | ⟨_, h5, h6⟩
    · exact .inr ⟨⟨c, h1⟩, ⟨t, by rw [h4, h2]⟩, h3⟩
    · exact .inr ⟨⟨c, h1⟩, h5, h3⟩

theorem saveOneF_onlyTs {cwd : List Str} {s : Schema} {file base out : Str} {b : Bool} {q : List Comp} {fs : Files} (h : fs.Sound)
    (hc : fs cwd = some .dir) (hq : formatPath file base out .typeScript b = .ok q) :
    (saveOneF cwd s q fs).2.Sound ∧ OnlyTs fs (saveOneF cwd s q fs).2 := by
  obtain ⟨h1, h2⟩ := formatPath_ts hq
  obtain ⟨h3, h4⟩ := saveOneF_kept (s := s) h hc h1
  refine ⟨h3, fun p hp => ?_⟩
  rcases h4 p hp with h5 | ⟨h5, h6, x, h7, h8⟩
  · exact .inl h5
  · obtain ⟨stem, h9, rfl⟩ := h2 x h7
    refine .inr ⟨?_, h6, stem, h9, h8⟩
    cases hi : fs p with
    | none => exact absurd hi hp
    | some i =>
      cases i with
      | dir => exact absurd hi h5
      | file c => exact ⟨c, rfl⟩

theorem onlyTs_dir {fs fs' : Files} (h : OnlyTs fs fs') {p : List Str} (hp : fs p = some .dir) : fs' p = some .dir := by
  rcases h p (by rw [hp]; simp) with h1 | ⟨⟨c, h1⟩, _⟩
  · rw [h1, hp]
  · rw [hp] at h1; cases h1

theorem saveAllF_onlyTs {cwd : List Str} {base out : Str} : (ss : List Schema) → (fs : Files) → fs.Sound → fs cwd = some .dir →
    (saveAllF cwd base out .typeScript ss fs).2.Sound ∧ OnlyTs fs (saveAllF cwd base out .typeScript ss fs).2
  | [], fs, h, _ => ⟨h, fun _ _ => .inl rfl⟩
  | s :: ss, fs, h, hc => by
    unfold saveAllF
    cases hq : formatPath s.path base out .typeScript true with
    | err e => exact ⟨h, fun _ _ => .inl rfl⟩
    | panic => exact ⟨h, fun _ _ => .inl rfl⟩
    | diverge => exact ⟨h, fun _ _ => .inl rfl⟩
    | ok q =>
      simp only
      have h1 := saveOneF_onlyTs (s := s) h hc hq
      cases hr : saveOneF cwd s q fs with
      | mk o fs1 =>
        rw [hr] at h1
        obtain ⟨k1, k2⟩ := h1
        cases o with
        | ok u =>
          obtain ⟨k3, k4⟩ := saveAllF_onlyTs (cwd := cwd) (base := base) (out := out) ss fs1 k1 (onlyTs_dir k2 hc)
          exact ⟨k3, onlyTs_trans k2 k4⟩
        | err e => exact ⟨k1, k2⟩
        | panic => exact ⟨k1, k2⟩
        | diverge => exact ⟨k1, k2⟩

/-- C109: whatever a run does, and whatever the paths are, nothing is removed, no directory becomes a file or the
other way round, and only files with names in `.ts` are changed. -/
theorem C109_kept (env : Str → Env) {cwd : List Str} (path out : Str) (input : Option Tree) {fs : Files} (hs : fs.Sound)
    (hc : fs cwd = some .dir) :
    (mainF env cwd .typeScript path out input fs).2.Sound ∧ OnlyTs fs (mainF env cwd .typeScript path out input fs).2 := by
  have hself : fs.Sound ∧ OnlyTs fs fs := ⟨hs, fun _ _ => .inl rfl⟩
  cases input with
  | none => exact hself
  | some t =>
    cases t with
    | dir es b =>
      unfold mainF
      simp only
      cases runAll env path (.dir es b) with
      | ok ss => exact saveAllF_onlyTs ss fs hs hc
      | err e => exact hself
      | panic => exact hself
      | diverge => exact hself
    | file c =>
      unfold mainF
      simp only
      cases runOne env path c with
      | err e => exact hself
      | panic => exact hself
      | diverge => exact hself
      | ok s =>
        simp only
        cases hq : formatPath s.path path out .typeScript false with
        | err e => exact hself
        | panic => exact hself
        | diverge => exact hself
        | ok q => exact saveOneF_onlyTs hs hc hq

/-- C109: in particular all schemas stay as they are, and no directory with schemas becomes inaccessible. -/
theorem C109_schemas (env : Str → Env) {cwd : List Str} (path out : Str) (input : Option Tree) {fs : Files} (hs : fs.Sound)
    (hc : fs cwd = some .dir) {dir r : List Str} {c : Option Str} (h : fs.Schema dir r c) :
    (mainF env cwd .typeScript path out input fs).2.Schema dir r c := by
  refine ⟨?_, h.2⟩
  rcases (C109_kept env path out input hs hc).2 (dir ++ r) (by rw [h.1]; simp) with h1 | ⟨_, _, stem, _, h1⟩
  · rw [h1, h.1]
  · obtain ⟨d, s, hr, _⟩ := h.2
    rw [hr, ← List.append_assoc, List.getLast?_append] at h1
    simp only [List.getLast?_singleton, Option.some_or, Option.some.injEq] at h1
    exact absurd h1 pkt_ne_ts

/-- The file system of C107: a run in `in` on `a.ts` succeeds and puts its output beside `b.pkt`, and
there is a tree for the second run. (The run on the whole of `in` fails, see `C107_false`.) -/
example : ∃ fs', mainF exampleEnv ["in".toList] .typeScript "a.ts".toList "../in/./a.ts".toList
      (some (.dir [⟨"b.pkt".toList, true, .file (some exampleText)⟩] true)) (ofList (clashList exampleText)) = (.ok (), fs') ∧
    (∃ code, fs' ["in".toList, "a.ts".toList, "b.ts".toList] = some (.file (some code))) ∧
    (∃ t', Found fs' ["in".toList] "a.ts".toList ["in".toList, "a.ts".toList] t') ∧
    OnlyTs (ofList (clashList exampleText)) fs' := by
  have hs := clash_sound exampleText
  have hl : Leads ["in".toList] "../in/./a.ts".toList ["in".toList, "a.ts".toList] :=
    by
    have e : components "../in/./a.ts".toList = [.parent, .normal "in".toList, .normal "a.ts".toList] := by decide
    unfold Leads
    rw [e]
    exact ⟨.parent [] _ _ _ True.intro (.name _ _ _ _ True.intro (.name _ _ _ _ True.intro (.here _))), [.parent],
      ["in".toList, "a.ts".toList], rfl, by simp⟩
  have hf : Found (ofList (clashList exampleText)) ["in".toList] "a.ts".toList ["in".toList, "a.ts".toList]
      (.dir [⟨"b.pkt".toList, true, .file (some exampleText)⟩] true) := by
    refine ⟨by decide, walk_goes _ _ _ rfl, .dir _ _ rfl (by simp) (fun n => ?_) (by simp) fun e he => ?_⟩
    · rw [clash_children]
      simp
    · rw [List.mem_singleton.1 he]
      exact .file _ _ rfl
  have hsc : ∀ r c, (ofList (clashList exampleText)).Schema ["in".toList, "a.ts".toList] r c → r = ["b.pkt".toList] ∧ c = some exampleText := by
    intro r c h
    have := ofList_mem h.1
    simp only [clashList, List.mem_cons, List.not_mem_nil, or_false, Prod.mk.injEq, List.cons_append, List.nil_append,
      List.cons.injEq, reduceCtorEq, and_false, Item.file.injEq, false_or] at this
    rcases this with k | k
    · exact absurd k.1.2.1 (by decide)
    · exact ⟨k.1.2.2, k.2⟩
  obtain ⟨code, hcode⟩ := example_compiles
  have hall : AllCompile exampleEnv "a.ts".toList (ofList (clashList exampleText)) ["in".toList, "a.ts".toList] := by
    intro r c h
    exact ⟨code, exampleText, (hsc r c h).2, hcode⟩
  have hschema : (ofList (clashList exampleText)).Schema ["in".toList, "a.ts".toList] ["b.pkt".toList] (some exampleText) :=
    ⟨rfl, [], "b".toList, rfl, by decide⟩
  obtain ⟨fs', h1, h2⟩ := C107_files_partial hs rfl hf hl hall (fun r c q h ho => by
      obtain ⟨rfl, -⟩ := hsc r c h
      obtain rfl := outFile_unique ho ⟨[], "b".toList, rfl, rfl⟩
      have hd : ofList (clashList exampleText) ["in".toList, "a.ts".toList] = some .dir := rfl
      refine ⟨fun p hp hne c => ?_, ?_⟩
      · rw [hs.dirs hd ((List.prefix_concat_iff.1 hp).resolve_left hne)]
        simp
      · rw [show ofList (clashList exampleText) _ = none from rfl]
        simp)
    (by
      rintro ⟨d, stem, r, c, c', k1, k2⟩
      have e1 := (hsc _ _ k1).1
      have e2 := (hsc _ _ k2).1
      cases d with
      | nil =>
        simp only [List.nil_append, List.cons_append, List.cons.injEq] at e2
        exact pkt_ne_ts (a := "b".toList) e2.1.symm
      | cons x d => simp at e1)
  refine ⟨fs', h1, ⟨code, (h2 _).1 _ _ code hschema ⟨[], "b".toList, rfl, rfl⟩ ⟨exampleText, rfl, hcode⟩⟩, ?_, ?_⟩
  · refine C108_found hs ?_ rfl hf hl h1
    refine Set.Finite.subset (List.finite_toSet ((clashList exampleText).map Prod.fst)) fun p hp => ?_
    obtain ⟨i, hi⟩ := Option.ne_none_iff_exists'.1 hp
    exact List.mem_map_of_mem (f := Prod.fst) (ofList_mem hi)
  · have := (C109_kept exampleEnv "a.ts".toList "../in/./a.ts".toList
      (some (.dir [⟨"b.pkt".toList, true, .file (some exampleText)⟩] true)) hs (cwd := ["in".toList]) rfl).2
    rw [h1] at this
    exact this

end Packetc.Props
