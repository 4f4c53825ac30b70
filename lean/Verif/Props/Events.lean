import Verif.Props.Cli
import Verif.Proof.CliEvents
/-!
# C68-C72: what a run of the tool does, step by step

`mainT` records what `main` does; `main_recorded` says that it is the same run.
-/

namespace Packetc.Props
open Cli

/-- The recorded run ends like the plain one, and the plain one changes the files as recorded. -/
theorem main_recorded (env : Str → Env) (disk : Disk) (lang : Lang) (path out : Str) (input : Option Tree) (st : Store) :
    (mainT env disk lang path out input).1 = (main env disk lang path out input st).1 ∧
      (main env disk lang path out input st).2 = replay (mainT env disk lang path out input).2 st :=
  mainT_eq env disk lang path out input st

/-! ### the parts of a trace -/

theorem linesOf_append (t t' : List Event) : linesOf (t ++ t') = linesOf t ++ linesOf t' := List.filterMap_append
theorem writesOf_append (t t' : List Event) : writesOf (t ++ t') = writesOf t ++ writesOf t' := List.filterMap_append
theorem readsOf_append (t t' : List Event) : readsOf (t ++ t') = readsOf t ++ readsOf t' := List.filterMap_append

theorem linesOf_input {t : List Event} (h : ∀ e ∈ t, e.Input) : linesOf t = [] ∧ writesOf t = [] := by
  constructor <;>
  · refine List.filterMap_eq_nil_iff.2 fun e he => ?_
    have := h e he
    cases e <;> first | rfl | exact this.elim

theorem mainT_dir (env : Str → Env) (disk : Disk) (dir out : Str) (es b) :
    ((¬ ∃ ss, runAll env dir (.dir es b) = .ok ss) ∧ (∀ e ∈ (mainT env disk .typeScript dir out (some (.dir es b))).2, e.Input) ∧
      ¬ ∃ u, (mainT env disk .typeScript dir out (some (.dir es b))).1 = .ok u) ∨
    ∃ ss t, runAll env dir (.dir es b) = .ok ss ∧ (visitFilesT env dir (.dir es b) []).2 = t ∧ (∀ e ∈ t, e.Input) ∧
      mainT env disk .typeScript dir out (some (.dir es b)) =
        ((saveAllT disk dir out .typeScript 0 ss).1, t ++ (saveAllT disk dir out .typeScript 0 ss).2) := by
  have h1 : (visitFilesT env dir (.dir es b) []).1 = runAll env dir (.dir es b) := visitFilesT_fst env _ dir []
  have h2 := visitFilesT_input env (.dir es b) dir []
  by_cases hr : ∃ ss, runAll env dir (.dir es b) = .ok ss
  · obtain ⟨ss, hr⟩ := hr
    exact .inr ⟨ss, _, hr, rfl, h2, Traced.bind_ok (h1.trans hr)⟩
  · have := Traced.bind_not (x := visitFilesT env dir (.dir es b) [])
      (f := fun ss => saveAllT disk dir out .typeScript 0 ss) (by rw [h1]; exact hr)
    refine .inl ⟨hr, ?_, this.2⟩
    show ∀ e ∈ (Traced.bind _ _).2, _
    rw [this.1]
    exact h2

theorem mainT_file (env : Str → Env) (disk : Disk) (path out : Str) (content : Option Str) :
    (mainT env disk .typeScript path out (some (.file content)) = ((mainT env disk .typeScript path out (some (.file content))).1, [.read path]) ∧
      ¬ ∃ u, (mainT env disk .typeScript path out (some (.file content))).1 = .ok u) ∨
    (∃ s, runOne env path content = .ok s ∧ s.path = path ∧
      (((mainT env disk .typeScript path out (some (.file content))).2 = [.read path, .line out] ∧
        ¬ ∃ u, (mainT env disk .typeScript path out (some (.file content))).1 = .ok u) ∨
      ∃ p, formatPathText path path out .typeScript false = .ok p ∧
        mainT env disk .typeScript path out (some (.file content)) =
          ((saveOneT disk 0 s p).1, .read path :: .line out :: saveEvents disk 0 s p))) := by
  unfold mainT
  simp only [runOneT, formatPathT]
  cases hr : runOne env path content with
  | err e => exact .inl ⟨rfl, by simp [Traced.bind]⟩
  | panic => exact .inl ⟨rfl, by simp [Traced.bind]⟩
  | diverge => exact .inl ⟨rfl, by simp [Traced.bind]⟩
  | ok s =>
    have hp : s.path = path := (runOne_ok.1 hr).1
    refine .inr ⟨s, rfl, hp, ?_⟩
    · have e1 : (Traced.bind (Outcome.ok s, [Event.read path]) fun s =>
          Traced.bind (formatPathText s.path path out .typeScript false, if false = true then [] else [Event.line out])
            fun p => saveOneT disk 0 s p) = (Traced.bind (Outcome.ok s, [Event.read path]) fun s =>
          Traced.bind (formatPathText path path out .typeScript false, if false = true then [] else [Event.line out])
            fun p => saveOneT disk 0 s p) := by
        simp only [Traced.bind, hp]
      rw [e1]
      simp only [Traced.bind]
      cases hf : formatPathText path path out .typeScript false with
      | err e => exact .inl ⟨rfl, by simp⟩
      | panic => exact .inl ⟨rfl, by simp⟩
      | diverge => exact .inl ⟨rfl, by simp⟩
      | ok p =>
        obtain ⟨h1, -⟩ := saveOneT_eq disk 0 s p fun _ => none
        refine .inr ⟨p, rfl, ?_⟩
        have e2 : (saveOneT disk 0 s p).2 = saveEvents disk 0 s p := by rw [h1]
        rw [← e2]
        rfl

theorem parentOf_append (q : List Comp) (n : Str) : parentOf (q ++ [.normal n]) = some q := by
  simp [parentOf]

theorem saveEvents_block {disk : Disk} {k : Nat} {s : Schema} {text : Str} {q : List Comp} {n : Str}
    (h : components text = q ++ [.normal n]) :
    (disk.mkdir k = true ∧ SaveBlock (saveEvents disk k s text)) ∨
      (disk.mkdir k = false ∧ FailBlock (saveEvents disk k s text)) := by
  unfold saveEvents
  rw [h, parentOf_append]
  cases hm : disk.mkdir k with
  | true =>
    refine .inl ⟨rfl, _, _, s.generated, disk.write k, ⟨text, rfl, h⟩, ?_⟩
    rw [List.dropLast_concat]
    rfl
  | false =>
    refine .inr ⟨rfl, _, _, ⟨text, rfl, h⟩, ?_⟩
    rw [List.dropLast_concat]
    rfl

theorem saveAllT_blocks (disk : Disk) (dir out : Str) (ss : List Schema)
    (h : ∀ s ∈ ss, ∃ text q n, formatPathText s.path dir out .typeScript true = .ok text ∧
      components text = q ++ [.normal n]) : ∀ k, ∃ (blocks : List (List Event)) (last : List Event),
      (saveAllT disk dir out .typeScript k ss).2 = blocks.flatten ++ last ∧ (∀ b ∈ blocks, SaveBlock b) ∧
        (last = [] ∨ FailBlock last ∧ ¬ ∃ u, (saveAllT disk dir out .typeScript k ss).1 = .ok u) := by
  induction ss with
  | nil => exact fun k => ⟨[], [], rfl, by simp, .inl rfl⟩
  | cons s ss ih =>
    intro k
    obtain ⟨text, q, n, h1, h2⟩ := h s List.mem_cons_self
    obtain ⟨blocks, last, h3, h4, h5⟩ := ih (fun x hx => h x (List.mem_cons_of_mem _ hx)) (k + 1)
    obtain ⟨h6, -⟩ := saveOneT_eq disk k s text fun _ => none
    have e1 : saveAllT disk dir out .typeScript k (s :: ss) =
        (saveOneT disk k s text).bind fun _ => saveAllT disk dir out .typeScript (k + 1) ss := by
      show Traced.bind (formatPathT s.path dir out .typeScript true) _ = _
      rw [Traced.bind_ok (a := text) (by unfold formatPathT; exact h1)]
      simp [formatPathT]
    rw [e1, h6]
    by_cases hok : ∃ u, (saveOne disk k s (components text) fun _ => none).1 = .ok u
    · obtain ⟨u, hu⟩ := hok
      rw [Traced.bind_ok (a := u) hu]
      have hm : disk.mkdir k = true := by
        cases hm : disk.mkdir k with
        | true => rfl
        | false => unfold saveOne at hu; simp [hm] at hu
      rcases saveEvents_block (disk := disk) (k := k) (s := s) h2 with ⟨-, hb⟩ | ⟨hm', -⟩
      · refine ⟨saveEvents disk k s text :: blocks, last, ?_, ?_, h5⟩
        · rw [List.flatten_cons, List.append_assoc, ← h3]
        · intro b hb'
          rcases List.mem_cons.1 hb' with rfl | hb'
          · exact hb
          · exact h4 b hb'
      · rw [hm] at hm'
        cases hm'
    · obtain ⟨e2, e3⟩ := Traced.bind_not (x := ((saveOne disk k s (components text) fun _ => none).1, saveEvents disk k s text))
        (f := fun _ => saveAllT disk dir out .typeScript (k + 1) ss) hok
      rw [e2]
      rcases saveEvents_block (disk := disk) (k := k) (s := s) h2 with ⟨-, hb⟩ | ⟨-, hb⟩
      · exact ⟨[saveEvents disk k s text], [], by simp, by simpa using hb, .inl rfl⟩
      · exact ⟨[], saveEvents disk k s text, by simp, by simp, .inr ⟨hb, e3⟩⟩

theorem blocks_announced {blocks : List (List Event)} (h : ∀ b ∈ blocks, SaveBlock b) :
    List.Forall₂ Announces (linesOf blocks.flatten) (writesOf blocks.flatten) := by
  induction blocks with
  | nil => exact .nil
  | cons b blocks ih =>
    obtain ⟨l, p, c, r, h1, rfl⟩ := h b List.mem_cons_self
    rw [List.flatten_cons, linesOf_append, writesOf_append]
    exact .cons h1 (ih fun x hx => h x (List.mem_cons_of_mem _ hx))

/-- All compiled schemas are saved in place. -/
theorem runAll_texts {env : Str → Env} {dir out : Str} {es b ss} (hv : (Tree.dir es b).Valid)
    (h : runAll env dir (.dir es b) = .ok ss) : ∀ s ∈ ss, ∃ text p c, SchemaAt (.dir es b) p c ∧
      formatPathText s.path dir out .typeScript true = .ok text ∧ OutPath out p (components text) := by
  intro s hs
  obtain ⟨p, c, hsa, hp, _⟩ := (runAll_mem hv h s).1 hs
  have hn := at_valid hsa.1 hv
  obtain ⟨d, stem, rfl, hst⟩ := hsa.2
  obtain ⟨text, h1, h2⟩ := formatPathText_preserve dir out hst hn
  exact ⟨text, _, c, hsa, by rw [hp]; exact h1, d, stem, rfl, h2⟩

/-! ## C68 -/

/-- C68 as described: after a successful run, the lines printed tell exactly which files were written. -/
def C68_claim : Prop := ∀ (env : Str → Env) (disk : Disk) (path out : Str) (t : Tree), t.Valid →
  (mainT env disk .typeScript path out (some t)).1 = .ok () →
  List.Forall₂ Announces (linesOf (mainT env disk .typeScript path out (some t)).2)
    (writesOf (mainT env disk .typeScript path out (some t)).2)

/-- C68, in any run on a directory: after looking at the input, files are saved one after the other, each announced
before its directory is created and before it is written; at most the last announcement is not followed by a write,
namely if the directory could not be created. -/
theorem C68_blocks_partial (env : Str → Env) (disk : Disk) (dir out : Str) {es b} (hv : (Tree.dir es b).Valid) :
    ∃ (input : List Event) (blocks : List (List Event)) (last : List Event),
      (mainT env disk .typeScript dir out (some (.dir es b))).2 = input ++ blocks.flatten ++ last ∧
      (∀ e ∈ input, e.Input) ∧ (∀ b ∈ blocks, SaveBlock b) ∧
      (last = [] ∨ FailBlock last ∧ ¬ ∃ u, (mainT env disk .typeScript dir out (some (.dir es b))).1 = .ok u) := by
  rcases mainT_dir env disk dir out es b with ⟨-, h, -⟩ | ⟨ss, t, hr, -, ht, hm⟩
  · exact ⟨_, [], [], by simp, h, by simp, .inl rfl⟩
  · obtain ⟨blocks, last, h1, h2, h3⟩ := saveAllT_blocks disk dir out ss (fun s hs => by
      obtain ⟨text, p, c, -, h2, d, stem, -, h3⟩ := runAll_texts (out := out) hv hr s hs
      exact ⟨text, _, _, h2, h3⟩) 0
    rw [hm]
    exact ⟨t, blocks, last, by rw [h1, List.append_assoc], ht, h2, h3⟩

/-- C68 for runs on a directory. What is missing: runs on a single file, for which it is always false. -/
theorem C68_announced_partial (env : Str → Env) (disk : Disk) (dir out : Str) {es b} (hv : (Tree.dir es b).Valid)
    (h : (mainT env disk .typeScript dir out (some (.dir es b))).1 = .ok ()) :
    List.Forall₂ Announces (linesOf (mainT env disk .typeScript dir out (some (.dir es b))).2)
      (writesOf (mainT env disk .typeScript dir out (some (.dir es b))).2) := by
  obtain ⟨input, blocks, last, h1, h2, h3, h4⟩ := C68_blocks_partial env disk dir out hv
  rcases h4 with rfl | ⟨-, h4⟩
  · rw [h1, List.append_nil, linesOf_append, writesOf_append, (linesOf_input h2).1, (linesOf_input h2).2]
    exact blocks_announced h3
  · exact absurd ⟨_, h⟩ h4

/-- C68, runs on a single file: an additional line, the output directory, comes first. -/
theorem C68_single (env : Str → Env) (disk : Disk) (path out : Str) (content : Option Str)
    (h : (mainT env disk .typeScript path out (some (.file content))).1 = .ok ()) :
    ∃ l p, linesOf (mainT env disk .typeScript path out (some (.file content))).2 = [out, l] ∧
      writesOf (mainT env disk .typeScript path out (some (.file content))).2 = [p] ∧ Announces l p := by
  rcases mainT_file env disk path out content with ⟨-, h1⟩ | ⟨s, hs, hp, ⟨-, h1⟩ | ⟨p, h1, h2⟩⟩
  · exact absurd ⟨_, h⟩ h1
  · exact absurd ⟨_, h⟩ h1
  · obtain ⟨h3, -⟩ := saveOneT_eq disk 0 s p fun _ => none
    rw [h2] at h ⊢
    rw [h3] at h
    have hm : disk.mkdir 0 = true := by
      cases hm : disk.mkdir 0 with
      | true => rfl
      | false => unfold saveOne at h; simp [hm] at h
    refine ⟨_, components p, ?_, ?_, p, rfl, rfl⟩
    · unfold saveEvents
      rw [hm]
      cases parentOf (components p) <;> rfl
    · unfold saveEvents
      rw [hm]
      cases parentOf (components p) <;> rfl

/-- C68 is false of every successful run on a single file. -/
theorem C68_false_always (env : Str → Env) (disk : Disk) (path out : Str) (content : Option Str)
    (h : (mainT env disk .typeScript path out (some (.file content))).1 = .ok ()) :
    ¬ List.Forall₂ Announces (linesOf (mainT env disk .typeScript path out (some (.file content))).2)
      (writesOf (mainT env disk .typeScript path out (some (.file content))).2) := by
  obtain ⟨l, p, h1, h2, -⟩ := C68_single env disk path out content h
  rw [h1, h2]
  intro h
  have := h.length_eq
  simp at this

theorem single_succeeds {env : Str → Env} {disk : Disk} {path out : Str} {cs : List Comp} {stem text code : Str}
    (hp : components path = cs ++ [.normal (stem ++ ".pkt".toList)]) (hs : stem ≠ []) (hd : stem ≠ ".".toList)
    (hdd : stem ≠ "..".toList)
    (hc : compile (env path) text = .ok code) (h1 : disk.mkdir 0 = true) (h2 : disk.write 0 = none) :
    (mainT env disk .typeScript path out (some (.file (some text)))).1 = .ok () := by
  rw [(main_recorded _ _ _ _ _ _ fun _ => none).1, single_run (st := fun _ => none) hp hs hd hdd hc h1 h2]

theorem example_single : (mainT exampleEnv ⟨fun _ => true, fun _ => none⟩ .typeScript "a.pkt".toList "out".toList
    (some (.file (some exampleText)))).1 = .ok () := by
  obtain ⟨code, hc⟩ := example_compiles
  generalize exampleText = text at hc
  exact single_succeeds (env := exampleEnv) (disk := ⟨fun _ => true, fun _ => none⟩) (path := "a.pkt".toList)
    (out := "out".toList) (cs := []) (stem := "a".toList) (text := text) (code := code)
    (by decide) (by decide) (by decide) (by decide) hc rfl rfl

theorem C68_false : ¬ C68_claim := by
  have h0 := example_single
  generalize exampleText = text at h0
  exact fun h => C68_false_always _ _ _ _ _ h0 (h _ _ _ _ _ trivial h0)

theorem dir_succeeds {env : Str → Env} {disk : Disk} {dir out : Str} {t : Tree} (hv : t.Valid) (ht : ∃ es b, t = .dir es b)
    (h : ∃ ss, runAll env dir t = .ok ss) (hd : ∀ k, disk.mkdir k = true ∧ disk.write k = none) :
    (mainT env disk .typeScript dir out (some t)).1 = .ok () := by
  obtain ⟨es, b, rfl⟩ := ht
  obtain ⟨h1, h2⟩ := (runAll_succeeds hv).1 h
  obtain ⟨st, h3⟩ := C49_succeeds (disk := disk) (out := out) hv h1 h2 hd fun _ => none
  rw [(main_recorded _ _ _ _ _ _ fun _ => none).1, h3]

example : (exampleTree (some exampleText)).Valid ∧
    (mainT exampleEnv ⟨fun _ => true, fun _ => none⟩ .typeScript "in".toList "out".toList
      (some (exampleTree (some exampleText)))).1 = .ok () :=
  ⟨exampleTree_valid _, dir_succeeds (exampleTree_valid _) ⟨_, _, rfl⟩ exampleTree_compiles fun _ => ⟨rfl, rfl⟩⟩

/-- C68: for a language that is not supported, the command prints its name in lower case and does nothing else. -/
theorem C68_language (lower : Str → Str) (env : Str → Env) (disk : Disk) (arg path out : Str) (input : Option Tree)
    (h : lower arg ≠ "ts".toList) : commandT lower env disk arg path out input = (none, [.line (lower arg)]) := by
  unfold commandT langFromStr langLines
  rw [if_neg h, if_neg h]

example : (fun s : Str => s.map Char.toLower) "Rust".toList ≠ "ts".toList := by decide

/-! ## C69 -/

/-- C69: as long as the input is being listed and read, nothing has been printed, created or written. -/
theorem C69_input_first (env : Str → Env) (disk : Disk) (path out : Str) (input : Option Tree) {a b : List Event} {e : Event}
    (h : (mainT env disk .typeScript path out input).2 = a ++ e :: b) (he : e.Input) : ∀ x ∈ a, x.Input := by
  have key : ∀ t t' : List Event, (∀ x ∈ t, x.Input) → (∀ x ∈ t', ¬ x.Input) → t ++ t' = a ++ e :: b → ∀ x ∈ a, x.Input := by
    intro t t' ht ht' h x hx
    rcases List.append_eq_append_iff.1 h with ⟨c, rfl, h2⟩ | ⟨c, rfl, h2⟩
    · have : e ∈ t' := by rw [h2]; simp
      exact absurd he (ht' e this)
    · exact ht x (by simp [hx])
  have hsave : ∀ s p, ∀ k, ∀ x ∈ saveEvents disk k s p, ¬ x.Input := by
    intro s p k x hx
    unfold saveEvents at hx
    rcases List.mem_append.1 hx with hx | hx
    · rcases List.mem_cons.1 hx with rfl | hx
      · exact id
      · obtain ⟨d, -, rfl⟩ := List.mem_map.1 hx
        exact id
    · split_ifs at hx
      · rw [List.mem_singleton.1 hx]
        exact id
      · simp at hx
  cases input with
  | none =>
    have : ([] : List Event) = a ++ e :: b := h
    simp at this
  | some t =>
    cases t with
    | dir es c =>
      rcases mainT_dir env disk path out es c with ⟨-, h1, -⟩ | ⟨ss, t, -, -, h1, h2⟩
      · intro x hx
        exact h1 x (by rw [h]; simp [hx])
      · rw [h2] at h
        refine key t _ h1 ?_ h
        have : ∀ ss k, ∀ x ∈ (saveAllT disk path out .typeScript k ss).2, ¬ x.Input := by
          intro ss
          induction ss with
          | nil => intro k x hx; simp [saveAllT] at hx
          | cons s ss ih =>
            intro k
            refine Traced.bind_all (by simp [formatPathT]) fun p => ?_
            refine Traced.bind_all ?_ fun _ => ih (k + 1)
            rw [(saveOneT_eq disk k s p fun _ => none).1]
            exact hsave s p k
        exact this ss 0
    | file c =>
      rcases mainT_file env disk path out c with ⟨h1, -⟩ | ⟨s, -, -, ⟨h1, -⟩ | ⟨p, -, h1⟩⟩
      · rw [h1] at h
        exact key [.read path] [] (by simp [Event.Input]) (by simp) h
      · rw [h1] at h
        exact key [.read path] [.line out] (by simp [Event.Input]) (by simp [Event.Input]) h
      · rw [h1] at h
        refine key [.read path] (.line out :: saveEvents disk 0 s p) (by simp [Event.Input]) ?_ h
        intro x hx
        rcases List.mem_cons.1 hx with rfl | hx
        · exact id
        · exact hsave s p 0 x hx

/-- C69: a run on a directory that gets as far as saving has read every schema exactly once, and nothing else. -/
theorem C69_read_once {env : Str → Env} {disk : Disk} {dir out : Str} {es b} (hv : (Tree.dir es b).Valid)
    (h : ∃ ss, runAll env dir (.dir es b) = .ok ss) :
    (readsOf (mainT env disk .typeScript dir out (some (.dir es b))).2).Nodup ∧
      ∀ path, path ∈ readsOf (mainT env disk .typeScript dir out (some (.dir es b))).2 ↔
        ∃ p c, SchemaAt (.dir es b) p c ∧ path = below dir p := by
  rcases mainT_dir env disk dir out es b with ⟨h1, -⟩ | ⟨ss, t, hr, ht, h1, h2⟩
  · exact absurd h h1
  · have hno : ∀ ss k, readsOf (saveAllT disk dir out .typeScript k ss).2 = [] := by
      intro ss k
      refine List.filterMap_eq_nil_iff.2 ?_
      revert k
      induction ss with
      | nil => intro k x hx; simp [saveAllT] at hx
      | cons s ss ih =>
        intro k
        refine Traced.bind_all (by simp [formatPathT]) fun p => ?_
        refine Traced.bind_all ?_ fun _ => ih (k + 1)
        rw [(saveOneT_eq disk k s p fun _ => none).1]
        intro x hx
        unfold saveEvents at hx
        rcases List.mem_append.1 hx with hx | hx
        · rcases List.mem_cons.1 hx with rfl | hx
          · rfl
          · obtain ⟨d, -, rfl⟩ := List.mem_map.1 hx
            rfl
        · split_ifs at hx
          · rw [List.mem_singleton.1 hx]
          · simp at hx
    have h3 : readsOf (mainT env disk .typeScript dir out (some (.dir es b))).2 = ss.map Schema.path := by
      rw [h2]
      show readsOf (t ++ _) = _
      rw [readsOf_append, hno, List.append_nil]
      have := visitFilesT_reads env (.dir es b) dir [] ss (by rw [visitFilesT_fst]; exact hr)
      rw [this, ht]
      simp
    rw [h3]
    refine ⟨(C48_once hv hr).1, fun path => ?_⟩
    constructor
    · intro hp
      obtain ⟨s, hs, rfl⟩ := List.mem_map.1 hp
      obtain ⟨p, c, h4, h5, -⟩ := (C48_exactly hv hr s).1 hs
      exact ⟨p, c, h4, h5⟩
    · rintro ⟨p, c, h4, rfl⟩
      obtain ⟨code, h5⟩ := ((C48_succeeds hv).1 h).2 p c h4
      exact List.mem_map.2 ⟨⟨below dir p, code⟩, (C48_exactly hv hr _).2 ⟨p, c, h4, rfl, h5⟩, rfl⟩

example : (exampleTree (some exampleText)).Valid ∧
    ∃ ss, runAll exampleEnv "in".toList (exampleTree (some exampleText)) = .ok ss :=
  ⟨exampleTree_valid _, exampleTree_compiles⟩

/-! ## C70 -/

theorem writes_formatted (env : Str → Env) (disk : Disk) (path out : Str) (input : Option Tree) :
    ∀ p ∈ writesOf (mainT env disk .typeScript path out input).2, Formatted p := by
  intro p hp
  cases input with
  | none => simp [mainT, writesOf] at hp
  | some t =>
    cases t with
    | dir es c =>
      rcases mainT_dir env disk path out es c with ⟨-, h1, -⟩ | ⟨ss, t, -, -, h1, h2⟩
      · rw [(linesOf_input h1).2] at hp
        simp at hp
      · rw [h2] at hp
        rw [show writesOf (_, t ++ (saveAllT disk path out Lang.typeScript 0 ss).2).2 = writesOf t ++ _ from
          writesOf_append _ _, (linesOf_input h1).2, List.nil_append] at hp
        refine saveAllT_writes (P := Formatted) ss (fun s _ text ht => ?_) 0 p hp
        obtain ⟨t, rfl⟩ := formatPathText_ext ht
        exact ⟨t, rfl⟩
    | file c =>
      rcases mainT_file env disk path out c with ⟨h1, -⟩ | ⟨s, -, -, ⟨h1, -⟩ | ⟨q, hq, h1⟩⟩
      · rw [h1] at hp
        simp [writesOf] at hp
      · rw [h1] at hp
        simp [writesOf] at hp
      · rw [h1] at hp
        have := saveEvents_writes (disk := disk) (k := 0) (s := s) (text := q) (by simpa [writesOf] using hp)
        obtain ⟨t, rfl⟩ := formatPathText_ext hq
        exact ⟨t, this⟩

/-- C70: every file that a run changes is called something with `.ts` at the end. (A path without a file name, such as
`out/..`, is a directory, see `C50_dots`.) This holds of any input, also when the run fails. -/
theorem C70_only_ts (env : Str → Env) (disk : Disk) (path out : Str) (input : Option Tree) (st : Store) {q : List Comp}
    (h : (main env disk .typeScript path out input st).2 q ≠ st q) :
    fileName q = none ∨ ∃ stem, stem ≠ [] ∧ fileName q = some (stem ++ ".ts".toList) := by
  rw [(main_recorded env disk .typeScript path out input st).2] at h
  by_cases hq : q ∈ writesOf (mainT env disk .typeScript path out input).2
  · obtain ⟨t, rfl⟩ := writes_formatted env disk path out input q hq
    rcases withExtension_components (text := t) (x := "ts".toList) (by decide) (by decide) (by decide) with
      ⟨h1, h2⟩ | ⟨n, h1, h2⟩
    · left
      rw [h2, h1]
    · right
      have hv : ValidName n := components_valid (p := t) (by rw [fileName_some h1]; simp)
      refine ⟨fileStem n, fileStem_ne hv.1, ?_⟩
      rw [h2, fileName_append, List.append_assoc]
      rfl
  · exact absurd (replay_other hq st) h

/-- C70: no schema is ever overwritten. -/
theorem C70_schemas_kept (env : Str → Env) (disk : Disk) (path out : Str) (input : Option Tree) (st : Store) {q : List Comp}
    {stem : Str} (hq : fileName q = some (stem ++ ".pkt".toList)) :
    (main env disk .typeScript path out input st).2 q = st q := by
  by_contra h
  rcases C70_only_ts env disk path out input st h with h1 | ⟨s, -, h1⟩
  · rw [hq] at h1
    cases h1
  · rw [hq] at h1
    have h2 := congrArg (List.getLast? ·) (Option.some.inj h1)
    simp only [List.getLast?_append] at h2
    revert h2
    rw [show ".pkt".toList.getLast? = some 't' by decide, show ".ts".toList.getLast? = some 's' by decide]
    simp

/-- A run that does change a file. -/
example : (main exampleEnv ⟨fun _ => true, fun _ => none⟩ .typeScript "a.pkt".toList "out".toList
    (some (.file (some exampleText))) fun _ => none).2 [.normal "out".toList, .normal "a.ts".toList] ≠ none := by
  obtain ⟨code, hc⟩ := example_compiles
  generalize exampleText = text at hc ⊢
  rw [single_run (env := exampleEnv) (disk := ⟨fun _ => true, fun _ => none⟩) (path := "a.pkt".toList)
    (out := "out".toList) (cs := []) (stem := "a".toList) (text := text) (code := code) (st := fun _ => none)
    (by decide) (by decide) (by decide) (by decide) hc rfl rfl]
  have : components "out".toList ++ [.normal (fileStem "a".toList ++ ".ts".toList)] =
    [.normal "out".toList, .normal "a.ts".toList] := by decide
  rw [this]
  simp [Store.set]

/-! ## C71 -/

/-- A file below the output directory (lexically). -/
def Below (out : Str) (q : List Comp) : Prop := ∃ (d : List Str) (name : Str), q = components out ++ d.map Comp.normal ++ [.normal name] ∧
  ValidName name ∧ ∀ n ∈ d, ValidName n

/-- C71 as described: a run writes only below the output directory. -/
def C71_claim : Prop := ∀ (env : Str → Env) (disk : Disk) (path out : Str) (t : Tree), t.Valid →
  ∀ q ∈ writesOf (mainT env disk .typeScript path out (some t)).2, Below out q

/-- C71 for runs on a directory, and for runs on a single file unless it is called `..pkt` or `...pkt`, or similarly with
another extension. What is missing: these names, for which it is false. -/
theorem C71_below_partial (env : Str → Env) (disk : Disk) (path out : Str) (t : Tree) (hv : t.Valid)
    (hn : ∀ c n, t = .file c → fileName (components path) = some n → fileStem n ≠ ".".toList ∧ fileStem n ≠ "..".toList) :
    ∀ q ∈ writesOf (mainT env disk .typeScript path out (some t)).2, Below out q := by
  intro q hq
  cases t with
  | dir es c =>
    rcases mainT_dir env disk path out es c with ⟨-, h1, -⟩ | ⟨ss, t, hr, -, h1, h2⟩
    · rw [(linesOf_input h1).2] at hq
      simp at hq
    · rw [h2] at hq
      rw [show writesOf (_, t ++ (saveAllT disk path out Lang.typeScript 0 ss).2).2 = writesOf t ++ _ from
        writesOf_append _ _, (linesOf_input h1).2, List.nil_append] at hq
      refine saveAllT_writes (P := Below out) ss (fun s hs text ht => ?_) 0 q hq
      obtain ⟨text', p, c', hsa, h3, d, stem, rfl, h5⟩ := runAll_texts (out := out) hv hr s hs
      rw [h3] at ht
      cases ht
      have := at_valid hsa.1 hv
      refine ⟨d, _, h5, ?_, fun n hn => this n (by simp [hn])⟩
      have hv' := this (stem ++ ".pkt".toList) (by simp)
      have hst : stem ≠ [] := by
        obtain ⟨d', stem', he, hs'⟩ := hsa.2
        have e1 := List.append_inj_right' he rfl
        have e2 : stem ++ ".pkt".toList = stem' ++ ".pkt".toList := by simpa using e1
        rw [List.append_cancel_right e2]
        exact hs'
      have := valid_ext (stem := stem) (x := "ts".toList) hst (fun h => hv'.2.1 (List.mem_append_left _ h))
        (by decide) (by decide) (by decide)
      rw [List.append_assoc] at this
      exact this
  | file c =>
    rcases mainT_file env disk path out c with ⟨h1, -⟩ | ⟨s, -, -, ⟨h1, -⟩ | ⟨p, hp, h1⟩⟩
    · rw [h1] at hq
      simp [writesOf] at hq
    · rw [h1] at hq
      simp [writesOf] at hq
    · rw [h1] at hq
      have hq := saveEvents_writes (disk := disk) (k := 0) (s := s) (text := p) (by simpa [writesOf] using hq)
      cases hf : fileName (components path) with
      | none =>
        unfold formatPathText at hp
        rw [if_neg (by simp), hf] at hp
        cases hp
      | some n =>
        have hv : ValidName n := components_valid (p := path) (by rw [fileName_some hf]; simp)
        obtain ⟨hd, hdd⟩ := hn c n rfl hf
        have hvs : ValidName (fileStem n) :=
          ⟨fileStem_ne hv.1, fun h => hv.2.1 ((fileStem_prefix n).subset h), hd, hdd⟩
        obtain ⟨text, h2, h3⟩ := formatPathText_single out (base := path) hf hvs
        rw [h2] at hp
        cases hp
        refine ⟨[], fileStem (fileStem n) ++ ".ts".toList, by rw [hq, h3]; simp, ?_, by simp⟩
        have := valid_ext (stem := fileStem (fileStem n)) (x := "ts".toList) (fileStem_ne hvs.1)
          (fun h => hvs.2.1 ((fileStem_prefix _).subset h)) (by decide) (by decide) (by decide)
        rw [List.append_assoc] at this
        exact this

/-- C71 is false: `..pkt` is written beside the output directory. -/
theorem C71_false : ¬ C71_claim := by
  intro h
  obtain ⟨code, hc⟩ := example_compiles
  generalize exampleText = text at hc
  have h1 := C50_dot (env := exampleEnv) (disk := ⟨fun _ => true, fun _ => none⟩) (path := "..pkt".toList)
    (out := "out".toList) (cs := []) (os := []) (o := "out".toList) (text := text) (code := code) (st := fun _ => none)
    (by decide) (by decide) hc rfl rfl
  have h2 := h exampleEnv ⟨fun _ => true, fun _ => none⟩ "..pkt".toList "out".toList (.file (some text)) trivial
    [.normal "out.ts".toList]
  have h3 : [Comp.normal "out.ts".toList] ∈ writesOf (mainT exampleEnv ⟨fun _ => true, fun _ => none⟩ .typeScript
      "..pkt".toList "out".toList (some (.file (some text)))).2 := by
    by_contra hn
    have h4 := replay_other hn fun _ => none
    rw [← (main_recorded exampleEnv ⟨fun _ => true, fun _ => none⟩ .typeScript "..pkt".toList "out".toList
      (some (.file (some text))) fun _ => none).2, h1] at h4
    have e : [] ++ [Comp.normal (fileStem "out".toList ++ ".ts".toList)] = [Comp.normal "out.ts".toList] := by decide
    rw [e] at h4
    simp [Store.set] at h4
  obtain ⟨d, n, h5, -⟩ := h2 h3
  have h6 := congrArg List.length h5
  have e2 : (components "out".toList).length = 1 := by decide
  rw [List.length_append, List.length_append, e2] at h6
  simp at h6

example : (exampleTree (some exampleText)).Valid ∧ Below "out".toList [.normal "out".toList, .normal "sub".toList, .normal "b.ts".toList] :=
  ⟨exampleTree_valid _, ["sub".toList], "b.ts".toList, by decide, by unfold ValidName; decide, by
    intro n hn; rw [List.mem_singleton.1 hn]; unfold ValidName; decide⟩

/-! ## C72 -/

/-- C72: what a run on a directory leaves behind depends only on the `.pkt` files in it: two trees with the same
schemas, both of which can be listed, give the same result, if no file operation fails. In particular, files that an
earlier run has put there make no difference. -/
theorem C72_only_schemas {env : Str → Env} {disk : Disk} {dir out : Str} {es b es' b'} (hv : (Tree.dir es b).Valid)
    (hv' : (Tree.dir es' b').Valid) (ha : (Tree.dir es b).Accessible) (ha' : (Tree.dir es' b').Accessible)
    (hs : ∀ p c, SchemaAt (.dir es b) p c ↔ SchemaAt (.dir es' b') p c)
    (hd : ∀ k, disk.mkdir k = true ∧ disk.write k = none) (st : Store) :
    ((main env disk .typeScript dir out (some (.dir es b)) st).1 = .ok () ↔
      (main env disk .typeScript dir out (some (.dir es' b')) st).1 = .ok ()) ∧
    (main env disk .typeScript dir out (some (.dir es b)) st).2 =
      (main env disk .typeScript dir out (some (.dir es' b')) st).2 := by
  by_cases hc : ∀ p c, SchemaAt (.dir es b) p c → ∃ code, CompilesTo env dir p c code
  · have hc' : ∀ p c, SchemaAt (.dir es' b') p c → ∃ code, CompilesTo env dir p c code :=
      fun p c h => hc p c ((hs p c).2 h)
    obtain ⟨st1, h1⟩ := C49_succeeds (out := out) hv ha hc hd st
    obtain ⟨st2, h2⟩ := C49_succeeds (out := out) hv' ha' hc' hd st
    rw [h1, h2]
    refine ⟨by simp, ?_⟩
    obtain ⟨h3, h4⟩ := C49_written hv h1
    obtain ⟨h5, h6⟩ := C49_written hv' h2
    funext q
    by_cases hq : ∃ p c, SchemaAt (.dir es b) p c ∧ OutPath out p q
    · obtain ⟨p, c, h7, h8⟩ := hq
      obtain ⟨code, q1, ⟨t1, e1, h9⟩, h10, h11⟩ := h3 p c h7
      obtain ⟨code', q2, ⟨t2, e2, h12⟩, h13, h14⟩ := h5 p c ((hs p c).1 h7)
      rw [outPath_unique h10 h8] at h11
      rw [outPath_unique h13 h8] at h14
      rw [e1] at e2
      cases e2
      rw [h9] at h12
      cases h12
      show st1 q = st2 q
      rw [h11, h14]
    · show st1 q = st2 q
      rw [h4 q hq, h6 q]
      rintro ⟨p, c, h7, h8⟩
      exact hq ⟨p, c, (hs p c).2 h7, h8⟩
  · have hn : ¬ ∃ ss, runAll env dir (.dir es b) = .ok ss := fun h => hc ((runAll_succeeds hv).1 h).2
    have hn' : ¬ ∃ ss, runAll env dir (.dir es' b') = .ok ss := fun h =>
      hc fun p c hp => ((runAll_succeeds hv').1 h).2 p c ((hs p c).1 hp)
    obtain ⟨o, h1, h2⟩ := main_dir_not (disk := disk) (out := out) (st := st) hn
    obtain ⟨o', h3, h4⟩ := main_dir_not (disk := disk) (out := out) (st := st) hn'
    rw [h1, h3]
    exact ⟨⟨fun h => absurd h h2, fun h => absurd h h4⟩, rfl⟩

/-- The hypotheses of C72 hold of a directory before and after its outputs have been put into it. -/
example : ∃ es es' : List (EntryOf Tree), es.length ≠ es'.length ∧ (Tree.dir es true).Valid ∧ (Tree.dir es' true).Valid ∧
    (Tree.dir es true).Accessible ∧ (Tree.dir es' true).Accessible ∧
    ∀ p c, SchemaAt (.dir es true) p c ↔ SchemaAt (.dir es' true) p c := by
  refine ⟨[⟨"a.pkt".toList, true, .file (some exampleText)⟩],
    [⟨"a.ts".toList, true, .file (some [])⟩, ⟨"a.pkt".toList, true, .file (some exampleText)⟩], by decide,
    ⟨by decide, by unfold ValidName; decide, trivial, trivial⟩,
    ⟨by decide, by unfold ValidName; decide, trivial, trivial, trivial⟩,
    ⟨rfl, fun _ => rfl, trivial⟩, ⟨rfl, fun _ => rfl, fun _ => rfl, trivial⟩, fun p c => ?_⟩
  constructor
  · rintro ⟨h1, h2⟩
    refine ⟨?_, h2⟩
    cases h1 with
    | dir _ _ e p c he h =>
      exact .dir _ _ e p c (List.mem_cons_of_mem _ he) h
  · rintro ⟨h1, h2⟩
    refine ⟨?_, h2⟩
    cases h1 with
    | dir _ _ e p c he h =>
      rcases List.mem_cons.1 he with rfl | he
      · exfalso
        have h : At (.file (some [])) p c := h
        cases h
        obtain ⟨d, stem, h3, h4⟩ := h2
        have h5 : ["a.ts".toList] = d ++ [stem ++ ".pkt".toList] := h3
        have h6 := congrArg (fun l => l.getLast?) h5
        simp only [List.getLast?_append, List.getLast?_singleton, Option.some_or, Option.some.injEq] at h6
        have h7 := congrArg List.getLast? h6
        rw [List.getLast?_append] at h7
        revert h7
        rw [show ".pkt".toList.getLast? = some 't' by decide, show "a.ts".toList.getLast? = some 's' by decide]
        simp
      · exact .dir _ _ e p c he h

end Packetc.Props
