import Verif.Proof.Parallel
import Verif.Props.Folders
/-!
# Runs at the same time (C110)
-/

namespace Packetc.Props
open Cli

/-- C110: a run that is alone does what `mainF` says (C107-C109). -/
theorem C110_alone (env : Str → Env) (cwd : List Str) (lang : Lang) (path out : Str) (input : Option Tree) (fs : Files) {n : Nat}
    {o : Outcome Unit} {fs' : Files} (h : Steps n ([(cwd, mainP env lang path out input)], fs) ([(cwd, .done o)], fs')) :
    mainF env cwd lang path out input fs = (o, fs') := by
  rw [← mainP_run]
  generalize mainP env lang path out input = prog at h
  generalize hc : (([(cwd, prog)], fs) : Runs × Files) = c at h
  generalize hd : (([(cwd, .done o)], fs') : Runs × Files) = d at h
  induction h generalizing prog fs with
  | none c =>
    rw [← hd] at hc
    simp only [Prod.mk.injEq, List.cons.injEq, and_true, true_and] at hc
    rw [hc.1, hc.2]
    rfl
  | more n c c' c'' h1 _ ih =>
    cases h1 with
    | step before after cwd' prog' fs1 hn =>
      simp only [Prod.mk.injEq] at hc
      obtain ⟨h2, rfl⟩ := hc
      cases before with
      | cons x b => simp at h2
      | nil =>
        simp only [List.nil_append, List.cons.injEq, Prod.mk.injEq] at h2
        obtain ⟨⟨rfl, rfl⟩, rfl⟩ := h2
        rw [← step_run]
        exact ih _ _ rfl hd

/-- C110: several runs at the same time, whose outputs can be there together: whatever the order of their
operations, they all end, all of them succeed, and then the outputs are there as if each run had been alone. -/
theorem C110_runs {fs : Files} (hs : fs.Sound) {js : List Job} (ht : Together fs js) (hr : ∀ j ∈ js, j.Ready fs) :
    ∃ N, ∀ n c fs', Steps n (js.map Job.start, fs) (c, fs') →
      n ≤ N ∧ (∀ x ∈ c, ∀ o, x.2 = .done o → o = .ok ()) ∧
      ((∀ x ∈ c, x.2.Ended) → AfterAll js fs fs') ∧ ((∃ x ∈ c, ¬ x.2.Ended) → ∃ c', OneStep (c, fs') c') := by
  refine ⟨total (js.map Job.start), fun n c fs' h => ?_⟩
  have hg := going_steps h (going_start hs ht hr)
  refine ⟨steps_total h, going_ok hg, fun he => going_end hg he, ?_⟩
  rintro ⟨⟨cwd, prog⟩, hx, hn⟩
  obtain ⟨a, b, rfl⟩ := List.append_of_mem hx
  exact ⟨_, .step _ _ _ _ _ hn⟩

/-- C110: at no time do the runs change a schema or make a new one. -/
theorem C110_schemas {fs : Files} (hs : fs.Sound) {js : List Job} (ht : Together fs js) (hr : ∀ j ∈ js, j.Ready fs)
    {n : Nat} {c : Runs} {fs' : Files} (h : Steps n (js.map Job.start, fs) (c, fs')) (dir r : List Str) (x : Option Str) :
    fs'.Schema dir r x ↔ fs.Schema dir r x :=
  going_schema (going_steps h (going_start hs ht hr)) ht.free dir r x

theorem afterAll_unique {js : List Job} {fs fs1 fs2 : Files} (h1 : AfterAll js fs fs1) (h2 : AfterAll js fs fs2) : fs1 = fs2 := by
  funext q
  by_cases hq : ∃ p code, Output fs js p code ∧ q <+: p
  · obtain ⟨p, code, k1, k2⟩ := hq
    by_cases hne : q = p
    · subst hne
      rw [(h1 q).1 code k1, (h2 q).1 code k1]
    · rw [(h1 q).2.1 ⟨p, code, k1, k2, hne⟩, (h2 q).2.1 ⟨p, code, k1, k2, hne⟩]
  · rw [(h1 q).2.2 hq, (h2 q).2.2 hq]

theorem steps_append {n m : Nat} {a b c : Runs × Files} (h : Steps n a b) (h' : Steps m b c) : ∃ k, Steps k a c := by
  induction h with
  | none => exact ⟨_, h'⟩
  | more n x y z h1 _ ih =>
    obtain ⟨k, hk⟩ := ih h'
    exact ⟨_, .more _ _ _ _ h1 hk⟩

/-- One of the runs goes to its end. -/
theorem steps_run (before after : Runs) (cwd : List Str) : (d : Nat) → (prog : Prog) → prog.depth ≤ d → (fs : Files) →
    ∃ n, Steps n (before ++ (cwd, prog) :: after, fs) (before ++ (cwd, .done (prog.run cwd fs).1) :: after, (prog.run cwd fs).2) := by
  intro d
  induction d with
  | zero =>
    intro prog h fs
    by_cases hn : prog.Ended
    · obtain ⟨o, rfl⟩ := hn
      exact ⟨0, .none _⟩
    · have := step_depth (cwd := cwd) hn fs
      omega
  | succ d ih =>
    intro prog h fs
    by_cases hn : prog.Ended
    · obtain ⟨o, rfl⟩ := hn
      exact ⟨0, .none _⟩
    · have := step_depth (cwd := cwd) hn fs
      obtain ⟨n, k⟩ := ih (prog.step cwd fs).1 (by omega) (prog.step cwd fs).2
      rw [step_run] at k
      exact ⟨n + 1, .more _ _ _ _ (.step _ _ _ _ _ hn) k⟩

/-- The runs one after the other, each with the tree that it would have found at the start. -/
def inTurn (js : List Job) (fs : Files) : Files :=
  js.foldl (fun fs j => (mainF j.env j.cwd .typeScript j.path j.out (some j.input) fs).2) fs

theorem inTurn_steps : (js : List Job) → (before : Runs) → (fs : Files) → (∀ x ∈ before, x.2.Ended) →
    ∃ n c, Steps n (before ++ js.map Job.start, fs) (c, inTurn js fs) ∧ ∀ x ∈ c, x.2.Ended
  | [], before, fs, h => ⟨0, before, by rw [List.map_nil, List.append_nil]; exact .none _, h⟩
  | j :: js, before, fs, h => by
    obtain ⟨n, k⟩ := steps_run before (js.map Job.start) j.cwd _ j.start.2 (le_refl _) fs
    have hm : j.start.2.run j.cwd fs = mainF j.env j.cwd .typeScript j.path j.out (some j.input) fs :=
      mainP_run j.env j.cwd .typeScript j.path j.out (some j.input) fs
    rw [hm] at k
    obtain ⟨m, c, k2, k3⟩ := inTurn_steps js
      (before ++ [(j.cwd, .done (mainF j.env j.cwd .typeScript j.path j.out (some j.input) fs).1)])
      (mainF j.env j.cwd .typeScript j.path j.out (some j.input) fs).2 (by
        intro x hx
        rcases List.mem_append.1 hx with hx | hx
        · exact h x hx
        · rw [List.mem_singleton.1 hx]; exact ⟨_, rfl⟩)
    rw [List.append_assoc] at k2
    obtain ⟨j, hj⟩ := steps_append k k2
    exact ⟨j, c, hj, k3⟩

/-- C110: the result is that of the same runs one after the other, in any order. -/
theorem C110_in_turn {fs : Files} (hs : fs.Sound) {js : List Job} (ht : Together fs js) (hr : ∀ j ∈ js, j.Ready fs)
    {n : Nat} {c : Runs} {fs' : Files} (h : Steps n (js.map Job.start, fs) (c, fs')) (he : ∀ x ∈ c, x.2.Ended)
    {js' : List Job} (hp : js.Perm js') : fs' = inTurn js' fs := by
  have hout : Output fs js' = Output fs js := by
    funext q code
    unfold Output
    simp only [hp.mem_iff]
  have ht' : Together fs js' := by
    refine ⟨?_, ?_, ?_⟩ <;> rw [hout]
    exacts [ht.free, ht.apart, ht.agree]
  have hr' : ∀ j ∈ js', j.Ready fs := fun j hm => hr j (hp.mem_iff.2 hm)
  obtain ⟨m, c', k1, k2⟩ := inTurn_steps js' [] fs (by simp)
  have h1 := going_end (going_steps h (going_start hs ht hr)) he
  have h2 := going_end (going_steps k1 (going_start hs ht' hr')) k2
  refine afterAll_unique h1 ?_
  unfold AfterAll at h2 ⊢
  rw [hout] at h2
  exact h2

/-! ### An example -/

/-- In `in`, the directory `a.ts`, with the outputs beside the schemas. -/
def beside : Job :=
  ⟨exampleEnv, ["in".toList], "a.ts".toList, "../in/./a.ts".toList, .dir [⟨"b.pkt".toList, true, .file (some exampleText)⟩] true,
    ["in".toList, "a.ts".toList], ["in".toList, "a.ts".toList]⟩

/-- The same schemas, with the outputs in the new directory `x/y`. -/
def elsewhere : Job :=
  ⟨exampleEnv, [], "in/a.ts".toList, "x/y".toList, .dir [⟨"b.pkt".toList, true, .file (some exampleText)⟩] true,
    ["in".toList, "a.ts".toList], ["x".toList, "y".toList]⟩

/-- The single file `in/a.pkt`, with the output in the same new directory. -/
def single : Job :=
  ⟨exampleEnv, [], "in/a.pkt".toList, "x/y".toList, .file (some exampleText),
    ["in".toList, "a.pkt".toList], ["x".toList, "y".toList]⟩

theorem clash_inner {r : List Str} {c : Option Str}
    (h : (ofList (clashList exampleText)).Schema ["in".toList, "a.ts".toList] r c) : r = ["b.pkt".toList] ∧ c = some exampleText := by
  have := ofList_mem h.1
  simp only [clashList, List.mem_cons, List.not_mem_nil, or_false, Prod.mk.injEq, List.cons_append, List.nil_append,
    List.cons.injEq, reduceCtorEq, and_false, Item.file.injEq, false_or] at this
  rcases this with k | k
  · exact absurd k.1.2.1 (by decide)
  · exact ⟨k.1.2.2, k.2⟩

theorem clash_inner_shows : Shows (ofList (clashList exampleText)) ["in".toList, "a.ts".toList]
    (.dir [⟨"b.pkt".toList, true, .file (some exampleText)⟩] true) := by
  refine .dir _ _ rfl (by simp) (fun n => ?_) (by simp) fun e he => ?_
  · rw [clash_children]
    simp
  · rw [List.mem_singleton.1 he]
    exact .file _ _ rfl

theorem leads_xy : Leads [] "x/y".toList ["x".toList, "y".toList] := by
  have e : components "x/y".toList = [.normal "x".toList, .normal "y".toList] := by decide
  unfold Leads
  rw [e]
  exact ⟨.name [] _ _ _ True.intro (.name _ _ _ _ True.intro (.here _)), [], ["x".toList, "y".toList], rfl, by simp⟩

theorem leads_beside : Leads ["in".toList] "../in/./a.ts".toList ["in".toList, "a.ts".toList] := by
  have e : components "../in/./a.ts".toList = [.parent, .normal "in".toList, .normal "a.ts".toList] := by decide
  unfold Leads
  rw [e]
  exact ⟨.parent [] _ _ _ True.intro (.name _ _ _ _ True.intro (.name _ _ _ _ True.intro (.here _))), [.parent],
    ["in".toList, "a.ts".toList], rfl, by simp⟩

theorem beside_ready : beside.Ready (ofList (clashList exampleText)) := by
  refine ⟨rfl, ⟨by decide, walk_goes _ _ _ rfl, clash_inner_shows⟩, leads_beside, fun c h => (by cases h), fun r c file h => ?_⟩
  obtain ⟨code, hcode⟩ := example_compiles
  exact ⟨exampleText, code, (clash_inner h.1).2, hcode⟩

theorem elsewhere_ready : elsewhere.Ready (ofList (clashList exampleText)) := by
  refine ⟨rfl, ⟨by decide, walk_goes _ _ _ rfl, clash_inner_shows⟩, leads_xy, fun c h => (by cases h), fun r c file h => ?_⟩
  obtain ⟨code, hcode⟩ := example_compiles
  exact ⟨exampleText, code, (clash_inner h.1).2, hcode⟩

theorem plain_a : PlainName "in/a.pkt".toList "a".toList := ⟨by decide, by decide, [.normal "in".toList], by decide⟩

theorem plain_a_only {stem : Str} (h : PlainName "in/a.pkt".toList stem) : stem = "a".toList := by
  obtain ⟨_, _, cs, h⟩ := h
  rw [show components "in/a.pkt".toList = [.normal "in".toList] ++ [.normal ("a".toList ++ ".pkt".toList)] by decide] at h
  have h1 := (List.append_inj' h rfl).2
  simp only [List.cons.injEq, Comp.normal.injEq, and_true] at h1
  exact (List.append_cancel_right h1).symm

theorem single_ready : single.Ready (ofList (clashList exampleText)) := by
  refine ⟨rfl, ⟨by decide, walk_goes _ _ _ rfl, .file _ _ rfl⟩, leads_xy, fun c h => ⟨_, plain_a⟩, fun r c file h => ?_⟩
  obtain ⟨code, hcode⟩ := example_compiles
  exact ⟨exampleText, code, h.1, hcode⟩

/-- Twice the same run and two others, at the same time. -/
def four : List Job := [beside, elsewhere, beside, single]

theorem four_ready : ∀ j ∈ four, j.Ready (ofList (clashList exampleText)) := by
  intro j hj
  simp only [four, List.mem_cons, List.not_mem_nil, or_false] at hj
  rcases hj with rfl | rfl | rfl | rfl
  exacts [beside_ready, elsewhere_ready, beside_ready, single_ready]

theorem clash_free {q : List Str} (h : (∃ s, q = ["in".toList, "a.ts".toList] ++ [s] ∧ ofList (clashList exampleText) q = none) ∨
    ∃ s, q = ["x".toList, "y".toList, s]) : Free (ofList (clashList exampleText)) q := by
  have hs := clash_sound exampleText
  rcases h with ⟨s, rfl, hno⟩ | ⟨s, rfl⟩
  · have hd : ofList (clashList exampleText) ["in".toList, "a.ts".toList] = some .dir := rfl
    refine ⟨fun p hp hne c => ?_, by rw [hno]; simp⟩
    rw [hs.dirs hd ((List.prefix_concat_iff.1 hp).resolve_left hne)]
    simp
  · have hx : ofList (clashList exampleText) ["x".toList] = none := rfl
    have key : ∀ p, ofList (clashList exampleText) ("x".toList :: p) = none := by
      intro p
      by_contra hc
      by_cases hpn : p = []
      · rw [hpn] at hc
        exact hc hx
      · have := hs.above (p := ["x".toList]) hc ⟨p, rfl⟩ (by simpa using Ne.symm hpn)
        rw [hx] at this
        cases this
    refine ⟨fun p hp hne c hc => ?_, by rw [key]; simp⟩
    cases p with
    | nil => rw [hs.root] at hc; cases hc
    | cons a p =>
      rw [(List.cons_prefix_cons.1 hp).1, key] at hc
      cases hc

theorem four_together : Together (ofList (clashList exampleText)) four := by
  have key : ∀ q code, Output (ofList (clashList exampleText)) four q code →
      (q = ["in".toList, "a.ts".toList, "b.ts".toList] ∨ q = ["x".toList, "y".toList, "b.ts".toList] ∨
        q = ["x".toList, "y".toList, "a.ts".toList]) ∧
      compile ⟨"0.1".toList, "now".toList, id, id⟩ exampleText = .ok code := by
    rintro q code ⟨j, hj, p, text, file, h1, h2, h3⟩
    simp only [four, List.mem_cons, List.not_mem_nil, or_false] at hj
    rcases hj with rfl | rfl | rfl | rfl
    · obtain ⟨rfl, k2⟩ := clash_inner h1.1
      rw [Option.some.inj k2] at h3
      exact ⟨.inl (outFile_unique h2 ⟨[], "b".toList, rfl, rfl⟩), h3⟩
    · obtain ⟨rfl, k2⟩ := clash_inner h1.1
      rw [Option.some.inj k2] at h3
      exact ⟨.inr (.inl (outFile_unique h2 ⟨[], "b".toList, rfl, rfl⟩)), h3⟩
    · obtain ⟨rfl, k2⟩ := clash_inner h1.1
      rw [Option.some.inj k2] at h3
      exact ⟨.inl (outFile_unique h2 ⟨[], "b".toList, rfl, rfl⟩), h3⟩
    · obtain ⟨k2, _, stem, k3, rfl⟩ := h1
      rw [Option.some.inj k2] at h3
      rw [plain_a_only k3] at h2
      exact ⟨.inr (.inr (outFile_unique h2 ⟨[], "a".toList, rfl, rfl⟩)), h3⟩
  refine ⟨fun q code h => clash_free ?_, fun q code q' code' h h' hp => ?_, fun q code code' h h' => ?_⟩
  · rcases (key q code h).1 with rfl | rfl | rfl
    · exact .inl ⟨_, rfl, rfl⟩
    · exact .inr ⟨_, rfl⟩
    · exact .inr ⟨_, rfl⟩
  · refine hp.eq_of_length ?_
    rcases (key q code h).1 with rfl | rfl | rfl <;> rcases (key q' code' h').1 with rfl | rfl | rfl <;> rfl
  · have h1 := (key q code h).2
    rw [(key q code' h').2] at h1
    exact (CompileOutcome.ok.inj h1).symm

example : ∃ n c fs' code, Steps n (four.map Job.start, ofList (clashList exampleText)) (c, fs') ∧
    (∀ x ∈ c, x.2.Ended) ∧ fs' ["x".toList, "y".toList, "b.ts".toList] = some (.file (some code)) ∧
    fs' ["x".toList, "y".toList, "a.ts".toList] = some (.file (some code)) ∧
    fs' ["in".toList, "a.ts".toList, "b.ts".toList] = some (.file (some code)) ∧ fs' ["x".toList] = some .dir := by
  obtain ⟨n, c, h1, h2⟩ := inTurn_steps four [] (ofList (clashList exampleText)) (by simp)
  obtain ⟨N, hN⟩ := C110_runs (clash_sound exampleText) four_together four_ready
  have ha := (hN n c _ h1).2.2.1 h2
  obtain ⟨code, hcode⟩ := example_compiles
  have hschema : (ofList (clashList exampleText)).Schema ["in".toList, "a.ts".toList] ["b.pkt".toList] (some exampleText) :=
    ⟨rfl, [], "b".toList, rfl, by decide⟩
  have o1 : Output (ofList (clashList exampleText)) four ["x".toList, "y".toList, "b.ts".toList] code :=
    ⟨elsewhere, by simp [four], _, _, _, ⟨hschema, rfl⟩, ⟨[], "b".toList, rfl, rfl⟩, hcode⟩
  have o2 : Output (ofList (clashList exampleText)) four ["in".toList, "a.ts".toList, "b.ts".toList] code :=
    ⟨beside, by simp [four], _, _, _, ⟨hschema, rfl⟩, ⟨[], "b".toList, rfl, rfl⟩, hcode⟩
  have o3 : Output (ofList (clashList exampleText)) four ["x".toList, "y".toList, "a.ts".toList] code :=
    ⟨single, by simp [four], _, _, _, ⟨rfl, rfl, _, plain_a, rfl⟩, ⟨[], "a".toList, rfl, rfl⟩, hcode⟩
  exact ⟨n, c, _, code, h1, h2, (ha _).1 code o1, (ha _).1 code o3, (ha _).1 code o2, (ha _).2.1 ⟨_, code, o1, ⟨_, rfl⟩, by simp⟩⟩

end Packetc.Props
