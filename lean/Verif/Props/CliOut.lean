import Verif.Props.Cli
/-!
# The output argument (C101)

The README compiles one file with `packetc rust test.pkt test.rs`, so the third argument looks like the name of the
file to write. It is the name of a directory.
-/

namespace Packetc.Props
open Cli

/-- C101, full statement: a run on one schema file that compiles, with a disk on which all works, puts the code into the
file named by the output argument. -/
def C101_claim : Prop :=
  ∀ env disk path out cs stem os o text code st,
    components path = cs ++ [.normal (stem ++ ".pkt".toList)] → stem ≠ [] → components out = os ++ [.normal o] →
    compile (env path) text = .ok code → disk.mkdir 0 = true → disk.write 0 = none →
    (main env disk .typeScript path out (some (.file (some text))) st).2 (components out) = some code

/-- C101, exactly: for a schema file `stem.pkt`, and an output argument that ends in a name `o`, the file written is the
one the argument names if and only if the input is called `..pkt` and `o` ends in `.ts`, without being `.ts`. -/
theorem C101_exact {path out : Str} {cs os : List Comp} {stem o : Str}
    (hp : components path = cs ++ [.normal (stem ++ ".pkt".toList)]) (hs : stem ≠ [])
    (ho : components out = os ++ [.normal o]) :
    formatPath path path out .typeScript false = .ok (components out) ↔
      stem = ".".toList ∧ ∃ b, b ≠ [] ∧ o = b ++ ".ts".toList := by
  by_cases hd : stem = ".".toList
  · subst hd
    rw [dot_path hp ho, ho]
    constructor
    · intro h
      simp only [Outcome.ok.injEq, List.append_cancel_left_eq, List.cons.injEq, Comp.normal.injEq, and_true] at h
      refine ⟨rfl, fileStem o, ?_, h.symm⟩
      intro h0
      rw [h0] at h
      rw [← h] at h0
      revert h0
      decide
    · rintro ⟨-, b, hb, rfl⟩
      rw [show fileStem (b ++ ".ts".toList) = b from fileStem_append (ext := "ts".toList) (by decide) hb]
  · have hno : ∀ c : Comp, ¬ (Outcome.ok (components out ++ [c]) : Outcome (List Comp)) = .ok (components out) := by
      intro c h
      have := congrArg List.length (Outcome.ok.inj h)
      simp at this
    refine iff_of_false ?_ fun h => hd h.1
    by_cases hdd : stem = "..".toList
    · subst hdd
      rw [C50_dots hp]
      exact hno _
    · rw [single_path hp hs hd hdd]
      exact hno _

/-- C101: whatever the run does, successful or not, the file named by the output argument is as it was, unless the input
is called `..pkt` and the argument ends in `.ts`. -/
theorem C101_untouched {env : Str → Env} {disk : Disk} {path out : Str} {cs os : List Comp} {stem o : Str}
    (hp : components path = cs ++ [.normal (stem ++ ".pkt".toList)]) (hs : stem ≠ [])
    (ho : components out = os ++ [.normal o]) (h : ¬ (stem = ".".toList ∧ ∃ b, b ≠ [] ∧ o = b ++ ".ts".toList))
    (content : Option Str) (st : Store) :
    (main env disk .typeScript path out (some (.file content)) st).2 (components out) = st (components out) := by
  have hne := mt (C101_exact hp hs ho).1 h
  have hset : ∀ q v, formatPath path path out .typeScript false = .ok q → (st.set q v) (components out) = st (components out) := by
    intro q v hq
    have : components out ≠ q := fun e => hne (e ▸ hq)
    unfold Store.set
    rw [if_neg this]
  unfold main
  simp only
  cases hr : runOne env path content with
  | ok s =>
    have hs : s.path = path := by
      unfold runOne at hr
      split at hr
      · cases hr
      · split at hr
        · cases hr; rfl
        all_goals cases hr
    simp only
    rw [hs]
    cases hq : formatPath path path out .typeScript false with
    | ok q =>
      show (saveOne disk 0 s q st).2 _ = _
      unfold saveOne
      split
      · split
        · exact hset q _ hq
        · exact hset q _ hq
      · rfl
    | _ => rfl
  | _ => rfl

/-- C101 where it holds: the input is called `..pkt` and the output argument ends in `.ts`. What is missing: every other
input. -/
theorem C101_names_partial {env : Str → Env} {disk : Disk} {path out : Str} {cs os : List Comp} {b text code : Str}
    {st : Store} (hp : components path = cs ++ [.normal "..pkt".toList])
    (ho : components out = os ++ [.normal (b ++ ".ts".toList)]) (hb : b ≠ [])
    (hc : compile (env path) text = .ok code) (h1 : disk.mkdir 0 = true) (h2 : disk.write 0 = none) :
    main env disk .typeScript path out (some (.file (some text))) st = (.ok (), st.set (components out) (some code)) :=
  single_place ((C101_exact (stem := ".".toList) hp (by decide) ho).2 ⟨rfl, b, hb, rfl⟩) hc h1 h2

/-- C101 is false: `test.pkt` with output `test.ts` goes to `test.ts/test.ts`. -/
theorem C101_false : ¬ C101_claim := by
  intro h
  obtain ⟨code, hc⟩ := example_compiles
  have hp : components "test.pkt".toList = [] ++ [.normal ("test".toList ++ ".pkt".toList)] := by decide
  have ho : components "test.ts".toList = [] ++ [.normal "test.ts".toList] := by decide
  have := h exampleEnv ⟨fun _ => true, fun _ => none⟩ "test.pkt".toList "test.ts".toList [] "test".toList []
    "test.ts".toList exampleText code (fun _ => none) hp (by decide) ho hc rfl rfl
  rw [C101_untouched hp (by decide) ho (fun h => absurd h.1 (by decide))] at this
  cases this

example : components "d/..pkt".toList = [.normal "d".toList] ++ [.normal (".".toList ++ ".pkt".toList)] ∧
    components "x/o.ts".toList = [.normal "x".toList] ++ [.normal ("o".toList ++ ".ts".toList)] ∧
    components "d/test.pkt".toList = [.normal "d".toList] ++ [.normal ("test".toList ++ ".pkt".toList)] ∧
    "test".toList ≠ ".".toList := by decide

end Packetc.Props
