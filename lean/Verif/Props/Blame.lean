import Verif.Props.Events
/-!
# C73: what the error of a failing run says
-/

namespace Packetc.Props
open Cli

/-- Compiling files one after the other, up to the first one that fails. -/
def compileEach (env : Str → Env) (dir : Str) : List (List Str × Option Str) → Outcome (List Schema)
  | [] => .ok []
  | x :: xs => (runOne env (below dir x.1) x.2).bind fun s => (compileEach env dir xs).bind fun ss => .ok (s :: ss)

theorem bind_bind {α β γ : Type} (o : Outcome α) (f : α → Outcome β) (g : β → Outcome γ) :
    (o.bind f).bind g = o.bind fun a => (f a).bind g := by
  cases o <;> rfl

theorem compileEach_append (env : Str → Env) (dir : Str) (xs ys : List (List Str × Option Str)) :
    compileEach env dir (xs ++ ys) =
      (compileEach env dir xs).bind fun ss => (compileEach env dir ys).bind fun ts => .ok (ss ++ ts) := by
  induction xs with
  | nil =>
    show compileEach env dir ys = (compileEach env dir ys).bind fun ts => .ok ([] ++ ts)
    cases compileEach env dir ys <;> rfl
  | cons x xs ih =>
    show (runOne env (below dir x.1) x.2).bind _ = ((runOne env (below dir x.1) x.2).bind _).bind _
    rw [bind_bind]
    congr 1
    funext s
    show (compileEach env dir (xs ++ ys)).bind _ = _
    rw [ih, bind_bind, bind_bind]
    congr 1
    funext ss
    rw [bind_bind]
    rfl

theorem compileEach_cons (env : Str → Env) (dir n : Str) (xs : List (List Str × Option Str)) :
    compileEach env dir (xs.map fun x => (n :: x.1, x.2)) = compileEach env (join dir n) xs := by
  induction xs with
  | nil => rfl
  | cons x xs ih =>
    show (runOne env (below dir (n :: x.1)) x.2).bind _ = _
    rw [ih]
    rfl

mutual
theorem visitFiles_each (env : Str → Env) : (t : Tree) → t.Valid → t.Accessible → ∀ path out,
    visitFiles env path t out = (compileEach env path (schemaList t)).bind fun ss => .ok (out ++ ss)
  | .file _, _, _, path, out => by
    show Outcome.ok out = .ok (out ++ [])
    rw [List.append_nil]
  | .dir es b, hv, ha, path, out => by
    obtain ⟨rfl, ha⟩ := ha
    show (visitEntries env path es out).bind _ = (compileEach env path (schemaEntries es)).bind _
    rw [visitEntries_each env es hv.2.1 hv.2.2 ha path out, bind_bind]
    rfl
theorem visitEntries_each (env : Str → Env) : (es : List (EntryOf Tree)) → (∀ n ∈ es.map EntryOf.name, ValidName n) →
    ValidEntries es → AccessibleEntries es → ∀ path out,
    visitEntries env path es out = (compileEach env path (schemaEntries es)).bind fun ss => .ok (out ++ ss)
  | [], _, _, _, path, out => by
    show Outcome.ok out = .ok (out ++ [])
    rw [List.append_nil]
  | e :: es, hn, hv, ha, path, out => by
    show (visitEntry env path e out).bind _ = (compileEach env path (schemaEntry e ++ schemaEntries es)).bind _
    rw [visitEntry_each env e (hn _ List.mem_cons_self) hv.1 ha.1 path out, compileEach_append, bind_bind, bind_bind]
    congr 1
    funext ss
    show visitEntries env path es (out ++ ss) = _
    rw [visitEntries_each env es (fun n h => hn n (List.mem_cons_of_mem _ h)) hv.2 ha.2 path (out ++ ss), bind_bind]
    congr 1
    funext ts
    rw [List.append_assoc]
    rfl
theorem visitEntry_each (env : Str → Env) : (e : EntryOf Tree) → ValidName e.name → ValidEntry e → AccessibleEntry e →
    ∀ path out, visitEntry env path e out = (compileEach env path (schemaEntry e)).bind fun ss => .ok (out ++ ss)
  | ⟨n, u, .file c⟩, hn, _, ha, path, out => by
    have hn : ValidName n := hn
    have ha : (∃ stem, n = stem ++ ".pkt".toList ∧ stem ≠ []) → u = true := ha
    show (if (fileName (components (join path n))).bind extension = some "pkt".toList then
        if u then (runOne env (join path n) c).bind fun s => .ok (out ++ [s]) else .err .invalidPath
      else .ok out) = (compileEach env path (if extension n = some "pkt".toList then [([n], c)] else [])).bind _
    rw [components_join hn, fileName_append, Option.bind_some]
    by_cases hx : extension n = some "pkt".toList
    · rw [if_pos hx, if_pos hx, if_pos (ha ((extension_pkt n).1 hx))]
      show _ = ((runOne env (join path n) c).bind _).bind _
      rw [bind_bind]
      rfl
    · rw [if_neg hx, if_neg hx]
      show Outcome.ok out = .ok (out ++ [])
      rw [List.append_nil]
  | ⟨n, u, .dir es b⟩, _, hv, ha, path, out => by
    obtain ⟨rfl, ha'⟩ := (show u = true ∧ Tree.Accessible (.dir es b) from ha)
    show visitFiles env (join path n) (.dir es b) out =
      (compileEach env path ((schemaList (.dir es b)).map fun x => (n :: x.1, x.2))).bind _
    rw [compileEach_cons, visitFiles_each env (.dir es b) hv ha' (join path n) out]
end

theorem compileEach_err {env : Str → Env} {dir : Str} {xs : List (List Str × Option Str)} {e : CliErr}
    (h : compileEach env dir xs = .err e) : ∃ before x after, xs = before ++ x :: after ∧
      (∀ y ∈ before, ∃ s, runOne env (below dir y.1) y.2 = .ok s) ∧ runOne env (below dir x.1) x.2 = .err e := by
  induction xs with
  | nil => cases h
  | cons x xs ih =>
    have h : (runOne env (below dir x.1) x.2).bind (fun s => (compileEach env dir xs).bind fun ss => .ok (s :: ss)) = .err e := h
    cases hx : runOne env (below dir x.1) x.2 with
    | err e' =>
      rw [hx] at h
      cases h
      exact ⟨[], x, xs, rfl, by simp, hx⟩
    | panic => rw [hx] at h; cases h
    | diverge => rw [hx] at h; cases h
    | ok s =>
      rw [hx] at h
      have h : (compileEach env dir xs).bind (fun ss => .ok (s :: ss)) = .err e := h
      have h' : compileEach env dir xs = .err e := by
        cases hc : compileEach env dir xs with
        | ok a => rw [hc] at h; cases h
        | err e' => rw [hc] at h; cases h; rfl
        | panic => rw [hc] at h; cases h
        | diverge => rw [hc] at h; cases h
      obtain ⟨before, y, after, rfl, h1, h2⟩ := ih h'
      refine ⟨x :: before, y, after, rfl, ?_, h2⟩
      intro z hz
      rcases List.mem_cons.1 hz with rfl | hz
      · exact ⟨s, hx⟩
      · exact h1 z hz

/-- C73 as described: the error tells which schema is bad: if two runs on a directory fail with the same compile error,
they do because of a file at the same place. -/
def C73_claim : Prop := ∀ (env : Str → Env) (disk : Disk) (dir out : Str) (es es' : List (EntryOf Tree)) (st : Store) (m : Str),
  (Tree.dir es true).Valid → (Tree.dir es' true).Valid →
  (main env disk .typeScript dir out (some (.dir es true)) st).1 = .err (.compile m) →
  (main env disk .typeScript dir out (some (.dir es' true)) st).1 = .err (.compile m) →
  ∃ p c c', SchemaAt (.dir es true) p c ∧ SchemaAt (.dir es' true) p c' ∧ (¬ ∃ code, CompilesTo env dir p c code) ∧
    ¬ ∃ code, CompilesTo env dir p c' code

/-- C73, what holds: if every directory can be listed and every name is UTF-8, then the error of a run that fails before
writing is that of the first schema, in the order in which directories list their entries, that does not compile or cannot
be read. What is missing: the error does not contain the path, see `C73_false`. -/
theorem C73_first_bad_partial {env : Str → Env} {disk : Disk} {dir out : Str} {es b} (hv : (Tree.dir es b).Valid)
    (ha : (Tree.dir es b).Accessible) (hbad : ∃ p c, SchemaAt (.dir es b) p c ∧ ¬ ∃ code, CompilesTo env dir p c code)
    {st : Store} {e : CliErr} (h : (main env disk .typeScript dir out (some (.dir es b)) st).1 = .err e) :
    ∃ before p c after, schemaList (.dir es b) = before ++ (p, c) :: after ∧
      (∀ x ∈ before, ∃ code, CompilesTo env dir x.1 x.2 code) ∧ SchemaAt (.dir es b) p c ∧
      runOne env (below dir p) c = .err e := by
  have hr : runAll env dir (.dir es b) = .err e := by
    have hn : ¬ ∃ ss, runAll env dir (.dir es b) = .ok ss := by
      obtain ⟨p, c, hs, hc⟩ := hbad
      intro h
      exact hc (((runAll_succeeds hv).1 h).2 p c hs)
    have e0 : main env disk .typeScript dir out (some (.dir es b)) st = match runAll env dir (.dir es b) with
      | .ok ss => saveAll disk dir out .typeScript 0 ss st
      | .err e => (.err e, st)
      | .panic => (.panic, st)
      | .diverge => (.diverge, st) := rfl
    rw [e0] at h
    cases hr : runAll env dir (.dir es b) with
    | ok ss => exact absurd ⟨ss, hr⟩ hn
    | err e' => rw [hr] at h; cases h; rfl
    | panic => rw [hr] at h; cases h
    | diverge => rw [hr] at h; cases h
  have hr : visitFiles env dir (.dir es b) [] = .err e := hr
  rw [visitFiles_each env _ hv ha] at hr
  have hc : compileEach env dir (schemaList (.dir es b)) = .err e := by
    cases hc : compileEach env dir (schemaList (.dir es b)) with
    | ok a => rw [hc] at hr; cases hr
    | err e' => rw [hc] at hr; cases hr; rfl
    | panic => rw [hc] at hr; cases hr
    | diverge => rw [hc] at hr; cases hr
  obtain ⟨before, x, after, h1, h2, h3⟩ := compileEach_err hc
  refine ⟨before, x.1, x.2, after, h1, ?_, ?_, h3⟩
  · intro y hy
    obtain ⟨s, hs⟩ := h2 y hy
    obtain ⟨-, text, h4, h5⟩ := runOne_ok.1 hs
    exact ⟨_, text, h4, h5⟩
  · exact (mem_schemaList _ ⟨_, _, rfl⟩ x).1 (by rw [h1]; simp)

/-- The message does not depend on where the file is: only the hash seed and the clock can differ between two paths. -/
theorem C73_path_not_used {env : Str → Env} {p q : Str} (h : env p = env q) {c : Option Str} {e : CliErr}
    (hr : runOne env p c = .err e) : runOne env q c = .err e := by
  cases c with
  | none => exact hr
  | some text =>
    unfold runOne at hr ⊢
    rw [← h]
    dsimp only at hr ⊢
    revert hr
    cases compile (env p) text with
    | ok code => intro hr; cases hr
    | parseError m => exact id
    | checkError m => exact id
    | panic => intro hr; cases hr
    | diverge => intro hr; cases hr

theorem one_fails {env : Str → Env} {disk : Disk} {dir out n text m : Str} {st : Store} (hn : extension n = some "pkt".toList)
    (hv : ValidName n) (h : runOne env (join dir n) (some text) = .err (.compile m)) :
    (main env disk .typeScript dir out (some (.dir [⟨n, true, .file (some text)⟩] true)) st).1 = .err (.compile m) := by
  have e0 : runAll env dir (.dir [⟨n, true, .file (some text)⟩] true) = .err (.compile m) := by
    unfold runAll
    rw [visitFiles_each env (.dir [⟨n, true, .file (some text)⟩] true) ⟨by simp, by simpa using hv, trivial, trivial⟩
      ⟨rfl, fun _ => rfl, trivial⟩]
    have e1 : schemaList (.dir [⟨n, true, .file (some text)⟩] true) = [([n], some text)] := by
      show (if extension n = some "pkt".toList then [([n], some text)] else []) ++ [] = _
      rw [if_pos hn]
      rfl
    rw [e1]
    show ((runOne env (join dir n) (some text)).bind _).bind _ = _
    rw [h]
    rfl
  show (match runAll env dir (.dir [⟨n, true, .file (some text)⟩] true) with
      | .ok ss => saveAll disk dir out .typeScript 0 ss st
      | .err e => (.err e, st)
      | .panic => (.panic, st)
      | .diverge => (.diverge, st)).1 = _
  rw [e0]

theorem empty_fails (p : Str) : ∃ m, runOne exampleEnv p (some []) = .err (.compile m) := by
  have h0 : (match compile ⟨"0.1".toList, "now".toList, id, id⟩ [] with | .checkError _ => true | _ => false) = true := by
    decide +kernel
  cases hm : compile ⟨"0.1".toList, "now".toList, id, id⟩ [] with
  | checkError m =>
    refine ⟨"One or more type errors:\n".toList ++ m, ?_⟩
    show (match compile ⟨"0.1".toList, "now".toList, id, id⟩ [] with
      | .ok code => Outcome.ok (⟨p, code⟩ : Schema)
      | .parseError m => .err (.compile ("Parsing failed with:\n".toList ++ m))
      | .checkError m => .err (.compile ("One or more type errors:\n".toList ++ m))
      | .panic => .panic
      | .diverge => .diverge) = _
    rw [hm]
  | ok _ => rw [hm] at h0; cases h0
  | parseError _ => rw [hm] at h0; cases h0
  | panic => rw [hm] at h0; cases h0
  | diverge => rw [hm] at h0; cases h0

/-- C73 is false: an empty `a.pkt` gives the same error as an empty `b.pkt`. -/
theorem C73_false : ¬ C73_claim := by
  intro h
  obtain ⟨m, hm⟩ := empty_fails "in/a.pkt".toList
  have va : ValidName "a.pkt".toList := by unfold ValidName; decide
  have vb : ValidName "b.pkt".toList := by unfold ValidName; decide
  obtain ⟨p, c, c', h1, h2, -⟩ := h exampleEnv ⟨fun _ => true, fun _ => none⟩ "in".toList "out".toList
    [⟨"a.pkt".toList, true, .file (some [])⟩] [⟨"b.pkt".toList, true, .file (some [])⟩] (fun _ => none) m
    ⟨by simp, by simpa using va, trivial, trivial⟩ ⟨by simp, by simpa using vb, trivial, trivial⟩
    (one_fails (by decide) va hm) (one_fails (by decide) vb (C73_path_not_used (p := "in/a.pkt".toList) rfl hm))
  obtain ⟨h1, -⟩ := h1
  obtain ⟨h2, -⟩ := h2
  cases h1 with
  | dir _ _ e q _ he _ =>
    obtain rfl := List.mem_singleton.1 he
    generalize hx : (⟨"a.pkt".toList, true, .file (some [])⟩ : EntryOf Tree).name :: q = x at h2
    cases h2 with
    | dir _ _ e q' _ he _ =>
      obtain rfl := List.mem_singleton.1 he
      injection hx with hx _
      revert hx
      decide

/-- The example directory with an empty file in it. -/
example : (exampleTree (some [])).Valid ∧ (exampleTree (some [])).Accessible ∧
    (∃ p c, SchemaAt (exampleTree (some [])) p c ∧ ¬ ∃ code, CompilesTo exampleEnv "in".toList p c code) ∧
    schemaList (exampleTree (some [])) = [(["a.pkt".toList], some exampleText), (["sub".toList, "b.c.pkt".toList], some [])] := by
  refine ⟨exampleTree_valid _, exampleTree_accessible _, ⟨_, _, exampleTree_schema _, ?_⟩, rfl⟩
  rintro ⟨code, text, h1, h2⟩
  cases h1
  obtain ⟨m, hm⟩ := empty_fails (below "in".toList ["sub".toList, "b.c.pkt".toList])
  have : runOne exampleEnv (below "in".toList ["sub".toList, "b.c.pkt".toList]) (some []) = .ok ⟨_, code⟩ :=
    runOne_ok.2 ⟨rfl, [], rfl, h2⟩
  rw [hm] at this
  cases this

end Packetc.Props
