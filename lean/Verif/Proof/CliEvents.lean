import Verif.Proof.Cli
import Verif.Spec.Events
/-!
# The recorded run agrees with the plain one
-/

namespace Packetc.Cli

theorem Traced.bind_fst {α β : Type} (x : Traced α) (f : α → Traced β) :
    (x.bind f).1 = x.1.bind fun a => (f a).1 := by
  unfold Traced.bind Outcome.bind
  rcases x with ⟨o, t⟩
  cases o <;> rfl

theorem Traced.bind_all {α β : Type} {x : Traced α} {f : α → Traced β} {P : Event → Prop} (hx : ∀ e ∈ x.2, P e)
    (hf : ∀ a, ∀ e ∈ (f a).2, P e) : ∀ e ∈ (x.bind f).2, P e := by
  unfold Traced.bind
  rcases x with ⟨o, t⟩
  cases o with
  | ok a =>
    intro e he
    rcases List.mem_append.1 he with he | he
    · exact hx e he
    · exact hf a e he
  | err _ => exact hx
  | panic => exact hx
  | diverge => exact hx

theorem Traced.bind_ok {α β : Type} {x : Traced α} {f : α → Traced β} {a : α} (h : x.1 = .ok a) :
    x.bind f = ((f a).1, x.2 ++ (f a).2) := by
  unfold Traced.bind
  rw [h]

theorem Traced.bind_not {α β : Type} {x : Traced α} {f : α → Traced β} (h : ¬ ∃ a, x.1 = .ok a) :
    (x.bind f).2 = x.2 ∧ ¬ ∃ b, (x.bind f).1 = .ok b := by
  unfold Traced.bind
  cases hx : x.1 with
  | ok a => exact absurd ⟨a, hx⟩ h
  | err _ => simp
  | panic => simp
  | diverge => simp

mutual
theorem visitFilesT_fst (env : Str → Env) : (t : Tree) → ∀ path out,
    (visitFilesT env path t out).1 = visitFiles env path t out
  | .file _, _, _ => rfl
  | .dir es c, path, out => by
    rw [visitFilesT, Traced.bind_fst]
    show (Traced.bind (visitEntriesT env path es out) _).1 = _
    rw [Traced.bind_fst, visitEntriesT_fst env es path out]
    rfl
theorem visitEntriesT_fst (env : Str → Env) : (es : List (EntryOf Tree)) → ∀ path out,
    (visitEntriesT env path es out).1 = visitEntries env path es out
  | [], _, _ => rfl
  | e :: es, path, out => by
    rw [visitEntriesT, Traced.bind_fst, visitEntryT_fst env e path out, visitEntries]
    congr 1
    funext out
    exact visitEntriesT_fst env es path out
theorem visitEntryT_fst (env : Str → Env) : (e : EntryOf Tree) → ∀ path out,
    (visitEntryT env path e out).1 = visitEntry env path e out
  | ⟨n, u, .file c⟩, path, out => by
    show (if (fileName (components (join path n))).bind extension = some "pkt".toList then
        if u then Traced.bind (runOneT env (join path n) c) fun s => (.ok (out ++ [s]), []) else (.err .invalidPath, [])
      else (.ok out, [])).1 = (if (fileName (components (join path n))).bind extension = some "pkt".toList then
        if u then (runOne env (join path n) c).bind fun s => .ok (out ++ [s]) else .err .invalidPath
      else .ok out)
    split_ifs
    · rw [Traced.bind_fst]
      rfl
    · rfl
    · rfl
  | ⟨n, u, .dir es c⟩, path, out => by
    show (if u then visitFilesT env (join path n) (.dir es c) out else (.panic, [])).1 =
      (if u then visitFiles env (join path n) (.dir es c) out else .panic)
    split_ifs
    · exact visitFilesT_fst env (.dir es c) (join path n) out
    · rfl
end

mutual
theorem visitFilesT_input (env : Str → Env) : (t : Tree) → ∀ path out, ∀ ev ∈ (visitFilesT env path t out).2, ev.Input
  | .file _, _, _ => by intro ev h; simp [visitFilesT] at h
  | .dir es c, path, out => by
    rw [visitFilesT]
    refine Traced.bind_all (by intro e he; rw [List.mem_singleton.1 he]; trivial) fun _ => ?_
    exact Traced.bind_all (visitEntriesT_input env es path out) fun _ e he => by simp at he
theorem visitEntriesT_input (env : Str → Env) : (es : List (EntryOf Tree)) → ∀ path out,
    ∀ ev ∈ (visitEntriesT env path es out).2, ev.Input
  | [], _, _ => by intro ev h; simp [visitEntriesT] at h
  | e :: es, path, out => by
    rw [visitEntriesT]
    exact Traced.bind_all (visitEntryT_input env e path out) fun out => visitEntriesT_input env es path out
theorem visitEntryT_input (env : Str → Env) : (e : EntryOf Tree) → ∀ path out,
    ∀ ev ∈ (visitEntryT env path e out).2, ev.Input
  | ⟨n, u, .file c⟩, path, out => by
    show ∀ ev ∈ (if (fileName (components (join path n))).bind extension = some "pkt".toList then
        if u then Traced.bind (runOneT env (join path n) c) fun s => (.ok (out ++ [s]), []) else (.err .invalidPath, [])
      else (.ok out, [])).2, ev.Input
    split_ifs
    · refine Traced.bind_all (by intro e he; rw [List.mem_singleton.1 he]; trivial) fun _ e he => by simp at he
    · simp
    · simp
  | ⟨n, u, .dir es c⟩, path, out => by
    show ∀ ev ∈ (if u then visitFilesT env (join path n) (.dir es c) out else (.panic, [])).2, ev.Input
    split_ifs
    · exact visitFilesT_input env (.dir es c) (join path n) out
    · simp
end

theorem replay_input {t : List Event} (h : ∀ e ∈ t, e.Input) (st : Store) : replay t st = st := by
  induction t generalizing st with
  | nil => rfl
  | cons e t ih =>
    show replay t (e.apply st) = st
    have he := h e List.mem_cons_self
    rw [ih fun x hx => h x (List.mem_cons_of_mem _ hx)]
    cases e with
    | list _ => rfl
    | read _ => rfl
    | line _ => exact he.elim
    | mkdirs _ _ => exact he.elim
    | write _ _ _ => exact he.elim

theorem replay_append (t t' : List Event) (st : Store) : replay (t ++ t') st = replay t' (replay t st) :=
  List.foldl_append

/-- The events of `save_one`. -/
def saveEvents (disk : Disk) (k : Nat) (s : Schema) (out : Str) : List Event :=
  .line ("Writing to ".toList ++ out) ::
    ((parentOf (components out)).toList.map fun d => .mkdirs d (disk.mkdir k)) ++
    if disk.mkdir k then [.write (components out) s.generated (disk.write k)] else []

theorem saveOneT_eq (disk : Disk) (k : Nat) (s : Schema) (out : Str) (st : Store) :
    saveOneT disk k s out = ((saveOne disk k s (components out) st).1, saveEvents disk k s out) ∧
      (saveOne disk k s (components out) st).2 = replay (saveEvents disk k s out) st := by
  unfold saveOneT saveOne saveEvents Traced.bind
  cases parentOf (components out) <;> cases disk.mkdir k <;> cases disk.write k <;> simp [replay, Event.apply]

theorem saveAllT_eq (disk : Disk) (base out : Str) (lang : Lang) (ss : List Schema) : ∀ k st,
    (saveAllT disk base out lang k ss).1 = (saveAll disk base out lang k ss st).1 ∧
      (saveAll disk base out lang k ss st).2 = replay (saveAllT disk base out lang k ss).2 st := by
  induction ss with
  | nil => exact fun k st => ⟨rfl, rfl⟩
  | cons s ss ih =>
    intro k st
    unfold saveAllT saveAll formatPathT formatPath
    cases hq : formatPathText s.path base out lang true with
    | err e => exact ⟨rfl, rfl⟩
    | panic => exact ⟨rfl, rfl⟩
    | diverge => exact ⟨rfl, rfl⟩
    | ok p =>
      obtain ⟨h1, h2⟩ := saveOneT_eq disk k s p st
      have e1 : (Traced.bind (Outcome.ok p, if true = true then [] else [Event.line out]) fun p =>
          (saveOneT disk k s p).bind fun _ => saveAllT disk base out lang (k + 1) ss) =
          (saveOneT disk k s p).bind fun _ => saveAllT disk base out lang (k + 1) ss := by
        unfold Traced.bind
        simp
      rw [e1, h1]
      show _ ∧ _
      simp only [Outcome.bind]
      revert h2
      generalize saveOne disk k s (components p) st = x
      rcases x with ⟨o, st'⟩
      intro h2
      cases o with
      | ok u =>
        cases u
        obtain ⟨h3, h4⟩ := ih (k + 1) st'
        refine ⟨h3, ?_⟩
        show (saveAll disk base out lang (k + 1) ss st').2 = replay (_ ++ _) st
        rw [replay_append, ← h2, h4]
      | err e => exact ⟨rfl, h2⟩
      | panic => exact ⟨rfl, h2⟩
      | diverge => exact ⟨rfl, h2⟩

/-- The recorded run ends as the plain one, and the plain one changes the files as recorded. -/
theorem mainT_eq (env : Str → Env) (disk : Disk) (lang : Lang) (path out : Str) (input : Option Tree) (st : Store) :
    (mainT env disk lang path out input).1 = (main env disk lang path out input st).1 ∧
      (main env disk lang path out input st).2 = replay (mainT env disk lang path out input).2 st := by
  unfold mainT main
  cases input with
  | none => exact ⟨rfl, rfl⟩
  | some t =>
    cases t with
    | dir es c =>
      have h1 : (visitFilesT env path (.dir es c) []).1 = runAll env path (.dir es c) := visitFilesT_fst env _ path []
      have h2 := visitFilesT_input env (.dir es c) path []
      simp only
      generalize visitFilesT env path (.dir es c) [] = x at h1 h2
      rcases x with ⟨o, t⟩
      simp only at h1 h2
      rw [← h1]
      cases o with
      | ok ss =>
        obtain ⟨h3, h4⟩ := saveAllT_eq disk path out lang ss 0 st
        refine ⟨h3, ?_⟩
        show (saveAll disk path out lang 0 ss st).2 = replay (t ++ _) st
        rw [replay_append, replay_input h2, h4]
      | err e => exact ⟨rfl, (replay_input h2 st).symm⟩
      | panic => exact ⟨rfl, (replay_input h2 st).symm⟩
      | diverge => exact ⟨rfl, (replay_input h2 st).symm⟩
    | file c =>
      simp only [runOneT, formatPathT, formatPath]
      cases runOne env path c with
      | err e => exact ⟨rfl, rfl⟩
      | panic => exact ⟨rfl, rfl⟩
      | diverge => exact ⟨rfl, rfl⟩
      | ok s =>
        simp only [Traced.bind]
        cases formatPathText s.path path out lang false with
        | err e => exact ⟨rfl, rfl⟩
        | panic => exact ⟨rfl, rfl⟩
        | diverge => exact ⟨rfl, rfl⟩
        | ok p =>
          obtain ⟨h1, h2⟩ := saveOneT_eq disk 0 s p st
          simp only [Outcome.bind, h1]
          exact ⟨trivial, by rw [h2]; simp [replay, Event.apply]⟩

/-! ### reading -/

theorem readsOf_append' (t t' : List Event) : readsOf (t ++ t') = readsOf t ++ readsOf t' := List.filterMap_append

theorem Traced.bind_ok_iff {α β : Type} {x : Traced α} {f : α → Traced β} {b : β} (h : (x.bind f).1 = .ok b) :
    ∃ a, x.1 = .ok a ∧ (f a).1 = .ok b ∧ (x.bind f).2 = x.2 ++ (f a).2 := by
  unfold Traced.bind at h ⊢
  cases hx : x.1 with
  | ok a =>
    rw [hx] at h
    exact ⟨a, rfl, h, rfl⟩
  | err _ => rw [hx] at h; cases h
  | panic => rw [hx] at h; cases h
  | diverge => rw [hx] at h; cases h

mutual
theorem visitFilesT_reads (env : Str → Env) : (t : Tree) → ∀ path out out', (visitFilesT env path t out).1 = .ok out' →
    out'.map Schema.path = out.map Schema.path ++ readsOf (visitFilesT env path t out).2
  | .file _, _, out, out', h => by
    cases h
    simp [visitFilesT, readsOf]
  | .dir es c, path, out, out', h => by
    rw [visitFilesT] at h ⊢
    obtain ⟨_, -, h1, h2⟩ := Traced.bind_ok_iff h
    obtain ⟨o, h3, h4, h5⟩ := Traced.bind_ok_iff h1
    rw [h2, h5, List.append_nil]
    have : o = out' := by
      simp only at h4
      split_ifs at h4
      cases h4
      rfl
    subst this
    rw [readsOf_append', visitEntriesT_reads env es path out o h3]
    rfl
theorem visitEntriesT_reads (env : Str → Env) : (es : List (EntryOf Tree)) → ∀ path out out',
    (visitEntriesT env path es out).1 = .ok out' →
    out'.map Schema.path = out.map Schema.path ++ readsOf (visitEntriesT env path es out).2
  | [], _, out, out', h => by
    cases h
    simp [visitEntriesT, readsOf]
  | e :: es, path, out, out', h => by
    rw [visitEntriesT] at h ⊢
    obtain ⟨o, h1, h2, h3⟩ := Traced.bind_ok_iff h
    rw [h3, readsOf_append', visitEntriesT_reads env es path o out' h2, visitEntryT_reads env e path out o h1,
      List.append_assoc]
theorem visitEntryT_reads (env : Str → Env) : (e : EntryOf Tree) → ∀ path out out',
    (visitEntryT env path e out).1 = .ok out' →
    out'.map Schema.path = out.map Schema.path ++ readsOf (visitEntryT env path e out).2
  | ⟨n, u, .file c⟩, path, out, out', h => by
    have e0 : visitEntryT env path ⟨n, u, .file c⟩ out =
      if (fileName (components (join path n))).bind extension = some "pkt".toList then
        if u then Traced.bind (runOneT env (join path n) c) fun s => (.ok (out ++ [s]), []) else (.err .invalidPath, [])
      else (.ok out, []) := rfl
    rw [e0] at h ⊢
    split_ifs at h ⊢
    · obtain ⟨s, h1, h2, h3⟩ := Traced.bind_ok_iff h
      rw [h3]
      cases h2
      have := (runOne_ok.1 h1).1
      rw [List.map_append, List.append_nil, List.map_singleton, this]
      rfl
    · cases h
      simp [readsOf]
  | ⟨n, u, .dir es c⟩, path, out, out', h => by
    have e0 : visitEntryT env path ⟨n, u, .dir es c⟩ out =
      if u then visitFilesT env (join path n) (.dir es c) out else (.panic, []) := rfl
    rw [e0] at h ⊢
    split_ifs at h ⊢
    exact visitFilesT_reads env (.dir es c) (join path n) out out' h
end

/-! ### writing -/

/-- The path was made by `format_path`. -/
def Formatted (p : List Comp) : Prop := ∃ text, p = components (withExtension text "ts".toList)

theorem saveEvents_writes {disk : Disk} {k : Nat} {s : Schema} {text : Str} {p : List Comp}
    (h : p ∈ writesOf (saveEvents disk k s text)) : p = components text := by
  unfold saveEvents writesOf at h
  obtain ⟨e, he, hp⟩ := List.mem_filterMap.1 h
  rcases List.mem_append.1 he with he | he
  · rcases List.mem_cons.1 he with rfl | he
    · cases hp
    · obtain ⟨d, -, rfl⟩ := List.mem_map.1 he
      cases hp
  · split_ifs at he
    · rw [List.mem_singleton.1 he] at hp
      cases hp
      rfl
    · simp at he

theorem saveAllT_writes {disk : Disk} {base out : Str} {lang : Lang} {P : List Comp → Prop} (ss : List Schema)
    (hP : ∀ s ∈ ss, ∀ text, formatPathText s.path base out lang true = .ok text → P (components text)) : ∀ k,
    ∀ p ∈ writesOf (saveAllT disk base out lang k ss).2, P p := by
  induction ss with
  | nil => intro k p hp; simp [saveAllT, writesOf] at hp
  | cons s ss ih =>
    intro k p hp
    have e1 : saveAllT disk base out lang k (s :: ss) = Traced.bind (formatPathT s.path base out lang true) fun p =>
      Traced.bind (saveOneT disk k s p) fun _ => saveAllT disk base out lang (k + 1) ss := rfl
    rw [e1] at hp
    cases hq : formatPathText s.path base out lang true with
    | err e => simp [Traced.bind, formatPathT, hq, writesOf] at hp
    | panic => simp [Traced.bind, formatPathT, hq, writesOf] at hp
    | diverge => simp [Traced.bind, formatPathT, hq, writesOf] at hp
    | ok text =>
      rw [Traced.bind_ok (a := text) hq] at hp
      have e2 : (formatPathT s.path base out lang true).2 = [] := rfl
      rw [e2, List.nil_append] at hp
      have h1 := (saveOneT_eq disk k s text fun _ => none).1
      have key : p ∈ writesOf (saveEvents disk k s text) ∨ p ∈ writesOf (saveAllT disk base out lang (k + 1) ss).2 := by
        rw [h1] at hp
        simp only [Traced.bind] at hp
        revert hp
        cases (saveOne disk k s (components text) fun _ => none).1 with
        | ok u =>
          intro hp
          rw [show writesOf (saveEvents disk k s text ++ (saveAllT disk base out lang (k + 1) ss).2) =
            writesOf (saveEvents disk k s text) ++ writesOf (saveAllT disk base out lang (k + 1) ss).2 from
            List.filterMap_append] at hp
          exact List.mem_append.1 hp
        | err e => exact fun h => .inl h
        | panic => exact fun h => .inl h
        | diverge => exact fun h => .inl h
      rcases key with h | h
      · rw [saveEvents_writes h]
        exact hP s List.mem_cons_self text hq
      · exact ih (fun x hx => hP x (List.mem_cons_of_mem _ hx)) (k + 1) p h

theorem replay_other {t : List Event} {q : List Comp} (h : q ∉ writesOf t) (st : Store) : replay t st q = st q := by
  induction t generalizing st with
  | nil => rfl
  | cons e t ih =>
    show replay t (e.apply st) q = st q
    have h1 : writesOf (e :: t) = writesOf [e] ++ writesOf t := List.filterMap_append (l := [e])
    rw [h1, List.mem_append, not_or] at h
    rw [ih h.2]
    cases e with
    | list _ => rfl
    | read _ => rfl
    | line _ => rfl
    | mkdirs _ _ => rfl
    | write p c r =>
      have hne : q ≠ p := by simpa [writesOf] using h.1
      cases r <;> simp [Event.apply, Store.set, hne]

theorem formatPathText_ext {file base out text : Str} {b : Bool} (h : formatPathText file base out .typeScript b = .ok text) :
    ∃ t, text = withExtension t "ts".toList := by
  unfold formatPathText at h
  split_ifs at h
  · split at h
    · cases h
    · cases h
      exact ⟨_, rfl⟩
  · split at h
    · cases h
    · cases h
      exact ⟨_, rfl⟩

end Packetc.Cli
