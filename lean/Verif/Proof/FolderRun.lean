import Verif.Proof.Folders
/-!
# A run on a directory, on a file system (for C107-C109)
-/

namespace Packetc.Cli

/-! ### where paths lead -/

theorem goes_walk {fs : Files} {d : List Str} {cs : List Comp} {p : List Str} (h : Goes (fun d => fs d = some .dir) d cs p) :
    walk fs d cs = .ok p := by
  induction h with
  | here => rfl
  | root d cs p hd _ ih => unfold walk; rw [hd]; exact ih
  | cur d cs p hd _ ih => unfold walk; rw [hd]; exact ih
  | parent d n cs p hd _ ih =>
    unfold walk
    rw [hd]
    show walk fs (d ++ [n]).dropLast cs = _
    rw [List.dropLast_concat]
    exact ih
  | parentRoot cs p hd _ ih => unfold walk; rw [hd]; exact ih
  | name d n cs p hd _ ih => unfold walk; rw [hd]; exact ih

theorem walk_goes {fs : Files} : (cs : List Comp) → (d p : List Str) → walk fs d cs = .ok p →
    Goes (fun d => fs d = some .dir) d cs p
  | [], d, p, h => by cases h; exact .here _
  | c :: cs, d, p, h => by
    unfold walk at h
    cases hd : fs d with
    | none => rw [hd] at h; cases h
    | some i =>
      cases i with
      | file _ => rw [hd] at h; cases h
      | dir =>
        rw [hd] at h
        have ih := walk_goes cs _ _ h
        cases c with
        | root => exact .root _ _ _ hd ih
        | cur => exact .cur _ _ _ hd ih
        | normal n => exact .name _ _ _ _ hd ih
        | parent =>
          rcases List.eq_nil_or_concat d with rfl | ⟨d', n, rfl⟩
          · exact .parentRoot _ _ hd ih
          · rw [List.concat_eq_append] at hd ih ⊢
            rw [show stepTo (d' ++ [n]) .parent = d' from List.dropLast_concat] at ih
            exact .parent _ _ _ _ hd ih

theorem goes_foldl {d : List Str} {cs : List Comp} {p : List Str} (h : Goes (fun _ => True) d cs p) : p = cs.foldl stepTo d := by
  induction h with
  | here => rfl
  | root d cs p _ _ ih => exact ih
  | cur d cs p _ _ ih => exact ih
  | parent d n cs p _ _ ih =>
    rw [ih, List.foldl_cons, show stepTo (d ++ [n]) .parent = d from List.dropLast_concat]
  | parentRoot cs p _ _ ih => exact ih
  | name d n cs p _ _ ih => exact ih

theorem foldl_names (l d : List Str) : (l.map Comp.normal).foldl stepTo d = d ++ l := by
  induction l generalizing d with
  | nil => simp
  | cons n l ih => rw [List.map_cons, List.foldl_cons, ih]; simp [stepTo]

theorem leads_iff {cwd : List Str} {text : Str} {place : List Str} (h : Leads cwd text place) :
    ∃ h names, components text = h ++ names.map Comp.normal ∧ (∀ c ∈ h, ∀ n, c ≠ .normal n) ∧
      place = h.foldl stepTo cwd ++ names := by
  obtain ⟨hg, hd, names, h1, h2⟩ := h
  refine ⟨hd, names, h1, ?_, ?_⟩
  · rintro c hc n rfl
    exact h2 n hc
  · rw [goes_foldl hg, h1, List.foldl_append, foldl_names]

/-! ### what the walk sees -/

theorem shows_valid {fs : Files} (h : fs.Sound) {p : List Str} {t : Tree} (ht : Shows fs p t) : t.Valid := by
  induction ht with
  | file => trivial
  | dir p es _ hn hm _ _ ih =>
    refine ⟨hn, fun n hx => ?_, (validEntries_iff es).2 ih⟩
    exact h.names _ ((hm n).1 hx) n (by simp)

theorem shows_accessible {fs : Files} {p : List Str} {t : Tree} (ht : Shows fs p t) : t.Accessible := by
  induction ht with
  | file => trivial
  | dir p es _ hn hm hu _ ih =>
    refine ⟨rfl, (accessibleEntries_iff es).2 fun e he => ?_⟩
    have h1 := hu e he
    have h2 := ih e he
    obtain ⟨n, u, t⟩ := e
    cases t with
    | file c => exact fun _ => h1
    | dir es' b' => exact ⟨h1, h2⟩

theorem shows_at {fs : Files} (h : fs.Sound) {p : List Str} {t : Tree} (ht : Shows fs p t) (r : List Str) (c : Option Str) :
    At t r c ↔ fs (p ++ r) = some (.file c) := by
  induction ht generalizing r with
  | file p c' hp =>
    constructor
    · intro ha
      cases ha
      rw [List.append_nil, hp]
    · intro hc
      by_cases hr : r = []
      · subst hr
        rw [List.append_nil, hp] at hc
        cases hc
        exact .file _
      · rw [h.below_file hp (List.prefix_append p r) (by simpa using hr)] at hc
        cases hc
  | dir p es hp _ hm _ _ ih =>
    constructor
    · intro ha
      cases ha with
      | dir _ _ e r _ he ha =>
        have := (ih e he r).1 ha
        rwa [List.append_assoc] at this
    · intro hc
      cases r with
      | nil =>
        rw [List.append_nil, hp] at hc
        cases hc
      | cons n r =>
        have hn : fs (p ++ [n]) ≠ none := by
          intro hnone
          by_cases hr : r = []
          · subst hr
            rw [hc] at hnone
            cases hnone
          · have h2 := h.above (p := p ++ [n]) (q := p ++ n :: r) (by rw [hc]; simp) ⟨r, by simp⟩
              (by simpa using hr)
            rw [hnone] at h2
            cases h2
        obtain ⟨e, he, rfl⟩ := List.mem_map.1 ((hm n).2 hn)
        exact .dir _ _ e r c he ((ih e he r).2 (by simpa using hc))

theorem shows_schema {fs : Files} (h : fs.Sound) {p : List Str} {t : Tree} (ht : Shows fs p t) (r : List Str) (c : Option Str) :
    SchemaAt t r c ↔ fs.Schema p r c := by
  unfold SchemaAt Files.Schema
  rw [shows_at h ht]

/-! ### names -/

theorem pkt_ne_ts {a b : Str} : a ++ ".pkt".toList ≠ b ++ ".ts".toList := by
  intro h
  have h2 := congrArg (List.getLast? ·) h
  simp only [List.getLast?_append] at h2
  revert h2
  rw [show ".pkt".toList.getLast? = some 't' by decide, show ".ts".toList.getLast? = some 's' by decide]
  simp

theorem outFile_unique {out r q q' : List Str} (h : OutFile out r q) (h' : OutFile out r q') : q = q' := by
  obtain ⟨d, s, rfl, rfl⟩ := h
  obtain ⟨d', s', hr, rfl⟩ := h'
  obtain ⟨h1, h2⟩ := List.append_inj' hr rfl
  simp only [List.cons.injEq, and_true] at h2
  rw [h1, List.append_cancel_right h2]

theorem outFile_inj {out r r' q : List Str} (h : OutFile out r q) (h' : OutFile out r' q) : r = r' := by
  obtain ⟨d, s, rfl, rfl⟩ := h
  obtain ⟨d', s', rfl, hq⟩ := h'
  obtain ⟨h1, h2⟩ := List.append_inj' hq rfl
  simp only [List.cons.injEq, and_true] at h2
  rw [List.append_cancel_left h1, List.append_cancel_right h2]

theorem schema_outFile {fs : Files} {dir r : List Str} {c} (h : fs.Schema dir r c) (out : List Str) : ∃ q, OutFile out r q := by
  obtain ⟨d, s, rfl, _⟩ := h.2
  exact ⟨_, d, s, rfl, rfl⟩

/-- An output is not a schema. -/
theorem outFile_not_pkt {out r dir r' q : List Str} (h : OutFile out r q) (hr : ∃ d stem, r' = d ++ [stem ++ ".pkt".toList]) :
    dir ++ r' ≠ q := by
  obtain ⟨d, s, rfl, rfl⟩ := h
  obtain ⟨d', s', rfl⟩ := hr
  intro e
  rw [← List.append_assoc] at e
  have h2 := (List.append_inj' e rfl).2
  simp only [List.cons.injEq, and_true] at h2
  exact pkt_ne_ts h2

/-! ### lists -/

theorem forall2_and {α β : Type} {R S : α → β → Prop} {l : List α} {l' : List β} (h : List.Forall₂ R l l')
    (h' : List.Forall₂ S l l') : List.Forall₂ (fun a b => R a b ∧ S a b) l l' := by
  induction h with
  | nil => exact .nil
  | cons h _ ih => cases h' with | cons h1 h2 => exact .cons ⟨h, h1⟩ (ih h2)

theorem forall2_nodup {α β γ : Type} {R : α → β → Prop} {f : α → γ} {l : List α} {l' : List β} (h : List.Forall₂ R l l')
    (hi : ∀ a a' b, R a b → R a' b → f a = f a') (hn : (l.map f).Nodup) : l'.Nodup := by
  induction h with
  | nil => exact List.nodup_nil
  | @cons a b l l' h hf ih =>
    rw [List.map_cons, List.nodup_cons] at hn
    refine List.nodup_cons.2 ⟨fun hb => ?_, ih hn.2⟩
    obtain ⟨a', ha', hr⟩ := (forall2_mem hf).2 b hb
    exact hn.1 (hi a a' b h hr ▸ List.mem_map_of_mem ha')

/-! ### the run -/

/-- The condition for a run that can write everything. -/
def CanWrite (fs : Files) (dir out : List Str) : Prop :=
  (∀ r c q, fs.Schema dir r c → OutFile out r q → Free fs q) ∧ ¬ Clash fs dir

theorem mainF_dir {env : Str → Env} {cwd : List Str} {path out : Str} {es b} {fs : Files} :
    (∃ ss, runAll env path (.dir es b) = .ok ss ∧
      mainF env cwd .typeScript path out (some (.dir es b)) fs = saveAllF cwd path out .typeScript ss fs) ∨
    ((¬ ∃ ss, runAll env path (.dir es b) = .ok ss) ∧
      ∃ o, mainF env cwd .typeScript path out (some (.dir es b)) fs = (o, fs) ∧ o ≠ .ok ()) := by
  unfold mainF
  simp only
  cases runAll env path (.dir es b) with
  | ok ss => exact .inl ⟨ss, rfl, rfl⟩
  | err e => exact .inr ⟨by simp, _, rfl, by simp⟩
  | panic => exact .inr ⟨by simp, _, rfl, by simp⟩
  | diverge => exact .inr ⟨by simp, _, rfl, by simp⟩

/-- `q` is where the output of the compiled schema `s` goes. -/
def OutOf (env : Str → Env) (cwd : List Str) (path out : Str) (fs : Files) (dir : List Str) (hd : List Comp) (names : List Str)
    (s : Schema) (q : List Str) : Prop :=
  (∃ l n, formatPath s.path path out .typeScript true = .ok (hd ++ (l ++ [n]).map Comp.normal) ∧
    q = hd.foldl stepTo cwd ++ l ++ [n] ∧ ∀ m ∈ l ++ [n], ValidName m) ∧
  ∃ r c, fs.Schema dir r c ∧ s.path = below path r ∧ OutFile (hd.foldl stepTo cwd ++ names) r q ∧
    CompilesTo env path r c s.generated

theorem outOf_exists {env : Str → Env} {cwd : List Str} {path out : Str} {fs : Files} {dir : List Str} {es b}
    {hd : List Comp} {names : List Str} {ss : List Schema}
    (hcomp : components out = hd ++ names.map Comp.normal) (hv : (Tree.dir es b).Valid)
    (hr : runAll env path (.dir es b) = .ok ss) (hsch : ∀ r c, SchemaAt (.dir es b) r c ↔ fs.Schema dir r c) :
    ∀ s ∈ ss, ∃ q, OutOf env cwd path out fs dir hd names s q := by
  intro s hsm
  have hval : ∀ n ∈ names, ValidName n := fun n hn =>
    components_valid (p := out) (by rw [hcomp]; exact List.mem_append_right _ (List.mem_map_of_mem hn))
  obtain ⟨r, c, hsa, hp, hcc⟩ := (runAll_mem hv hr s).1 hsm
  have hn := at_valid hsa.1 hv
  have hfs := (hsch r c).1 hsa
  obtain ⟨d, stem, rfl, hst⟩ := hsa.2
  refine ⟨hd.foldl stepTo cwd ++ (names ++ d) ++ [stem ++ ".ts".toList], ⟨names ++ d, stem ++ ".ts".toList, ?_, rfl, ?_⟩,
    _, c, hfs, hp, ⟨d, stem, rfl, by simp⟩, hcc⟩
  · rw [hp, formatPath_preserve path out hst hn, hcomp]
    simp
  · intro m hm
    rcases List.mem_append.1 hm with hm | hm
    · rcases List.mem_append.1 hm with hm | hm
      · exact hval m hm
      · exact hn m (List.mem_append_left _ hm)
    · rw [List.mem_singleton.1 hm]
      have h1 : '/' ∉ stem := fun hx => (hn (stem ++ ".pkt".toList) (by simp)).2.1 (List.mem_append_left _ hx)
      have := valid_ext (x := "ts".toList) hst h1 (by decide) (by decide) (by decide)
      rwa [List.append_assoc] at this

theorem folder_run {env : Str → Env} {cwd : List Str} {path out : Str} {fs : Files} {dir place : List Str} {es b}
    (hs : fs.Sound) (hc : fs cwd = some .dir) (hf : Shows fs dir (.dir es b)) (ho : Leads cwd out place) :
    ∃ o fs', mainF env cwd .typeScript path out (some (.dir es b)) fs = (o, fs') ∧ fs'.Sound ∧
      (∀ p, fs p ≠ none → (¬ ∃ r c, fs.Schema dir r c ∧ OutFile place r p) → fs' p = fs p) ∧
      (AllCompile env path fs dir → CanWrite fs dir place → o = .ok () ∧ After env path dir place fs fs') ∧
      (¬ (AllCompile env path fs dir ∧ CanWrite fs dir place) → o ≠ .ok ()) := by
  have hv := shows_valid hs hf
  have hsch : ∀ r c, SchemaAt (.dir es b) r c ↔ fs.Schema dir r c := shows_schema hs hf
  rcases mainF_dir (env := env) (cwd := cwd) (path := path) (out := out) (es := es) (b := b) (fs := fs) with
    ⟨ss, hr, hm⟩ | ⟨hr, o, hm, hne⟩
  · obtain ⟨hd, names, hcomp, hh, rfl⟩ := leads_iff ho
    have key : ∀ s ∈ ss, ∃ q, OutOf env cwd path out fs dir hd names s q := fun s hsm =>
      outOf_exists hcomp hv hr hsch s hsm
    obtain ⟨qs, hq⟩ := forall2_exists key
    have hnd : qs.Nodup := by
      refine forall2_nodup hq (f := Schema.path) (fun a a' b h h' => ?_) (runAll_nodup hv hr)
      obtain ⟨_, r, c, _, h1, h2, _⟩ := h
      obtain ⟨_, r', c', _, h1', h2', _⟩ := h'
      rw [h1, h1', outFile_inj h2 h2']
    have hmem : ∀ q, q ∈ qs ↔ ∃ r c, fs.Schema dir r c ∧ OutFile (hd.foldl stepTo cwd ++ names) r q := by
      intro q
      constructor
      · intro hqm
        obtain ⟨s, _, _, r, c, h1, _, h2, _⟩ := (forall2_mem hq).2 q hqm
        exact ⟨r, c, h1, h2⟩
      · rintro ⟨r, c, h1, h2⟩
        obtain ⟨code, hcc⟩ := ((runAll_succeeds hv).1 ⟨ss, hr⟩).2 r c ((hsch r c).2 h1)
        obtain ⟨q', hq', _, r', c', h1', hp, h2', _⟩ := (forall2_mem hq).1 ⟨below path r, code⟩
          ((runAll_mem hv hr _).2 ⟨r, c, (hsch r c).2 h1, rfl, hcc⟩)
        have e : r = r' := below_inj (at_valid ((hsch r c).2 h1).1 hv) (at_valid ((hsch r' c').2 h1').1 hv) hp
        rw [outFile_unique h2 (e ▸ h2')]
        exact hq'
    have hall : AllCompile env path fs dir := fun r c h =>
      ((runAll_succeeds hv).1 ⟨ss, hr⟩).2 r c ((hsch r c).2 h)
    have hfree : AllFree fs qs ↔ CanWrite fs dir (hd.foldl stepTo cwd ++ names) := by
      generalize hd.foldl stepTo cwd ++ names = place at hmem
      constructor
      · rintro ⟨h1, h2⟩
        refine ⟨fun r c q hsc hoq => h1 q ((hmem q).2 ⟨r, c, hsc, hoq⟩), ?_⟩
        rintro ⟨d, stem, r, c, c', k1, k2⟩
        obtain ⟨d', s', hr', _⟩ := k2.2
        rcases List.eq_nil_or_concat r with rfl | ⟨r0, x, rfl⟩
        · rw [List.append_nil] at hr'
          have h3 := (List.append_inj' hr' rfl).2
          simp only [List.cons.injEq, and_true] at h3
          exact pkt_ne_ts h3.symm
        · rw [List.concat_eq_append, ← List.append_assoc] at hr'
          obtain ⟨h3, h4⟩ := List.append_inj' hr' rfl
          simp only [List.cons.injEq, and_true] at h4
          have m1 : place ++ d ++ [stem ++ ".ts".toList] ∈ qs := (hmem _).2 ⟨_, c, k1, d, stem, rfl, rfl⟩
          have m2 : place ++ (d ++ [stem ++ ".ts".toList] ++ r0) ++ [s' ++ ".ts".toList] ∈ qs :=
            (hmem _).2 ⟨_, c', k2, _, s', by rw [List.concat_eq_append, h4, ← List.append_assoc], rfl⟩
          have h5 := h2 _ m1 _ m2 ⟨r0 ++ [s' ++ ".ts".toList], by simp⟩
          have h6 := congrArg List.length h5
          simp only [List.length_append, List.length_cons, List.length_nil] at h6
          omega
      · rintro ⟨h1, h2⟩
        refine ⟨fun q hqm => ?_, fun q hqm q' hqm' hp => ?_⟩
        · obtain ⟨r, c, k1, k2⟩ := (hmem q).1 hqm
          exact h1 r c q k1 k2
        · by_contra hne
          obtain ⟨r, c, k1, d, stem, rfl, rfl⟩ := (hmem q).1 hqm
          obtain ⟨r', c', k1', d', stem', rfl, rfl⟩ := (hmem q').1 hqm'
          have h3 := (List.prefix_concat_iff.1 hp).resolve_left hne
          rw [List.append_assoc, List.prefix_append_right_inj] at h3
          obtain ⟨x, rfl⟩ := h3
          exact h2 ⟨d, stem, x ++ [stem' ++ ".pkt".toList], c, c', k1, by rw [← List.append_assoc]; exact k1'⟩
    obtain ⟨o, fs', hsv, hs', hk, hok, hbad⟩ := saveAllF_tidy hh (hq.imp fun _ _ h => h.1) hnd fs hs hc
    refine ⟨o, fs', by rw [hm, hsv], hs', fun p hp hno => hk p hp fun hpm => hno ((hmem p).1 hpm), fun _ hcw => ?_, fun hno => ?_⟩
    · obtain ⟨ho, w1, w2, w3⟩ := hok (hfree.2 hcw)
      refine ⟨ho, fun q => ⟨fun r c code h1 h2 h3 => ?_, ?_, fun hno => ?_⟩⟩
      · obtain ⟨q', hq', ⟨_, r', c', h1', hp, h2', _⟩, hw⟩ := (forall2_mem (forall2_and hq w1)).1 ⟨below path r, code⟩
          ((runAll_mem hv hr _).2 ⟨r, c, (hsch r c).2 h1, rfl, h3⟩)
        have e : r = r' := below_inj (at_valid ((hsch r c).2 h1).1 hv) (at_valid ((hsch r' c').2 h1').1 hv) hp
        rw [outFile_unique h2 (e ▸ h2')]
        exact hw
      · rintro ⟨r, c, p, h1, h2, h3, h4⟩
        exact w2 p ((hmem p).2 ⟨r, c, h1, h2⟩) q h3 h4
      · refine w3 q fun p hpm hp => hno ?_
        obtain ⟨r, c, h1, h2⟩ := (hmem p).1 hpm
        exact ⟨r, c, p, h1, h2, hp⟩
    · rw [hbad fun ha => hno ⟨hall, hfree.1 ha⟩]
      simp
  · refine ⟨o, fs, hm, hs, fun _ _ _ => rfl, fun ha _ => ?_, fun _ => hne⟩
    refine absurd ((runAll_succeeds hv).2 ⟨shows_accessible hf, fun p c h => ?_⟩) hr
    exact ha p c ((hsch p c).1 h)

/-! ### after a run -/

theorem after_unique {env : Str → Env} {path : Str} {dir place : List Str} {fs fs1 fs2 : Files}
    (ha : AllCompile env path fs dir) (h1 : After env path dir place fs fs1) (h2 : After env path dir place fs fs2) : fs1 = fs2 := by
  funext q
  by_cases hq : ∃ r c p, fs.Schema dir r c ∧ OutFile place r p ∧ q <+: p
  · obtain ⟨r, c, p, k1, k2, k3⟩ := hq
    by_cases hne : q = p
    · subst hne
      obtain ⟨code, hc⟩ := ha r c k1
      rw [(h1 q).1 r c code k1 k2 hc, (h2 q).1 r c code k1 k2 hc]
    · rw [(h1 q).2.1 ⟨r, c, p, k1, k2, k3, hne⟩, (h2 q).2.1 ⟨r, c, p, k1, k2, k3, hne⟩]
  · rw [(h1 q).2.2 hq, (h2 q).2.2 hq]

/-- The schemas are as before. -/
theorem after_schema {env : Str → Env} {path : Str} {dir dir' place : List Str} {fs fs' : Files} (hcw : CanWrite fs dir place)
    (ha : After env path dir place fs fs') (r : List Str) (c : Option Str) : fs'.Schema dir' r c ↔ fs.Schema dir' r c := by
  unfold Files.Schema
  refine and_congr_left fun ⟨d, stem, hr, _⟩ => ?_
  by_cases hq : ∃ r' c' p, fs.Schema dir r' c' ∧ OutFile place r' p ∧ dir' ++ r <+: p
  · obtain ⟨r', c', p, k1, k2, k3⟩ := hq
    have hne : dir' ++ r ≠ p := outFile_not_pkt k2 ⟨d, stem, hr⟩
    rw [(ha _).2.1 ⟨r', c', p, k1, k2, k3, hne⟩]
    have := (hcw.1 r' c' p k1 k2).1 _ k3 hne
    constructor
    · intro h; cases h
    · intro h; exact absurd h (this c)
  · rw [(ha _).2.2 hq]

theorem after_kept {env : Str → Env} {path : Str} {dir place : List Str} {fs fs' : Files} (hcw : CanWrite fs dir place)
    (ha : After env path dir place fs fs') {p : List Str} (hp : fs p = some .dir) : fs' p = some .dir := by
  by_cases hq : ∃ r c q, fs.Schema dir r c ∧ OutFile place r q ∧ p <+: q
  · obtain ⟨r, c, q, k1, k2, k3⟩ := hq
    by_cases hne : p = q
    · exact absurd (hne ▸ hp) (hcw.1 r c q k1 k2).2
    · exact (ha p).2.1 ⟨r, c, q, k1, k2, k3, hne⟩
  · rw [(ha p).2.2 hq, hp]

/-- All is still free. -/
theorem after_canWrite {env : Str → Env} {path : Str} {dir place : List Str} {fs fs' : Files} (hall : AllCompile env path fs dir)
    (hcw : CanWrite fs dir place) (ha : After env path dir place fs fs') : CanWrite fs' dir place := by
  have hsc := fun r c => after_schema (dir' := dir) hcw ha r c
  refine ⟨fun r c q h1 h2 => ?_, ?_⟩
  · rw [hsc] at h1
    refine ⟨fun p hp hne c' => ?_, ?_⟩
    · rw [(ha p).2.1 ⟨r, c, q, h1, h2, hp, hne⟩]
      simp
    · obtain ⟨code, hcc⟩ := hall r c h1
      rw [(ha q).1 r c code h1 h2 hcc]
      simp
  · rintro ⟨d, stem, r, c, c', h1, h2⟩
    rw [hsc] at h1 h2
    exact hcw.2 ⟨d, stem, r, c, c', h1, h2⟩

theorem after_allCompile {env env' : Str → Env} {path : Str} {dir place : List Str} {fs fs' : Files}
    (hcw : CanWrite fs dir place) (ha : After env path dir place fs fs') (h : AllCompile env' path fs dir) :
    AllCompile env' path fs' dir := fun r c hsc => h r c ((after_schema hcw ha r c).1 hsc)

/-- What a second run leaves is what it would have left without the first. -/
theorem after_after {env env' : Str → Env} {path : Str} {dir place : List Str} {fs fs1 fs2 : Files}
    (hcw : CanWrite fs dir place) (h1 : After env path dir place fs fs1) (h2 : After env' path dir place fs1 fs2) :
    After env' path dir place fs fs2 := by
  have hsc := fun r c => after_schema (dir' := dir) hcw h1 r c
  intro q
  obtain ⟨k1, k2, k3⟩ := h2 q
  simp only [hsc] at k1 k2 k3
  exact ⟨k1, k2, fun hno => by rw [k3 hno, (h1 q).2.2 hno]⟩

theorem walk_kept {fs fs' : Files} (h : ∀ p, fs p = some .dir → fs' p = some .dir) : (cs : List Comp) → (d p : List Str) →
    walk fs d cs = .ok p → walk fs' d cs = .ok p
  | [], _, _, hw => hw
  | c :: cs, d, p, hw => by
    unfold walk at hw ⊢
    cases hd : fs d with
    | none => rw [hd] at hw; cases hw
    | some i =>
      cases i with
      | dir =>
        rw [hd] at hw
        rw [h d hd]
        exact walk_kept h cs _ _ hw
      | file c => rw [hd] at hw; cases hw

/-! ### what is kept, for any paths -/

theorem walk_snoc {fs : Files} {d p : List Str} {cs : List Comp} {c : Comp} (h : walk fs d (cs ++ [c]) = .ok p) :
    ∃ m, walk fs d cs = .ok m ∧ fs m = some .dir ∧ p = stepTo m c := by
  rw [walk_append] at h
  cases hw : walk fs d cs with
  | error e => rw [hw] at h; cases h
  | ok m =>
    rw [hw] at h
    simp only at h
    unfold walk at h
    cases hm : fs m with
    | none => rw [hm] at h; cases h
    | some i =>
      cases i with
      | file c => rw [hm] at h; cases h
      | dir =>
        rw [hm] at h
        exact ⟨m, rfl, hm, (Except.ok.inj h).symm⟩

/-- A path that does not end in a name denotes a directory. -/
theorem step_dir {fs : Files} (h : fs.Sound) {m : List Str} (hm : fs m = some .dir) {c : Comp} (hc : ∀ n, c ≠ .normal n) :
    fs (stepTo m c) = some .dir := by
  cases c with
  | root => exact h.root
  | cur => exact hm
  | parent => exact h.dirs hm (List.dropLast_prefix m)
  | normal n => exact absurd rfl (hc n)

/-- Nothing that was there has changed. -/
def Kept (fs fs' : Files) : Prop := ∀ p, fs p ≠ none → fs' p = fs p

theorem kept_trans {fs fs1 fs2 : Files} (h : Kept fs fs1) (h' : Kept fs1 fs2) : Kept fs fs2 := fun p hp => by
  rw [h' p (by rw [h p hp]; exact hp), h p hp]

/-- A new item in a directory. -/
theorem set_sound {fs : Files} (h : fs.Sound) {m : List Str} {n : Str} (hm : fs m = some .dir) (hn : ValidName n)
    (hd : fs (m ++ [n]) ≠ some .dir) (i : Item) : (fs.set (m ++ [n]) i).Sound := by
  refine ⟨?_, fun p x hp => ?_, fun p hp x hx => ?_⟩
  · rw [Files.set_other _ _ (by simp), h.root]
  · have hpd : fs p = some .dir := by
      by_cases he : p ++ [x] = m ++ [n]
      · rw [(List.append_inj' he rfl).1, hm]
      · rw [Files.set_other _ _ he] at hp
        exact h.up _ _ hp
    have hne : p ≠ m ++ [n] := fun e => hd (e ▸ hpd)
    rw [Files.set_other _ _ hne, hpd]
  · by_cases he : p = m ++ [n]
    · rw [he] at hx
      rcases List.mem_append.1 hx with hx | hx
      · exact h.names m (by rw [hm]; simp) x hx
      · rw [List.mem_singleton.1 hx]; exact hn
    · rw [Files.set_other _ _ he] at hp
      exact h.names p hp x hx

theorem mkdir_kept {fs fs' : Files} (h : fs.Sound) {cwd : List Str} (hc : fs cwd = some .dir) {cs : List Comp}
    (hv : ∀ n, Comp.normal n ∈ cs → ValidName n) (hm : mkdir cwd cs fs = .ok fs') : fs'.Sound ∧ Kept fs fs' := by
  unfold mkdir at hm
  cases hw : walk fs cwd cs with
  | error e => rw [hw] at hm; cases hm
  | ok p =>
    rw [hw] at hm
    simp only at hm
    cases hp : fs p with
    | some i => rw [hp] at hm; cases hm
    | none =>
      rw [hp] at hm
      have hfs' := (Except.ok.inj hm).symm
      rw [hfs']
      rcases List.eq_nil_or_concat cs with rfl | ⟨cs', c, rfl⟩
      · have : cwd = p := Except.ok.inj hw
        rw [← this, hc] at hp
        cases hp
      · rw [List.concat_eq_append] at hw hv
        obtain ⟨m, _, hmd, rfl⟩ := walk_snoc hw
        cases c with
        | normal n =>
          refine ⟨set_sound h hmd (hv n (by simp)) (by show fs (stepTo m (.normal n)) ≠ _; rw [hp]; simp) _, fun q hq => ?_⟩
          exact Files.set_other _ _ fun e => hq (e ▸ hp)
        | root => rw [step_dir h hmd (by simp)] at hp; cases hp
        | cur => rw [step_dir h hmd (by simp)] at hp; cases hp
        | parent => rw [step_dir h hmd (by simp)] at hp; cases hp

theorem createDirAll_kept {cwd : List Str} : (cs : List Comp) → (∀ n, Comp.normal n ∈ cs → ValidName n) → ∀ fs : Files,
    fs.Sound → fs cwd = some .dir → (createDirAll cwd cs fs).2.Sound ∧ Kept fs (createDirAll cwd cs fs).2
  | [], _, fs, h, _ => ⟨h, fun _ _ => rfl⟩
  | c :: up, hv, fs, h, hc => by
    have hv' : ∀ n, Comp.normal n ∈ (c :: up).reverse → ValidName n := fun n hn => hv n (List.mem_reverse.1 hn)
    have ih := createDirAll_kept (cwd := cwd) up (fun n hn => hv n (List.mem_cons_of_mem _ hn)) fs h hc
    unfold createDirAll
    cases hm : mkdir cwd (c :: up).reverse fs with
    | ok fs1 => exact mkdir_kept h hc hv' hm
    | error e =>
      cases e with
      | other => exact ⟨h, fun _ _ => rfl⟩
      | notFound =>
        simp only
        cases hr : createDirAll cwd up fs with
        | mk b fs1 =>
          rw [hr] at ih
          cases b with
          | false => exact ih
          | true =>
            simp only
            have hc1 : fs1 cwd = some .dir := by
              have ih2 : Kept fs fs1 := ih.2
              rw [ih2 cwd (by rw [hc]; simp), hc]
            cases hm1 : mkdir cwd (c :: up).reverse fs1 with
            | error e => exact ih
            | ok fs2 =>
              obtain ⟨k1, k2⟩ := mkdir_kept ih.1 hc1 hv' hm1
              exact ⟨k1, kept_trans ih.2 k2⟩

/-- Nothing has changed but what is called `n`. -/
def KeptBut (n : Option Str) (fs fs' : Files) : Prop :=
  ∀ p, fs p ≠ none → (fs' p = fs p ∨ (fs p ≠ some .dir ∧ (∃ text, fs' p = some (.file (some text))) ∧ ∃ x, n = some x ∧ p.getLast? = some x))

theorem saveOneF_kept {cwd : List Str} {s : Schema} {q : List Comp} {fs : Files} (h : fs.Sound) (hc : fs cwd = some .dir)
    (hv : ∀ n, Comp.normal n ∈ q → ValidName n) :
    (saveOneF cwd s q fs).2.Sound ∧ KeptBut (fileName q) fs (saveOneF cwd s q fs).2 := by
  have key : ∀ fs1 : Files, fs1.Sound → Kept fs fs1 → ∀ b fs2, writeFile cwd q s.generated fs1 = (b, fs2) →
      fs2.Sound ∧ KeptBut (fileName q) fs fs2 := by
    intro fs1 h1 hk b fs2 hw
    have hc1 : fs1 cwd = some .dir := by rw [hk cwd (by rw [hc]; simp), hc]
    have hsame : fs2 = fs1 → fs2.Sound ∧ KeptBut (fileName q) fs fs2 := fun e => by
      rw [e]; exact ⟨h1, fun p hp => .inl (hk p hp)⟩
    unfold writeFile at hw
    split_ifs at hw with hq
    · exact hsame (Prod.mk.inj hw).2.symm
    · cases hwk : walk fs1 cwd q with
      | error e => rw [hwk] at hw; exact hsame (Prod.mk.inj hw).2.symm
      | ok p =>
        rw [hwk] at hw
        simp only at hw
        by_cases hd : fs1 p = some .dir
        · rw [hd] at hw; exact hsame (Prod.mk.inj hw).2.symm
        · have hfs2 : fs2 = fs1.set p (.file (some s.generated)) := by
            cases hi : fs1 p with
            | none => rw [hi] at hw; exact (Prod.mk.inj hw).2.symm
            | some i =>
              cases i with
              | dir => exact absurd hi hd
              | file c => rw [hi] at hw; exact (Prod.mk.inj hw).2.symm
          rw [hfs2]
          rcases List.eq_nil_or_concat q with rfl | ⟨q', c, rfl⟩
          · exact absurd rfl hq
          · rw [List.concat_eq_append] at hwk hv ⊢
            obtain ⟨m, _, hmd, rfl⟩ := walk_snoc hwk
            cases c with
            | normal n =>
              refine ⟨set_sound h1 hmd (hv n (by simp)) hd _, fun p hp => ?_⟩
              by_cases he : p = m ++ [n]
              · refine .inr ⟨fun hpd => hd ?_, ⟨s.generated, by rw [he]; exact Files.set_same _ _ _⟩, n, by simp [fileName], by rw [he]; simp⟩
                show fs1 (m ++ [n]) = _
                rw [← he, hk p hp, hpd]
              · refine .inl ?_
                show (fs1.set (m ++ [n]) _) p = _
                rw [Files.set_other _ _ he, hk p hp]
            | root => exact absurd (step_dir h1 hmd (by simp)) hd
            | cur => exact absurd (step_dir h1 hmd (by simp)) hd
            | parent => exact absurd (step_dir h1 hmd (by simp)) hd
  have key2 : ∀ b fs1, (match parentPath q with | none => (true, fs) | some up => createDirAll cwd up.reverse fs) = (b, fs1) →
      fs1.Sound ∧ Kept fs fs1 := by
    intro b fs1 he
    cases hp : parentPath q with
    | none =>
      rw [hp] at he
      rw [← (Prod.mk.inj he).2]
      exact ⟨h, fun _ _ => rfl⟩
    | some up =>
      rw [hp] at he
      simp only at he
      have hup : up = q.dropLast := by
        unfold parentPath at hp
        cases hl : q.getLast? with
        | none => rw [hl] at hp; cases hp
        | some c =>
          rw [hl] at hp
          cases c with
          | root => cases hp
          | cur => exact (Option.some.inj hp).symm
          | parent => exact (Option.some.inj hp).symm
          | normal n => exact (Option.some.inj hp).symm
      have := createDirAll_kept (cwd := cwd) up.reverse (fun n hn => hv n (by
        have := List.mem_reverse.1 hn
        rw [hup] at this
        exact (List.dropLast_sublist q).subset this)) fs h hc
      rw [he] at this
      exact this
  unfold saveOneF
  split
  · rename_i fs1 he
    obtain ⟨k1, k2⟩ := key2 _ _ he
    exact ⟨k1, fun p hp => .inl (k2 p hp)⟩
  · rename_i fs1 he
    obtain ⟨k1, k2⟩ := key2 _ _ he
    split
    · rename_i fs2 hw
      exact key fs1 k1 k2 _ _ hw
    · rename_i fs2 hw
      exact key fs1 k1 k2 _ _ hw

end Packetc.Cli
