import Verif.Spec.Parallel
import Verif.Proof.FolderRun
import Verif.Props.Cli
/-!
# Runs at the same time (for C110)
-/

namespace Packetc.Cli

/-! ### a run by itself -/

theorem Files.set_set (fs : Files) (p : List Str) (i j : Item) : (fs.set p i).set p j = fs.set p j := by
  funext q
  by_cases h : q = p
  · rw [h, Files.set_same, Files.set_same]
  · rw [Files.set_other _ _ h, Files.set_other _ _ h, Files.set_other _ _ h]

theorem createDirAllP_run {cwd : List Str} : (cs : List Comp) → (k : Bool → Prog) → (fs : Files) →
    (createDirAllP cs k).run cwd fs = (k (createDirAll cwd cs fs).1).run cwd (createDirAll cwd cs fs).2
  | [], _, _ => rfl
  | c :: up, k, fs => by
    unfold createDirAllP createDirAll
    rw [Prog.run.eq_2]
    cases hm : mkdir cwd (c :: up).reverse fs with
    | ok fs1 => rfl
    | error e =>
      cases e with
      | other => rfl
      | notFound =>
        simp only
        rw [createDirAllP_run up _ fs]
        cases hr : createDirAll cwd up fs with
        | mk b fs1 =>
          cases b with
          | false => rfl
          | true =>
            simp only [if_true]
            rw [Prog.run.eq_2]
            cases hm1 : mkdir cwd (c :: up).reverse fs1 with
            | ok fs2 => rfl
            | error e => cases e <;> rfl

theorem saveOneP_run {cwd : List Str} (s : Schema) (out : List Comp) (k : Prog) (fs : Files) :
    (saveOneP s out k).run cwd fs =
      match saveOneF cwd s out fs with
      | (.ok (), fs) => k.run cwd fs
      | (e, fs) => (e, fs) := by
  have key : ∀ fs : Files, (Prog.create out s.generated fun b => if b then k else .done (.err .io)).run cwd fs =
      match (match writeFile cwd out s.generated fs with
        | (false, fs) => ((.err .io : Outcome Unit), fs)
        | (true, fs) => (.ok (), fs)) with
      | (.ok (), fs) => k.run cwd fs
      | (e, fs) => (e, fs) := by
    intro fs
    unfold writeFile
    rw [Prog.run.eq_4]
    by_cases hq : out = []
    · rw [if_pos hq, if_pos hq]
      rfl
    · rw [if_neg hq, if_neg hq]
      cases hw : walk fs cwd out with
      | error e => rfl
      | ok p =>
        simp only
        cases hp : fs p with
        | none => simp only [Files.set_set, if_true]
        | some i =>
          cases i with
          | dir => rfl
          | file c => simp only [Files.set_set, if_true]
  unfold saveOneP saveOneF
  simp only
  cases hp : parentPath out with
  | none => exact key fs
  | some up =>
    simp only
    rw [createDirAllP_run]
    cases hr : createDirAll cwd up.reverse fs with
    | mk b fs1 =>
      cases b with
      | false => rfl
      | true => exact key fs1

theorem saveAllP_run {cwd : List Str} {base out : Str} {lang : Lang} : (ss : List Schema) → (fs : Files) →
    (saveAllP base out lang ss).run cwd fs = saveAllF cwd base out lang ss fs
  | [], _ => rfl
  | s :: ss, fs => by
    unfold saveAllP saveAllF
    cases formatPath s.path base out lang true with
    | ok p =>
      simp only
      rw [saveOneP_run]
      cases hs : saveOneF cwd s p fs with
      | mk o fs1 =>
        cases o with
        | ok u => exact saveAllP_run ss fs1
        | err e => rfl
        | panic => rfl
        | diverge => rfl
    | err e => rfl
    | panic => rfl
    | diverge => rfl

theorem mainP_run (env : Str → Env) (cwd : List Str) (lang : Lang) (path out : Str) (input : Option Tree) (fs : Files) :
    (mainP env lang path out input).run cwd fs = mainF env cwd lang path out input fs := by
  unfold mainP mainF
  cases input with
  | none => rfl
  | some t =>
    cases t with
    | dir es c =>
      simp only
      cases runAll env path (.dir es c) with
      | ok ss => exact saveAllP_run ss fs
      | err e => rfl
      | panic => rfl
      | diverge => rfl
    | file content =>
      simp only
      cases runOne env path content with
      | ok s =>
        simp only
        cases formatPath s.path path out lang false with
        | ok p =>
          simp only
          rw [saveOneP_run]
          cases hs : saveOneF cwd s p fs with
          | mk o fs1 => cases o <;> rfl
        | err e => rfl
        | panic => rfl
        | diverge => rfl
      | err e => rfl
      | panic => rfl
      | diverge => rfl

theorem step_run {cwd : List Str} (prog : Prog) (fs : Files) :
    (prog.step cwd fs).1.run cwd (prog.step cwd fs).2 = prog.run cwd fs := by
  cases prog with
  | done o => rfl
  | mkdir path k =>
    rw [Prog.run.eq_2, Prog.step.eq_2]
    cases mkdir cwd path fs with
    | ok fs1 => rfl
    | error e => rfl
  | isDir path k => rfl
  | create path text k =>
    rw [Prog.run.eq_4, Prog.step.eq_4]
    by_cases hq : path = []
    · rw [if_pos hq, if_pos hq]
    · rw [if_neg hq, if_neg hq]
      cases walk fs cwd path with
      | error e => rfl
      | ok p =>
        simp only
        cases hp : fs p with
        | none => rfl
        | some i => cases i <;> rfl
  | fill p text k => rfl

/-! ### how long a run takes -/

/-- At most so many operations. -/
def Prog.depth : Prog → Nat
  | .done _ => 0
  | .mkdir _ k => 1 + max (k none).depth (max (k (some .notFound)).depth (k (some .other)).depth)
  | .isDir _ k => 1 + max (k true).depth (k false).depth
  | .create _ _ k => 2 + max (k true).depth (k false).depth
  | .fill _ _ k => 1 + k.depth

theorem step_depth {cwd : List Str} {prog : Prog} (h : ¬ prog.Ended) (fs : Files) :
    (prog.step cwd fs).1.depth < prog.depth := by
  cases prog with
  | done o => exact absurd ⟨o, rfl⟩ h
  | mkdir path k =>
    rw [Prog.depth.eq_2, Prog.step.eq_2]
    cases mkdir cwd path fs with
    | ok fs1 => simp only; omega
    | error e => cases e <;> (simp only; omega)
  | isDir path k =>
    rw [Prog.depth.eq_3, Prog.step.eq_3]
    cases isDir cwd path fs <;> (simp only; omega)
  | create path text k =>
    rw [Prog.depth.eq_4, Prog.step.eq_4]
    by_cases hq : path = []
    · rw [if_pos hq]; simp only; omega
    · rw [if_neg hq]
      cases walk fs cwd path with
      | error e => simp only; omega
      | ok p =>
        simp only
        split
        · simp only; omega
        · simp only [Prog.depth.eq_5]; omega
  | fill p text k =>
    rw [Prog.depth.eq_5, Prog.step.eq_5]
    simp only
    omega

/-- At most so many operations in all. -/
def total (rs : Runs) : Nat := (rs.map fun x => x.2.depth).sum

theorem oneStep_total {c c' : Runs × Files} (h : OneStep c c') : total c'.1 < total c.1 := by
  cases h with
  | step before after cwd prog fs hn =>
    have := step_depth (cwd := cwd) hn fs
    unfold total
    simp only [List.map_append, List.map_cons, List.sum_append, List.sum_cons]
    omega

theorem steps_total {n : Nat} {c c' : Runs × Files} (h : Steps n c c') : n ≤ total c.1 := by
  induction h with
  | none => omega
  | more n c c' c'' h _ ih =>
    have := oneStep_total h
    omega

/-! ### what a run may rely on, and what it does -/

/-- Nothing is in the way of the outputs. -/
def Calm (Q : List Str → Str → Prop) (fs : Files) : Prop := fs.Sound ∧ ∀ q c, Q q c → Free fs q

/-- Directories stay. -/
def Stays (fs fs' : Files) : Prop := ∀ p, fs p = some .dir → fs' p = some .dir

/-- An operation of a run that has still to write `W`, then `W'`. -/
def Moves (Q : List Str → Str → Prop) (W W' : List (List Str)) (fs fs' : Files) : Prop :=
  Stays fs fs' ∧ (∀ p, (∀ q c, Q q c → ¬ p <+: q) → fs' p = fs p) ∧
  ∀ q c, Q q c → q ∈ W ∨ fs q = some (.file (some c)) → q ∈ W' ∨ fs' q = some (.file (some c))

/-- A run that will write `W` and succeed, whatever the others do. -/
inductive Good (cwd : List Str) (Q : List Str → Str → Prop) : List (List Str) → Files → Prog → Prop
  | done (fs) : Good cwd Q [] fs (.done (.ok ()))
  | step (W fs prog) (next : Files → List (List Str)) : ¬ prog.Ended →
      (∀ fs1, Stays fs fs1 → Calm Q fs1 →
        Calm Q (prog.step cwd fs1).2 ∧ Moves Q W (next fs1) fs1 (prog.step cwd fs1).2) →
      (∀ fs1, Stays fs fs1 → Calm Q fs1 → Good cwd Q (next fs1) (prog.step cwd fs1).2 (prog.step cwd fs1).1) →
      Good cwd Q W fs prog

theorem good_step {cwd : List Str} {Q : List Str → Str → Prop} {W : List (List Str)} {fs : Files} {prog : Prog}
    (hn : ¬ prog.Ended) (h : ∀ fs1, Stays fs fs1 → Calm Q fs1 → ∃ W', Calm Q (prog.step cwd fs1).2 ∧
      Moves Q W W' fs1 (prog.step cwd fs1).2 ∧ Good cwd Q W' (prog.step cwd fs1).2 (prog.step cwd fs1).1) :
    Good cwd Q W fs prog := by
  classical
  choose! next h1 h2 h3 using h
  exact .step _ _ _ next hn (fun fs1 a b => ⟨h1 fs1 a b, h2 fs1 a b⟩) h3

theorem stays_trans {fs fs1 fs2 : Files} (h : Stays fs fs1) (h' : Stays fs1 fs2) : Stays fs fs2 := fun p hp => h' p (h p hp)

theorem good_later {cwd : List Str} {Q : List Str → Str → Prop} {W : List (List Str)} {fs fs1 : Files} {prog : Prog}
    (h : Good cwd Q W fs prog) (hs : Stays fs fs1) : Good cwd Q W fs1 prog := by
  cases h with
  | done => exact .done _
  | step _ _ _ next hn h h' =>
    exact .step _ _ _ next hn (fun fs2 h2 hc => h fs2 (stays_trans hs h2) hc) fun fs2 h2 hc => h' fs2 (stays_trans hs h2) hc

theorem moves_none (Q W fs) : Moves Q W W fs fs := ⟨fun _ h => h, fun _ _ => rfl, fun _ _ _ h => h⟩

/-- A new directory for an output. -/
theorem moves_dir {Q W} {fs : Files} (hc : Calm Q fs) (hA : ∀ q c q' c', Q q c → Q q' c' → q <+: q' → q = q')
    {m : List Str} {n : Str} {q c} (hq : Q q c) (hp : m ++ [n] <+: q) (hne : m ++ [n] ≠ q) (hm : fs m = some .dir)
    (hv : ValidName n) (hnone : fs (m ++ [n]) = none) :
    Calm Q (fs.set (m ++ [n]) .dir) ∧ Moves Q W W fs (fs.set (m ++ [n]) .dir) := by
  have hout : ∀ q' c', Q q' c' → q' ≠ m ++ [n] := by
    rintro q' c' hq' rfl
    exact hne (hA _ _ _ _ hq' hq hp)
  refine ⟨⟨set_sound hc.1 hm hv (by rw [hnone]; simp) _, fun q' c' hq' => ?_⟩, fun p hpd => ?_, fun p hpn => ?_, fun q' c' hq' h => ?_⟩
  · refine ⟨fun p h1 h2 c => ?_, ?_⟩
    · by_cases he : p = m ++ [n]
      · rw [he, Files.set_same]; simp
      · rw [Files.set_other _ _ he]; exact (hc.2 q' c' hq').1 p h1 h2 c
    · rw [Files.set_other _ _ (hout q' c' hq')]
      exact (hc.2 q' c' hq').2
  · by_cases he : p = m ++ [n]
    · rw [he, Files.set_same]
    · rw [Files.set_other _ _ he, hpd]
  · exact Files.set_other _ _ fun e => hpn q c hq (e ▸ hp)
  · rw [Files.set_other _ _ (hout q' c' hq')]
    exact h

/-- A file at an output. -/
theorem calm_file {Q} {fs : Files} (hc : Calm Q fs) (hA : ∀ q c q' c', Q q c → Q q' c' → q <+: q' → q = q')
    {m : List Str} {n : Str} {c} (hq : Q (m ++ [n]) c) (hm : fs m = some .dir) (hv : ValidName n) (x) :
    Calm Q (fs.set (m ++ [n]) (.file x)) ∧ Stays fs (fs.set (m ++ [n]) (.file x)) ∧
      ∀ p, (∀ q c, Q q c → ¬ p <+: q) → fs.set (m ++ [n]) (.file x) p = fs p := by
  refine ⟨⟨set_sound hc.1 hm hv (hc.2 _ _ hq).2 _, fun q' c' hq' => ⟨fun p h1 h2 c => ?_, ?_⟩⟩, fun p hpd => ?_, fun p hpn => ?_⟩
  · by_cases he : p = m ++ [n]
    · exact absurd (hA _ _ _ _ (he ▸ hq) hq' h1) h2
    · rw [Files.set_other _ _ he]; exact (hc.2 q' c' hq').1 p h1 h2 c
  · by_cases he : q' = m ++ [n]
    · rw [he, Files.set_same]; simp
    · rw [Files.set_other _ _ he]; exact (hc.2 q' c' hq').2
  · by_cases he : p = m ++ [n]
    · rw [he] at hpd
      exact absurd hpd (hc.2 _ _ hq).2
    · rw [Files.set_other _ _ he, hpd]
  · exact Files.set_other _ _ fun e => hpn _ c hq (e ▸ List.prefix_rfl)

theorem step_mkdir_ok {cwd : List Str} {path : List Comp} {k : Option Errno → Prog} {fs fs1 : Files}
    (h : mkdir cwd path fs = .ok fs1) : (Prog.mkdir path k).step cwd fs = (k none, fs1) := by
  rw [Prog.step.eq_2, h]

theorem step_mkdir_error {cwd : List Str} {path : List Comp} {k : Option Errno → Prog} {fs : Files} {e : Errno}
    (h : mkdir cwd path fs = .error e) : (Prog.mkdir path k).step cwd fs = (k (some e), fs) := by
  rw [Prog.step.eq_2, h]

section Dirs

variable {cwd : List Str} {Q : List Str → Str → Prop} {W : List (List Str)} {hd : List Comp}

theorem good_isDir {fs : Files} {path : List Comp} {k : Bool → Prog} {p : List Str} (hp : fs p = some .dir)
    (hw : ∀ fs1, Stays fs fs1 → Calm Q fs1 → walk fs1 cwd path = .ok p)
    (hk : ∀ fs1, Stays fs fs1 → Calm Q fs1 → Good cwd Q W fs1 (k true)) : Good cwd Q W fs (.isDir path k) := by
  refine good_step (by rintro ⟨o, h⟩; cases h) fun fs1 h1 hc => ⟨W, hc, moves_none _ _ _, ?_⟩
  show Good cwd Q W fs1 (k (isDir cwd path fs1))
  have : isDir cwd path fs1 = true := by
    unfold isDir
    rw [hw fs1 h1 hc]
    simp [h1 p hp]
  rw [this]
  exact hk fs1 h1 hc

/-- Where the path of an output leads, as soon as its directory is there. -/
theorem walk_names (hh : ∀ c ∈ hd, ∀ n, c ≠ .normal n) {fs : Files} (hs : fs.Sound) (hc : fs cwd = some .dir) {l : List Str}
    (hl : fs (hd.foldl stepTo cwd ++ l) = some .dir) (n : Str) :
    walk fs cwd (hd ++ (l ++ [n]).map Comp.normal) = .ok (hd.foldl stepTo cwd ++ l ++ [n]) := by
  rw [walk_append, (walk_up hs hd cwd hh hc).1]
  exact walk_down hs n l _ hl

/-- `mkdir` as soon as the directory above is there. -/
theorem good_mkdir (hA : ∀ q c q' c', Q q c → Q q' c' → q <+: q' → q = q') (hh : ∀ c ∈ hd, ∀ n, c ≠ .normal n) {q c}
    (hq : Q q c) {l : List Str} {n : Str} (hv : ValidName n) (hp : hd.foldl stepTo cwd ++ l ++ [n] <+: q)
    (hne : hd.foldl stepTo cwd ++ l ++ [n] ≠ q) {fs : Files} (hs : fs cwd = some .dir) {k : Bool → Prog}
    {K : Option Errno → Prog} (hK1 : K none = k true)
    (hK2 : K (some .other) = .isDir (hd ++ (l ++ [n]).map Comp.normal) k)
    (hk : ∀ fs1, Stays fs fs1 → Calm Q fs1 → fs1 (hd.foldl stepTo cwd ++ l ++ [n]) = some .dir → Good cwd Q W fs1 (k true))
    {fs1 : Files} (h1 : Stays fs fs1) (hc : Calm Q fs1) (hl : fs1 (hd.foldl stepTo cwd ++ l) = some .dir) :
    ∃ W', Calm Q ((Prog.mkdir (hd ++ (l ++ [n]).map Comp.normal) K).step cwd fs1).2 ∧
      Moves Q W W' fs1 ((Prog.mkdir (hd ++ (l ++ [n]).map Comp.normal) K).step cwd fs1).2 ∧
      Good cwd Q W' ((Prog.mkdir (hd ++ (l ++ [n]).map Comp.normal) K).step cwd fs1).2
        ((Prog.mkdir (hd ++ (l ++ [n]).map Comp.normal) K).step cwd fs1).1 := by
  have hw := walk_names hh hc.1 (h1 _ hs) hl n
  cases hi : fs1 (hd.foldl stepTo cwd ++ l ++ [n]) with
  | none =>
    have hm : mkdir cwd (hd ++ (l ++ [n]).map Comp.normal) fs1 = .ok (fs1.set (hd.foldl stepTo cwd ++ l ++ [n]) .dir) := by
      unfold mkdir
      rw [hw]
      simp only [hi]
    rw [step_mkdir_ok hm]
    obtain ⟨k1, k2⟩ := moves_dir (W := W) hc hA hq hp hne hl hv hi
    refine ⟨W, k1, k2, ?_⟩
    simp only
    rw [hK1]
    exact hk _ (stays_trans h1 k2.1) k1 (Files.set_same _ _ _)
  | some i =>
    cases i with
    | file x => exact absurd hi ((hc.2 q c hq).1 _ hp hne x)
    | dir =>
      have hm : mkdir cwd (hd ++ (l ++ [n]).map Comp.normal) fs1 = .error .other := by
        unfold mkdir
        rw [hw]
        simp only [hi]
      rw [step_mkdir_error hm]
      refine ⟨W, hc, moves_none _ _ _, ?_⟩
      simp only
      rw [hK2]
      refine good_isDir hi (fun fs2 h2 hc2 => ?_) fun fs2 h2 hc2 => hk fs2 (stays_trans h1 h2) hc2 (h2 _ hi)
      exact walk_names hh hc2.1 (h2 _ (h1 _ hs)) (h2 _ hl) n

theorem good_dirs (hA : ∀ q c q' c', Q q c → Q q' c' → q <+: q' → q = q') (hh : ∀ c ∈ hd, ∀ n, c ≠ .normal n) {q c}
    (hq : Q q c) (l : List Str) (hv : ∀ n ∈ l, ValidName n) (hp : hd.foldl stepTo cwd ++ l <+: q)
    (hne : hd.foldl stepTo cwd ++ l ≠ q) : ∀ (k : Bool → Prog) (fs : Files), Calm Q fs → fs cwd = some .dir →
    (∀ fs1, Stays fs fs1 → Calm Q fs1 → fs1 (hd.foldl stepTo cwd ++ l) = some .dir → Good cwd Q W fs1 (k true)) →
    Good cwd Q W fs (createDirAllP (hd ++ l.map Comp.normal).reverse k) := by
  induction l using List.reverseRecOn with
  | nil =>
    intro k fs hc hs hk
    rw [List.map_nil, List.append_nil]
    rw [List.append_nil] at hk
    have hup : ∀ fs1, Stays fs fs1 → Calm Q fs1 → walk fs1 cwd hd = .ok (hd.foldl stepTo cwd) ∧
        fs1 (hd.foldl stepTo cwd) = some .dir := fun fs1 h1 hc1 => walk_up hc1.1 hd cwd hh (h1 _ hs)
    cases hr : hd.reverse with
    | nil => exact hk fs (fun _ h => h) hc (hup fs (fun _ h => h) hc).2
    | cons c up =>
      have hrr : (c :: up).reverse = hd := by rw [← hr, List.reverse_reverse]
      unfold createDirAllP
      rw [hrr]
      refine good_step (by rintro ⟨o, h⟩; cases h) fun fs1 h1 hc1 => ⟨W, ?_⟩
      have hm : mkdir cwd hd fs1 = .error .other := by
        unfold mkdir
        rw [(hup fs1 h1 hc1).1]
        simp only [(hup fs1 h1 hc1).2]
      rw [step_mkdir_error hm]
      refine ⟨hc1, moves_none _ _ _, ?_⟩
      refine good_isDir (hup fs1 h1 hc1).2 (fun fs2 h2 hc2 => (hup fs2 (stays_trans h1 h2) hc2).1) fun fs2 h2 hc2 => ?_
      exact hk fs2 (stays_trans h1 h2) hc2 (hup fs2 (stays_trans h1 h2) hc2).2
  | append_singleton l n ih =>
    intro k fs hc hs hk
    have hrev : (hd ++ (l ++ [n]).map Comp.normal).reverse = .normal n :: (hd ++ l.map Comp.normal).reverse := by simp
    have hback : (Comp.normal n :: (hd ++ l.map Comp.normal).reverse).reverse = hd ++ (l ++ [n]).map Comp.normal := by simp
    have hvn : ValidName n := hv n (by simp)
    rw [← List.append_assoc] at hp hne hk
    have hp' : hd.foldl stepTo cwd ++ l <+: q := (List.prefix_append _ _).trans hp
    have hne' : hd.foldl stepTo cwd ++ l ≠ q := by
      rintro rfl
      have := hp.length_le
      simp only [List.length_append, List.length_cons, List.length_nil] at this
      omega
    rw [hrev]
    unfold createDirAllP
    rw [hback]
    refine good_step (by rintro ⟨o, h⟩; cases h) fun fs1 h1 hc1 => ?_
    by_cases hdir : fs1 (hd.foldl stepTo cwd ++ l) = some .dir
    · exact good_mkdir (k := k) hA hh hq hvn hp hne hs (by simp only) (by simp only) hk h1 hc1 hdir
    · have hno : ¬ ∃ p c, p <+: hd.foldl stepTo cwd ++ l ∧ fs1 p = some (.file c) := by
        rintro ⟨p, x, k1, k2⟩
        refine (hc1.2 q c hq).1 p (k1.trans hp') ?_ x k2
        rintro rfl
        exact hne' (k1.eq_of_length_le hp'.length_le).symm
      have hm : mkdir cwd (hd ++ (l ++ [n]).map Comp.normal) fs1 = .error .notFound := by
        unfold mkdir
        obtain ⟨u1, u2⟩ := walk_up hc1.1 hd cwd hh (h1 _ hs)
        rw [walk_append, u1]
        simp only
        rw [walk_missing hc1.1 n l _ u2 hdir, if_neg hno]
      refine ⟨W, ?_⟩
      rw [step_mkdir_error hm]
      simp only
      refine ⟨hc1, moves_none _ _ _, ?_⟩
      refine ih (fun m hm => hv m (List.mem_append_left _ hm)) hp' hne' _ fs1 hc1 (h1 _ hs) fun fs2 h2 hc2 hl2 => ?_
      simp only [if_true]
      refine good_step (by rintro ⟨o, h⟩; cases h) fun fs3 h3 hc3 => ?_
      exact good_mkdir (k := k) (fs := fs) hA hh hq hvn hp hne hs (by simp only) (by simp only) hk (stays_trans h1 (stays_trans h2 h3)) hc3 (h3 _ hl2)

theorem good_one (hA : ∀ q c q' c', Q q c → Q q' c' → q <+: q' → q = q')
    (hF : ∀ q c c', Q q c → Q q c' → c = c') (hh : ∀ c ∈ hd, ∀ n, c ≠ .normal n) {s : Schema} {l : List Str} {n : Str}
    (hv : ∀ m ∈ l ++ [n], ValidName m) (hq : Q (hd.foldl stepTo cwd ++ l ++ [n]) s.generated) {k : Prog} {fs : Files}
    (hc : Calm Q fs) (hs : fs cwd = some .dir) (hk : ∀ fs1, Stays fs fs1 → Calm Q fs1 → Good cwd Q W fs1 k) :
    Good cwd Q ((hd.foldl stepTo cwd ++ l ++ [n]) :: W) fs (saveOneP s (hd ++ (l ++ [n]).map Comp.normal) k) := by
  have hpar : parentPath (hd ++ (l ++ [n]).map Comp.normal) = some (hd ++ l.map Comp.normal) := by
    have : hd ++ (l ++ [n]).map Comp.normal = (hd ++ l.map Comp.normal) ++ [.normal n] := by simp
    rw [this]
    unfold parentPath
    rw [List.getLast?_append]
    simp
  have hne : hd ++ (l ++ [n]).map Comp.normal ≠ [] := by simp
  have hvn : ValidName n := hv n (by simp)
  unfold saveOneP
  rw [hpar]
  simp only
  refine good_dirs hA hh hq l (fun m hm => hv m (List.mem_append_left _ hm)) (List.prefix_append _ _) ?_ _ fs hc hs fun fs1 h1 hc1 hl1 => ?_
  · intro e
    have := congrArg List.length e
    simp only [List.length_append, List.length_cons, List.length_nil] at this
    omega
  simp only [if_true]
  refine good_step (by rintro ⟨o, h⟩; cases h) fun fs2 h2 hc2 => ?_
  have hw := walk_names hh hc2.1 (h2 _ (h1 _ hs)) (h2 _ hl1) n
  have hst : (Prog.create (hd ++ (l ++ [n]).map Comp.normal) s.generated fun b => if b then k else .done (.err .io)).step cwd fs2 =
      (.fill (hd.foldl stepTo cwd ++ l ++ [n]) s.generated k, fs2.set (hd.foldl stepTo cwd ++ l ++ [n]) (.file (some []))) := by
    rw [Prog.step.eq_4, if_neg hne, hw]
    simp only
    have hnd := (hc2.2 _ _ hq).2
    cases hi : fs2 (hd.foldl stepTo cwd ++ l ++ [n]) with
    | none => simp only [if_true]
    | some i =>
      cases i with
      | dir => exact absurd hi hnd
      | file x => simp only [if_true]
  rw [hst]
  obtain ⟨c1, c2, c3⟩ := calm_file hc2 hA hq (h2 _ hl1) hvn (some [])
  refine ⟨(hd.foldl stepTo cwd ++ l ++ [n]) :: W, c1, ⟨c2, c3, fun q' c' hq' h => ?_⟩, ?_⟩
  · by_cases he : q' = hd.foldl stepTo cwd ++ l ++ [n]
    · exact .inl (he ▸ List.mem_cons_self)
    · show _ ∨ fs2.set _ _ q' = _
      rw [Files.set_other _ _ he]
      exact h
  simp only
  refine good_step (by rintro ⟨o, h⟩; cases h) fun fs3 h3 hc3 => ?_
  have hl3 : fs3 (hd.foldl stepTo cwd ++ l) = some .dir := h3 _ (c2 _ (h2 _ hl1))
  obtain ⟨d1, d2, d3⟩ := calm_file hc3 hA hq hl3 hvn (some s.generated)
  refine ⟨W, d1, ⟨d2, d3, fun q' c' hq' h => ?_⟩, ?_⟩
  · by_cases he : q' = hd.foldl stepTo cwd ++ l ++ [n]
    · right
      rw [he] at hq'
      rw [he, hF _ _ _ hq' hq]
      exact Files.set_same _ _ _
    · show _ ∨ fs3.set _ _ q' = _
      rw [Files.set_other _ _ he]
      exact h.imp_left fun hm => (List.mem_cons.1 hm).resolve_left he
  · exact hk _ (stays_trans h1 (stays_trans h2 (stays_trans c2 (stays_trans h3 d2)))) d1

theorem good_all (hA : ∀ q c q' c', Q q c → Q q' c' → q <+: q' → q = q') (hF : ∀ q c c', Q q c → Q q c' → c = c')
    (hh : ∀ c ∈ hd, ∀ n, c ≠ .normal n) {base out : Str} {ss : List Schema} {qs : List (List Str)}
    (hp : List.Forall₂ (fun s q => (∃ l n, formatPath s.path base out .typeScript true = .ok (hd ++ (l ++ [n]).map Comp.normal) ∧
      q = hd.foldl stepTo cwd ++ l ++ [n] ∧ ∀ m ∈ l ++ [n], ValidName m) ∧ Q q s.generated) ss qs) :
    ∀ fs : Files, Calm Q fs → fs cwd = some .dir → Good cwd Q qs fs (saveAllP base out .typeScript ss) := by
  induction hp with
  | nil => intro fs _ _; exact .done _
  | @cons s q ss qs h0 hf ih =>
    intro fs hc hs
    obtain ⟨⟨l, n, h1, rfl, hv⟩, hq⟩ := h0
    unfold saveAllP
    rw [h1]
    simp only
    exact good_one hA hF hh hv hq hc hs fun fs1 h2 hc1 => ih fs1 hc1 (h2 _ hs)

end Dirs

/-! ### all runs -/

/-- What a run on a directory sets out to do. -/
theorem dir_good {fs : Files} (hs : fs.Sound) {js : List Job} (ht : Together fs js) {env : Str → Env} {cwd : List Str}
    {path out : Str} {es : List (EntryOf Tree)} {b : Bool} {dir place : List Str}
    (hm : (⟨env, cwd, path, out, .dir es b, dir, place⟩ : Job) ∈ js)
    (hr : Job.Ready fs ⟨env, cwd, path, out, .dir es b, dir, place⟩) :
    ∃ W, (∀ q, q ∈ W ↔ ∃ p c, fs.Schema dir p c ∧ OutFile place p q) ∧
      Good cwd (Output fs js) W fs (mainP env .typeScript path out (some (.dir es b))) := by
  obtain ⟨hc, ⟨_, _, hf⟩, ho, _, hall⟩ := hr
  simp only at hc hf ho hall
  have hac : AllCompile env path fs dir := fun p c h => by
    obtain ⟨text, code, h1, h2⟩ := hall p c _ ⟨h, rfl⟩
    exact ⟨code, text, h1, h2⟩
  have hv := shows_valid hs hf
  have hsch : ∀ r c, SchemaAt (.dir es b) r c ↔ fs.Schema dir r c := shows_schema hs hf
  obtain ⟨ss, hra⟩ : ∃ ss, runAll env path (.dir es b) = .ok ss :=
    (runAll_succeeds hv).2 ⟨shows_accessible hf, fun p c h => hac p c ((hsch p c).1 h)⟩
  obtain ⟨hd, names, hcomp, hh, rfl⟩ := leads_iff ho
  have hval : ∀ n ∈ names, ValidName n := fun n hn =>
    components_valid (p := out) (by rw [hcomp]; exact List.mem_append_right _ (List.mem_map_of_mem hn))
  have key : ∀ s ∈ ss, ∃ q, ((∃ l n, formatPath s.path path out .typeScript true = .ok (hd ++ (l ++ [n]).map Comp.normal) ∧
      q = hd.foldl stepTo cwd ++ l ++ [n] ∧ ∀ m ∈ l ++ [n], ValidName m) ∧ Output fs js q s.generated) ∧
      ∃ r c, fs.Schema dir r c ∧ s.path = below path r ∧ OutFile (hd.foldl stepTo cwd ++ names) r q := by
    intro s hsm
    obtain ⟨r, c, hsa, hp, hcc⟩ := (runAll_mem hv hra s).1 hsm
    have hn := at_valid hsa.1 hv
    have hfs := (hsch r c).1 hsa
    obtain ⟨d, stem, rfl, hst⟩ := hsa.2
    have hof : OutFile (hd.foldl stepTo cwd ++ names) (d ++ [stem ++ ".pkt".toList])
        (hd.foldl stepTo cwd ++ (names ++ d) ++ [stem ++ ".ts".toList]) := ⟨d, stem, rfl, by simp⟩
    refine ⟨hd.foldl stepTo cwd ++ (names ++ d) ++ [stem ++ ".ts".toList],
      ⟨⟨names ++ d, stem ++ ".ts".toList, ?_, rfl, ?_⟩, hcc.elim fun text k => ⟨_, hm, _, text, _, ⟨k.1 ▸ hfs, rfl⟩, hof, k.2⟩⟩,
      _, c, hfs, hp, hof⟩
    · rw [hp, formatPath_preserve path out hst hn, hcomp]
      simp
    · intro m hm
      rcases List.mem_append.1 hm with hm | hm
      · rcases List.mem_append.1 hm with hm | hm
        · exact hval m hm
        · exact hn m (List.mem_append_left _ hm)
      · rw [List.mem_singleton.1 hm]
        have h1 : '/' ∉ stem := fun hx => (hn (stem ++ ".pkt".toList) (by simp)).2.1 (List.mem_append_left _ hx)
        have := valid_ext (x := "ts".toList) hst h1 (by decide) (by decide) (by decide)
        rwa [List.append_assoc] at this
  obtain ⟨qs, hq⟩ := forall2_exists key
  refine ⟨qs, fun q => ⟨fun hqm => ?_, ?_⟩, ?_⟩
  · obtain ⟨s, _, _, r, c, h1, _, h2⟩ := (forall2_mem hq).2 q hqm
    exact ⟨r, c, h1, h2⟩
  · rintro ⟨r, c, h1, h2⟩
    obtain ⟨code, hcc⟩ := hac r c h1
    obtain ⟨q', hq', _, r', c', h1', hp, h2'⟩ := (forall2_mem hq).1 ⟨below path r, code⟩
      ((runAll_mem hv hra _).2 ⟨r, c, (hsch r c).2 h1, rfl, hcc⟩)
    have e : r = r' := below_inj (at_valid ((hsch r c).2 h1).1 hv) (at_valid ((hsch r' c').2 h1').1 hv) hp
    rw [outFile_unique h2 (e ▸ h2')]
    exact hq'
  · unfold mainP
    simp only
    rw [hra]
    exact good_all ht.apart ht.agree hh (hq.imp fun _ _ h => h.1) fs ⟨hs, ht.free⟩ hc

/-- What a run on one file sets out to do. -/
theorem file_good {fs : Files} (hs : fs.Sound) {js : List Job} (ht : Together fs js) {env : Str → Env} {cwd : List Str}
    {path out : Str} {c : Option Str} {dir place : List Str} (hm : (⟨env, cwd, path, out, .file c, dir, place⟩ : Job) ∈ js)
    (hr : Job.Ready fs ⟨env, cwd, path, out, .file c, dir, place⟩) {stem : Str} (hn : PlainName path stem) :
    Good cwd (Output fs js) [place ++ [stem ++ ".ts".toList]] fs (mainP env .typeScript path out (some (.file c))) := by
  obtain ⟨hc, _, ho, _, hall⟩ := hr
  simp only at hc ho hall
  obtain ⟨text, code, rfl, hcc⟩ := hall _ _ _ ⟨rfl, rfl, stem, hn, rfl⟩
  obtain ⟨h1, h2, cs, hp⟩ := hn
  have hout : Output fs js (place ++ [stem ++ ".ts".toList]) code :=
    ⟨_, hm, [stem ++ ".pkt".toList], text, path, ⟨rfl, rfl, stem, ⟨h1, h2, cs, hp⟩, rfl⟩, ⟨[], stem, rfl, by simp⟩, hcc⟩
  obtain ⟨hd, names, hcomp, hh, rfl⟩ := leads_iff ho
  have hval : ∀ n ∈ names, ValidName n := fun n hn =>
    components_valid (p := out) (by rw [hcomp]; exact List.mem_append_right _ (List.mem_map_of_mem hn))
  have hq : formatPath path path out .typeScript false = .ok (hd ++ (names ++ [stem ++ ".ts".toList]).map Comp.normal) := by
    rw [Props.single_path hp h1 (fun e => h2 (e ▸ by decide)) (fun e => h2 (e ▸ by decide)), hcomp, fileStem_plain h2]
    simp
  have hv : ValidName (stem ++ ".ts".toList) := by
    have h3 : '/' ∉ stem := by
      have := (components_valid (p := path) (n := stem ++ ".pkt".toList) (by rw [hp]; simp)).2.1
      exact fun hx => this (List.mem_append_left _ hx)
    have := valid_ext (x := "ts".toList) h1 h3 (by decide) (by decide) (by decide)
    rwa [List.append_assoc] at this
  have hro : runOne env path (some text) = .ok ⟨path, code⟩ := by unfold runOne; simp only; rw [hcc]
  unfold mainP
  simp only
  rw [hro]
  simp only
  rw [hq]
  refine good_one (W := []) ht.apart ht.agree hh ?_ hout ⟨hs, ht.free⟩ hc fun fs1 _ _ => .done _
  intro m hm
  rcases List.mem_append.1 hm with hm | hm
  · exact hval m hm
  · rw [List.mem_singleton.1 hm]; exact hv

/-- What a run sets out to do. -/
theorem job_good {fs : Files} (hs : fs.Sound) {js : List Job} (ht : Together fs js) {j : Job} (hm : j ∈ js)
    (hr : j.Ready fs) : ∃ W, (∀ q p c file, j.Schema fs p c file → OutFile j.place p q → q ∈ W) ∧
      Good j.cwd (Output fs js) W fs j.start.2 := by
  obtain ⟨env, cwd, path, out, input, dir, place⟩ := j
  cases input with
  | dir es b =>
    obtain ⟨W, h1, h2⟩ := dir_good hs ht hm hr
    exact ⟨W, fun q p c file h3 h4 => (h1 q).2 ⟨p, c, h3.1, h4⟩, h2⟩
  | file c =>
    obtain ⟨stem, hn⟩ := hr.name c rfl
    refine ⟨_, fun q p c file h3 h4 => ?_, file_good hs ht hm hr hn⟩
    obtain ⟨_, _, stem', hn', rfl⟩ := h3
    obtain ⟨_, _, cs, k1⟩ := hn
    obtain ⟨_, _, cs', k2⟩ := hn'
    simp only at k1 k2
    rw [k1] at k2
    have h5 := (List.append_inj' k2 rfl).2
    simp only [List.cons.injEq, Comp.normal.injEq, and_true] at h5
    rw [← h5] at h4
    rw [outFile_unique h4 ⟨[], stem, rfl, rfl⟩]
    simp

/-- Where the runs stand. -/
def Going (js : List Job) (fs : Files) (c : Runs × Files) : Prop :=
  Calm (Output fs js) c.2 ∧ Stays fs c.2 ∧ (∀ p, (∀ q x, Output fs js q x → ¬ p <+: q) → c.2 p = fs p) ∧
  ∃ Ws : List (List (List Str)), List.Forall₂ (fun x W => Good x.1 (Output fs js) W c.2 x.2) c.1 Ws ∧
    ∀ q x, Output fs js q x → (∃ W ∈ Ws, q ∈ W) ∨ c.2 q = some (.file (some x))

theorem forall2_split {α β : Type} {R : α → β → Prop} : (a : List α) → (x : α) → (b : List α) → (l : List β) →
    List.Forall₂ R (a ++ x :: b) l → ∃ a' y b', l = a' ++ y :: b' ∧ List.Forall₂ R a a' ∧ R x y ∧ List.Forall₂ R b b'
  | [], x, b, l, h => by
    cases h with
    | cons h1 h2 => exact ⟨[], _, _, rfl, .nil, h1, h2⟩
  | z :: a, x, b, l, h => by
    cases h with
    | cons h1 h2 =>
      obtain ⟨a', y, b', rfl, k1, k2, k3⟩ := forall2_split a x b _ h2
      exact ⟨_ :: a', y, b', rfl, .cons h1 k1, k2, k3⟩

theorem forall2_join {α β : Type} {R : α → β → Prop} {a : List α} {a' : List β} {x : α} {y : β} {b : List α} {b' : List β}
    (h1 : List.Forall₂ R a a') (h2 : R x y) (h3 : List.Forall₂ R b b') : List.Forall₂ R (a ++ x :: b) (a' ++ y :: b') := by
  induction h1 with
  | nil => exact .cons h2 h3
  | cons h _ ih => exact .cons h ih

theorem going_start {fs : Files} (hs : fs.Sound) {js : List Job} (ht : Together fs js) (hr : ∀ j ∈ js, j.Ready fs) :
    Going js fs (js.map Job.start, fs) := by
  refine ⟨⟨hs, ht.free⟩, fun _ h => h, fun _ _ => rfl, ?_⟩
  have key : ∀ j ∈ js, ∃ W : List (List Str), (∀ q p c file, j.Schema fs p c file → OutFile j.place p q → q ∈ W) ∧
      Good j.cwd (Output fs js) W fs j.start.2 := fun j hm => job_good hs ht hm (hr j hm)
  obtain ⟨Ws, hW⟩ := forall2_exists key
  refine ⟨Ws, ?_, fun q x hq => .inl ?_⟩
  · rw [List.forall₂_map_left_iff]
    exact hW.imp fun _ _ h => h.2
  · obtain ⟨j, hm, p, text, file, h1, h2, _⟩ := hq
    obtain ⟨W, hWm, h3, _⟩ := (forall2_mem hW).1 j hm
    exact ⟨W, hWm, h3 q p _ file h1 h2⟩

theorem going_step {js : List Job} {fs : Files} {c c' : Runs × Files} (h : Going js fs c) (hst : OneStep c c') :
    Going js fs c' := by
  cases hst with
  | step before after cwd prog fs1 hn =>
    obtain ⟨h1, h2, h3, Ws, hW, h4⟩ := h
    obtain ⟨a', W, b', rfl, k1, k2, k3⟩ := forall2_split _ _ _ _ hW
    simp only at k1 k2 k3 h1 h2 h3 h4
    cases k2 with
    | done => exact absurd ⟨_, rfl⟩ hn
    | step _ _ _ next _ g1 g2 =>
      obtain ⟨c1, m1, m2, m3⟩ := g1 fs1 (fun _ h => h) h1
      have g := g2 fs1 (fun _ h => h) h1
      refine ⟨c1, stays_trans h2 m1, fun p hp => ?_, a' ++ next fs1 :: b', ?_, fun q x hq => ?_⟩
      · simp only
        rw [m2 p hp, h3 p hp]
      · exact forall2_join (k1.imp fun _ _ k => good_later k m1) g (k3.imp fun _ _ k => good_later k m1)
      · simp only
        rcases h4 q x hq with ⟨V, hV, hqV⟩ | h5
        · rcases List.mem_append.1 hV with hV | hV
          · exact .inl ⟨V, List.mem_append_left _ hV, hqV⟩
          · rcases List.mem_cons.1 hV with rfl | hV
            · rcases m3 q x hq (.inl hqV) with h6 | h6
              · exact .inl ⟨_, List.mem_append_right _ List.mem_cons_self, h6⟩
              · exact .inr h6
            · exact .inl ⟨V, List.mem_append_right _ (List.mem_cons_of_mem _ hV), hqV⟩
        · rcases m3 q x hq (.inr h5) with h6 | h6
          · exact .inl ⟨_, List.mem_append_right _ List.mem_cons_self, h6⟩
          · exact .inr h6

theorem going_steps {js : List Job} {fs : Files} {n : Nat} {c c' : Runs × Files} (hst : Steps n c c') (h : Going js fs c) :
    Going js fs c' := by
  induction hst with
  | none => exact h
  | more n c c' c'' h1 _ ih => exact ih (going_step h h1)

/-- A run that has ended has succeeded. -/
theorem going_ok {js : List Job} {fs : Files} {c : Runs × Files} (h : Going js fs c) : ∀ x ∈ c.1, ∀ o, x.2 = .done o → o = .ok () := by
  obtain ⟨_, _, _, Ws, hW, _⟩ := h
  intro x hx o ho
  obtain ⟨W, _, hg⟩ := (forall2_mem hW).1 x hx
  rw [ho] at hg
  cases hg with
  | done => rfl
  | step _ _ _ next hn => exact absurd ⟨_, rfl⟩ hn

/-- When all have ended. -/
theorem going_end {js : List Job} {fs : Files} {c : Runs × Files} (h : Going js fs c) (he : ∀ x ∈ c.1, x.2.Ended) :
    AfterAll js fs c.2 := by
  obtain ⟨h1, h2, h3, Ws, hW, h4⟩ := h
  have hfile : ∀ q x, Output fs js q x → c.2 q = some (.file (some x)) := by
    intro q x hq
    refine (h4 q x hq).resolve_left ?_
    rintro ⟨W, hWm, hqW⟩
    obtain ⟨y, hy, hg⟩ := (forall2_mem hW).2 W hWm
    obtain ⟨o, ho⟩ := he y hy
    rw [ho] at hg
    cases hg with
    | done => cases hqW
    | step _ _ _ next hn => exact hn ⟨_, rfl⟩
  refine fun q => ⟨fun x hq => hfile q x hq, ?_, fun hno => h3 q fun p x hp hqp => hno ⟨p, x, hp, hqp⟩⟩
  rintro ⟨p, x, hp, k1, k2⟩
  exact h1.1.above (by rw [hfile p x hp]; simp) k1 k2

/-- Schemas stay as they are. -/
theorem going_schema {js : List Job} {fs : Files} {c : Runs × Files} (h : Going js fs c)
    (hf : ∀ q x, Output fs js q x → Free fs q) (dir r : List Str) (x : Option Str) :
    c.2.Schema dir r x ↔ fs.Schema dir r x := by
  obtain ⟨h1, h2, h3, _⟩ := h
  unfold Files.Schema
  refine and_congr_left fun ⟨d, stem, hr, _⟩ => ?_
  by_cases hq : ∃ q y, Output fs js q y ∧ dir ++ r <+: q
  · obtain ⟨q, y, ho, hp⟩ := hq
    have hne : dir ++ r ≠ q := by
      obtain ⟨_, _, _, _, _, _, hof, _⟩ := ho
      exact outFile_not_pkt hof ⟨d, stem, hr⟩
    exact ⟨fun h => absurd h ((h1.2 q y ho).1 _ hp hne x), fun h => absurd h ((hf q y ho).1 _ hp hne x)⟩
  · rw [h3 _ fun q y ho hp => hq ⟨q, y, ho, hp⟩]

end Packetc.Cli
