import Verif.Spec.Folders
import Verif.Proof.Cli
import Mathlib.Data.List.Induction
/-!
# Saving on a file system (for C107-C109)
-/

namespace Packetc.Cli

/-! ### the shape of a sound file system -/

theorem Files.Sound.above {fs : Files} (h : fs.Sound) {p q : List Str} (hq : fs q ≠ none) (hp : p <+: q) (hne : p ≠ q) :
    fs p = some .dir := by
  obtain ⟨l, rfl⟩ := hp
  induction l using List.reverseRecOn with
  | nil => simp at hne
  | append_singleton l n ih =>
    rw [← List.append_assoc] at hq
    have h1 := h.up _ _ hq
    by_cases hl : l = []
    · subst hl
      simpa using h1
    · exact ih (by rw [h1]; simp) (by simpa using hl)

theorem Files.Sound.dirs {fs : Files} (h : fs.Sound) {p q : List Str} (hq : fs q = some .dir) (hp : p <+: q) :
    fs p = some .dir := by
  by_cases hne : p = q
  · rw [hne, hq]
  · exact h.above (by rw [hq]; simp) hp hne

/-- Nothing below a file. -/
theorem Files.Sound.below_file {fs : Files} (h : fs.Sound) {p q : List Str} {c} (hf : fs p = some (.file c)) (hp : p <+: q)
    (hne : p ≠ q) : fs q = none := by
  by_contra hq
  rw [h.above hq hp hne] at hf
  cases hf

/-! ### walking -/

theorem walk_append {fs : Files} : (a b : List Comp) → (d : List Str) →
    walk fs d (a ++ b) = match walk fs d a with | .ok p => walk fs p b | .error e => .error e
  | [], _, _ => rfl
  | c :: a, b, d => by
    show walk fs d (c :: (a ++ b)) = _
    rw [walk.eq_2, walk.eq_2]
    cases hd : fs d with
    | none => rfl
    | some i =>
      cases i with
      | dir => exact walk_append a b _
      | file => rfl

/-- The way up is always open. -/
theorem walk_up {fs : Files} (h : fs.Sound) : (cs : List Comp) → (d : List Str) → (∀ c ∈ cs, ∀ n, c ≠ .normal n) →
    fs d = some .dir → walk fs d cs = .ok (cs.foldl stepTo d) ∧ fs (cs.foldl stepTo d) = some .dir
  | [], d, _, hd => ⟨rfl, hd⟩
  | c :: cs, d, hc, hd => by
    have hs : fs (stepTo d c) = some .dir := by
      cases c with
      | root => exact h.root
      | cur => exact hd
      | parent => exact h.dirs hd (List.dropLast_prefix d)
      | normal n => exact absurd rfl (hc _ List.mem_cons_self n)
    unfold walk
    rw [hd]
    exact walk_up h cs _ (fun x hx => hc x (List.mem_cons_of_mem _ hx)) hs

/-- Down along names: all directories. -/
theorem walk_down {fs : Files} (h : fs.Sound) (n : Str) : (l : List Str) → (d : List Str) → fs (d ++ l) = some .dir →
    walk fs d ((l ++ [n]).map Comp.normal) = .ok (d ++ l ++ [n])
  | [], d, hd => by
    show walk fs d [.normal n] = _
    unfold walk
    rw [List.append_nil] at hd
    rw [hd, List.append_nil]
    rfl
  | m :: l, d, hd => by
    show walk fs d (.normal m :: (l ++ [n]).map Comp.normal) = _
    unfold walk
    rw [h.dirs hd (List.prefix_append _ _)]
    have := walk_down h n l (d ++ [m]) (by simpa using hd)
    rw [show d ++ m :: l ++ [n] = d ++ [m] ++ l ++ [n] by simp]
    exact this

open scoped Classical in
/-- Down along names: something is missing. -/
theorem walk_missing {fs : Files} (h : fs.Sound) (n : Str) : (l : List Str) → (d : List Str) → fs d = some .dir →
    fs (d ++ l) ≠ some .dir →
    walk fs d ((l ++ [n]).map Comp.normal) =
      .error (if ∃ p c, p <+: d ++ l ∧ fs p = some (.file c) then .other else .notFound)
  | [], d, hd, hn => by
    rw [List.append_nil] at hn
    exact absurd hd hn
  | m :: l, d, hd, hn => by
    have key : walk fs d ((m :: l ++ [n]).map Comp.normal) = walk fs (d ++ [m]) ((l ++ [n]).map Comp.normal) := by
      show walk fs d (.normal m :: (l ++ [n]).map Comp.normal) = _
      conv_lhs => unfold walk
      rw [hd]
      rfl
    rw [key]
    have hdl : d ++ m :: l = d ++ [m] ++ l := by simp
    rw [hdl] at hn ⊢
    cases hm : fs (d ++ [m]) with
    | none =>
      have h1 : ¬ ∃ p c, p <+: d ++ [m] ++ l ∧ fs p = some (.file c) := by
        rintro ⟨p, c, h1, h2⟩
        rcases List.prefix_or_prefix_of_prefix h1 (List.prefix_append (d ++ [m]) l) with h3 | h3
        · rcases List.prefix_concat_iff.1 h3 with h4 | h4
          · rw [h4, hm] at h2
            cases h2
          · rw [h.dirs hd h4] at h2
            cases h2
        · by_cases hne : d ++ [m] = p
          · rw [← hne, hm] at h2
            cases h2
          · rw [h.above (by rw [h2]; simp) h3 hne] at hm
            cases hm
      rw [if_neg h1]
      cases l with
      | nil => show walk fs (d ++ [m]) [.normal n] = _; unfold walk; rw [hm]
      | cons x l => show walk fs (d ++ [m]) (.normal x :: _) = _; unfold walk; rw [hm]
    | some i =>
      cases i with
      | dir => exact walk_missing h n l (d ++ [m]) hm hn
      | file c =>
        rw [if_pos ⟨d ++ [m], c, List.prefix_append _ _, hm⟩]
        cases l with
        | nil => show walk fs (d ++ [m]) [.normal n] = _; unfold walk; rw [hm]
        | cons x l => show walk fs (d ++ [m]) (.normal x :: _) = _; unfold walk; rw [hm]

/-! ### creating directories -/

/-- The missing directories of `p` have been made. -/
def MadeDirs (fs fs' : Files) (p : List Str) : Prop :=
  ∀ q, (q <+: p → fs' q = some .dir) ∧ (¬ q <+: p → fs' q = fs q)

theorem Files.set_same (fs : Files) (p : List Str) (i : Item) : fs.set p i p = some i := by simp [Files.set]

theorem Files.set_other (fs : Files) {p q : List Str} (i : Item) (h : q ≠ p) : fs.set p i q = fs q := by simp [Files.set, h]

theorem made_self {fs : Files} (h : fs.Sound) {p : List Str} (hp : fs p = some .dir) : MadeDirs fs fs p :=
  fun _ => ⟨fun hq => h.dirs hp hq, fun _ => rfl⟩

theorem made_set {fs fs' : Files} {p : List Str} {n : Str} (hm : MadeDirs fs fs' p) :
    MadeDirs fs (fs'.set (p ++ [n]) .dir) (p ++ [n]) := by
  intro q
  constructor
  · intro hq
    rcases List.prefix_concat_iff.1 hq with rfl | hq
    · exact Files.set_same _ _ _
    · by_cases hne : q = p ++ [n]
      · rw [hne]; exact Files.set_same _ _ _
      · rw [Files.set_other _ _ hne]
        exact (hm q).1 hq
  · intro hq
    have hne : q ≠ p ++ [n] := fun h => hq (h ▸ List.prefix_rfl)
    rw [Files.set_other _ _ hne]
    exact (hm q).2 fun h => hq (h.trans (List.prefix_append _ _))

theorem made_sound {fs fs' : Files} (h : fs.Sound) {p : List Str} (hp : ∀ n ∈ p, ValidName n)
    (hf : ∀ q c, q <+: p → fs q ≠ some (.file c)) (hm : MadeDirs fs fs' p) : fs'.Sound := by
  refine ⟨(hm []).1 (List.nil_prefix), fun q n hq => ?_, fun q hq n hn => ?_⟩
  · by_cases h1 : q ++ [n] <+: p
    · exact (hm q).1 ((List.prefix_append q [n]).trans h1)
    · rw [(hm _).2 h1] at hq
      have h2 := h.up _ _ hq
      by_cases h3 : q <+: p
      · exact (hm q).1 h3
      · rw [(hm q).2 h3, h2]
  · by_cases h1 : q <+: p
    · obtain ⟨l, rfl⟩ := h1
      exact hp n (List.mem_append_left _ hn)
    · rw [(hm q).2 h1] at hq
      exact h.names q hq n hn

open scoped Classical in
theorem createDirAll_names {fs : Files} (h : fs.Sound) {cwd : List Str} {hd : List Comp} (hh : ∀ c ∈ hd, ∀ n, c ≠ .normal n)
    (hc : fs cwd = some .dir) (l : List Str) (hl : ∀ n ∈ l, ValidName n) :
    ((∃ p c, p <+: hd.foldl stepTo cwd ++ l ∧ fs p = some (.file c)) →
      createDirAll cwd (hd ++ l.map Comp.normal).reverse fs = (false, fs)) ∧
    ((∀ p c, p <+: hd.foldl stepTo cwd ++ l → fs p ≠ some (.file c)) →
      ∃ fs', createDirAll cwd (hd ++ l.map Comp.normal).reverse fs = (true, fs') ∧ MadeDirs fs fs' (hd.foldl stepTo cwd ++ l)) := by
  obtain ⟨hw, hs⟩ := walk_up h hd cwd hh hc
  generalize hd.foldl stepTo cwd = s at hw hs ⊢
  have hvs : ∀ n ∈ s, ValidName n := h.names s (by rw [hs]; simp)
  induction l using List.reverseRecOn with
  | nil =>
    rw [List.append_nil, List.map_nil, List.append_nil]
    refine ⟨fun ⟨p, c, h1, h2⟩ => ?_, fun _ => ⟨fs, ?_, made_self h hs⟩⟩
    · rw [h.dirs hs h1] at h2
      cases h2
    · cases hr : hd.reverse with
      | nil => rfl
      | cons c up =>
        unfold createDirAll
        have hrr : (c :: up).reverse = hd := by rw [← hr, List.reverse_reverse]
        unfold mkdir isDir
        rw [hrr, hw]
        simp only [hs]
        rfl
  | append_singleton l n ih =>
    have ih := ih fun m hm => hl m (List.mem_append_left _ hm)
    have hrev : (hd ++ (l ++ [n]).map Comp.normal).reverse = .normal n :: (hd ++ l.map Comp.normal).reverse := by simp
    have hback : (Comp.normal n :: (hd ++ l.map Comp.normal).reverse).reverse = hd ++ (l ++ [n]).map Comp.normal := by simp
    have hwalk : ∀ fs : Files, walk fs cwd hd = .ok s →
        walk fs cwd (hd ++ (l ++ [n]).map Comp.normal) = walk fs s ((l ++ [n]).map Comp.normal) := by
      intro fs hw
      rw [walk_append, hw]
    rw [hrev]
    unfold createDirAll
    rw [hback]
    by_cases hdir : fs (s ++ l) = some .dir
    · -- the directory above is there
      have hwk := hwalk fs hw
      rw [walk_down h n l s hdir] at hwk
      unfold mkdir isDir
      rw [hwk]
      simp only
      rw [← List.append_assoc]
      have habove : ∀ p, p <+: s ++ l → fs p = some .dir := fun p hp => h.dirs hdir hp
      cases hq : fs (s ++ l ++ [n]) with
      | none =>
        refine ⟨fun ⟨p, c, h1, h2⟩ => ?_, fun _ => ⟨_, rfl, made_set (made_self h hdir)⟩⟩
        rcases List.prefix_concat_iff.1 h1 with h3 | h3
        · rw [h3, hq] at h2
          cases h2
        · rw [habove p h3] at h2
          cases h2
      | some i =>
        cases i with
        | dir =>
          refine ⟨fun ⟨p, c, h1, h2⟩ => ?_, fun _ => ⟨fs, rfl, made_self h hq⟩⟩
          rw [h.dirs hq h1] at h2
          cases h2
        | file c =>
          exact ⟨fun _ => rfl, fun hn => absurd hq (hn _ c List.prefix_rfl)⟩
    · have hwk := hwalk fs hw
      rw [walk_missing h n l s hs hdir] at hwk
      have hm : mkdir cwd (hd ++ (l ++ [n]).map Comp.normal) fs =
          .error (if ∃ p c, p <+: s ++ l ∧ fs p = some (.file c) then .other else .notFound) := by
        unfold mkdir
        rw [hwk]
      rw [hm]
      by_cases hb : ∃ p c, p <+: s ++ l ∧ fs p = some (.file c)
      · rw [if_pos hb]
        refine ⟨fun _ => ?_, fun hn => ?_⟩
        · simp only
          unfold isDir
          rw [hwk]
        · obtain ⟨p, c, h1, h2⟩ := hb
          exact absurd h2 (hn p c (by rw [← List.append_assoc]; exact h1.trans (List.prefix_append _ _)))
      · rw [if_neg hb]
        have hb' : ∀ p c, p <+: s ++ l → fs p ≠ some (.file c) := fun p c h1 h2 => hb ⟨p, c, h1, h2⟩
        obtain ⟨fs1, h1, hmade⟩ := ih.2 hb'
        simp only
        rw [h1]
        simp only
        have hs1 : fs1.Sound := made_sound h
          (fun m hm => (List.mem_append.1 hm).elim (hvs m) fun h2 => hl m (List.mem_append_left _ h2))
          (fun q c h2 => hb' q c h2) hmade
        have hdir1 : fs1 (s ++ l) = some .dir := (hmade _).1 List.prefix_rfl
        have hnone : fs (s ++ l ++ [n]) = none := by
          by_contra hq
          exact hdir (h.up _ _ hq)
        have hnone1 : fs1 (s ++ l ++ [n]) = none := by
          rw [(hmade _).2 ?_, hnone]
          intro hp
          have := hp.length_le
          simp only [List.length_append, List.length_cons, List.length_nil] at this
          omega
        have hc1 : fs1 cwd = some .dir := by
          by_cases hq : cwd <+: s ++ l
          · exact (hmade _).1 hq
          · rw [(hmade _).2 hq, hc]
        have hw1 : walk fs1 cwd hd = .ok s := by
          have e1 := (walk_up hs1 hd cwd hh hc1).1
          have e2 := (walk_up h hd cwd hh hc).1
          rw [hw] at e2
          rw [e1, Except.ok.inj e2]
        have hm1 : mkdir cwd (hd ++ (l ++ [n]).map Comp.normal) fs1 = .ok (fs1.set (s ++ l ++ [n]) .dir) := by
          unfold mkdir
          rw [hwalk fs1 hw1, walk_down hs1 n l s hdir1]
          simp only
          rw [hnone1]
        rw [hm1]
        refine ⟨fun ⟨p, c, h2, h3⟩ => ?_, fun _ => ⟨_, rfl, ?_⟩⟩
        · rw [← List.append_assoc] at h2
          rcases List.prefix_concat_iff.1 h2 with rfl | h2
          · rw [hnone] at h3
            cases h3
          · exact absurd h3 (hb' p c h2)
        · rw [← List.append_assoc]
          exact made_set hmade

/-! ### writing one file -/

/-- A file has been written at `q`, and its directories made. -/
def Written (fs fs' : Files) (q : List Str) (text : Str) : Prop :=
  fs' q = some (.file (some text)) ∧ (∀ p, p <+: q → p ≠ q → fs' p = some .dir) ∧ ∀ p, ¬ p <+: q → fs' p = fs p

theorem written_sound {fs fs' : Files} (h : fs.Sound) {q : List Str} {text : Str} (hq : q ≠ []) (hv : ∀ n ∈ q, ValidName n)
    (hf : Free fs q) (hw : Written fs fs' q text) : fs'.Sound := by
  obtain ⟨h1, h2, h3⟩ := hw
  refine ⟨h2 [] List.nil_prefix (Ne.symm hq), fun p n hp => ?_, fun p hp n hn => ?_⟩
  · by_cases h4 : p ++ [n] <+: q
    · refine h2 p ((List.prefix_append p [n]).trans h4) ?_
      rintro rfl
      have := h4.length_le
      simp only [List.length_append, List.length_cons, List.length_nil] at this
      omega
    · rw [h3 _ h4] at hp
      have h5 := h.up _ _ hp
      by_cases h6 : p <+: q
      · by_cases h7 : p = q
        · rw [h7] at h5
          exact absurd h5 hf.2
        · exact h2 p h6 h7
      · rw [h3 p h6, h5]
  · by_cases h4 : p <+: q
    · obtain ⟨l, rfl⟩ := h4
      exact hv n (List.mem_append_left _ hn)
    · rw [h3 p h4] at hp
      exact h.names p hp n hn

theorem written_kept {fs fs' : Files} {q : List Str} {text : Str} (hf : Free fs q) (hw : Written fs fs' q text) {p : List Str}
    (hp : fs p ≠ none) (hne : p ≠ q) : fs' p = fs p := by
  by_cases h : p <+: q
  · rw [hw.2.1 p h hne]
    cases hi : fs p with
    | none => exact absurd hi hp
    | some i =>
      cases i with
      | dir => rfl
      | file c => exact absurd hi (hf.1 p h hne c)
  · exact hw.2.2 p h

theorem saveOneF_tidy {fs : Files} (h : fs.Sound) {cwd : List Str} {hd : List Comp} (hh : ∀ c ∈ hd, ∀ n, c ≠ .normal n)
    (hc : fs cwd = some .dir) (s : Schema) (l : List Str) (n : Str) (hl : ∀ m ∈ l, ValidName m) :
    (Free fs (hd.foldl stepTo cwd ++ l ++ [n]) → ∃ fs', saveOneF cwd s (hd ++ (l ++ [n]).map Comp.normal) fs = (.ok (), fs') ∧
      Written fs fs' (hd.foldl stepTo cwd ++ l ++ [n]) s.generated) ∧
    (¬ Free fs (hd.foldl stepTo cwd ++ l ++ [n]) → saveOneF cwd s (hd ++ (l ++ [n]).map Comp.normal) fs = (.err .io, fs)) := by
  have hpar : parentPath (hd ++ (l ++ [n]).map Comp.normal) = some (hd ++ l.map Comp.normal) := by
    have : hd ++ (l ++ [n]).map Comp.normal = (hd ++ l.map Comp.normal) ++ [.normal n] := by simp
    rw [this]
    unfold parentPath
    rw [List.getLast?_append]
    simp
  obtain ⟨k1, k2⟩ := createDirAll_names h hh hc l hl
  have hs := (walk_up h hd cwd hh hc).2
  have hne : hd ++ (l ++ [n]).map Comp.normal ≠ [] := by simp
  have hstrict : ∀ p, p <+: hd.foldl stepTo cwd ++ l ↔
      (p <+: hd.foldl stepTo cwd ++ l ++ [n] ∧ p ≠ hd.foldl stepTo cwd ++ l ++ [n]) := by
    intro p
    constructor
    · intro hp
      refine ⟨hp.trans (List.prefix_append _ _), ?_⟩
      rintro rfl
      have := hp.length_le
      simp only [List.length_append, List.length_cons, List.length_nil] at this
      omega
    · rintro ⟨h1, h2⟩
      exact (List.prefix_concat_iff.1 h1).resolve_left h2
  unfold saveOneF
  rw [hpar]
  simp only
  by_cases hb : ∃ p c, p <+: hd.foldl stepTo cwd ++ l ∧ fs p = some (.file c)
  · rw [k1 hb]
    refine ⟨fun hf => ?_, fun _ => rfl⟩
    obtain ⟨p, c, h1, h2⟩ := hb
    exact absurd h2 (hf.1 p ((hstrict p).1 h1).1 ((hstrict p).1 h1).2 c)
  · have hb' : ∀ p c, p <+: hd.foldl stepTo cwd ++ l → fs p ≠ some (.file c) := fun p c h1 h2 => hb ⟨p, c, h1, h2⟩
    obtain ⟨fs1, h1, hmade⟩ := k2 hb'
    rw [h1]
    simp only
    have hs1 : fs1.Sound := made_sound h
      (fun m hm => (List.mem_append.1 hm).elim (h.names _ (by rw [hs]; simp) m) fun h2 => hl m h2)
      (fun q c h2 => hb' q c h2) hmade
    have hdir1 : fs1 (hd.foldl stepTo cwd ++ l) = some .dir := (hmade _).1 List.prefix_rfl
    have hc1 : fs1 cwd = some .dir := by
      by_cases hq : cwd <+: hd.foldl stepTo cwd ++ l
      · exact (hmade _).1 hq
      · rw [(hmade _).2 hq, hc]
    have hwk : walk fs1 cwd (hd ++ (l ++ [n]).map Comp.normal) = .ok (hd.foldl stepTo cwd ++ l ++ [n]) := by
      rw [walk_append, (walk_up hs1 hd cwd hh hc1).1]
      exact walk_down hs1 n l _ hdir1
    have hsame : fs1 (hd.foldl stepTo cwd ++ l ++ [n]) = fs (hd.foldl stepTo cwd ++ l ++ [n]) := by
      refine (hmade _).2 fun hp => ?_
      have := hp.length_le
      simp only [List.length_append, List.length_cons, List.length_nil] at this
      omega
    unfold writeFile
    rw [if_neg hne, hwk]
    simp only
    rw [hsame]
    by_cases hd' : fs (hd.foldl stepTo cwd ++ l ++ [n]) = some .dir
    · rw [hd']
      refine ⟨fun hf => absurd hd' hf.2, fun _ => ?_⟩
      simp only [Prod.mk.injEq, true_and]
      funext p
      by_cases hp : p <+: hd.foldl stepTo cwd ++ l
      · rw [(hmade p).1 hp, h.dirs hd' ((hstrict p).1 hp).1]
      · exact (hmade p).2 hp
    · have key : Written fs (fs1.set (hd.foldl stepTo cwd ++ l ++ [n]) (.file (some s.generated)))
          (hd.foldl stepTo cwd ++ l ++ [n]) s.generated := by
        refine ⟨Files.set_same _ _ _, fun p hp hne => ?_, fun p hp => ?_⟩
        · rw [Files.set_other _ _ hne]
          exact (hmade p).1 ((hstrict p).2 ⟨hp, hne⟩)
        · have hne : p ≠ hd.foldl stepTo cwd ++ l ++ [n] := fun e => hp (e ▸ List.prefix_rfl)
          rw [Files.set_other _ _ hne]
          exact (hmade p).2 fun h2 => hp ((hstrict p).1 h2).1
      have hfree : Free fs (hd.foldl stepTo cwd ++ l ++ [n]) :=
        ⟨fun p h2 h3 c => hb' p c ((hstrict p).2 ⟨h2, h3⟩), hd'⟩
      refine ⟨fun _ => ?_, fun hn => absurd hfree hn⟩
      cases hi : fs (hd.foldl stepTo cwd ++ l ++ [n]) with
      | none => exact ⟨_, rfl, key⟩
      | some i =>
        cases i with
        | dir => exact absurd hi hd'
        | file c => exact ⟨_, rfl, key⟩

/-! ### writing all files -/

/-- These files have been written, and their directories made. -/
def WrittenAll (fs fs' : Files) (ss : List Schema) (qs : List (List Str)) : Prop :=
  List.Forall₂ (fun s q => fs' q = some (.file (some s.generated))) ss qs ∧
  (∀ q ∈ qs, ∀ p, p <+: q → p ≠ q → fs' p = some .dir) ∧ ∀ p, (∀ q ∈ qs, ¬ p <+: q) → fs' p = fs p

/-- Nothing is in the way of these files, and they are not in each other's way. -/
def AllFree (fs : Files) (qs : List (List Str)) : Prop :=
  (∀ q ∈ qs, Free fs q) ∧ ∀ q ∈ qs, ∀ q' ∈ qs, q <+: q' → q = q'

theorem free_written {fs fs' : Files} {q q' : List Str} {text : Str} (hf : Free fs q) (hw : Written fs fs' q text)
    (hne : q ≠ q') : Free fs' q' ↔ Free fs q' ∧ ¬ q <+: q' ∧ ¬ q' <+: q := by
  constructor
  · intro h
    have h1 : ¬ q <+: q' := fun hp => h.1 q hp hne _ hw.1
    have h2 : ¬ q' <+: q := fun hp => h.2 (hw.2.1 q' hp (Ne.symm hne))
    refine ⟨⟨fun p hp hpn c hc => ?_, ?_⟩, h1, h2⟩
    · by_cases h3 : p <+: q
      · by_cases h4 : p = q
        · exact h1 (h4 ▸ hp)
        · exact hf.1 p h3 h4 c hc
      · exact h.1 p hp hpn c (by rw [hw.2.2 p h3, hc])
    · rw [← hw.2.2 q' h2]
      exact h.2
  · rintro ⟨h, h1, h2⟩
    refine ⟨fun p hp hpn c hc => ?_, by rw [hw.2.2 q' h2]; exact h.2⟩
    by_cases h3 : p <+: q
    · by_cases h4 : p = q
      · exact h1 (h4 ▸ hp)
      · rw [hw.2.1 p h3 h4] at hc
        cases hc
    · rw [hw.2.2 p h3] at hc
      exact h.1 p hp hpn c hc

theorem saveAllF_tidy {cwd : List Str} {hd : List Comp} (hh : ∀ c ∈ hd, ∀ n, c ≠ .normal n) {base out : Str}
    {ss : List Schema} {qs : List (List Str)}
    (hp : List.Forall₂ (fun s q => ∃ l n, formatPath s.path base out .typeScript true = .ok (hd ++ (l ++ [n]).map Comp.normal) ∧
      q = hd.foldl stepTo cwd ++ l ++ [n] ∧ ∀ m ∈ l ++ [n], ValidName m) ss qs) (hn : qs.Nodup) :
    ∀ fs : Files, fs.Sound → fs cwd = some .dir → ∃ o fs', saveAllF cwd base out .typeScript ss fs = (o, fs') ∧ fs'.Sound ∧
      (∀ p, fs p ≠ none → p ∉ qs → fs' p = fs p) ∧
      (AllFree fs qs → o = .ok () ∧ WrittenAll fs fs' ss qs) ∧ (¬ AllFree fs qs → o = .err .io) := by
  induction hp with
  | nil =>
    intro fs h _
    exact ⟨_, fs, rfl, h, fun _ _ _ => rfl, fun _ => ⟨rfl, .nil, by simp, fun _ _ => rfl⟩,
      fun hn => absurd ⟨by simp, by simp⟩ hn⟩
  | @cons s q ss qs h0 hf ih =>
    intro fs h hc
    obtain ⟨l, n, h1, hq, hv⟩ := h0
    have hl : ∀ m ∈ l, ValidName m := fun m hm => hv m (List.mem_append_left _ hm)
    obtain ⟨k1, k2⟩ := saveOneF_tidy h hh hc s l n hl
    rw [← hq] at k1 k2
    have hnq : q ∉ qs := (List.nodup_cons.1 hn).1
    by_cases hfree : Free fs q
    · obtain ⟨fs1, hsv, hw⟩ := k1 hfree
      have hvq : ∀ m ∈ q, ValidName m := by
        intro m hm
        rw [hq, List.append_assoc] at hm
        rcases List.mem_append.1 hm with hm | hm
        · exact h.names _ (by rw [(walk_up h hd cwd hh hc).2]; simp) m hm
        · exact hv m hm
      have hs1 : fs1.Sound := written_sound h (by rw [hq]; simp) hvq hfree hw
      have hc1 : fs1 cwd = some .dir := by
        rw [written_kept hfree hw (by rw [hc]; simp) fun e => hfree.2 (e ▸ hc), hc]
      obtain ⟨o, fs', hsa, hs', hk, hok, hbad⟩ := ih (List.nodup_cons.1 hn).2 fs1 hs1 hc1
      have hne : ∀ q' ∈ qs, q ≠ q' := fun q' hq' e => hnq (e ▸ hq')
      have hiff : AllFree fs (q :: qs) ↔ AllFree fs1 qs := by
        constructor
        · rintro ⟨a, b⟩
          refine ⟨fun q' hq' => (free_written hfree hw (hne q' hq')).2 ⟨a q' (List.mem_cons_of_mem _ hq'), fun hp => ?_, fun hp => ?_⟩,
            fun x hx y hy => b x (List.mem_cons_of_mem _ hx) y (List.mem_cons_of_mem _ hy)⟩
          · exact hne q' hq' (b q List.mem_cons_self q' (List.mem_cons_of_mem _ hq') hp)
          · exact hne q' hq' (b q' (List.mem_cons_of_mem _ hq') q List.mem_cons_self hp).symm
        · rintro ⟨a, b⟩
          have a' := fun q' hq' => (free_written hfree hw (hne q' hq')).1 (a q' hq')
          refine ⟨fun x hx => ?_, fun x hx y hy hp => ?_⟩
          · rcases List.mem_cons.1 hx with rfl | hx
            · exact hfree
            · exact (a' x hx).1
          · rcases List.mem_cons.1 hx with e | hx'
            · rcases List.mem_cons.1 hy with e' | hy'
              · rw [e, e']
              · exact absurd (e ▸ hp) (a' y hy').2.1
            · rcases List.mem_cons.1 hy with e' | hy'
              · exact absurd (e' ▸ hp) (a' x hx').2.2
              · exact b x hx' y hy' hp
      refine ⟨o, fs', ?_, hs', ?_, ?_, fun hna => hbad fun ha => hna (hiff.2 ha)⟩
      · unfold saveAllF
        rw [h1]
        simp only
        rw [hsv]
        exact hsa
      · intro p hp hpn
        have e1 := written_kept hfree hw hp fun e => hpn (e ▸ List.mem_cons_self)
        rw [hk p (by rw [e1]; exact hp) fun hm => hpn (List.mem_cons_of_mem _ hm), e1]
      · intro ha
        obtain ⟨ho, w1, w2, w3⟩ := hok (hiff.1 ha)
        have hapart : ∀ q' ∈ qs, ¬ q <+: q' ∧ ¬ q' <+: q := fun q' hq' =>
          ((free_written hfree hw (hne q' hq')).1 ((hiff.1 ha).1 q' hq')).2
        refine ⟨ho, .cons ?_ w1, fun x hx p hp hpn => ?_, fun p hp => ?_⟩
        · rw [w3 q fun q' hq' => (hapart q' hq').1, hw.1]
        · rcases List.mem_cons.1 hx with rfl | hx
          · by_cases hex : ∃ q' ∈ qs, p <+: q'
            · obtain ⟨q', hq', hpq⟩ := hex
              exact w2 q' hq' p hpq fun e => (hapart q' hq').2 (e ▸ hp)
            · rw [w3 p fun q' hq' hpq => hex ⟨q', hq', hpq⟩]
              exact hw.2.1 p hp hpn
          · exact w2 x hx p hp hpn
        · rw [w3 p fun q' hq' => hp q' (List.mem_cons_of_mem _ hq'), hw.2.2 p (hp q List.mem_cons_self)]
    · refine ⟨.err .io, fs, ?_, h, fun _ _ _ => rfl, fun ha => absurd (ha.1 q List.mem_cons_self) hfree, fun _ => rfl⟩
      unfold saveAllF
      rw [h1]
      simp only
      rw [k2 hfree]

end Packetc.Cli
