import Verif.Props.Folders
/-!
# What runs leave that fail (C112)
-/

namespace Packetc.Props
open Cli

theorem saveAllF_left {cwd : List Str} {hd : List Comp} (hh : ∀ c ∈ hd, ∀ n, c ≠ .normal n) {base out : Str}
    {R : Schema → List Str → Prop} {ss : List Schema} {qs : List (List Str)}
    (hp : List.Forall₂ (fun s q => (∃ l n, formatPath s.path base out .typeScript true = .ok (hd ++ (l ++ [n]).map Comp.normal) ∧
      q = hd.foldl stepTo cwd ++ l ++ [n] ∧ ∀ m ∈ l ++ [n], ValidName m) ∧ R s q) ss qs) (hn : qs.Nodup) :
    ∀ fs : Files, fs.Sound → fs cwd = some .dir → ∀ p, (saveAllF cwd base out .typeScript ss fs).2 p ≠ fs p →
      ∃ s q, R s q ∧ (saveAllF cwd base out .typeScript ss fs).2 q = some (.file (some s.generated)) ∧
        (p = q ∨ (p <+: q ∧ p ≠ q ∧ fs p = none ∧ (saveAllF cwd base out .typeScript ss fs).2 p = some .dir)) := by
  induction hp with
  | nil =>
    intro fs _ _ p h
    exact absurd rfl h
  | @cons s q ss qs h0 hf ih =>
    intro fs h hc p hne
    obtain ⟨⟨l, n, h1, hq, hv⟩, hR⟩ := h0
    have hl : ∀ m ∈ l, ValidName m := fun m hm => hv m (List.mem_append_left _ hm)
    obtain ⟨k1, k2⟩ := saveOneF_tidy h hh hc s l n hl
    rw [← hq] at k1 k2
    have hnq : q ∉ qs := (List.nodup_cons.1 hn).1
    by_cases hfree : Free fs q
    · obtain ⟨fs1, hsv, hw⟩ := k1 hfree
      have hvq : ∀ m ∈ q, ValidName m := by
        intro m hm
        rw [hq, List.append_assoc] at hm
        rcases List.mem_append.1 hm with hm | hm
        · exact h.names _ (by rw [(walk_up h hd cwd hh hc).2]; simp) m hm
        · exact hv m hm
      have hs1 : fs1.Sound := written_sound h (by rw [hq]; simp) hvq hfree hw
      have hc1 : fs1 cwd = some .dir := by
        rw [written_kept hfree hw (by rw [hc]; simp) fun e => hfree.2 (e ▸ hc), hc]
      have e : saveAllF cwd base out .typeScript (s :: ss) fs = saveAllF cwd base out .typeScript ss fs1 := by
        conv => lhs; unfold saveAllF
        rw [h1]
        simp only
        rw [hsv]
      rw [e] at hne ⊢
      by_cases hch : (saveAllF cwd base out .typeScript ss fs1).2 p = fs1 p
      · have hkeep : (saveAllF cwd base out .typeScript ss fs1).2 q = some (.file (some s.generated)) := by
          obtain ⟨o, fs', hsa, -, hk, -, -⟩ := saveAllF_tidy hh (hf.imp fun _ _ h => h.1) (List.nodup_cons.1 hn).2 fs1 hs1 hc1
          rw [hsa]
          rw [← hw.1]
          exact hk q (by rw [hw.1]; simp) hnq
        refine ⟨s, q, hR, hkeep, ?_⟩
        rw [hch] at hne ⊢
        by_cases hpq : p = q
        · exact .inl hpq
        · have hpre : p <+: q := by
            by_contra hno
            exact hne (hw.2.2 p hno)
          refine .inr ⟨hpre, hpq, ?_, hw.2.1 p hpre hpq⟩
          cases hi : fs p with
          | none => rfl
          | some i => exact absurd (written_kept hfree hw (by rw [hi]; simp) hpq) hne
      · obtain ⟨s', q', hR', h2, h3⟩ := ih (List.nodup_cons.1 hn).2 fs1 hs1 hc1 p hch
        refine ⟨s', q', hR', h2, h3.imp_right fun ⟨a, b, c, d⟩ => ⟨a, b, ?_, d⟩⟩
        by_contra hno
        by_cases hpq : p = q
        · rw [hpq, hw.1] at c
          cases c
        · rw [written_kept hfree hw hno hpq] at c
          exact hno c
    · exfalso
      apply hne
      unfold saveAllF
      rw [h1]
      simp only
      rw [k2 hfree]

/-- C112: whatever the outcome of a run on a directory, all that has changed are outputs, which are whole, and directories for
them, which are not empty. -/
theorem C112_left (env : Str → Env) {cwd : List Str} (path : Str) {out : Str} {fs : Files} {dir place : List Str} {es b}
    (hs : fs.Sound) (hc : fs cwd = some .dir) (hf : Found fs cwd path dir (.dir es b)) (ho : Leads cwd out place) :
    OnlyOutputs env path dir place fs (mainF env cwd .typeScript path out (some (.dir es b)) fs).2 := by
  have hv := shows_valid hs hf.2.2
  have hsch : ∀ r c, SchemaAt (.dir es b) r c ↔ fs.Schema dir r c := shows_schema hs hf.2.2
  rcases mainF_dir (env := env) (cwd := cwd) (path := path) (out := out) (es := es) (b := b) (fs := fs) with
    ⟨ss, hr, hm⟩ | ⟨hr, o, hm, hne⟩
  · obtain ⟨hd, names, hcomp, hh, rfl⟩ := leads_iff ho
    obtain ⟨qs, hq⟩ := forall2_exists (outOf_exists (cwd := cwd) hcomp hv hr hsch)
    have hnd : qs.Nodup := by
      refine forall2_nodup hq (f := Schema.path) (fun a a' b h h' => ?_) (runAll_nodup hv hr)
      obtain ⟨_, r, c, _, h1, h2, _⟩ := h
      obtain ⟨_, r', c', _, h1', h2', _⟩ := h'
      rw [h1, h1', outFile_inj h2 h2']
    intro p hne
    rw [hm] at hne ⊢
    obtain ⟨s, q, ⟨r, c, h1, _, h2, h3⟩, h4, h5⟩ := saveAllF_left hh hq hnd fs hs hc p hne
    exact ⟨r, c, q, s.generated, h1, h2, h3, h4, h5⟩
  · intro p hne
    rw [hm] at hne
    exact absurd rfl hne

/-- C112: in particular all changes are below the output directory, or on the way to it. -/
theorem C112_below (env : Str → Env) {cwd : List Str} (path : Str) {out : Str} {fs : Files} {dir place : List Str} {es b}
    (hs : fs.Sound) (hc : fs cwd = some .dir) (hf : Found fs cwd path dir (.dir es b)) (ho : Leads cwd out place) {q : List Str}
    (h : (mainF env cwd .typeScript path out (some (.dir es b)) fs).2 q ≠ fs q) : q <+: place ∨ place <+: q := by
  obtain ⟨r, c, p, code, -, ⟨d, stem, -, rfl⟩, -, -, h1⟩ := C112_left env path hs hc hf ho q h
  rcases h1 with rfl | ⟨h1, -⟩
  · exact .inr (by rw [List.append_assoc]; exact List.prefix_append _ _)
  · exact List.prefix_or_prefix_of_prefix h1 (by rw [List.append_assoc]; exact List.prefix_append _ _)

/-- C112: if a schema does not compile then nothing changes. -/
theorem C112_compile {env : Str → Env} {cwd : List Str} {path : Str} (out : Str) {fs : Files} {dir : List Str} {es b}
    (hs : fs.Sound) (hf : Found fs cwd path dir (.dir es b)) (h : ¬ AllCompile env path fs dir) :
    (mainF env cwd .typeScript path out (some (.dir es b)) fs).2 = fs := by
  rcases mainF_dir (env := env) (cwd := cwd) (path := path) (out := out) (es := es) (b := b) (fs := fs) with
    ⟨ss, hr, -⟩ | ⟨-, o, hm, -⟩
  · exact absurd (fun r c hsc => ((runAll_succeeds (shows_valid hs hf.2.2)).1 ⟨ss, hr⟩).2 r c ((shows_schema hs hf.2.2 r c).2 hsc)) h
  · rw [hm]

theorem without_sound {fs : Files} {gone : List Str → Prop} (h : fs.Sound) (h0 : ¬ gone [])
    (hg : ∀ p n, gone p → gone (p ++ [n])) : (fs.without gone).Sound := by
  unfold Files.without
  refine ⟨by rw [if_neg h0]; exact h.root, fun p n hp => ?_, fun p hp => ?_⟩
  · have h1 : ¬ gone (p ++ [n]) := fun e => hp (if_pos e)
    rw [if_neg h1] at hp
    rw [if_neg fun e => h1 (hg p n e)]
    exact h.up p n hp
  · have h1 : ¬ gone p := fun e => hp (if_pos e)
    rw [if_neg h1] at hp
    exact h.names p hp

/-- C112: what a failed run has left makes no difference. If it succeeds when what is in the way has been removed (and all
schemas are still there), then with the result as if the failed run had not been. -/
theorem C112_retry {env env' : Str → Env} {cwd : List Str} {path out : Str} {fs fs' : Files} {dir place : List Str} {es b es' b'}
    (hs : fs.Sound) (hc : fs cwd = some .dir) (hf : Found fs cwd path dir (.dir es b)) (ho : Leads cwd out place)
    {gone : List Str → Prop} (h0 : ¬ gone []) (hg : ∀ p n, gone p → gone (p ++ [n])) (hgs : ∀ r c, fs.Schema dir r c → ¬ gone (dir ++ r))
    (hc0 : (fs.without gone) cwd = some .dir)
    (hf0 : Found (fs.without gone) cwd path dir (.dir es' b'))
    (h : mainF env' cwd .typeScript path out (some (.dir es' b')) (fs.without gone) = (.ok (), fs'))
    {dir' : List Str} {t : Tree}
    (hf1 : Found ((mainF env cwd .typeScript path out (some (.dir es b)) fs).2.without gone) cwd path dir' t) :
    mainF env' cwd .typeScript path out (some t) ((mainF env cwd .typeScript path out (some (.dir es b)) fs).2.without gone) =
      (.ok (), fs') := by
  have hleft := C112_left env path hs hc hf ho
  have hsound := (C109_kept env path out (some (.dir es b)) hs hc).1
  have honly := (C109_kept env path out (some (.dir es b)) hs hc).2
  have hschemas : ∀ {r c}, fs.Schema dir r c → (mainF env cwd .typeScript path out (some (.dir es b)) fs).2.Schema dir r c :=
    fun hsc => C109_schemas env path out (some (.dir es b)) hs hc hsc
  generalize (mainF env cwd .typeScript path out (some (.dir es b)) fs).2 = fs1 at *
  have hs0 : (fs.without gone).Sound := without_sound hs h0 hg
  have hs1 : (fs1.without gone).Sound := without_sound hsound h0 hg
  have hdirs : ∀ p, fs.without gone p = some .dir → fs1.without gone p = some .dir := by
    intro p hp
    unfold Files.without at hp ⊢
    split_ifs at hp ⊢
    exact onlyTs_dir honly hp
  have hc1 := hdirs _ hc0
  have hd : dir' = dir := by
    have := walk_kept hdirs _ _ _ (goes_walk hf0.2.1)
    rw [goes_walk hf1.2.1] at this
    exact Except.ok.inj this
  subst hd
  have hsch0 : ∀ r c, (fs.without gone).Schema dir' r c ↔ fs.Schema dir' r c := by
    intro r c
    unfold Files.Schema Files.without
    constructor
    · rintro ⟨h1, h2⟩
      split_ifs at h1
      exact ⟨h1, h2⟩
    · rintro ⟨h1, h2⟩
      rw [if_neg (hgs r c ⟨h1, h2⟩)]
      exact ⟨h1, h2⟩
  have hsch1 : ∀ r c, (fs1.without gone).Schema dir' r c ↔ fs.Schema dir' r c := by
    intro r c
    constructor
    · rintro ⟨h1, h2⟩
      unfold Files.without at h1
      split_ifs at h1
      refine ⟨?_, h2⟩
      by_contra hne
      obtain ⟨r', c', p, code, _, k2, _, _, rfl | ⟨_, _, _, k5⟩⟩ := hleft (dir' ++ r) (by rw [h1]; exact Ne.symm hne)
      · exact outFile_not_pkt k2 (h2.imp fun d ⟨stem, e, _⟩ => ⟨stem, e⟩) rfl
      · rw [h1] at k5
        cases k5
    · intro hsc
      have h1 := hschemas hsc
      refine ⟨?_, h1.2⟩
      unfold Files.without
      rw [if_neg (hgs r c hsc)]
      exact h1.1
  obtain ⟨ha, hcw⟩ := (C107_exact hs0 hc0 hf0 ho).1 ⟨fs', h⟩
  obtain ⟨o, fs2, h1, _, _, h2, _⟩ := folder_run (env := env') (path := path) hs0 hc0 hf0.2.2 ho
  rw [h] at h1
  obtain ⟨-, rfl⟩ := Prod.mk.inj h1
  have hafter := (h2 ha hcw).2
  have ha1 : AllCompile env' path (fs1.without gone) dir' := fun r c hsc => ha r c ((hsch0 r c).2 ((hsch1 r c).1 hsc))
  have hno : ¬ Clash fs dir' := by
    rintro ⟨d, stem, r, c, c', k1, k2⟩
    exact hcw.2 ⟨d, stem, r, c, c', (hsch0 _ _).2 k1, (hsch0 _ _).2 k2⟩
  have hapart : ∀ {r c p r' c' p'}, fs.Schema dir' r c → OutFile place r p → fs.Schema dir' r' c' → OutFile place r' p' →
      p <+: p' → p = p' := by
    rintro r c p r' c' p' k1 ⟨d, stem, rfl, rfl⟩ k1' ⟨d', stem', rfl, rfl⟩ hp
    by_contra hne
    have h3 := (List.prefix_concat_iff.1 hp).resolve_left hne
    rw [List.append_assoc, List.prefix_append_right_inj] at h3
    obtain ⟨x, rfl⟩ := h3
    exact hno ⟨d, stem, x ++ [stem' ++ ".pkt".toList], c, c', k1, by rw [← List.append_assoc]; exact k1'⟩
  have hcw1 : CanWrite (fs1.without gone) dir' place := by
    refine ⟨fun r c q hsc hoq => ?_, fun ⟨d, stem, r, c, c', k1, k2⟩ => hno ⟨d, stem, r, c, c', (hsch1 _ _).1 k1, (hsch1 _ _).1 k2⟩⟩
    have hsc := (hsch1 r c).1 hsc
    obtain ⟨f1, f2⟩ := hcw.1 r c q ((hsch0 r c).2 hsc) hoq
    unfold Files.without at f1 f2 ⊢
    refine ⟨fun p hp hne c' hx => ?_, fun hx => ?_⟩
    · simp only at hx
      split_ifs at hx with hgp
      have f3 := f1 p hp hne c'
      rw [if_neg hgp] at f3
      obtain ⟨r', c'', p', code, k1, k2, _, _, rfl | ⟨_, _, _, k5⟩⟩ := hleft p (by rw [hx]; exact Ne.symm f3)
      · exact hne (hapart k1 k2 hsc hoq hp)
      · rw [hx] at k5
        cases k5
    · simp only at hx
      split_ifs at hx with hgp
      rw [if_neg hgp] at f2
      obtain ⟨r', c'', p', code, k1, k2, _, k4, rfl | ⟨k5, k6, _⟩⟩ := hleft q (by rw [hx]; exact Ne.symm f2)
      · rw [hx] at k4
        cases k4
      · exact k6 (hapart hsc hoq k1 k2 k5)
  cases t with
  | file c =>
    have h3 := hf1.2.2
    cases h3 with
    | file _ _ hx =>
      rw [hdirs _ (shows_dir hf0.2.2)] at hx
      cases hx
  | dir es1 b1 =>
    obtain ⟨o, fs3, k1, _, _, k2, _⟩ := folder_run (env := env') (path := path) hs1 hc1 hf1.2.2 ho
    obtain ⟨rfl, k3⟩ := k2 ha1 hcw1
    rw [k1]
    congr 1
    funext q
    obtain ⟨a1, a2, a3⟩ := hafter q
    obtain ⟨b1, b2, b3⟩ := k3 q
    simp only [hsch1] at b1 b2 b3
    simp only [hsch0] at a1 a2 a3
    by_cases hex : ∃ r c p, fs.Schema dir' r c ∧ OutFile place r p ∧ q <+: p
    · obtain ⟨r, c, p, e1, e2, e3⟩ := hex
      by_cases hqp : q = p
      · subst hqp
        obtain ⟨code, hcode⟩ := ha r c ((hsch0 r c).2 e1)
        rw [a1 r c code e1 e2 hcode, b1 r c code e1 e2 hcode]
      · rw [a2 ⟨r, c, p, e1, e2, e3, hqp⟩, b2 ⟨r, c, p, e1, e2, e3, hqp⟩]
    · rw [a3 hex, b3 hex]
      unfold Files.without
      by_cases hgq : gone q
      · rw [if_pos hgq, if_pos hgq]
      · rw [if_neg hgq, if_neg hgq]
        by_contra hne
        obtain ⟨r, c, p, code, e1, e2, _, _, e3⟩ := hleft q hne
        refine hex ⟨r, c, p, e1, e2, ?_⟩
        rcases e3 with rfl | ⟨e3, _⟩
        · exact List.prefix_rfl
        · exact e3

/-- C112: and there is a tree for that run (in a finite file system). -/
theorem C112_found (env : Str → Env) {cwd : List Str} {path out : Str} {fs : Files} {dir place : List Str} {es b es' b'}
    (hs : fs.Sound) (hfin : {p | fs p ≠ none}.Finite) (hc : fs cwd = some .dir) (hf : Found fs cwd path dir (.dir es b))
    (ho : Leads cwd out place) {gone : List Str → Prop} (h0 : ¬ gone []) (hg : ∀ p n, gone p → gone (p ++ [n]))
    (hf0 : Found (fs.without gone) cwd path dir (.dir es' b')) :
    ∃ t, Found ((mainF env cwd .typeScript path out (some (.dir es b)) fs).2.without gone) cwd path dir t := by
  have hleft := C112_left env path hs hc hf ho
  have hsound := (C109_kept env path out (some (.dir es b)) hs hc).1
  have honly := (C109_kept env path out (some (.dir es b)) hs hc).2
  generalize (mainF env cwd .typeScript path out (some (.dir es b)) fs).2 = fs1 at *
  have hdirs : ∀ p, fs.without gone p = some .dir → fs1.without gone p = some .dir := by
    intro p hp
    unfold Files.without at hp ⊢
    split_ifs at hp ⊢
    exact onlyTs_dir honly hp
  have h1 : (⋃ x ∈ {p | fs p ≠ none}, ⋃ q ∈ {q | ∃ r, dir ++ r = x ∧ OutFile place r q}, {p | p <+: q}).Finite := by
    refine hfin.biUnion fun x _ => Set.Finite.biUnion (Set.Subsingleton.finite ?_) fun q _ => prefixes_finite q
    rintro q ⟨r, hr, hq⟩ q' ⟨r', hr', hq'⟩
    have : r = r' := List.append_cancel_left (hr.trans hr'.symm)
    exact outFile_unique hq (this ▸ hq')
  have hfin1 : {p | fs1.without gone p ≠ none}.Finite := by
    refine Set.Finite.subset (hfin.union h1) fun p hp => ?_
    have hp : fs1 p ≠ none := by
      intro e
      apply hp
      unfold Files.without
      split_ifs
      · rfl
      · exact e
    by_cases hch : fs1 p = fs p
    · exact .inl (by show fs p ≠ none; rw [← hch]; exact hp)
    · obtain ⟨r, c, q, code, k1, k2, _, _, k3⟩ := hleft p hch
      refine .inr (Set.mem_biUnion (x := dir ++ r) (by show fs _ ≠ none; rw [k1.1]; simp) ?_)
      refine Set.mem_biUnion (x := q) ⟨r, rfl, k2⟩ ?_
      rcases k3 with rfl | ⟨k3, _⟩
      · exact List.prefix_rfl
      · exact k3
  obtain ⟨t, ht⟩ := shows_tree (without_sound hsound h0 hg) hfin1 (dir := dir) (by rw [hdirs _ (shows_dir hf0.2.2)]; simp)
  exact ⟨t, hf0.1, walk_goes _ _ _ (walk_kept hdirs _ _ _ (goes_walk hf0.2.1)), ht⟩

/-! ### example -/

/-- Two schemas in `in`, and the directory `out`. -/
def twoList (text : Str) : List (List Str × Item) :=
  [([], .dir), (["in".toList], .dir), (["in".toList, "a.pkt".toList], .file (some text)),
    (["in".toList, "b.pkt".toList], .file (some text)), (["out".toList], .dir)]

/-- The same, and a directory `out/b.ts`. -/
def blockedList (text : Str) : List (List Str × Item) := twoList text ++ [(["out".toList, "b.ts".toList], .dir)]

def twoEntries (text : Str) : List (EntryOf Tree) :=
  [⟨"a.pkt".toList, true, .file (some text)⟩, ⟨"b.pkt".toList, true, .file (some text)⟩]

theorem blocked_sound (text : Str) : (ofList (blockedList text)).Sound := by
  refine ofList_sound rfl (fun e he => ?_) fun e he n hn => ?_
  · simp only [blockedList, twoList, List.cons_append, List.nil_append, List.mem_cons, List.not_mem_nil, or_false] at he
    rcases he with rfl | rfl | rfl | rfl | rfl | rfl
    · exact .inl rfl
    all_goals exact .inr rfl
  · simp only [blockedList, twoList, List.cons_append, List.nil_append, List.mem_cons, List.not_mem_nil, or_false] at he
    rcases he with rfl | rfl | rfl | rfl | rfl | rfl <;>
      simp only [List.mem_cons, List.not_mem_nil, or_false] at hn
    · subst hn
      refine ⟨?_, ?_, ?_, ?_⟩ <;> decide
    · rcases hn with rfl | rfl <;> refine ⟨?_, ?_, ?_, ?_⟩ <;> decide
    · rcases hn with rfl | rfl <;> refine ⟨?_, ?_, ?_, ?_⟩ <;> decide
    · subst hn
      refine ⟨?_, ?_, ?_, ?_⟩ <;> decide
    · rcases hn with rfl | rfl <;> refine ⟨?_, ?_, ?_, ?_⟩ <;> decide

theorem blocked_without (text : Str) :
    (ofList (blockedList text)).without (["out".toList, "b.ts".toList] <+: ·) = ofList (twoList text) := by
  funext p
  unfold Files.without
  split_ifs with h
  · cases hi : ofList (twoList text) p with
    | none => rfl
    | some i =>
      have := ofList_mem hi
      simp only [twoList, List.mem_cons, List.not_mem_nil, or_false, Prod.mk.injEq] at this
      rcases this with ⟨rfl, _⟩ | ⟨rfl, _⟩ | ⟨rfl, _⟩ | ⟨rfl, _⟩ | ⟨rfl, _⟩ <;> exact absurd h (by decide)
  · unfold ofList blockedList
    rw [List.find?_append]
    have : (["out".toList, "b.ts".toList] == p) = false := by
      simp only [beq_eq_false_iff_ne, ne_eq]
      rintro rfl
      exact h List.prefix_rfl
    simp only [List.find?_cons, this, List.find?_nil, Option.or_none]

theorem two_shows {fs : Files} {text : Str} (h : ∀ p i, fs p = some i → (p, i) ∈ blockedList text)
    (h0 : fs ["in".toList] = some .dir) (ha : fs ["in".toList, "a.pkt".toList] = some (.file (some text)))
    (hb : fs ["in".toList, "b.pkt".toList] = some (.file (some text))) (hr : fs [] = some .dir) :
    Found fs [] "in".toList ["in".toList] (.dir (twoEntries text) true) := by
  refine ⟨by decide, ?_, .dir _ _ h0 (by show ["a.pkt".toList, "b.pkt".toList].Nodup; decide) (fun n => ?_) ?_ ?_⟩
  · rw [show components "in".toList = [.normal "in".toList] by decide]
    exact .name _ _ _ _ hr (.here _)
  · simp only [twoEntries, List.map_cons, List.map_nil, List.mem_cons, List.not_mem_nil, or_false]
    constructor
    · rintro (rfl | rfl)
      · show fs ["in".toList, "a.pkt".toList] ≠ none
        rw [ha]; simp
      · show fs ["in".toList, "b.pkt".toList] ≠ none
        rw [hb]; simp
    · intro hne
      obtain ⟨i, hi⟩ := Option.ne_none_iff_exists'.1 hne
      have := h _ _ hi
      simp only [blockedList, twoList, List.cons_append, List.nil_append, List.mem_cons, List.not_mem_nil, or_false, Prod.mk.injEq,
        List.cons.injEq, reduceCtorEq, and_false, false_and, false_or, and_true] at this
      rcases this with ⟨⟨_, k⟩, _⟩ | ⟨⟨_, k⟩, _⟩ | ⟨⟨k, _⟩, _⟩
      · exact .inl k
      · exact .inr k
      · exact absurd k (by decide)
  · intro e he
    simp only [twoEntries, List.mem_cons, List.not_mem_nil, or_false] at he
    rcases he with rfl | rfl <;> rfl
  · intro e he
    simp only [twoEntries, List.mem_cons, List.not_mem_nil, or_false] at he
    rcases he with rfl | rfl
    · exact .file _ _ ha
    · exact .file _ _ hb

theorem two_schema {fs : Files} {text : Str} (h : ∀ p i, fs p = some i → (p, i) ∈ blockedList text) {r c}
    (hr : fs.Schema ["in".toList] r c) : (r = ["a.pkt".toList] ∨ r = ["b.pkt".toList]) ∧ c = some text := by
  have := h _ _ hr.1
  simp only [blockedList, twoList, List.cons_append, List.nil_append, List.mem_cons, List.not_mem_nil, or_false, Prod.mk.injEq,
    List.cons.injEq, reduceCtorEq, and_false, false_and, false_or, Item.file.injEq] at this
  rcases this with ⟨⟨_, k⟩, k'⟩ | ⟨⟨_, k⟩, k'⟩
  · exact ⟨.inl k, k'⟩
  · exact ⟨.inr k, k'⟩

theorem two_mem {text : Str} {p : List Str} {i : Item} (h : ofList (twoList text) p = some i) : (p, i) ∈ blockedList text :=
  List.mem_append_left _ (ofList_mem h)

/-- A directory `out/b.ts` makes a run fail. When it has been removed, the run succeeds, with the result as without the first
run. -/
example : ∃ fs' t, (mainF exampleEnv [] .typeScript "in".toList "out".toList (some (.dir (twoEntries exampleText) true))
      (ofList (blockedList exampleText))).1 ≠ .ok () ∧
    mainF exampleEnv [] .typeScript "in".toList "out".toList (some (.dir (twoEntries exampleText) true)) (ofList (twoList exampleText)) =
      (.ok (), fs') ∧
    mainF exampleEnv [] .typeScript "in".toList "out".toList (some t)
      ((mainF exampleEnv [] .typeScript "in".toList "out".toList (some (.dir (twoEntries exampleText) true))
        (ofList (blockedList exampleText))).2.without (["out".toList, "b.ts".toList] <+: ·)) = (.ok (), fs') := by
  have hs := blocked_sound exampleText
  have hf := two_shows (fs := ofList (blockedList exampleText)) (fun p i h => ofList_mem h) rfl rfl rfl rfl
  have hf0 := two_shows (fs := ofList (twoList exampleText)) (fun p i h => two_mem h) rfl rfl rfl rfl
  have hl : Leads [] "out".toList ["out".toList] := ⟨.name _ _ _ _ True.intro (.here _), [], ["out".toList], by decide, by simp⟩
  have h0 : ¬ ["out".toList, "b.ts".toList] <+: ([] : List Str) := by decide
  have hg : ∀ (p : List Str) (n : Str), ["out".toList, "b.ts".toList] <+: p → ["out".toList, "b.ts".toList] <+: p ++ [n] :=
    fun p n h => h.trans (List.prefix_append _ _)
  have hs0 : (ofList (twoList exampleText)).Sound := by
    have := without_sound hs h0 hg
    rwa [blocked_without] at this
  obtain ⟨code, hcode⟩ := example_compiles
  have hall : AllCompile exampleEnv "in".toList (ofList (twoList exampleText)) ["in".toList] := fun r c h =>
    ⟨code, exampleText, (two_schema (fun p i h => two_mem h) h).2, hcode⟩
  have hfail : (mainF exampleEnv [] .typeScript "in".toList "out".toList (some (.dir (twoEntries exampleText) true))
      (ofList (blockedList exampleText))).1 ≠ .ok () := by
    intro h
    cases hm : mainF exampleEnv [] .typeScript "in".toList "out".toList (some (.dir (twoEntries exampleText) true))
      (ofList (blockedList exampleText)) with
    | mk o fs1 =>
    rw [hm] at h
    obtain rfl : o = .ok () := h
    have := (C107_exact (env := exampleEnv) hs rfl hf hl).1 ⟨_, hm⟩
    exact (this.2.1 ["b.pkt".toList] (some exampleText) ["out".toList, "b.ts".toList] ⟨rfl, [], "b".toList, rfl, by decide⟩
      ⟨[], "b".toList, rfl, rfl⟩).2 rfl
  obtain ⟨fs', h1⟩ := (C107_exact (env := exampleEnv) hs0 rfl hf0 hl).2 ⟨hall, fun r c q h ho => by
      have hq : q = ["out".toList, "a.ts".toList] ∨ q = ["out".toList, "b.ts".toList] := by
        rcases (two_schema (fun p i h => two_mem h) h).1 with rfl | rfl
        · exact .inl (outFile_unique ho ⟨[], "a".toList, rfl, rfl⟩)
        · exact .inr (outFile_unique ho ⟨[], "b".toList, rfl, rfl⟩)
      have hd : ofList (twoList exampleText) ["out".toList] = some .dir := rfl
      rcases hq with rfl | rfl
      all_goals
        refine ⟨fun p hp hne c => ?_, ?_⟩
        · rw [hs0.dirs hd ((List.prefix_concat_iff.1 (show p <+: ["out".toList] ++ [_] from hp)).resolve_left hne)]
          simp
        · rw [show ofList (twoList exampleText) _ = none from rfl]
          simp, by
      rintro ⟨d, stem, r, c, c', k1, k2⟩
      have e1 := (two_schema (fun p i h => two_mem h) k1).1
      have e2 := (two_schema (fun p i h => two_mem h) k2).1
      cases d with
      | nil =>
        simp only [List.nil_append, List.cons_append, List.cons.injEq] at e2
        rcases e2 with e2 | e2
        · exact pkt_ne_ts (a := "a".toList) e2.1.symm
        · exact pkt_ne_ts (a := "b".toList) e2.1.symm
      | cons x d => simp at e1⟩
  have hfin : {p | ofList (blockedList exampleText) p ≠ none}.Finite := by
    refine Set.Finite.subset (List.finite_toSet ((blockedList exampleText).map Prod.fst)) fun p hp => ?_
    obtain ⟨i, hi⟩ := Option.ne_none_iff_exists'.1 hp
    exact List.mem_map_of_mem (f := Prod.fst) (ofList_mem hi)
  rw [← blocked_without] at hf0 h1
  obtain ⟨t, ht⟩ := C112_found exampleEnv hs hfin rfl hf hl h0 hg hf0
  have h2 := C112_retry (env := exampleEnv) (env' := exampleEnv) hs rfl hf hl h0 hg (fun r c hr hp => by
    rcases (two_schema (fun p i h => ofList_mem h) hr).1 with rfl | rfl <;> exact absurd hp (by decide))
    (by rw [blocked_without]; rfl) hf0 h1 ht
  rw [blocked_without] at h1
  exact ⟨fs', t, hfail, h1, h2⟩

end Packetc.Props
