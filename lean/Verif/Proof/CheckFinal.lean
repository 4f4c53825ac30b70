import Verif.Proof.CheckSecond
/-!
# The whole checker: classification of its results
-/

namespace Packetc.Check
open Ast WellFormed

/-- The iteration order of a hash map: any permutation. -/
def FairOrd (ord : List (Str × Ty) → List (Str × Ty)) : Prop := ∀ l, (ord l).Perm l

theorem count_two_not_nodup {l : List Str} {x : Str} (h : 2 ≤ l.count x) : ¬ l.Nodup := by
  intro hn
  have := List.nodup_iff_count_le_one.1 hn x
  omega

theorem Truthful_not_wf {ast : AST} {e : CheckErr} (hnb : NoBuiltinDecl ast) (h : Truthful ast e)
    (he : ∀ f n, e ≠ .duplicateField f n) : ¬ WF ast := by
  intro hw
  obtain ⟨x, fs, hx, hfs⟩ := hw.exported
  cases h with
  | noExport h => rw [h] at hx; cases hx
  | moreThanOneExport h => rw [hx] at h; simp at h
  | duplicateDecl n h => exact h.not_nodup hw.unique
  | optionalArray f u n fs h1 h2 h3 h4 => exact hw.noOptArray n fs h1 _ h2 ⟨h3, h4⟩
  | emptyEnum n h => have := (hw.enums n _ h).1; simp at this
  | tooManyVariants n vs h1 h2 => have := (hw.enums n _ h1).2.1; omega
  | duplicateVariant v n vs h1 h2 => exact count_two_not_nodup h2 (hw.enums n _ h1).2.2
  | duplicateField f n => exact he _ _ rfl
  | cycle n h => exact hw.acyclic n h
  | missingType k n h1 h2 h3 =>
    rcases h3 with h3 | h3
    · rcases hw.closed _ _ h1 with h | h
      · exact h2 h
      · exact h3 h
    · exact hw.acyclic n h3
  | notAStruct n h1 h2 =>
    rw [hx] at h1
    cases h1
    rcases h2 with h2 | ⟨vs, h2⟩
    · exact hnb _ ⟨_, hfs⟩ h2
    · have := (Map.mem_iff_get (m := decls ast) hw.unique _ _).1 h2
      rw [(Map.mem_iff_get (m := decls ast) hw.unique _ _).1 hfs] at this
      cases this
  | exportUnresolved n h1 h2 h3 =>
    rw [hx] at h1
    cases h1
    exact h3 ⟨_, hfs⟩

theorem FP.truth {ast : AST} {n : Str} {t : Ty} {e : Fault} (hd : (n, t) ∈ decls ast) (h : FP n t (.error e)) :
    ∃ e', e = .err e' ∧ Truthful ast e' ∧ (NoBuiltinDecl ast → ¬ WF ast) := by
  cases h with
  | emptyEnum =>
    have := Truthful.emptyEnum _ hd
    exact ⟨_, rfl, this, fun hn => Truthful_not_wf hn this (by simp)⟩
  | manyVariants vs h =>
    have := Truthful.tooManyVariants _ _ hd h
    exact ⟨_, rfl, this, fun hn => Truthful_not_wf hn this (by simp)⟩
  | dupVariant vs v h =>
    have := Truthful.duplicateVariant _ _ _ hd h
    exact ⟨_, rfl, this, fun hn => Truthful_not_wf hn this (by simp)⟩
  | dupField fs f h1 h2 => exact ⟨_, rfl, .duplicateField _ _ _ hd h2, fun _ hw => h1 (hw.fieldNames n fs hd)⟩
  | optArray fs f u h1 h2 h3 =>
    have := Truthful.optionalArray _ _ _ _ hd h1 h2 h3
    exact ⟨_, rfl, this, fun hn => Truthful_not_wf hn this (by simp)⟩

theorem Between.J {ast : AST} {B : TypeMap} {u : Map Ty} (h : Between ast B u) : J ast [] [] ⟨B, [], u⟩ := by
  refine ⟨?_, by simp, ?_, ?_⟩
  · intro n t hn
    by_cases hd : Declared ast n
    · obtain ⟨t', ht'⟩ := hd
      rcases h.decl n t' ht' with ⟨r, _, _, h3⟩ | ⟨h1, _, h3⟩
      · simp only at hn; rw [hn] at h3; cases h3
      · simp only at hn; rw [hn] at h3; cases h3
        refine ⟨ht', ?_⟩
        cases h1; exact ⟨_, rfl⟩
    · simp only at hn; rw [(h.other n hd).2] at hn; cases hn
  · rintro n ⟨t, ht⟩
    rcases h.decl n t ht with ⟨r, _, h2, _⟩ | ⟨_, _, h3⟩
    · exact Or.inl ((Map.has_iff _ _).2 ⟨_, h2⟩)
    · exact Or.inr (Or.inr ((Map.has_iff _ _).2 ⟨_, h3⟩))
  · intro n hn
    obtain ⟨v, hv⟩ := (Map.has_iff _ _).1 ((builtins_has n).2 hn)
    by_cases hd : Declared ast n
    · obtain ⟨t, ht⟩ := hd
      rcases h.decl n t ht with ⟨r, _, h2, _⟩ | ⟨_, h2, _⟩
      · exact (Map.has_iff _ _).2 ⟨_, h2⟩
      · exact (Map.has_iff _ _).2 ⟨v, by simp only; rw [h2, hv]⟩
    · exact (Map.has_iff _ _).2 ⟨v, by simp only; rw [(h.other n hd).1, hv]⟩

theorem Between.named {ast : AST} {B : TypeMap} {u : Map Ty} (h : Between ast B u) : Named B := by
  intro n e hn
  by_cases hd : Declared ast n
  · obtain ⟨t, ht⟩ := hd
    rcases h.decl n t ht with ⟨r, _, h2, _⟩ | ⟨_, h2, _⟩
    · rw [hn] at h2; cases h2; rfl
    · exact builtins_named n e (by rw [← h2, hn])
  · exact builtins_named n e (by rw [← (h.other n hd).1, hn])

theorem mergeMaps_keys (a b : TypeMap) (ha : a.keys.Nodup) : (mergeMaps a b).keys.Nodup := by
  unfold mergeMaps
  induction b generalizing a with
  | nil => exact ha
  | cons e b ih => exact ih _ (Map.nodup_insert ha _ _)

/-- The cache after the second pass. -/
structure After (ast : AST) (B c : TypeMap) (u : Map Ty) : Prop where
  between : Between ast B u
  ext : Ext B c
  coh : Coh ast B c
  decl : ∀ n, Declared ast n → c.has n = true
  builtin : ∀ n ∈ builtinNames, c.has n = true
  keys : c.keys.Nodup

inductive RSP (ast : AST) (B : TypeMap) (u : Map Ty) : Except Fault TypeMap → Prop
  | ok (c) : After ast B c u → RSP ast B u (.ok c)
  | err (e) : Truth2 ast e → RSP ast B u (.error (.err e))

theorem resolveSecondPass_spec {ast : AST} {B : TypeMap} {u : Map Ty} (h : Between ast B u) (hk : B.keys.Nodup)
    {ord} (hord : FairOrd ord) : RSP ast B u (resolveSecondPass ord B u) := by
  unfold resolveSecondPass
  have hJ := h.J
  have hmem : ∀ e ∈ ord u, e ∈ decls ast ∧ ∃ fs, e.2 = .struct fs := by
    intro e he
    have := (hord u).mem_iff.1 he
    obtain ⟨n, t⟩ := e
    exact hJ.unres n t (Map.mem_get h.ukeys this)
  have h1 := secondPassLoop_control (u.length + 1) (ord u) ⟨B, [], u⟩ hmem hJ (by simp)
  cases hr : secondPassLoop (u.length + 1) (ord u) ⟨B, [], u⟩ with
  | error e => rw [hr] at h1; cases h1 with | err e he => exact .err e he
  | ok st =>
    rw [hr] at h1
    cases h1 with
    | ok _ hD hP =>
      have h2 := secondPassLoop_data (ast := ast) (B := B) _ _ _ _ hr (fun e he => (hmem e he).1)
        (fun n t hn => (hJ.unres n t hn).1)
      refine .ok _ ⟨h, h2.ext, h2.coh h.named (.refl _) (fun n e hn => .base _ hn), ?_, hD.inv.builtin, h2.keys hk⟩
      rintro n ⟨t, ht⟩
      rcases h.decl n t ht with ⟨r, _, h3, _⟩ | ⟨_, _, h3⟩
      · exact h2.ext.has ((Map.has_iff _ _).2 ⟨_, h3⟩)
      · exact hP _ ((hord u).mem_iff.2 (Map.get_mem h3))

theorem Truth2.truthful {ast : AST} {e : CheckErr} (h : Truth2 ast e) : Truthful ast e := by
  cases h with
  | optionalArray f u n fs h1 h2 h3 h4 => exact .optionalArray _ _ _ _ h1 h2 h3 h4
  | cycle n h => exact .cycle n h
  | missing k n h1 h2 h3 => exact .missingType k n h1 h2 (Or.inl h3)
  | missingCycle k n h1 h2 h3 => exact .missingType k n h1 h2 (Or.inr h3)

inductive TC (ast : AST) : Except Fault Resolved → Prop
  | ok (e B c u fs) : exports ast = [e] → After ast B c u → c.get e = some (e, .struct fs) →
      TC ast (.ok ⟨⟨e, fs⟩, removeUnused (exportVisited [e] fs) c⟩)
  | err (e) : Truthful ast e → (NoBuiltinDecl ast → ¬ WF ast) → TC ast (.error (.err e))

/-- origin of an entry of the final map -/
theorem After.get_cases {ast : AST} {B c : TypeMap} {u : Map Ty} (h : After ast B c u) {n : Str} {e}
    (hn : c.get n = some e) :
    (n ∈ builtinNames ∧ getBuiltins.get n = some e) ∨
    (∃ t r, (n, t) ∈ decls ast ∧ FP n t (.ok (some r)) ∧ e = (n, r)) ∨
    (∃ (fs : List (Str × Unresolved)) (p : Str → Bool) (rfs : List RField), (n, .struct fs) ∈ decls ast ∧ e = (n, .struct rfs) ∧ (∀ m, B.has m = true → p m = true) ∧
      (BClosed ast B → ∀ m k, Refers ast m k → p m = true → p k = true) ∧
      List.Forall₂ (FieldOk c) (fs.filter (fun f => p f.2.name) ++ fs.filter (fun f => !p f.2.name)) rfs) := by
  have hb : ∀ e, getBuiltins.get n = some e → n ∈ builtinNames :=
    fun e he => (builtins_has n).1 ((Map.has_iff _ _).2 ⟨e, he⟩)
  cases h.coh n e hn with
  | base e he =>
    by_cases hd : Declared ast n
    · obtain ⟨t, ht⟩ := hd
      rcases h.between.decl n t ht with ⟨r, h1, h2, _⟩ | ⟨_, h2, _⟩
      · rw [he] at h2; cases h2
        exact Or.inr (Or.inl ⟨t, r, ht, h1, rfl⟩)
      · rw [he] at h2; exact Or.inl ⟨hb _ h2.symm, h2.symm⟩
    · have := (h.between.other n hd).1
      rw [he] at this; exact Or.inl ⟨hb _ this.symm, this.symm⟩
  | struct fs p rfs h1 h2 h3 h4 => exact Or.inr (Or.inr ⟨fs, p, rfs, h1, rfl, h2, h3, h4⟩)

theorem builtins_not_struct {n : Str} {e} (h : getBuiltins.get n = some e) : ∃ b, e = (n, .builtin b) := by
  have := Map.get_mem h
  revert this
  unfold getBuiltins
  simp only [List.mem_cons, Prod.mk.injEq, List.not_mem_nil, or_false]
  rintro (⟨rfl, rfl⟩ | ⟨rfl, rfl⟩ | ⟨rfl, rfl⟩ | ⟨rfl, rfl⟩ | ⟨rfl, rfl⟩ | ⟨rfl, rfl⟩ | ⟨rfl, rfl⟩ | ⟨rfl, rfl⟩) <;>
    exact ⟨_, rfl⟩

theorem typeCheck_spec (ast : AST) {ord} (hord : FairOrd ord) : TC ast (typeCheck ord ast) := by
  have mk : ∀ e, Truthful ast e → (∀ f n, e ≠ .duplicateField f n) → TC ast (.error (.err e)) :=
    fun e h1 h2 => .err e h1 fun hn => Truthful_not_wf hn h1 h2
  unfold typeCheck
  rw [getExport_eq]
  rcases he : exports ast with _ | ⟨e, _ | ⟨e', l⟩⟩
  · exact mk _ (.noExport he) (by simp)
  · simp only
    cases hu : collectTypes ast with
    | error f =>
      obtain ⟨n, rfl, hf⟩ := collectTypes_err hu
      exact mk _ (.duplicateDecl n hf) (by simp)
    | ok u =>
      simp only
      cases hf : resolveFirstPass getBuiltins ast ⟨[], u⟩ with
      | error f =>
        obtain ⟨n, t, hd, hFP⟩ := resolveFirstPass_err hf
        obtain ⟨e', rfl, ht⟩ := hFP.truth hd
        exact .err _ ht.1 ht.2
      | ok fp =>
        simp only
        have hb := between hu hf
        have h2 := resolveSecondPass_spec hb (mergeMaps_keys _ _ builtins_nodup) hord
        generalize resolveSecondPass _ _ _ = r at h2
        cases h2 with
        | err e he => exact mk _ he.truthful (by cases he <;> simp)
        | ok c hA =>
          simp only
          unfold resolveExport
          cases hg : c.get e with
          | none =>
            simp only
            refine mk _ (.exportUnresolved e he ?_ ?_) (by simp)
            · intro hh; have := hA.builtin e hh; simp [Map.has, hg] at this
            · intro hh; have := hA.decl e hh; simp [Map.has, hg] at this
          | some x =>
            simp only
            have hn : x.1 = e := hA.coh.named hb.named _ _ hg
            obtain ⟨x1, x2⟩ := x
            simp only at hn; subst hn
            cases x2 with
            | struct fs => exact .ok _ _ c _ fs he hA hg
            | builtin b =>
              refine mk _ (.notAStruct _ he ?_) (by simp)
              rcases hA.get_cases hg with h | ⟨t, r, h1, h2, h3⟩ | ⟨fs, p, rfs, h1, h2, _⟩
              · exact Or.inl h.1
              · cases h3; cases h2
              · cases h2
            | enum en =>
              refine mk _ (.notAStruct _ he ?_) (by simp)
              rcases hA.get_cases hg with h | ⟨t, r, h1, h2, h3⟩ | ⟨fs, p, rfs, h1, h2, _⟩
              · exact Or.inl h.1
              · cases h3; cases h2; exact Or.inr ⟨_, h1⟩
              · cases h2
  · exact mk _ (.moreThanOneExport (by simp [he])) (by simp)

/-! ### the final map, when no declaration reuses a builtin name -/

structure Final (ast : AST) (c : TypeMap) : Prop where
  nodup : ((decls ast).map Prod.fst).Nodup
  named : Named c
  builtin : ∀ n ∈ builtinNames, c.get n = getBuiltins.get n
  enum : ∀ n vs, (n, .enum vs) ∈ decls ast → EnumOk vs ∧ c.get n = some (n, .enum (enumSpec vs))
  struct : ∀ n fs, (n, .struct fs) ∈ decls ast → FieldNamesOk fs ∧ ∃ (rfs : List RField) (p : Str → Bool), c.get n = some (n, .struct rfs) ∧
    (∀ m, Simple ast m → p m = true) ∧ (∀ m k, Refers ast m k → p m = true → p k = true) ∧
    List.Forall₂ (FieldOk c) (fs.filter (fun f => p f.2.name) ++ fs.filter (fun f => !p f.2.name)) rfs
  other : ∀ n, n ∉ builtinNames → ¬ Declared ast n → c.get n = none
  keys : c.keys.Nodup

theorem Between.simple {ast : AST} {B : TypeMap} {u : Map Ty} (h : Between ast B u) {n : Str} (hs : Simple ast n) :
    B.has n = true := by
  rcases hs with hs | ⟨vs, hs⟩ | ⟨fs, hs, hb⟩
  · exact h.J.builtin n hs
  · rcases h.decl _ _ hs with ⟨r, h1, h2, _⟩ | ⟨h1, _, _⟩
    · exact (Map.has_iff _ _).2 ⟨_, h2⟩
    · cases h1
  · rcases h.decl _ _ hs with ⟨r, h1, h2, _⟩ | ⟨h1, _, _⟩
    · exact (Map.has_iff _ _).2 ⟨_, h2⟩
    · cases h1 with
      | structPart _ _ h3 =>
        obtain ⟨f, hf, hn⟩ := h3
        exact absurd (hb f hf) hn

/-- Types resolved in the first pass are simple. -/
theorem Between.only_simple {ast : AST} {B : TypeMap} {u : Map Ty} (h : Between ast B u) {n : Str} (hB : B.has n = true) :
    Simple ast n := by
  obtain ⟨e, hg⟩ := (Map.has_iff _ _).1 hB
  by_cases hb : n ∈ builtinNames
  · exact Or.inl hb
  · have hno : getBuiltins.get n = none := by
      cases hx : getBuiltins.get n with
      | none => rfl
      | some v => exact absurd ((builtins_has n).1 ((Map.has_iff _ _).2 ⟨v, hx⟩)) hb
    by_cases hd : Declared ast n
    · obtain ⟨t, ht⟩ := hd
      rcases h.decl n t ht with ⟨r, h1, -, -⟩ | ⟨-, h2, -⟩
      · cases h1 with
        | enumOk vs _ => exact Or.inr (Or.inl ⟨vs, ht⟩)
        | structFull fs rfs _ h5 =>
          refine Or.inr (Or.inr ⟨fs, ht, fun f hf => ?_⟩)
          obtain ⟨rf, -, hR⟩ := Forall₂.exists_right h5 hf
          exact (builtins_has _).1 ((Map.has_iff _ _).2 ⟨_, hR.ty⟩)
      · rw [hg, hno] at h2; cases h2
    · have := (h.other n hd).1
      rw [hg, hno] at this; cases this

theorem Between.closed {ast : AST} {B : TypeMap} {u : Map Ty} (h : Between ast B u) (hnb : NoBuiltinDecl ast) :
    BClosed ast B := by
  refine ⟨h.nodup, ?_⟩
  rintro m k ⟨fs, hd, f, hf, rfl⟩ hm
  rcases h.only_simple hm with hb | ⟨vs, hv⟩ | ⟨fs', hd', hb⟩
  · exact absurd hb (hnb m ⟨_, hd⟩)
  · cases decl_unique h.nodup hd hv
  · cases decl_unique h.nodup hd hd'
    exact h.simple (Or.inl (hb f hf))

theorem After.final {ast : AST} {B c : TypeMap} {u : Map Ty} (h : After ast B c u) (hnb : NoBuiltinDecl ast) :
    Final ast c := by
  have hbu : ∀ n, n ∈ builtinNames → B.get n = getBuiltins.get n := fun n hn =>
    (h.between.other n (fun hd => hnb n hd hn)).1
  have hbe : Ext getBuiltins B := by
    intro n e hn
    rw [hbu n ((builtins_has n).1 ((Map.has_iff _ _).2 ⟨e, hn⟩)), hn]
  have hBc : BClosed ast B := h.between.closed hnb
  refine ⟨h.between.nodup, h.coh.named h.between.named, ?_, ?_, ?_, ?_, h.keys⟩
  · intro n hn
    obtain ⟨v, hv⟩ := (Map.has_iff _ _).1 ((builtins_has n).2 hn)
    rw [hv]; exact h.ext _ _ (hbe _ _ hv)
  · intro n vs hd
    rcases h.between.decl _ _ hd with ⟨r, h1, h2, _⟩ | ⟨h1, _, _⟩
    · cases h1 with | enumOk _ he => exact ⟨he, h.ext _ _ h2⟩
    · cases h1
  · intro n fs hd
    refine ⟨?_, ?_⟩
    · rcases h.between.decl _ _ hd with ⟨r, h1, h2, _⟩ | ⟨h1, _, _⟩ <;> cases h1 <;> assumption
    · obtain ⟨e, hg⟩ := (Map.has_iff _ _).1 (h.decl n ⟨_, hd⟩)
      rcases h.get_cases hg with h1 | ⟨t, r, h1, h2, rfl⟩ | ⟨fs', p, rfs, h1, rfl, h2, hcl, h3⟩
      · exact absurd h1.1 (hnb n ⟨_, hd⟩)
      · cases decl_unique h.between.nodup hd h1
        cases h2 with
        | structFull _ rfs h4 h5 =>
          refine ⟨rfs, fun _ => true, hg, by simp, by simp, ?_⟩
          simp only [List.filter_true, Bool.not_true, List.filter_false, List.append_nil]
          exact h5.imp fun _ _ => FieldOk.ext (hbe.trans h.ext)
      · cases decl_unique h.between.nodup hd h1
        exact ⟨rfs, p, hg, fun m hm => h2 m (h.between.simple hm), hcl hBc, h3⟩
  · intro n hn hd
    cases hg : c.get n with
    | none => rfl
    | some e =>
      rcases h.get_cases hg with h1 | ⟨t, r, h1, _⟩ | ⟨fs', p, rfs, h1, _⟩
      · exact absurd h1.1 hn
      · exact absurd ⟨_, h1⟩ hd
      · exact absurd ⟨_, h1⟩ hd

theorem perm_partition {α : Type} (p : α → Bool) (l : List α) :
    (l.filter p ++ l.filter (fun a => !p a)).Perm l := by
  induction l with
  | nil => simp
  | cons a l ih =>
    by_cases h : p a = true
    · rw [List.filter_cons_of_pos h, List.filter_cons_of_neg (by simp [h])]
      exact (ih.cons a)
    · rw [List.filter_cons_of_neg h, List.filter_cons_of_pos (by simpa using h)]
      exact List.perm_middle.trans (ih.cons a)

theorem Forall₂.exists_left {α β : Type} {R : α → β → Prop} {l : List α} {l' : List β} (h : List.Forall₂ R l l')
    {b : β} (hb : b ∈ l') : ∃ a ∈ l, R a b := by
  induction h with
  | nil => simp at hb
  | cons hr _ ih =>
    rcases List.mem_cons.1 hb with rfl | hb
    · exact ⟨_, List.mem_cons_self, hr⟩
    · obtain ⟨a, ha, hR⟩ := ih hb; exact ⟨a, List.mem_cons_of_mem _ ha, hR⟩

/-- every field of a declared struct is resolved -/
theorem Final.field {ast : AST} {c : TypeMap} (h : Final ast c) {n : Str} {fs} (hd : (n, .struct fs) ∈ decls ast)
    {f} (hf : f ∈ fs) : ∃ rfs rf, c.get n = some (n, .struct rfs) ∧ rf ∈ rfs ∧ FieldOk c f rf := by
  obtain ⟨_, rfs, p, h1, _, _, h3⟩ := h.struct n fs hd
  obtain ⟨rf, hrf, hR⟩ := Forall₂.exists_right h3
    ((mem_partition (fun f : Str × Unresolved => p f.2.name) fs f).2 hf)
  exact ⟨rfs, rf, h1, hrf, hR⟩

/-- the resolved type of a name -/
def typeOf (c : TypeMap) (n : Str) : RType := ((c.get n).getD (n, .struct [])).2

theorem sizeOf_field {rfs : List RField} {rf : RField} (h : rf ∈ rfs) : sizeOf rf.ty < sizeOf (RType.struct rfs) := by
  have h1 := List.sizeOf_lt_of_mem h
  have h2 : sizeOf rf.ty < sizeOf rf := by cases rf; simp; omega
  simp; omega

theorem Final.refers_lt {ast : AST} {c : TypeMap} (h : Final ast c) {n m : Str} (hr : Refers ast n m) :
    sizeOf (typeOf c m) < sizeOf (typeOf c n) := by
  obtain ⟨fs, hd, f, hf, rfl⟩ := hr
  obtain ⟨rfs, rf, h1, h2, h3⟩ := h.field hd hf
  unfold typeOf
  rw [h1, h3.ty]
  exact sizeOf_field h2

theorem Final.acyclic {ast : AST} {c : TypeMap} (h : Final ast c) (n : Str) : ¬ Recursive ast n := by
  have : ∀ m, Relation.TransGen (Refers ast) n m → sizeOf (typeOf c m) < sizeOf (typeOf c n) := by
    intro m hm
    induction hm with
    | single hr => exact h.refers_lt hr
    | tail _ hr ih => have := h.refers_lt hr; omega
  intro hn
  have := this n hn
  omega

theorem Final.wf {ast : AST} {c : TypeMap} (h : Final ast c) {e : Str} {fs} (he : exports ast = [e])
    (hg : c.get e = some (e, .struct fs)) : WF ast := by
  refine ⟨?_, h.nodup, fun n vs hd => (h.enum n vs hd).1, ?_, ?_, h.acyclic, fun n fs hd => (h.struct n fs hd).1⟩
  · by_cases hb : e ∈ builtinNames
    · rw [h.builtin e hb] at hg
      obtain ⟨b, hb⟩ := builtins_not_struct hg
      cases hb
    · by_cases hd : Declared ast e
      · obtain ⟨t, ht⟩ := hd
        cases t with
        | enum vs => rw [(h.enum e vs ht).2] at hg; cases hg
        | struct fs' => exact ⟨e, fs', he, ht⟩
      · rw [h.other e hb hd] at hg; cases hg
  · rintro n m ⟨fs, hd, f, hf, rfl⟩
    obtain ⟨rfs, rf, h1, h2, h3⟩ := h.field hd hf
    by_cases hb : f.2.name ∈ builtinNames
    · exact Or.inl hb
    · by_cases hd : Declared ast f.2.name
      · exact Or.inr hd
      · have := h3.ty; rw [h.other _ hb hd] at this; cases this
  · intro n fs hd f hf
    obtain ⟨rfs, rf, h1, h2, h3⟩ := h.field hd hf
    exact h3.flags

end Packetc.Check
