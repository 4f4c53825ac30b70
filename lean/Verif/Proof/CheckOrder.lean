import Verif.Proof.CheckUsed
import Mathlib.Data.List.Sort
/-!
# The order of resolved fields

Resolved fields are in declaration order for every hash order exactly when no field can be overtaken (`InOrder`).
-/

namespace Packetc.Check
open Ast WellFormed

/-! ### partitions -/

theorem partition_eq_self {α : Type} {p : α → Bool} {l : List α} (h : l.Pairwise fun a b => p a = true ∨ p b = false) :
    l.filter p ++ l.filter (fun a => !p a) = l := by
  induction l with
  | nil => rfl
  | cons a l ih =>
    rw [List.pairwise_cons] at h
    by_cases ha : p a = true
    · rw [List.filter_cons_of_pos ha, List.filter_cons_of_neg (by simp [ha]), List.cons_append, ih h.2]
    · have hall : ∀ b ∈ l, p b = false := fun b hb => (h.1 b hb).resolve_left ha
      have e1 : l.filter p = [] := List.filter_eq_nil_iff.2 fun b hb => by simp [hall b hb]
      have e2 : l.filter (fun a => !p a) = l := List.filter_eq_self.2 fun b hb => by simp [hall b hb]
      rw [List.filter_cons_of_neg ha, List.filter_cons_of_pos (by simpa using ha), e1, e2, List.nil_append]

theorem pairwise_partition {α : Type} (p : α → Bool) (l : List α) :
    (l.filter p ++ l.filter (fun a => !p a)).Pairwise fun a b => p a = true ∨ p b = false := by
  rw [List.pairwise_append]
  refine ⟨?_, ?_, ?_⟩
  · exact List.pairwise_iff_forall_sublist.2 fun {a b} hs => Or.inl (List.mem_filter.1 (hs.subset List.mem_cons_self)).2
  · exact List.pairwise_iff_forall_sublist.2 fun {a b} hs => Or.inr (by
      have := (List.mem_filter.1 (hs.subset (List.mem_cons_of_mem _ List.mem_cons_self))).2
      simpa using this)
  · intro a ha b _
    exact Or.inl (List.mem_filter.1 ha).2

theorem closed_reach {ast : AST} {p : Str → Bool} (hp : ∀ m k, Refers ast m k → p m = true → p k = true) {m k : Str}
    (h : Relation.ReflTransGen (Refers ast) m k) (hm : p m = true) : p k = true := by
  induction h with
  | refl => exact hm
  | tail _ hr ih => exact hp _ _ hr ih

theorem inOrder_partition {ast : AST} {p : Str → Bool} (hs : ∀ m, Simple ast m → p m = true)
    (hp : ∀ m k, Refers ast m k → p m = true → p k = true) {fs : List (Str × Unresolved)} (h : InOrder ast fs) :
    fs.filter (fun f => p f.2.name) ++ fs.filter (fun f => !p f.2.name) = fs := by
  refine partition_eq_self (p := fun f : Str × Unresolved => p f.2.name) (List.Pairwise.imp ?_ h)
  intro f g hfg
  rcases hfg with hfg | hfg
  · exact Or.inl (hs _ hfg)
  · by_cases hg : p g.2.name = true
    · exact Or.inl (closed_reach hp hfg hg)
    · exact Or.inr (by simpa using hg)

/-! ### sufficiency -/

theorem Final.inOrder {ast : AST} {c : TypeMap} (h : Final ast c) {n : Str} {fs} (hd : (n, .struct fs) ∈ decls ast)
    (ho : InOrder ast fs) : ∃ rfs : List RField, c.get n = some (n, .struct rfs) ∧ List.Forall₂ (FieldOk c) fs rfs := by
  obtain ⟨_, rfs, p, h1, h2, h3, h4⟩ := h.struct n fs hd
  rw [inOrder_partition h2 h3 ho] at h4
  exact ⟨rfs, h1, h4⟩

/-! ### the run of the checker -/

theorem typeCheck_run {ast : AST} {ord} (hord : FairOrd ord) {r} (h : typeCheck ord ast = .ok r) :
    ∃ B u st, After ast B st.cache u ∧ secondPassLoop (u.length + 1) (ord u) ⟨B, [], u⟩ = .ok st ∧
      exports ast = [r.export.name] ∧
      st.cache.get r.export.name = some (r.export.name, .struct r.export.fields) ∧
      r.types = removeUnused (exportVisited [r.export.name] r.export.fields) st.cache := by
  unfold typeCheck at h
  cases he : getExport ast with
  | error e => rw [he] at h; cases h
  | ok e =>
    rw [he] at h
    simp only at h
    cases hu : collectTypes ast with
    | error f => rw [hu] at h; cases h
    | ok u =>
      rw [hu] at h
      simp only at h
      cases hf : resolveFirstPass getBuiltins ast ⟨[], u⟩ with
      | error f => rw [hf] at h; cases h
      | ok fp =>
        rw [hf] at h
        simp only at h
        have hb := between hu hf
        have h2 := resolveSecondPass_spec hb (mergeMaps_keys _ _ builtins_nodup) hord
        cases hr : secondPassLoop (fp.unresolved.length + 1) (ord fp.unresolved)
            ⟨mergeMaps getBuiltins fp.resolved, [], fp.unresolved⟩ with
        | error e => simp only [resolveSecondPass, hr] at h; cases h
        | ok st =>
          have hrs : resolveSecondPass ord (mergeMaps getBuiltins fp.resolved) fp.unresolved = .ok st.cache := by
            simp only [resolveSecondPass, hr]
          rw [hrs] at h h2
          cases h2 with
          | ok _ hA =>
            simp only at h
            unfold resolveExport at h
            cases hg : st.cache.get e with
            | none => rw [hg] at h; cases h
            | some x =>
              rw [hg] at h
              simp only at h
              have hn : x.1 = e := hA.coh.named hb.named _ _ hg
              obtain ⟨x1, x2⟩ := x
              simp only at hn
              subst hn
              cases x2 with
              | builtin b => cases h
              | enum en => cases h
              | struct fs =>
                simp only [RType.getStruct] at h
                cases h
                exact ⟨_, _, st, hA, hr, (getExport_ok_iff _ _).1 he, hg, rfl⟩

/-- What remains of the cache is what is used. -/
theorem used_get {ast : AST} {c : TypeMap} (hf : Final ast c) {e : Str} {fs} (he : exports ast = [e])
    (hg : c.get e = some (e, .struct fs)) {n : Str} (hn : Used ast n) :
    (removeUnused (exportVisited [e] fs) c).get n = c.get n := by
  have hv : n ∈ exportVisited [e] fs := by
    rw [hf.visited_iff hg]
    obtain ⟨e', he', h⟩ := hn
    rw [he] at he'
    cases he'
    exact h
  have : (removeUnused (exportVisited [e] fs) c).get n =
      if decide (n ∈ exportVisited [e] fs) then c.get n else none :=
    Map.get_filter c (fun k => decide (k ∈ exportVisited [e] fs)) n
  rw [this]
  simp only [hv, decide_true, if_true]

theorem secondPassLoop_append {fuel : Nat} {a b : List (Str × Ty)} {st st' : SecondPass}
    (h : secondPassLoop fuel (a ++ b) st = .ok st') :
    ∃ st1, secondPassLoop fuel a st = .ok st1 ∧ secondPassLoop fuel b st1 = .ok st' := by
  induction a generalizing st with
  | nil => exact ⟨st, rfl, h⟩
  | cons x a ih =>
    obtain ⟨n, t⟩ := x
    rw [List.cons_append] at h
    cases hr : resolveOneSecondPass fuel n t st with
    | error e => simp only [secondPassLoop, hr] at h; cases h
    | ok st2 =>
      simp only [secondPassLoop, hr] at h
      obtain ⟨st1, h1, h2⟩ := ih h
      exact ⟨st1, by simp only [secondPassLoop, hr]; exact h1, h2⟩

/-! ### only what is reachable gets resolved -/

theorem depsLoop_reach {ast : AST} {root : Str} {rec : Str → Ty → SecondPass → Except Fault SecondPass}
    (hrec : ∀ m t st st', rec m t st = .ok st' → (m, t) ∈ decls ast →
      (∀ n t, st.unresolved.get n = some t → (n, t) ∈ decls ast) →
      (∀ n t, st'.unresolved.get n = some t → (n, t) ∈ decls ast) ∧
      ∀ k, st'.cache.has k = true → st.cache.has k = true ∨ Relation.ReflTransGen (Refers ast) m k)
    (nots : List (Str × Unresolved)) (st st' : SecondPass) (hn : ∀ f ∈ nots, Refers ast root f.2.name)
    (hu : ∀ n t, st.unresolved.get n = some t → (n, t) ∈ decls ast)
    (h : depsLoop rec nots st = .ok st') :
    (∀ n t, st'.unresolved.get n = some t → (n, t) ∈ decls ast) ∧
    ∀ k, st'.cache.has k = true → st.cache.has k = true ∨ Relation.ReflTransGen (Refers ast) root k := by
  induction nots generalizing st with
  | nil => simp only [depsLoop] at h; cases h; exact ⟨hu, fun _ h => Or.inl h⟩
  | cons x nots ih =>
    obtain ⟨fn, fty⟩ := x
    have hR : Refers ast root fty.name := hn _ List.mem_cons_self
    simp only [depsLoop] at h
    split at h
    · rename_i utype hg
      split at h
      · cases h
      · rename_i st1 h1
        obtain ⟨ha, hb⟩ := hrec _ _ _ _ h1 (hu _ _ hg) (by
          intro n t hn
          simp only [Map.get_erase] at hn
          split at hn
          · cases hn
          · exact hu _ _ hn)
        obtain ⟨hc, hd⟩ := ih st1 (fun f hf => hn f (List.mem_cons_of_mem _ hf)) ha h
        refine ⟨hc, fun k hk => ?_⟩
        rcases hd k hk with hk | hk
        · rcases hb k hk with hk | hk
          · exact Or.inl hk
          · exact Or.inr (.head hR hk)
        · exact Or.inr hk
    · split at h
      · exact ih st (fun f hf => hn f (List.mem_cons_of_mem _ hf)) hu h
      · cases h

theorem has_insert {c : TypeMap} {n k : Str} {e} : (c.insert n e).has k = true ↔ k = n ∨ c.has k = true := by
  simp only [Map.has_iff, Map.get_insert]
  by_cases h : n = k
  · simp [h]
  · simp [h, Ne.symm h]

theorem resolveOne_reach {ast : AST} (fuel : Nat) (name : Str) (t : Ty) (st st' : SecondPass)
    (h : resolveOneSecondPass fuel name t st = .ok st') (hd : (name, t) ∈ decls ast)
    (hu : ∀ n t, st.unresolved.get n = some t → (n, t) ∈ decls ast) :
    (∀ n t, st'.unresolved.get n = some t → (n, t) ∈ decls ast) ∧
    ∀ k, st'.cache.has k = true → st.cache.has k = true ∨ Relation.ReflTransGen (Refers ast) name k := by
  induction fuel generalizing name t st st' with
  | zero => simp [resolveOneSecondPass] at h
  | succ fuel ih =>
    unfold resolveOneSecondPass at h
    by_cases hc : st.cache.has name = true
    · rw [if_pos hc] at h; cases h; exact ⟨hu, fun _ h => Or.inl h⟩
    · rw [if_neg hc] at h
      cases t with
      | enum vs => simp at h
      | struct fs =>
        simp only at h
        by_cases hv : name ∈ st.visited
        · rw [if_pos hv] at h; cases h
        · rw [if_neg hv] at h
          have hs := splitFields_spec st.cache name fs
          generalize splitFields st.cache name fs = r at hs h
          cases hs with
          | err f u h1 h2 h3 => cases h
          | ok fields h1 =>
            simp only at h
            split at h
            · cases h
              refine ⟨hu, fun k hk => ?_⟩
              simp only [has_insert] at hk
              rcases hk with rfl | hk
              · exact Or.inr .refl
              · exact Or.inl hk
            · split at h
              · cases h
              · rename_i st1 hdep
                obtain ⟨ha, hb⟩ := depsLoop_reach (root := name) (fun m t st st' hh hm hu' => ih m t st st' hh hm hu') _
                  { st with visited := name :: st.visited } _
                  (fun f hf => ⟨fs, hd, f, List.mem_of_mem_filter hf, rfl⟩) hu hdep
                split at h
                · cases h
                · cases h
                  refine ⟨ha, fun k hk => ?_⟩
                  simp only [has_insert] at hk
                  rcases hk with rfl | hk
                  · exact Or.inr .refl
                  · exact hb k hk

theorem secondPassLoop_reach {ast : AST} (fuel : Nat) (l : List (Str × Ty)) (st st' : SecondPass)
    (h : secondPassLoop fuel l st = .ok st') (hl : ∀ e ∈ l, e ∈ decls ast)
    (hu : ∀ n t, st.unresolved.get n = some t → (n, t) ∈ decls ast) :
    (∀ n t, st'.unresolved.get n = some t → (n, t) ∈ decls ast) ∧
    ∀ k, st'.cache.has k = true → st.cache.has k = true ∨ ∃ e ∈ l, Relation.ReflTransGen (Refers ast) e.1 k := by
  induction l generalizing st with
  | nil => simp only [secondPassLoop] at h; cases h; exact ⟨hu, fun _ h => Or.inl h⟩
  | cons x l ih =>
    obtain ⟨n, t⟩ := x
    simp only [secondPassLoop] at h
    split at h
    · cases h
    · rename_i st1 h1
      obtain ⟨ha, hb⟩ := resolveOne_reach _ _ _ _ _ h1 (hl _ List.mem_cons_self) hu
      obtain ⟨hc, hd⟩ := ih st1 h (fun e he => hl e (List.mem_cons_of_mem _ he)) ha
      refine ⟨hc, fun k hk => ?_⟩
      rcases hd k hk with hk | ⟨e, he, hk⟩
      · rcases hb k hk with hk | hk
        · exact Or.inl hk
        · exact Or.inr ⟨_, List.mem_cons_self, hk⟩
      · exact Or.inr ⟨e, List.mem_cons_of_mem _ he, hk⟩

/-- A struct is resolved as: fields known before, fields resolved meanwhile. -/
theorem resolveOne_struct {ast : AST} {B : TypeMap} (hB : Named B) (fuel : Nat) (name : Str) (fs) (st st' : SecondPass)
    (h : resolveOneSecondPass fuel name (.struct fs) st = .ok st') 
    (hu : ∀ n t, st.unresolved.get n = some t → (n, t) ∈ decls ast) (hc : st.cache.has name = false)
    (he : Ext B st.cache) (hcoh : Coh ast B st.cache) :
    ∃ rfs : List RField, st'.cache.get name = some (name, .struct rfs) ∧ List.Forall₂ (FieldOk st'.cache)
      (fs.filter (fun f => st.cache.has f.2.name) ++ fs.filter (fun f => !st.cache.has f.2.name)) rfs := by
  cases fuel with
  | zero => simp [resolveOneSecondPass] at h
  | succ fuel =>
    unfold resolveOneSecondPass at h
    rw [if_neg (by simp [hc])] at h
    simp only at h
    by_cases hv : name ∈ st.visited
    · rw [if_pos hv] at h; cases h
    · rw [if_neg hv] at h
      have hs := splitFields_spec st.cache name fs
      generalize splitFields st.cache name fs = r at hs h
      cases hs with
      | err f u h1 h2 h3 => cases h
      | ok fields h1 =>
        simp only at h
        split at h
        · rename_i hemp
          cases h
          refine ⟨fields, by simp [Map.get_insert], ?_⟩
          have hnil : fs.filter (fun f => !st.cache.has f.2.name) = [] := List.isEmpty_iff.1 hemp
          rw [hnil, List.append_nil]
          exact (h1 (hcoh.named hB)).imp fun _ _ => FieldOk.ext (Ext.insert hc)
        · split at h
          · cases h
          · rename_i st1 hdep
            have hD := depsLoop_data (B := B) (ast := ast)
              (fun m t st st' hh hm hu' => resolveOne_data fuel m t st st' hh hm hu') _
              { st with visited := name :: st.visited } _ hu hdep
            have hfz := hD.frozen name (by simp) hc
            have hE : ∀ rfs, Ext st1.cache (st1.cache.insert name (name, .struct rfs)) := fun rfs => Ext.insert hfz
            have hf := finishFields_spec st1.cache name (fs.filter fun f => !st.cache.has f.2.name)
            generalize finishFields _ _ _ = r3 at hf h
            cases hf with
            | err => cases h
            | panic => cases h
            | ok rfs h2 =>
              cases h
              refine ⟨fields ++ rfs, by simp [Map.get_insert], ?_⟩
              have hcoh1 := hD.coh hB he hcoh
              exact (List.rel_append ((h1 (hcoh.named hB)).imp fun _ _ => FieldOk.ext hD.ext)
                (h2 (hcoh1.named hB))).imp fun _ _ => FieldOk.ext (hE _)

/-! ### necessity -/

/-- The declaration behind a resolved field is determined. -/
theorem fieldOk_unique {R S : (Str × Unresolved) → RField → Prop} {l₁ l₂ : List (Str × Unresolved)} {rfs : List RField}
    (hR : ∀ f rf, R f rf → rf.name = f.1 ∧ rf.tyName = f.2.name ∧ rf.array = f.2.array ∧ rf.optional = f.2.optional)
    (hS : ∀ f rf, S f rf → rf.name = f.1 ∧ rf.tyName = f.2.name ∧ rf.array = f.2.array ∧ rf.optional = f.2.optional)
    (h₁ : List.Forall₂ R l₁ rfs) (h₂ : List.Forall₂ S l₂ rfs) : l₁ = l₂ := by
  induction h₁ generalizing l₂ with
  | nil => cases h₂; rfl
  | cons hr _ ih =>
    cases h₂ with
    | cons hs ht =>
      rw [ih ht]
      obtain ⟨a1, a2, a3, a4⟩ := hR _ _ hr
      obtain ⟨b1, b2, b3, b4⟩ := hS _ _ hs
      congr 1
      exact Prod.ext (a1.symm.trans b1) (by
        cases hx : Prod.snd _ with
        | mk m a o =>
          cases hy : Prod.snd _ with
          | mk m' a' o' => simp_all)

/-- The order that visits `g` first, then `n`. -/
def firstTwo (g n : Str) (l : List (Str × Ty)) : List (Str × Ty) :=
  l.filter (fun e => decide (e.1 = g)) ++
    ((l.filter (fun e => !decide (e.1 = g))).filter (fun e => decide (e.1 = n)) ++
     (l.filter (fun e => !decide (e.1 = g))).filter (fun e => !decide (e.1 = n)))

theorem firstTwo_fair (g n : Str) : FairOrd (firstTwo g n) := by
  intro l
  unfold firstTwo
  refine List.Perm.trans ?_ (perm_partition (fun e : Str × Ty => decide (e.1 = g)) l)
  exact List.Perm.append_left _ (perm_partition (fun e : Str × Ty => decide (e.1 = n)) _)

theorem overtaken {ast : AST} (hnb : NoBuiltinDecl ast) {n : Str} {fs} (hd : (n, .struct fs) ∈ decls ast)
    (ho : ¬ InOrder ast fs) : ∃ ord, FairOrd ord ∧ ∀ r, typeCheck ord ast = .ok r → Used ast n →
      ∃ rfs, r.types.get n = some (n, .struct rfs) ∧ ¬ List.Forall₂ (FieldResolved r.types) fs rfs := by
  -- the violation
  have hv : ∃ f ∈ fs, ∃ g ∈ fs, ¬ Simple ast f.2.name ∧ ¬ Relation.ReflTransGen (Refers ast) g.2.name f.2.name ∧
      ∀ p : Str → Bool, p g.2.name = true → p f.2.name = false →
        ¬ fs.Pairwise (fun a b => p a.2.name = true ∨ p b.2.name = false) := by
    by_contra hcon
    apply ho
    refine List.pairwise_iff_forall_sublist.2 fun {f g} hs => ?_
    by_contra hfg
    rw [not_or] at hfg
    refine hcon ⟨f, hs.subset List.mem_cons_self, g, hs.subset (by simp), hfg.1, hfg.2, ?_⟩
    intro p hg hf hpw
    have := List.pairwise_iff_forall_sublist.1 hpw hs
    rw [hg, hf] at this
    simp at this
  obtain ⟨f, hf, g, hg, hs, hr, hpw⟩ := hv
  refine ⟨firstTwo g.2.name n, firstTwo_fair _ _, ?_⟩
  intro r h hn
  obtain ⟨B, u, st, hA, hrun, he, hge, hty⟩ := typeCheck_run (firstTwo_fair _ _) h
  have hF := hA.final hnb
  have hBw := hA.between
  have hRg : Refers ast n g.2.name := ⟨fs, hd, g, hg, rfl⟩
  have hng : n ≠ g.2.name := by
    intro hh
    exact hF.acyclic n (.single (by rw [← hh] at hRg; exact hRg))
  have hnB : B.has n = false := by
    cases hb : B.has n with
    | false => rfl
    | true =>
      exfalso
      rcases hBw.only_simple hb with h1 | ⟨vs, h1⟩ | ⟨fs', h1, h2⟩
      · exact hnb n ⟨_, hd⟩ h1
      · cases decl_unique hBw.nodup hd h1
      · cases decl_unique hBw.nodup hd h1
        exact hs (Or.inl (h2 f hf))
  have hun : u.get n = some (.struct fs) := by
    rcases hBw.decl n _ hd with ⟨r, _, h2, _⟩ | ⟨_, _, h3⟩
    · rw [(Map.has_false _ _).1 hnB] at h2; cases h2
    · exact h3
  have hu : ∀ m t, u.get m = some t → (m, t) ∈ decls ast := fun m t hm => (hBw.J.unres m t hm).1
  have hmem : ∀ e ∈ u, e ∈ decls ast ∧ ∃ fs, e.2 = .struct fs := by
    intro e he
    exact hBw.J.unres e.1 e.2 (Map.mem_get hBw.ukeys he)
  unfold firstTwo at hrun
  obtain ⟨s1, hr1, hrun⟩ := secondPassLoop_append hrun
  obtain ⟨s2, hr2, hrun⟩ := secondPassLoop_append hrun
  have hm1 : ∀ e ∈ u.filter (fun e => decide (e.1 = g.2.name)), e ∈ decls ast ∧ ∃ fs, e.2 = .struct fs :=
    fun e he => hmem e (List.mem_of_mem_filter he)
  have hD1 := secondPassLoop_data (ast := ast) (B := B) _ _ _ _ hr1 (fun e he => (hm1 e he).1) hu
  have hR1 := secondPassLoop_reach (ast := ast) _ _ _ _ hr1 (fun e he => (hm1 e he).1) hu
  have hC1 := secondPassLoop_control (u.length + 1) _ _ hm1 hBw.J (by simp)
  rw [hr1] at hC1
  cases hC1 with
  | ok _ hDone hP =>
  have hgc : s1.cache.has g.2.name = true := by
    rcases hBw.J.decl g.2.name with hh
    have hcl := (hF.wf he hge).closed _ _ hRg
    rcases hcl with hb | hdc
    · exact hD1.ext.has (hBw.J.builtin _ hb)
    · rcases hBw.J.decl _ hdc with h1 | h1 | h1
      · exact hD1.ext.has h1
      · cases h1
      · obtain ⟨t, ht⟩ := (Map.has_iff _ _).1 h1
        exact hP (g.2.name, t) (List.mem_filter.2 ⟨Map.get_mem ht, by simp⟩)
  have hfc : s1.cache.has f.2.name = false := by
    cases hb : s1.cache.has f.2.name with
    | false => rfl
    | true =>
      exfalso
      rcases hR1.2 _ hb with h1 | ⟨e, he, h1⟩
      · exact hs (hBw.only_simple h1)
      · have : e.1 = g.2.name := by simpa using (List.mem_filter.1 he).2
        rw [this] at h1
        exact hr h1
  have hnc : s1.cache.has n = false := by
    cases hb : s1.cache.has n with
    | false => rfl
    | true =>
      exfalso
      rcases hR1.2 _ hb with h1 | ⟨e, he, h1⟩
      · rw [hnB] at h1; cases h1
      · have : e.1 = g.2.name := by simpa using (List.mem_filter.1 he).2
        rw [this] at h1
        exact hF.acyclic n (.head' hRg h1)
  -- the list of `n` is not empty
  have hl2 : ∃ l, (u.filter (fun e => !decide (e.1 = g.2.name))).filter (fun e => decide (e.1 = n)) = (n, .struct fs) :: l := by
    have hin : (n, Ty.struct fs) ∈ (u.filter (fun e => !decide (e.1 = g.2.name))).filter (fun e => decide (e.1 = n)) :=
      List.mem_filter.2 ⟨List.mem_filter.2 ⟨Map.get_mem hun, by simp [hng]⟩, by simp⟩
    cases hl : (u.filter (fun e => !decide (e.1 = g.2.name))).filter (fun e => decide (e.1 = n)) with
    | nil => rw [hl] at hin; cases hin
    | cons x l =>
      have hx : x ∈ (u.filter (fun e => !decide (e.1 = g.2.name))).filter (fun e => decide (e.1 = n)) := by
        rw [hl]; exact List.mem_cons_self
      have hx1 : x.1 = n := by simpa using (List.mem_filter.1 hx).2
      have hx2 := List.mem_of_mem_filter (List.mem_of_mem_filter hx)
      obtain ⟨x1, x2⟩ := x
      simp only at hx1
      subst hx1
      have := Map.mem_get hBw.ukeys hx2
      rw [hun] at this
      cases this
      exact ⟨l, rfl⟩
  obtain ⟨l, hl2⟩ := hl2
  rw [hl2] at hr2
  unfold secondPassLoop at hr2
  cases hone : resolveOneSecondPass (u.length + 1) n (.struct fs) s1 with
  | error e => rw [hone] at hr2; cases hr2
  | ok s1' =>
    rw [hone] at hr2
    simp only at hr2
    have hBn := hBw.named
    have hcoh1 : Coh ast B s1.cache := hD1.coh hBn (.refl _) (fun n e hn => .base _ hn)
    obtain ⟨rfs, hget, hfo⟩ := resolveOne_struct hBn _ _ _ _ _ hone hR1.1 hnc hD1.ext hcoh1
    have hD1' := resolveOne_data (ast := ast) (B := B) _ _ _ _ _ hone hd hR1.1
    have hu' : ∀ m t, s1'.unresolved.get m = some t → (m, t) ∈ decls ast := fun m t hm => hR1.1 m t (hD1'.unres m t hm)
    have hml : ∀ e ∈ l, e ∈ decls ast := fun e he => (hmem e (List.mem_of_mem_filter
      (List.mem_of_mem_filter (by rw [hl2]; exact List.mem_cons_of_mem _ he)))).1
    have hD2 := secondPassLoop_data (ast := ast) (B := B) _ _ _ _ hr2 hml hu'
    have hD3 := secondPassLoop_data (ast := ast) (B := B) _ _ _ _ hrun
      (fun e he => (hmem e (List.mem_of_mem_filter (List.mem_of_mem_filter he))).1)
      (fun m t hm => hu' m t (hD2.unres m t hm))
    have hfin : st.cache.get n = some (n, .struct rfs) := hD3.ext _ _ (hD2.ext _ _ hget)
    refine ⟨rfs, by rw [hty, used_get hF he hge hn, hfin], ?_⟩
    intro hbad
    have := fieldOk_unique (fun f rf h => ⟨h.name, h.tyName, h.array, h.optional⟩)
      (fun f rf h => ⟨h.name, h.tyName, h.array, h.optional⟩) hfo hbad
    have hpp := pairwise_partition (fun f : Str × Unresolved => s1.cache.has f.2.name) fs
    rw [this] at hpp
    exact hpw (fun m => s1.cache.has m) hgc hfc hpp

/-! ### an order that keeps all fields in place -/

/-- Structs in the cache have their fields in declaration order. -/
def DeclOrder (ast : AST) (c : TypeMap) : Prop := ∀ n fs rfs, (n, .struct fs) ∈ decls ast →
  c.get n = some (n, .struct rfs) → List.Forall₂ (FieldOk c) fs rfs

theorem topo_loop {ast : AST} (hdu : ((decls ast).map Prod.fst).Nodup) (key : Str → Nat)
    (hkey : ∀ m k, Refers ast m k → key k < key m) (fuel : Nat) (l : List (Str × Ty)) (st st' : SecondPass)
    (h : secondPassLoop fuel l st = .ok st') (hl : ∀ e ∈ l, e ∈ decls ast ∧ ∃ fs, e.2 = .struct fs)
    (hs : l.Pairwise fun a b => key a.1 ≤ key b.1)
    (hdep : ∀ e ∈ l, ∀ k, Refers ast e.1 k → st.cache.has k = true ∨ ∃ e' ∈ l, e'.1 = k)
    (hn : Named st.cache) (ho : DeclOrder ast st.cache) : DeclOrder ast st'.cache := by
  induction l generalizing st with
  | nil => simp only [secondPassLoop] at h; cases h; exact ho
  | cons x l ih =>
    obtain ⟨n, t⟩ := x
    obtain ⟨hd, fs, ht⟩ := hl _ List.mem_cons_self
    simp only at ht
    subst ht
    rw [List.pairwise_cons] at hs
    have hl' : ∀ e ∈ l, e ∈ decls ast ∧ ∃ fs, e.2 = .struct fs := fun e he => hl e (List.mem_cons_of_mem _ he)
    unfold secondPassLoop at h
    cases hone : resolveOneSecondPass fuel n (.struct fs) st with
    | error e => rw [hone] at h; cases h
    | ok st1 =>
      rw [hone] at h
      simp only at h
      cases fuel with
      | zero => simp [resolveOneSecondPass] at hone
      | succ fuel =>
        unfold resolveOneSecondPass at hone
        have hall : ∀ f ∈ fs, st.cache.has f.2.name = true := by
          intro f hf
          have hR : Refers ast n f.2.name := ⟨fs, hd, f, hf, rfl⟩
          rcases hdep _ List.mem_cons_self _ hR with h1 | ⟨e', he', h1⟩
          · exact h1
          · exfalso
            have := hkey _ _ hR
            rcases List.mem_cons.1 he' with rfl | he'
            · simp only at h1; rw [← h1] at this; omega
            · have h2 := hs.1 e' he'
              simp only [h1] at h2; omega
        by_cases hc : st.cache.has n = true
        · rw [if_pos hc] at hone
          cases hone
          refine ih st h hl' hs.2 ?_ hn ho
          intro e he k hk
          rcases hdep e (List.mem_cons_of_mem _ he) k hk with h1 | ⟨e', he', h1⟩
          · exact Or.inl h1
          · rcases List.mem_cons.1 he' with rfl | he'
            · simp only at h1; subst h1; exact Or.inl hc
            · exact Or.inr ⟨e', he', h1⟩
        · rw [if_neg hc] at hone
          simp only at hone
          by_cases hv : n ∈ st.visited
          · rw [if_pos hv] at hone; cases hone
          · rw [if_neg hv] at hone
            have hsp := splitFields_spec st.cache n fs
            generalize splitFields st.cache n fs = r at hsp hone
            cases hsp with
            | err f u h1 h2 h3 => cases hone
            | ok fields h1 =>
              have hnil : fs.filter (fun f => !st.cache.has f.2.name) = [] :=
                List.filter_eq_nil_iff.2 fun f hf => by simp [hall f hf]
              have hself : fs.filter (fun f => st.cache.has f.2.name) = fs :=
                List.filter_eq_self.2 fun f hf => hall f hf
              simp only [hnil, List.isEmpty_nil, if_true] at hone
              cases hone
              have hcf : st.cache.has n = false := by simpa using hc
              have hE : Ext st.cache (st.cache.insert n (n, .struct fields)) := Ext.insert hcf
              rw [hself] at h1
              refine ih _ h hl' hs.2 ?_ ?_ ?_
              · intro e he k hk
                simp only [has_insert]
                rcases hdep e (List.mem_cons_of_mem _ he) k hk with h1 | ⟨e', he', h1⟩
                · exact Or.inl (Or.inr h1)
                · rcases List.mem_cons.1 he' with rfl | he'
                  · simp only at h1; exact Or.inl (Or.inl h1.symm)
                  · exact Or.inr ⟨e', he', h1⟩
              · intro m e hm
                simp only [Map.get_insert] at hm
                split at hm
                · rename_i hh; cases hm; exact hh
                · exact hn m e hm
              · intro m gs rfs hdm hm
                simp only [Map.get_insert] at hm
                split at hm
                · rename_i hh
                  subst hh
                  cases hm
                  cases decl_unique hdu hd hdm
                  exact (h1 hn).imp fun _ _ => FieldOk.ext hE
                · exact (ho m gs rfs hdm hm).imp fun _ _ => FieldOk.ext hE

theorem Between.declOrder {ast : AST} {B : TypeMap} {u : Map Ty} (h : Between ast B u) (hnb : NoBuiltinDecl ast) :
    DeclOrder ast B := by
  intro n fs rfs hd hg
  have hbe : Ext getBuiltins B := by
    intro m e hm
    have hb := (builtins_has m).1 ((Map.has_iff _ _).2 ⟨e, hm⟩)
    rw [(h.other m (fun hdm => hnb m hdm hb)).1, hm]
  rcases h.decl n _ hd with ⟨r, h1, h2, -⟩ | ⟨-, h2, -⟩
  · rw [hg] at h2
    cases h2
    cases h1 with
    | structFull _ rfs _ h5 => exact h5.imp fun _ _ => FieldOk.ext hbe
  · rw [hg] at h2
    exact absurd ((builtins_has n).1 ((Map.has_iff _ _).2 ⟨_, h2.symm⟩)) (hnb n ⟨_, hd⟩)

/-- Visiting types in the order of their sizes. -/
noncomputable def bySize (c : TypeMap) (l : List (Str × Ty)) : List (Str × Ty) :=
  l.mergeSort fun a b => decide (sizeOf (typeOf c a.1) ≤ sizeOf (typeOf c b.1))

theorem bySize_fair (c : TypeMap) : FairOrd (bySize c) := fun l => List.mergeSort_perm l _

theorem bySize_sorted (c : TypeMap) (l : List (Str × Ty)) :
    (bySize c l).Pairwise fun a b => sizeOf (typeOf c a.1) ≤ sizeOf (typeOf c b.1) := by
  have := List.pairwise_mergeSort (le := fun a b : Str × Ty => decide (sizeOf (typeOf c a.1) ≤ sizeOf (typeOf c b.1)))
    (by intro a b d h1 h2; simp only [decide_eq_true_eq] at h1 h2 ⊢; omega)
    (by intro a b; simp only [Bool.or_eq_true, decide_eq_true_eq]; omega) l
  exact this.imp fun h => by simpa using h

theorem declOrder_run {ast : AST} (hnb : NoBuiltinDecl ast) {ord₀} (h₀ : FairOrd ord₀) {r₀} (hr₀ : typeCheck ord₀ ast = .ok r₀) :
    ∃ ord, FairOrd ord ∧ ∀ r, typeCheck ord ast = .ok r → ∀ n fs rfs, Used ast n → (n, .struct fs) ∈ decls ast →
      r.types.get n = some (n, .struct rfs) → List.Forall₂ (FieldResolved r.types) fs rfs := by
  obtain ⟨B₀, u₀, st₀, hA₀, -⟩ := typeCheck_run h₀ hr₀
  have hF₀ := hA₀.final hnb
  refine ⟨bySize st₀.cache, bySize_fair _, ?_⟩
  intro r hr n fs rfs hn hd hg
  obtain ⟨B, u, st, hA, hrun, he, hge, hty⟩ := typeCheck_run (bySize_fair _) hr
  have hF := hA.final hnb
  have hBw := hA.between
  have hmem : ∀ e ∈ bySize st₀.cache u, e ∈ decls ast ∧ ∃ fs, e.2 = .struct fs := by
    intro e he
    exact hBw.J.unres e.1 e.2 (Map.mem_get hBw.ukeys ((bySize_fair _ u).mem_iff.1 he))
  have hwf := hF.wf he hge
  have hdo := topo_loop hBw.nodup (fun m => sizeOf (typeOf st₀.cache m)) (fun m k hr => hF₀.refers_lt hr) _ _ _ _ hrun hmem
    (bySize_sorted _ _) (by
      intro e _ k hk
      rcases hwf.closed _ _ hk with hb | hdk
      · exact Or.inl (hBw.J.builtin k hb)
      · rcases hBw.J.decl k hdk with h1 | h1 | h1
        · exact Or.inl h1
        · cases h1
        · obtain ⟨t, ht⟩ := (Map.has_iff _ _).1 h1
          exact Or.inr ⟨(k, t), (bySize_fair _ u).mem_iff.2 (Map.get_mem ht), rfl⟩)
    hBw.named (hBw.declOrder hnb)
  have hused : ∀ m, Used ast m → r.types.get m = st.cache.get m := by
    intro m hm
    rw [hty, used_get hF he hge hm]
  rw [hused n hn] at hg
  have hall := hdo n fs rfs hd hg
  have hfs : ∀ f ∈ fs, Used ast f.2.name := by
    intro f hf
    obtain ⟨e, he, h⟩ := hn
    exact ⟨e, he, h.tail ⟨fs, hd, f, hf, rfl⟩⟩
  clear hg hd
  revert hfs
  induction hall with
  | nil => intro _; exact .nil
  | cons hR _ ih =>
    intro hfs
    refine .cons ⟨hR.name, hR.tyName, hR.array, hR.optional, ?_⟩ (ih fun f hf => hfs f (List.mem_cons_of_mem _ hf))
    rw [hused _ (hfs _ List.mem_cons_self)]
    exact hR.ty

end Packetc.Check
