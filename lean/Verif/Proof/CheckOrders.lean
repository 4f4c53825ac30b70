import Verif.Proof.CheckOrder
/-!
# Every closed set of types can be resolved before a struct
-/

namespace Packetc.Check
open Ast WellFormed

/-- First the types in `p`, then `n`, then the others. -/
def firstThose (p : Str → Bool) (n : Str) (l : List (Str × Ty)) : List (Str × Ty) :=
  l.filter (fun e => p e.1) ++ ((l.filter (fun e => !p e.1)).filter (fun e => decide (e.1 = n)) ++
    (l.filter (fun e => !p e.1)).filter (fun e => !decide (e.1 = n)))

theorem firstThose_fair (p : Str → Bool) (n : Str) : FairOrd (firstThose p n) := by
  intro l
  unfold firstThose
  exact (List.Perm.append_left _ (List.filter_append_perm _ _)).trans (List.filter_append_perm _ _)

theorem early_run {ast : AST} (hnb : NoBuiltinDecl ast) {n : Str} {fs} (hd : (n, .struct fs) ∈ decls ast) (p : Str → Bool)
    (hp : ∀ m, Simple ast m → p m = true) (hcl : ∀ m k, Refers ast m k → p m = true → p k = true) (hpn : p n = false)
    {r} (h : typeCheck (firstThose p n) ast = .ok r) (hn : Used ast n) :
    ∃ rfs, r.types.get n = some (n, .struct rfs) ∧ List.Forall₂ (FieldResolved r.types)
      (fs.filter (fun f => p f.2.name) ++ fs.filter (fun f => !p f.2.name)) rfs := by
  obtain ⟨B, u, st, hA, hrun, he, hge, hty⟩ := typeCheck_run (firstThose_fair _ _) h
  have hF := hA.final hnb
  have hBw := hA.between
  have hclR : ∀ m k, Relation.ReflTransGen (Refers ast) m k → p m = true → p k = true := by
    intro m k hr hm
    induction hr with
    | refl => exact hm
    | tail _ hr ih => exact hcl _ _ hr ih
  have hnB : B.has n = false := by
    cases hb : B.has n with
    | false => rfl
    | true => rw [hp n (hBw.only_simple hb)] at hpn; cases hpn
  have hun : u.get n = some (.struct fs) := by
    rcases hBw.decl n _ hd with ⟨r, _, h2, _⟩ | ⟨_, _, h3⟩
    · rw [(Map.has_false _ _).1 hnB] at h2; cases h2
    · exact h3
  have hu : ∀ m t, u.get m = some t → (m, t) ∈ decls ast := fun m t hm => (hBw.J.unres m t hm).1
  have hmem : ∀ e ∈ u, e ∈ decls ast ∧ ∃ fs, e.2 = .struct fs := by
    intro e he
    exact hBw.J.unres e.1 e.2 (Map.mem_get hBw.ukeys he)
  unfold firstThose at hrun
  obtain ⟨s1, hr1, hrun⟩ := secondPassLoop_append hrun
  obtain ⟨s2, hr2, hrun⟩ := secondPassLoop_append hrun
  have hm1 : ∀ e ∈ u.filter (fun e => p e.1), e ∈ decls ast ∧ ∃ fs, e.2 = .struct fs :=
    fun e he => hmem e (List.mem_of_mem_filter he)
  have hD1 := secondPassLoop_data (ast := ast) (B := B) _ _ _ _ hr1 (fun e he => (hm1 e he).1) hu
  have hR1 := secondPassLoop_reach (ast := ast) _ _ _ _ hr1 (fun e he => (hm1 e he).1) hu
  have hC1 := secondPassLoop_control (u.length + 1) _ _ hm1 hBw.J (by simp)
  rw [hr1] at hC1
  cases hC1 with
  | ok _ hDone hP =>
  have honly : ∀ m, s1.cache.has m = true → p m = true := by
    intro m hm
    rcases hR1.2 _ hm with h1 | ⟨e, he, h1⟩
    · exact hp m (hBw.only_simple h1)
    · exact hclR _ _ h1 (List.mem_filter.1 he).2
  have hcache : ∀ f ∈ fs, s1.cache.has f.2.name = p f.2.name := by
    intro f hf
    cases hpf : p f.2.name with
    | false =>
      cases hb : s1.cache.has f.2.name with
      | false => rfl
      | true => rw [honly _ hb] at hpf; cases hpf
    | true =>
      rcases (hF.wf he hge).closed _ _ ⟨fs, hd, f, hf, rfl⟩ with hb | hdc
      · exact hD1.ext.has (hBw.J.builtin _ hb)
      · rcases hBw.J.decl _ hdc with h1 | h1 | h1
        · exact hD1.ext.has h1
        · cases h1
        · obtain ⟨t, ht⟩ := (Map.has_iff _ _).1 h1
          exact hP (f.2.name, t) (List.mem_filter.2 ⟨Map.get_mem ht, hpf⟩)
  have hnc : s1.cache.has n = false := by
    cases hb : s1.cache.has n with
    | false => rfl
    | true => rw [honly _ hb] at hpn; cases hpn
  have hl2 : ∃ l, (u.filter (fun e => !p e.1)).filter (fun e => decide (e.1 = n)) = (n, .struct fs) :: l := by
    have hin : (n, Ty.struct fs) ∈ (u.filter (fun e => !p e.1)).filter (fun e => decide (e.1 = n)) :=
      List.mem_filter.2 ⟨List.mem_filter.2 ⟨Map.get_mem hun, by simp [hpn]⟩, by simp⟩
    cases hl : (u.filter (fun e => !p e.1)).filter (fun e => decide (e.1 = n)) with
    | nil => rw [hl] at hin; cases hin
    | cons x l =>
      have hx : x ∈ (u.filter (fun e => !p e.1)).filter (fun e => decide (e.1 = n)) := by
        rw [hl]; exact List.mem_cons_self
      have hx1 : x.1 = n := by simpa using (List.mem_filter.1 hx).2
      have hx2 := List.mem_of_mem_filter (List.mem_of_mem_filter hx)
      obtain ⟨x1, x2⟩ := x
      simp only at hx1
      subst hx1
      have := Map.mem_get hBw.ukeys hx2
      rw [hun] at this
      cases this
      exact ⟨l, rfl⟩
  obtain ⟨l, hl2⟩ := hl2
  rw [hl2] at hr2
  unfold secondPassLoop at hr2
  cases hone : resolveOneSecondPass (u.length + 1) n (.struct fs) s1 with
  | error e => rw [hone] at hr2; cases hr2
  | ok s1' =>
    rw [hone] at hr2
    simp only at hr2
    have hBn := hBw.named
    have hcoh1 : Coh ast B s1.cache := hD1.coh hBn (.refl _) (fun n e hn => .base _ hn)
    obtain ⟨rfs, hget, hfo⟩ := resolveOne_struct hBn _ _ _ _ _ hone hR1.1 hnc hD1.ext hcoh1
    have hD1' := resolveOne_data (ast := ast) (B := B) _ _ _ _ _ hone hd hR1.1
    have hu' : ∀ m t, s1'.unresolved.get m = some t → (m, t) ∈ decls ast := fun m t hm => hR1.1 m t (hD1'.unres m t hm)
    have hml : ∀ e ∈ l, e ∈ decls ast := fun e he => (hmem e (List.mem_of_mem_filter
      (List.mem_of_mem_filter (by rw [hl2]; exact List.mem_cons_of_mem _ he)))).1
    have hD2 := secondPassLoop_data (ast := ast) (B := B) _ _ _ _ hr2 hml hu'
    have hD3 := secondPassLoop_data (ast := ast) (B := B) _ _ _ _ hrun
      (fun e he => (hmem e (List.mem_of_mem_filter (List.mem_of_mem_filter he))).1)
      (fun m t hm => hu' m t (hD2.unres m t hm))
    have hfin : st.cache.get n = some (n, .struct rfs) := hD3.ext _ _ (hD2.ext _ _ hget)
    have hused : ∀ m, Used ast m → r.types.get m = st.cache.get m := by
      intro m hm
      rw [hty, used_get hF he hge hm]
    refine ⟨rfs, by rw [hused n hn, hfin], ?_⟩
    rw [List.filter_congr (p := fun f => s1.cache.has f.2.name) (q := fun f => p f.2.name) (fun f hf => hcache f hf),
      List.filter_congr (p := fun f : Str × Unresolved => !s1.cache.has f.2.name) (q := fun f : Str × Unresolved => !p f.2.name) (fun f hf => by rw [hcache f hf])] at hfo
    have hfs : ∀ f ∈ fs.filter (fun f => p f.2.name) ++ fs.filter (fun f => !p f.2.name), Used ast f.2.name := by
      intro f hf
      have hf : f ∈ fs := by
        rcases List.mem_append.1 hf with hf | hf <;> exact List.mem_of_mem_filter hf
      obtain ⟨e, he, h⟩ := hn
      exact ⟨e, he, h.tail ⟨fs, hd, f, hf, rfl⟩⟩
    generalize fs.filter (fun f => p f.2.name) ++ fs.filter (fun f => !p f.2.name) = gs at hfo hfs
    clear hget hfin
    induction hfo with
    | nil => exact .nil
    | cons hR _ ih =>
      refine .cons ⟨hR.name, hR.tyName, hR.array, hR.optional, ?_⟩ (ih fun f hf => hfs f (List.mem_cons_of_mem _ hf))
      rw [hused _ (hfs _ List.mem_cons_self)]
      exact hD3.ext _ _ (hD2.ext _ _ hR.ty)

end Packetc.Check
