import Verif.Proof.CheckFinal
import Verif.Spec.Messages
/-!
# Which recursion is reported as a cycle (for C58)

While the types below an entry `r` of the second pass are resolved, `r` itself stays in `unresolved`; coming back to it
is a cycle error. Coming back to another type is reported as a missing declaration.
-/

namespace Packetc.Check
open Ast WellFormed

/-- `r` is being resolved as an entry of the second pass. -/
structure Rooted (r : Str) (st : SecondPass) : Prop where
  unres : st.unresolved.has r = true
  visited : r ∈ st.visited
  cache : st.cache.has r = false

/-- A missing declaration is undeclared, or recursive without help of `r`. -/
def RootErr (ast : AST) (r : Str) : CheckErr → Prop
  | .missingType m => ¬ Declared ast m ∨ (Relation.TransGen (Refers ast) r m ∧
      Relation.TransGen (RefersAvoiding ast r) m m)
  | _ => True

/-- The result of resolving below `r`. -/
def RootRes (ast : AST) (r : Str) : Except Fault SecondPass → Prop
  | .ok st' => Rooted r st'
  | .error (.err e) => RootErr ast r e
  | .error _ => True

theorem depsLoop_rooted {ast : AST} {fuel : Nat} {name r : Str} {inner : List Str}
    (nots : List (Str × Unresolved)) (st : SecondPass)
    (hrec : ∀ m fs st, (m, .struct fs) ∈ decls ast → J ast (name :: inner) (m :: name :: inner) st →
      (∀ s ∈ name :: inner, Relation.TransGen (Refers ast) s m) → st.unresolved.length < fuel →
      m ≠ r → Relation.TransGen (Refers ast) r m →
      (∀ s ∈ name :: inner, s ≠ r → Relation.TransGen (RefersAvoiding ast r) s m) →
      Rooted r st → RootRes ast r (resolveOneSecondPass fuel m (.struct fs) st))
    (hnots : ∀ f ∈ nots, Refers ast name f.2.name)
    (hstk : ∀ s ∈ inner, Relation.TransGen (Refers ast) s name)
    (hreach : Relation.ReflTransGen (Refers ast) r name)
    (hav : ∀ s ∈ inner, s ≠ r → Relation.TransGen (RefersAvoiding ast r) s name)
    (hname : name = r → inner = []) 
    (hJ : J ast (name :: inner) (name :: inner) st) (hlen : st.unresolved.length ≤ fuel) (hR : Rooted r st) :
    RootRes ast r (depsLoop (resolveOneSecondPass fuel) nots st) := by
  induction nots generalizing st with
  | nil => exact hR
  | cons x nots ih =>
    obtain ⟨fn, fty⟩ := x
    have hRf : Refers ast name fty.name := hnots _ List.mem_cons_self
    have hreach' : Relation.TransGen (Refers ast) r fty.name := Relation.TransGen.tail' hreach hRf
    have hstk' : ∀ s ∈ name :: inner, Relation.TransGen (Refers ast) s fty.name := by
      intro s hs
      rcases List.mem_cons.1 hs with rfl | hs
      · exact .single hRf
      · exact .tail (hstk s hs) hRf
    have hav' : fty.name ≠ r → ∀ s ∈ name :: inner, s ≠ r → Relation.TransGen (RefersAvoiding ast r) s fty.name := by
      intro hf s hs hsr
      rcases List.mem_cons.1 hs with rfl | hs
      · exact .single ⟨hRf, hsr, hf⟩
      · have hnr : name ≠ r := fun h => by rw [hname h] at hs; cases hs
        exact .tail (hav s hs hsr) ⟨hRf, hnr, hf⟩
    unfold depsLoop
    cases hg : st.unresolved.get fty.name with
    | some utype =>
      simp only
      obtain ⟨hd, fs, rfl⟩ := hJ.unres _ _ hg
      have hlt := Map.length_erase_lt hg
      have hJ' : J ast (name :: inner) (fty.name :: name :: inner)
          { st with unresolved := st.unresolved.erase fty.name } := by
        refine ⟨?_, hJ.visited, ?_, hJ.builtin⟩
        · intro n t h
          simp only [Map.get_erase] at h
          split at h
          · cases h
          · exact hJ.unres _ _ h
        · intro n hn
          rcases hJ.decl n hn with h | h | h
          · exact Or.inl h
          · exact Or.inr (Or.inl (List.mem_cons_of_mem _ h))
          · by_cases hne : fty.name = n
            · exact Or.inr (Or.inl (by simp [hne]))
            · refine Or.inr (Or.inr ?_)
              rw [Map.has_iff] at h ⊢
              simpa [Map.get_erase, hne] using h
      by_cases hfr : fty.name = r
      · -- back at the entry: a cycle
        cases fuel with
        | zero => omega
        | succ fuel =>
          have : resolveOneSecondPass (fuel + 1) fty.name (.struct fs)
              { st with unresolved := st.unresolved.erase fty.name } = .error (.err (.cycle fty.name)) := by
            unfold resolveOneSecondPass
            rw [if_neg (by simp only; rw [hfr, hR.cache]; simp)]
            simp only
            rw [if_pos (by rw [hfr]; exact hR.visited)]
          rw [this]
          trivial
      · have hR' : Rooted r { st with unresolved := st.unresolved.erase fty.name } := by
          refine ⟨?_, hR.visited, hR.cache⟩
          have := hR.unres
          rw [Map.has_iff] at this ⊢
          simpa [Map.get_erase, hfr] using this
        have h1 := hrec fty.name fs _ hd hJ' hstk' (by simp only; omega) hfr hreach' (hav' hfr) hR'
        have h2 := resolveOne_control fuel fty.name fs _ (name :: inner) hd hJ' hstk' (by simp only; omega)
        generalize resolveOneSecondPass fuel fty.name (.struct fs) _ = res at h1 h2
        cases h2 with
        | err e he => exact h1
        | ok st' hD hP =>
          simp only
          have hl := hD.len
          simp only at hl
          exact ih st' (fun f hf => hnots f (List.mem_cons_of_mem _ hf)) hD.inv (by omega) h1
    | none =>
      simp only
      by_cases hh : st.cache.has fty.name = true
      · rw [if_pos hh]
        exact ih st (fun f hf => hnots f (List.mem_cons_of_mem _ hf)) hJ hlen hR
      · rw [if_neg hh]
        by_cases hd : Declared ast fty.name
        · rcases hJ.decl _ hd with h | h | h
          · exact absurd h hh
          · have hfr : fty.name ≠ r := by
              intro h'
              have := hR.unres
              rw [← h'] at this
              simp [Map.has, hg] at this
            exact Or.inr ⟨hreach', hav' hfr _ h hfr⟩
          · simp [Map.has, hg] at h
        · exact Or.inl hd

theorem resolveOne_rooted {ast : AST} (fuel : Nat) (name r : Str) (fs : List (Str × Unresolved)) (st : SecondPass)
    (inner : List Str) (hd : (name, .struct fs) ∈ decls ast) (hJ : J ast inner (name :: inner) st)
    (hstk : ∀ s ∈ inner, Relation.TransGen (Refers ast) s name) (hlen : st.unresolved.length < fuel)
    (hne : name ≠ r) (hreach : Relation.TransGen (Refers ast) r name)
    (hav : ∀ s ∈ inner, s ≠ r → Relation.TransGen (RefersAvoiding ast r) s name) (hR : Rooted r st) :
    RootRes ast r (resolveOneSecondPass fuel name (.struct fs) st) := by
  induction fuel generalizing name fs st inner with
  | zero => omega
  | succ fuel ih =>
    unfold resolveOneSecondPass
    by_cases hc : st.cache.has name = true
    · rw [if_pos hc]; exact hR
    · rw [if_neg hc]
      simp only
      by_cases hv : name ∈ st.visited
      · rw [if_pos hv]; trivial
      · rw [if_neg hv]
        have hs := splitFields_spec st.cache name fs
        generalize splitFields st.cache name fs = res at hs
        have hJ2 : J ast (name :: inner) (name :: inner) { st with visited := name :: st.visited } := by
          refine ⟨hJ.unres, ?_, hJ.decl, hJ.builtin⟩
          intro n hn
          rcases List.mem_cons.1 hn with rfl | hn
          · exact Or.inr (by simp)
          · rcases hJ.visited n hn with h | h
            · exact Or.inl h
            · exact Or.inr (List.mem_cons_of_mem _ h)
        have hR2 : Rooted r { st with visited := name :: st.visited } :=
          ⟨hR.unres, List.mem_cons_of_mem _ hR.visited, hR.cache⟩
        have fin : ∀ (st' : SecondPass) e, Rooted r st' → Rooted r { st' with cache := st'.cache.insert name e } := by
          intro st' e h
          refine ⟨h.unres, h.visited, ?_⟩
          have := h.cache
          simp only [Map.has, Map.get_insert, if_neg hne] at this ⊢
          exact this
        cases hs with
        | err f u h1 h2 h3 => trivial
        | ok fields h1 =>
          simp only
          split
          · exact fin _ _ hR2
          · have hdep := depsLoop_rooted (ast := ast) (fuel := fuel) (name := name) (r := r) (inner := inner)
              (fs.filter fun f => !st.cache.has f.2.name) { st with visited := name :: st.visited }
              (fun m fs st hm hJ hs hl h1 h2 h3 h4 => ih m fs st (name :: inner) hm hJ hs hl h1 h2 h3 h4)
              (fun f hf => ⟨fs, hd, f, List.mem_of_mem_filter hf, rfl⟩) hstk hreach.to_reflTransGen hav
              (fun h => absurd h hne) hJ2 (by simp only; omega) hR2
            generalize depsLoop _ _ _ = r2 at hdep
            match r2, hdep with
            | .error (.err e), h => exact h
            | .error .panic, _ => trivial
            | .error .diverge, _ => trivial
            | .ok st', h =>
              simp only
              have hf := finishFields_spec st'.cache name (fs.filter fun f => !st.cache.has f.2.name)
              generalize finishFields _ _ _ = r3 at hf
              cases hf with
              | err f u h1 h2 h3 => trivial
              | panic f u h1 h2 => trivial
              | ok rfs h' => exact fin _ _ h

/-- An entry of the second pass. -/
theorem resolveOne_entry {ast : AST} (fuel : Nat) (r : Str) (fs : List (Str × Unresolved)) (st : SecondPass)
    (hd : (r, .struct fs) ∈ decls ast) (hJ : J ast [] [] st) (hlen : st.unresolved.length < fuel) {m : Str}
    (h : resolveOneSecondPass fuel r (.struct fs) st = .error (.err (.missingType m))) :
    ¬ Declared ast m ∨ (Relation.TransGen (Refers ast) r m ∧ Relation.TransGen (RefersAvoiding ast r) m m) := by
  cases fuel with
  | zero => omega
  | succ fuel =>
    unfold resolveOneSecondPass at h
    by_cases hc : st.cache.has r = true
    · rw [if_pos hc] at h; cases h
    · rw [if_neg hc] at h
      simp only at h
      by_cases hv : r ∈ st.visited
      · rw [if_pos hv] at h; cases h
      · rw [if_neg hv] at h
        have hs := splitFields_spec st.cache r fs
        generalize splitFields st.cache r fs = res at hs h
        have hJ2 : J ast [r] [r] { st with visited := r :: st.visited } := by
          refine ⟨hJ.unres, ?_, ?_, hJ.builtin⟩
          · intro n hn
            rcases List.mem_cons.1 hn with rfl | hn
            · exact Or.inr (by simp)
            · rcases hJ.visited n hn with h | h
              · exact Or.inl h
              · cases h
          · intro n hn
            rcases hJ.decl n hn with h | h | h
            · exact Or.inl h
            · cases h
            · exact Or.inr (Or.inr h)
        have hR2 : Rooted r { st with visited := r :: st.visited } := by
          refine ⟨?_, List.mem_cons_self, by simpa using hc⟩
          rcases hJ.decl r ⟨_, hd⟩ with h | h | h
          · exact absurd h hc
          · cases h
          · exact h
        cases hs with
        | err f u h1 h2 h3 => cases h
        | ok fields h1 =>
          simp only at h
          split at h
          · cases h
          · have hdep := depsLoop_rooted (ast := ast) (fuel := fuel) (name := r) (r := r) (inner := [])
              (fs.filter fun f => !st.cache.has f.2.name) { st with visited := r :: st.visited }
              (fun m fs st hm hJ hs hl h1 h2 h3 h4 => resolveOne_rooted fuel m r fs st [r] hm hJ hs hl h1 h2 h3 h4)
              (fun f hf => ⟨fs, hd, f, List.mem_of_mem_filter hf, rfl⟩) (by simp) .refl (by simp)
              (fun _ => rfl) hJ2 (by simp only; omega) hR2
            generalize depsLoop _ _ _ = r2 at hdep h
            match r2, hdep, h with
            | .error (.err e), h', h =>
              simp only [Except.error.injEq, Fault.err.injEq] at h
              subst h
              exact h'
            | .ok st', h', h =>
              simp only at h
              have hf := finishFields_spec st'.cache r (fs.filter fun f => !st.cache.has f.2.name)
              generalize finishFields _ _ _ = r3 at hf h
              cases hf with
              | err f u h1 h2 h3 => cases h
              | panic f u h1 h2 => cases h
              | ok rfs h' => cases h

theorem secondPassLoop_entry {ast : AST} (fuel : Nat) (l : List (Str × Ty)) (st : SecondPass)
    (hl : ∀ e ∈ l, e ∈ decls ast ∧ ∃ fs, e.2 = .struct fs) (hJ : J ast [] [] st)
    (hlen : st.unresolved.length < fuel) {m : Str}
    (h : secondPassLoop fuel l st = .error (.err (.missingType m))) :
    ¬ Declared ast m ∨ ∃ r, Relation.TransGen (Refers ast) r m ∧ Relation.TransGen (RefersAvoiding ast r) m m := by
  induction l generalizing st with
  | nil => cases h
  | cons x l ih =>
    obtain ⟨n, t⟩ := x
    obtain ⟨hd, fs, ht⟩ := hl _ List.mem_cons_self
    simp only at ht; subst ht
    unfold secondPassLoop at h
    have h1 := resolveOne_control fuel n fs st [] hd
      ⟨hJ.unres, hJ.visited, fun n hn => by
        rcases hJ.decl n hn with h | h | h
        · exact Or.inl h
        · simp at h
        · exact Or.inr (Or.inr h), hJ.builtin⟩ (by simp) hlen
    have h2 := fun hh => resolveOne_entry (m := m) fuel n fs st hd hJ hlen hh
    generalize resolveOneSecondPass _ _ _ _ = r at h1 h2 h
    cases h1 with
    | err e he =>
      rcases h2 h with h | h
      · exact Or.inl h
      · exact Or.inr ⟨_, h⟩
    | ok st' hD hP =>
      simp only at h
      have hl' := hD.len
      exact ih st' (fun e he => hl e (List.mem_cons_of_mem _ he)) hD.inv (by omega) h

theorem typeCheck_missing {ast : AST} {ord} (hord : FairOrd ord) {m : Str}
    (h : typeCheck ord ast = .error (.err (.missingType m))) :
    ¬ Declared ast m ∨ ∃ r, Relation.TransGen (Refers ast) r m ∧ Relation.TransGen (RefersAvoiding ast r) m m := by
  unfold typeCheck at h
  rw [getExport_eq] at h
  rcases he : exports ast with _ | ⟨e, _ | ⟨e', l⟩⟩
  · rw [he] at h; cases h
  · rw [he] at h
    simp only at h
    cases hu : collectTypes ast with
    | error f =>
      obtain ⟨n, rfl, hf⟩ := collectTypes_err hu
      rw [hu] at h; cases h
    | ok u =>
      rw [hu] at h
      simp only at h
      cases hf : resolveFirstPass getBuiltins ast ⟨[], u⟩ with
      | error f =>
        rw [hf] at h
        simp only [Except.error.injEq] at h
        subst h
        obtain ⟨n, t, hd, hFP⟩ := resolveFirstPass_err hf
        cases hFP
      | ok fp =>
        rw [hf] at h
        simp only at h
        have hb := between hu hf
        have hJ := hb.J
        have hmem : ∀ e ∈ ord fp.unresolved, e ∈ decls ast ∧ ∃ fs, e.2 = .struct fs := by
          intro e he
          have := (hord fp.unresolved).mem_iff.1 he
          obtain ⟨n, t⟩ := e
          exact hJ.unres n t (Map.mem_get hb.ukeys this)
        have h1 := fun hh => secondPassLoop_entry (m := m) (fp.unresolved.length + 1) (ord fp.unresolved) _ hmem hJ
          (by simp) hh
        unfold resolveSecondPass at h
        generalize secondPassLoop _ _ _ = r at h h1
        cases r with
        | error f =>
          simp only [Except.error.injEq] at h
          subst h
          exact h1 rfl
        | ok st =>
          simp only at h
          unfold resolveExport at h
          split at h
          · split at h
            · cases h
            · cases h
          · cases h
  · rw [he] at h; cases h

end Packetc.Check
