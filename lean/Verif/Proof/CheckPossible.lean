import Verif.Proof.CheckFinal
import Verif.Spec.Possible
/-!
# Which errors the checker can report (for C84)
-/

namespace Packetc.Check
open Ast WellFormed

/-! ### broken types -/

theorem Broken.of_refers {ast : AST} {n m : Str} (h : Refers ast n m) (hm : Broken ast m) : Broken ast n := by
  obtain ⟨k, h1, h2⟩ := hm
  exact ⟨k, .head h h1, h2⟩

theorem Broken.of_reach {ast : AST} {n m : Str} (h : Relation.ReflTransGen (Refers ast) n m) (hm : Broken ast m) :
    Broken ast n := by
  obtain ⟨k, h1, h2⟩ := hm
  exact ⟨k, h.trans h1, h2⟩

theorem Broken.of_recursive {ast : AST} {n : Str} (h : Recursive ast n) : Broken ast n := ⟨n, .refl, .recursive h⟩

/-- A struct is broken because of one of its fields. -/
theorem broken_struct {ast : AST} (hu : ((decls ast).map Prod.fst).Nodup) {n : Str} {fs}
    (hd : (n, .struct fs) ∈ decls ast) :
    Broken ast n ↔ (∃ g ∈ fs, OptArray g.2) ∨ ∃ g ∈ fs, Broken ast g.2.name := by
  constructor
  · rintro ⟨k, h1, h2⟩
    rcases Relation.ReflTransGen.cases_head h1 with rfl | ⟨m, ⟨fs', hd', g, hg, rfl⟩, h4⟩
    · cases h2 with
      | undeclared _ h => exact absurd ⟨_, hd⟩ h
      | optArray fs' f hd' hf ho =>
        cases decl_unique hu hd hd'
        exact Or.inl ⟨f, hf, ho⟩
      | recursive h =>
        obtain ⟨m, ⟨fs', hd', g, hg, rfl⟩, h4⟩ := (Relation.TransGen.head'_iff).1 h
        cases decl_unique hu hd hd'
        exact Or.inr ⟨g, hg, n, h4, .recursive h⟩
    · cases decl_unique hu hd hd'
      exact Or.inr ⟨g, hg, k, h4, h2⟩
  · rintro (⟨g, hg, ho⟩ | ⟨g, hg, hb⟩)
    · exact ⟨n, .refl, .optArray fs g hd hg ho⟩
    · exact Broken.of_refers ⟨fs, hd, g, hg, rfl⟩ hb

/-- A type that is not broken and not known is a declared struct. -/
theorem struct_of_unknown {ast : AST} {K : Str → Prop} (hK : Settled ast K) {n : Str} (hn : ¬ K n)
    (hd : n ∈ builtinNames ∨ Declared ast n) : ∃ fs, (n, .struct fs) ∈ decls ast := by
  rcases hd with hb | ⟨t, ht⟩
  · exact absurd (hK.simple n (Or.inl hb)) hn
  · cases t with
    | enum vs => exact absurd (hK.simple n (Or.inr (Or.inl ⟨vs, ht⟩))) hn
    | struct fs => exact ⟨fs, ht⟩

theorem declared_of_sound {ast : AST} {n : Str} (h : ¬ Broken ast n) : n ∈ builtinNames ∨ Declared ast n := by
  by_cases hb : n ∈ builtinNames
  · exact Or.inl hb
  · by_cases hd : Declared ast n
    · exact Or.inr hd
    · exact absurd ⟨n, .refl, .undeclared hb hd⟩ h

theorem _root_.Packetc.WellFormed.Settled.reach {ast : AST} {K : Str → Prop} (hK : Settled ast K) {n m : Str} (hn : K n)
    (h : Relation.ReflTransGen (Refers ast) n m) : K m := by
  induction h with
  | refl => exact hn
  | tail _ hr ih => exact hK.closed _ _ hr ih

/-- Everything used by a sound type may be settled too. -/
theorem _root_.Packetc.WellFormed.Settled.add {ast : AST} {K : Str → Prop} (hK : Settled ast K) {n : Str} (hn : ¬ Broken ast n) :
    Settled ast (fun m => K m ∨ Relation.ReflTransGen (Refers ast) n m) := by
  refine ⟨fun m hm => Or.inl (hK.simple m hm), ?_, ?_⟩
  · rintro a b hr (h | h)
    · exact Or.inl (hK.closed a b hr h)
    · exact Or.inr (.tail h hr)
  · rintro a (h | h) hb
    · exact hK.sound a h hb
    · exact hn (Broken.of_reach h hb)

theorem _root_.Packetc.WellFormed.Settled.addBelow {ast : AST} {K : Str → Prop} (hK : Settled ast K) {fs : List (Str × Unresolved)}
    (hn : ∀ g ∈ fs, ¬ Broken ast g.2.name) : Settled ast (fun m => K m ∨ Below ast fs m) := by
  refine ⟨fun m hm => Or.inl (hK.simple m hm), ?_, ?_⟩
  · rintro a b hr (h | ⟨g, hg, h⟩)
    · exact Or.inl (hK.closed a b hr h)
    · exact Or.inr ⟨g, hg, .tail h hr⟩
  · rintro a (h | ⟨g, hg, h⟩) hb
    · exact hK.sound a h hb
    · exact hn g hg (Broken.of_reach h hb)

/-! ### the parts of `resolve_one_second_pass` -/

theorem splitFields_exact (c : TypeMap) (name : Str) (fs : List (Str × Unresolved)) :
    ((∀ g ∈ fs, c.has g.2.name = true → ¬ OptArray g.2) →
      ∃ fields, splitFields c name fs = .ok (fields, fs.filter fun f => !c.has f.2.name)) ∧
    ∀ pre f u post, fs = pre ++ (f, u) :: post → c.has u.name = true → OptArray u →
      (∀ g ∈ pre, c.has g.2.name = true → ¬ OptArray g.2) →
      splitFields c name fs = .error (.err (.optionalArray f name)) := by
  induction fs with
  | nil => exact ⟨fun _ => ⟨[], rfl⟩, fun pre f u post h => by simp at h⟩
  | cons x fs ih =>
    obtain ⟨n, u⟩ := x
    obtain ⟨ih1, ih2⟩ := ih
    have hr := resolveStructField_spec n u c name
    unfold splitFields
    generalize resolveStructField n u c name = r at hr
    constructor
    · intro h
      obtain ⟨fields, hf⟩ := ih1 fun g hg => h g (List.mem_cons_of_mem _ hg)
      cases hr with
      | err h1 h2 => exact absurd h2 (h (n, u) List.mem_cons_self h1)
      | none h1 =>
        have hh : c.has u.name = false := (Map.has_false _ _).2 h1
        refine ⟨fields, ?_⟩
        simp only [hf, hh, Bool.not_false, List.filter_cons_of_pos]
      | some rf _ hh _ =>
        refine ⟨rf :: fields, ?_⟩
        simp only [hf, hh, Bool.not_true, Bool.false_eq_true, not_false_eq_true, List.filter_cons_of_neg]
    · intro pre f v post he h1 h2 h3
      cases pre with
      | nil =>
        simp only [List.nil_append, List.cons.injEq, Prod.mk.injEq] at he
        obtain ⟨⟨rfl, rfl⟩, rfl⟩ := he
        cases hr with
        | err _ _ => rfl
        | none h => rw [Map.has, h] at h1; cases h1
        | some rf _ _ h => exact absurd h2 h
      | cons g pre =>
        simp only [List.cons_append, List.cons.injEq] at he
        obtain ⟨rfl, he⟩ := he
        have hs := ih2 pre f v post he h1 h2 fun g hg => h3 g (List.mem_cons_of_mem _ hg)
        cases hr with
        | err h4 h5 => exact absurd h5 (h3 _ List.mem_cons_self h4)
        | none h => simp only [hs]
        | some rf _ _ h => simp only [hs]

theorem finishFields_exact (c : TypeMap) (name : Str) (fs : List (Str × Unresolved))
    (hc : ∀ g ∈ fs, c.has g.2.name = true) :
    ((∀ g ∈ fs, ¬ OptArray g.2) → ∃ rfs, finishFields c name fs = .ok rfs) ∧
    ∀ pre f u post, fs = pre ++ (f, u) :: post → OptArray u → (∀ g ∈ pre, ¬ OptArray g.2) →
      finishFields c name fs = .error (.err (.optionalArray f name)) := by
  induction fs with
  | nil => exact ⟨fun _ => ⟨[], rfl⟩, fun pre f u post h => by simp at h⟩
  | cons x fs ih =>
    obtain ⟨n, u⟩ := x
    obtain ⟨ih1, ih2⟩ := ih fun g hg => hc g (List.mem_cons_of_mem _ hg)
    have hcn := hc (n, u) List.mem_cons_self
    have hr := resolveStructField_spec n u c name
    unfold finishFields
    generalize resolveStructField n u c name = r at hr
    constructor
    · intro h
      obtain ⟨rfs, hf⟩ := ih1 fun g hg => h g (List.mem_cons_of_mem _ hg)
      cases hr with
      | err h1 h2 => exact absurd h2 (h (n, u) List.mem_cons_self)
      | none h1 => simp only [Map.has, h1] at hcn; cases hcn
      | some rf _ hh _ => exact ⟨rf :: rfs, by simp only [hf]⟩
    · intro pre f v post he h2 h3
      cases pre with
      | nil =>
        simp only [List.nil_append, List.cons.injEq, Prod.mk.injEq] at he
        obtain ⟨⟨rfl, rfl⟩, rfl⟩ := he
        cases hr with
        | err _ _ => rfl
        | none h => simp only [Map.has, h] at hcn; cases hcn
        | some rf _ _ h => exact absurd h2 h
      | cons g pre =>
        simp only [List.cons_append, List.cons.injEq] at he
        obtain ⟨rfl, he⟩ := he
        have hs := ih2 pre f v post he h2 fun g hg => h3 g (List.mem_cons_of_mem _ hg)
        cases hr with
        | err h4 h5 => exact absurd h5 (h3 _ List.mem_cons_self)
        | none h => simp only [Map.has, h] at hcn; cases hcn
        | some rf _ _ h => simp only [hs]

/-! ### the invariant -/

/-- `K`: the resolved types; `stk`: the types being resolved; `op`: `stk`, plus the type about to be resolved; `R`: the
entry of the second pass. -/
structure Inv (ast : AST) (R : Str) (K : Str → Prop) (stk op : List Str) (st : SecondPass) : Prop where
  settled : Settled ast K
  cache : ∀ m, st.cache.has m = true ↔ K m
  visited : ∀ m ∈ st.visited, K m ∨ m ∈ stk
  stack : ∀ m ∈ stk, m ∈ st.visited
  unknown : ∀ m ∈ op, ¬ K m
  waiting : ∀ m fs, (m, .struct fs) ∈ decls ast → ¬ K m → (m ∉ op ∨ m = R) → st.unresolved.get m = some (.struct fs)
  taken : ∀ m ∈ op, m ≠ R → st.unresolved.get m = none
  decl : ∀ m t, st.unresolved.get m = some t → ∃ fs, t = .struct fs ∧ (m, .struct fs) ∈ decls ast

/-- What resolving one type does. -/
def OneExact (ast : AST) (R : Str) (K : Str → Prop) (stk : List Str) (n : Str) (st : SecondPass)
    (r : Except Fault SecondPass) : Prop :=
  (¬ Broken ast n → ∃ st', r = .ok st' ∧
    Inv ast R (fun m => K m ∨ Relation.ReflTransGen (Refers ast) n m) stk stk st' ∧
    st'.unresolved.length ≤ st.unresolved.length) ∧
  (Broken ast n → ∃ e, r = .error (.err e) ∧ Report ast R K (n :: stk) n e)

/-- What the first unresolvable field leads to. -/
def FieldErr (ast : AST) (R : Str) (K : Str → Prop) (stk : List Str) (m : Str) (e : CheckErr) : Prop :=
  (m = R ∧ e = .cycle R) ∨
  (m ≠ R ∧ (m ∈ stk ∨ (m ∉ builtinNames ∧ ¬ Declared ast m)) ∧ e = .missingType m) ∨
  (m ∉ stk ∧ Report ast R K (m :: stk) m e)

def LoopExact (ast : AST) (R : Str) (K : Str → Prop) (stk : List Str) (nots : List (Str × Unresolved))
    (st : SecondPass) (r : Except Fault SecondPass) : Prop :=
  ((∀ g ∈ nots, ¬ Broken ast g.2.name) → ∃ st', r = .ok st' ∧
    Inv ast R (fun m => K m ∨ Below ast nots m) stk stk st' ∧ st'.unresolved.length ≤ st.unresolved.length) ∧
  ∀ pre g post, nots = pre ++ g :: post → (∀ h ∈ pre, ¬ Broken ast h.2.name) → Broken ast g.2.name →
    ∃ e, r = .error (.err e) ∧ FieldErr ast R (fun m => K m ∨ Below ast pre m) stk g.2.name e

theorem Below_nil (ast : AST) (K : Str → Prop) : (fun m => K m ∨ Below ast [] m) = K := by
  funext m; apply propext; simp [Below]

theorem Below_cons (ast : AST) (K : Str → Prop) (g : Str × Unresolved) (fs : List (Str × Unresolved)) :
    (fun m => K m ∨ Below ast (g :: fs) m) =
      fun m => (K m ∨ Relation.ReflTransGen (Refers ast) g.2.name m) ∨ Below ast fs m := by
  funext m; apply propext; simp [Below, or_assoc]

theorem known_add {ast : AST} {K : Str → Prop} (hK : Settled ast K) {n : Str} (hn : K n) :
    (fun m => K m ∨ Relation.ReflTransGen (Refers ast) n m) = K := by
  funext m; apply propext
  exact ⟨fun h => h.elim id fun h => hK.reach hn h, Or.inl⟩

theorem Inv.erase {ast : AST} {R : Str} {K : Str → Prop} {stk : List Str} {st : SecondPass}
    (h : Inv ast R K stk stk st) {n : Str} (hn : K n) :
    Inv ast R K stk stk { st with unresolved := st.unresolved.erase n } := by
  refine ⟨h.settled, h.cache, h.visited, h.stack, h.unknown, ?_, ?_, ?_⟩
  · intro m fs h1 h2 h3
    simp only [Map.get_erase]
    rw [if_neg (by rintro rfl; exact h2 hn)]
    exact h.waiting m fs h1 h2 h3
  · intro m h1 h2
    simp only [Map.get_erase]
    split
    · rfl
    · exact h.taken m h1 h2
  · intro m t h1
    simp only [Map.get_erase] at h1
    split at h1
    · cases h1
    · exact h.decl m t h1

theorem Inv.enter {ast : AST} {R : Str} {K : Str → Prop} {stk : List Str} {st : SecondPass}
    (h : Inv ast R K stk stk st) {n : Str} (hn : ¬ K n) (hR : n ≠ R) :
    Inv ast R K stk (n :: stk) { st with unresolved := st.unresolved.erase n } := by
  refine ⟨h.settled, h.cache, h.visited, h.stack, ?_, ?_, ?_, ?_⟩
  · intro m hm
    rcases List.mem_cons.1 hm with rfl | hm
    · exact hn
    · exact h.unknown m hm
  · intro m fs h1 h2 h3
    have h4 : n ≠ m := by
      rintro rfl
      rcases h3 with h3 | h3
      · exact h3 List.mem_cons_self
      · exact hR h3
    simp only [Map.get_erase]
    rw [if_neg h4]
    refine h.waiting m fs h1 h2 (h3.imp (fun h3 hm => h3 (List.mem_cons_of_mem _ hm)) id)
  · intro m h1 h2
    simp only [Map.get_erase]
    split
    · rfl
    · rename_i hne
      rcases List.mem_cons.1 h1 with rfl | h1
      · exact absurd rfl hne
      · exact h.taken m h1 h2
  · intro m t h1
    simp only [Map.get_erase] at h1
    split at h1
    · cases h1
    · exact h.decl m t h1

theorem resolveOne_known {fuel : Nat} {n : Str} {t : Ty} {st : SecondPass} (h : st.cache.has n = true) :
    resolveOneSecondPass (fuel + 1) n t st = .ok st := by
  unfold resolveOneSecondPass
  rw [if_pos h]

theorem depsLoop_exact {ast : AST} {fuel : Nat} {R name : Str} {stk : List Str} {K : Str → Prop}
    (hrec : ∀ m fs K st, (m, .struct fs) ∈ decls ast → Inv ast R K (name :: stk) (m :: name :: stk) st →
      (∀ s ∈ name :: stk, Relation.TransGen (Refers ast) s m) → m ∉ name :: stk → st.unresolved.length < fuel →
      OneExact ast R K (name :: stk) m st (resolveOneSecondPass fuel m (.struct fs) st))
    (nots : List (Str × Unresolved)) (st : SecondPass)
    (hnots : ∀ f ∈ nots, Refers ast name f.2.name) (hRs : R ∈ name :: stk)
    (hstk : ∀ s ∈ stk, Relation.TransGen (Refers ast) s name)
    (hI : Inv ast R K (name :: stk) (name :: stk) st) (hlen : st.unresolved.length ≤ fuel) :
    LoopExact ast R K (name :: stk) nots st (depsLoop (resolveOneSecondPass fuel) nots st) := by
  induction nots generalizing st K with
  | nil =>
    refine ⟨fun _ => ⟨st, rfl, ?_, Nat.le_refl _⟩, fun pre g post h => by simp at h⟩
    rw [Below_nil]; exact hI
  | cons x nots ih =>
    obtain ⟨fn, fty⟩ := x
    have hR : Refers ast name fty.name := hnots _ List.mem_cons_self
    have hstk' : ∀ s ∈ name :: stk, Relation.TransGen (Refers ast) s fty.name := by
      intro s hs
      rcases List.mem_cons.1 hs with rfl | hs
      · exact .single hR
      · exact .tail (hstk s hs) hR
    have hnots' := fun f hf => hnots f (List.mem_cons_of_mem _ hf)
    unfold depsLoop
    -- a field that is fine
    have good : ∀ st', ¬ Broken ast fty.name →
        Inv ast R (fun m => K m ∨ Relation.ReflTransGen (Refers ast) fty.name m) (name :: stk) (name :: stk) st' →
        st'.unresolved.length ≤ st.unresolved.length →
        LoopExact ast R K (name :: stk) ((fn, fty) :: nots) st (depsLoop (resolveOneSecondPass fuel) nots st') := by
      intro st' hg hI' hl
      obtain ⟨h1, h2⟩ := ih st' hnots' hI' (by omega)
      constructor
      · intro h
        obtain ⟨st'', e1, e2, e3⟩ := h1 fun g hg => h g (List.mem_cons_of_mem _ hg)
        refine ⟨st'', e1, ?_, by omega⟩
        rw [Below_cons]; exact e2
      · intro pre g post he hp hb
        cases pre with
        | nil =>
          simp only [List.nil_append, List.cons.injEq] at he
          obtain ⟨rfl, rfl⟩ := he
          exact absurd hb hg
        | cons p pre =>
          simp only [List.cons_append, List.cons.injEq] at he
          obtain ⟨rfl, he⟩ := he
          obtain ⟨e, e1, e2⟩ := h2 pre g post he (fun h hh => hp h (List.mem_cons_of_mem _ hh)) hb
          refine ⟨e, e1, ?_⟩
          rw [Below_cons]; exact e2
    -- a field that is not
    have bad : ∀ e, Broken ast fty.name → FieldErr ast R K (name :: stk) fty.name e →
        LoopExact ast R K (name :: stk) ((fn, fty) :: nots) st (.error (.err e)) := by
      intro e hb he
      refine ⟨fun h => absurd hb (h _ List.mem_cons_self), ?_⟩
      intro pre g post heq hp _
      cases pre with
      | nil =>
        simp only [List.nil_append, List.cons.injEq] at heq
        obtain ⟨rfl, rfl⟩ := heq
        refine ⟨e, rfl, ?_⟩
        rw [Below_nil]; exact he
      | cons p pre =>
        simp only [List.cons_append, List.cons.injEq] at heq
        obtain ⟨rfl, -⟩ := heq
        exact absurd hb (hp _ List.mem_cons_self)
    by_cases hk : K fty.name
    · -- known already
      have hc := (hI.cache fty.name).2 hk
      have hs := hI.settled.sound _ hk
      cases hg : st.unresolved.get fty.name with
      | none =>
        simp only
        rw [if_pos hc]
        refine good st hs ?_ (Nat.le_refl _)
        rw [known_add hI.settled hk]; exact hI
      | some utype =>
        simp only
        have hlt := Map.length_erase_lt hg
        cases fuel with
        | zero => omega
        | succ fuel =>
          rw [resolveOne_known (by exact hc)]
          simp only
          refine good _ hs ?_ (by simp only; omega)
          rw [known_add hI.settled hk]; exact hI.erase hk
    · by_cases hm : fty.name ∈ name :: stk
      · have hb : Broken ast fty.name := Broken.of_recursive (hstk' _ hm)
        by_cases hfr : fty.name = R
        · -- back at the entry
          obtain ⟨t, ht⟩ : ∃ fs, (fty.name, .struct fs) ∈ decls ast := by
            obtain ⟨m, ⟨fs', hd', _⟩, _⟩ := (Relation.TransGen.head'_iff).1 (hstk' _ hm)
            exact ⟨fs', hd'⟩
          rw [hI.waiting _ _ ht hk (Or.inr hfr)]
          simp only
          have hlt := Map.length_erase_lt (hI.waiting _ _ ht hk (Or.inr hfr))
          cases fuel with
          | zero => omega
          | succ fuel =>
            have : resolveOneSecondPass (fuel + 1) fty.name (.struct t)
                { st with unresolved := st.unresolved.erase fty.name } = .error (.err (.cycle fty.name)) := by
              unfold resolveOneSecondPass
              rw [if_neg (by simp only; intro h; exact hk ((hI.cache _).1 h))]
              simp only
              rw [if_pos (hI.stack _ hm)]
            rw [this]
            simp only
            exact bad _ hb (Or.inl ⟨hfr, by rw [hfr]⟩)
        · rw [hI.taken _ hm hfr]
          simp only
          rw [if_neg (fun h => hk ((hI.cache _).1 h))]
          exact bad _ hb (Or.inr (Or.inl ⟨hfr, Or.inl hm, rfl⟩))
      · have hfr : fty.name ≠ R := by rintro h; exact hm (h ▸ hRs)
        by_cases hd : Declared ast fty.name
        · obtain ⟨fs, hfs⟩ := struct_of_unknown hI.settled hk (Or.inr hd)
          have hg := hI.waiting _ _ hfs hk (Or.inl hm)
          have hlt := Map.length_erase_lt hg
          rw [hg]
          simp only
          have := hrec fty.name fs K _ hfs (hI.enter hk hfr) hstk' hm (by simp only; omega)
          generalize resolveOneSecondPass fuel fty.name (.struct fs) _ = r at this
          obtain ⟨h1, h2⟩ := this
          by_cases hb : Broken ast fty.name
          · obtain ⟨e, rfl, he⟩ := h2 hb
            simp only
            exact bad _ hb (Or.inr (Or.inr ⟨hm, he⟩))
          · obtain ⟨st', rfl, h3, h4⟩ := h1 hb
            simp only at h4 ⊢
            exact good st' hb h3 (by omega)
        · have hnb : fty.name ∉ builtinNames := fun h => hk (hI.settled.simple _ (Or.inl h))
          cases hg : st.unresolved.get fty.name with
          | some t =>
            obtain ⟨fs, rfl, h⟩ := hI.decl _ _ hg
            exact absurd ⟨_, h⟩ hd
          | none =>
            simp only
            rw [if_neg (fun h => hk ((hI.cache _).1 h))]
            exact bad _ ⟨_, .refl, .undeclared hnb hd⟩ (Or.inr (Or.inl ⟨hfr, Or.inr ⟨hnb, hd⟩, rfl⟩))


/-! ### one type -/

theorem exists_first {α : Type} {l : List α} {P : α → Prop} (h : ∃ a ∈ l, P a) :
    ∃ pre a post, l = pre ++ a :: post ∧ P a ∧ ∀ b ∈ pre, ¬ P b := by
  induction l with
  | nil => obtain ⟨a, ha, _⟩ := h; cases ha
  | cons x l ih =>
    by_cases hx : P x
    · exact ⟨[], x, l, rfl, hx, by simp⟩
    · obtain ⟨a, ha, hp⟩ := h
      rcases List.mem_cons.1 ha with rfl | ha
      · exact absurd hp hx
      · obtain ⟨pre, b, post, rfl, h1, h2⟩ := ih ⟨a, ha, hp⟩
        refine ⟨x :: pre, b, post, rfl, h1, fun c hc => ?_⟩
        rcases List.mem_cons.1 hc with rfl | hc
        · exact hx
        · exact h2 c hc

theorem Below_filter {ast : AST} {K : Str → Prop} (hK : Settled ast K) {p : Str → Bool}
    (hp : ∀ m, p m = true ↔ K m) (fs : List (Str × Unresolved)) (m : Str) :
    (K m ∨ Below ast (fs.filter fun f => !p f.2.name) m) ↔ (K m ∨ Below ast fs m) := by
  constructor
  · rintro (h | ⟨g, hg, h⟩)
    · exact Or.inl h
    · exact Or.inr ⟨g, (List.mem_filter.1 hg).1, h⟩
  · rintro (h | ⟨g, hg, h⟩)
    · exact Or.inl h
    · by_cases hk : K g.2.name
      · exact Or.inl (hK.reach hk h)
      · refine Or.inr ⟨g, List.mem_filter.2 ⟨hg, ?_⟩, h⟩
        cases hh : p g.2.name with
        | false => rfl
        | true => exact absurd ((hp _).1 hh) hk

theorem reach_struct {ast : AST} (hu : ((decls ast).map Prod.fst).Nodup) {n : Str} {fs}
    (hd : (n, .struct fs) ∈ decls ast) (m : Str) :
    Relation.ReflTransGen (Refers ast) n m ↔ m = n ∨ Below ast fs m := by
  constructor
  · intro h
    rcases Relation.ReflTransGen.cases_head h with rfl | ⟨k, ⟨fs', hd', g, hg, rfl⟩, h4⟩
    · exact Or.inl rfl
    · cases decl_unique hu hd hd'
      exact Or.inr ⟨g, hg, h4⟩
  · rintro (rfl | ⟨g, hg, h⟩)
    · exact .refl
    · exact .head ⟨fs, hd, g, hg, rfl⟩ h

/-- The state after a type has been entered into the cache. -/
theorem Inv.leave {ast : AST} {R name : Str} {K K' : Str → Prop} {stk : List Str} {st st' : SecondPass}
    (hI : Inv ast R K stk (name :: stk) st) (hI' : Inv ast R K' (name :: stk) (name :: stk) st')
    (hns : name ∉ stk)
    (hstk : ∀ s ∈ stk, Relation.TransGen (Refers ast) s name) (hg : ¬ Broken ast name)
    (hK : ∀ m, (m = name ∨ K' m) ↔ (K m ∨ Relation.ReflTransGen (Refers ast) name m)) (e : Str × RType) :
    Inv ast R (fun m => K m ∨ Relation.ReflTransGen (Refers ast) name m) stk stk
      { st' with cache := st'.cache.insert name e } := by
  have hins : ∀ n, (st'.cache.insert name e).has n = true ↔ n = name ∨ st'.cache.has n = true := by
    intro n
    simp only [Map.has_iff, Map.get_insert]
    by_cases h : name = n
    · simp [h]
    · simp [h, Ne.symm h]
  refine ⟨hI.settled.add hg, ?_, ?_, ?_, ?_, ?_, ?_, hI'.decl⟩
  · intro m
    rw [hins, hI'.cache, hK]
  · intro m hm
    rcases hI'.visited m hm with h | h
    · exact Or.inl ((hK m).1 (Or.inr h))
    · rcases List.mem_cons.1 h with rfl | h
      · exact Or.inl (Or.inr .refl)
      · exact Or.inr h
  · intro m hm
    exact hI'.stack m (List.mem_cons_of_mem _ hm)
  · rintro m hm (h | h)
    · exact hI.unknown m (List.mem_cons_of_mem _ hm) h
    · exact hg (Broken.of_recursive (Relation.TransGen.trans_right h (hstk m hm)))
  · intro m fs h1 h2 h3
    have hne : m ≠ name := by rintro rfl; exact h2 (Or.inr .refl)
    refine hI'.waiting m fs h1 (fun h => h2 ((hK m).1 (Or.inr h))) (h3.imp (fun h hm => ?_) id)
    rcases List.mem_cons.1 hm with rfl | hm
    · exact hne rfl
    · exact h hm
  · intro m hm hR
    exact hI'.taken m (List.mem_cons_of_mem _ hm) hR

theorem resolveOne_exact {ast : AST} (hu : ((decls ast).map Prod.fst).Nodup) {R : Str} (fuel : Nat) (name : Str)
    (fs : List (Str × Unresolved)) (K : Str → Prop) (st : SecondPass) (stk : List Str)
    (hd : (name, .struct fs) ∈ decls ast) (hI : Inv ast R K stk (name :: stk) st)
    (hstk : ∀ s ∈ stk, Relation.TransGen (Refers ast) s name) (hns : name ∉ stk) (hRs : R ∈ name :: stk)
    (hlen : st.unresolved.length < fuel) :
    OneExact ast R K stk name st (resolveOneSecondPass fuel name (.struct fs) st) := by
  induction fuel generalizing name fs K st stk with
  | zero => omega
  | succ fuel ih =>
    have hk : ¬ K name := hI.unknown name List.mem_cons_self
    unfold resolveOneSecondPass
    rw [if_neg (fun h => hk ((hI.cache _).1 h))]
    simp only
    rw [if_neg (fun h => (hI.visited _ h).elim hk hns)]
    have hbs := broken_struct hu hd
    obtain ⟨hsp1, hsp2⟩ := splitFields_exact st.cache name fs
    by_cases hearly : ∃ g ∈ fs, K g.2.name ∧ OptArray g.2
    · obtain ⟨pre, ⟨f, u⟩, post, rfl, ⟨h1, h2⟩, h3⟩ := exists_first hearly
      have h3' : ∀ g ∈ pre, K g.2.name → ¬ OptArray g.2 := fun g hg h4 h5 => h3 g hg ⟨h4, h5⟩
      rw [hsp2 pre f u post rfl ((hI.cache _).2 h1) h2 fun g hg h4 => h3' g hg ((hI.cache _).1 h4)]
      simp only
      refine ⟨fun h => absurd (hbs.2 (Or.inl ⟨(f, u), by simp, h2⟩)) h, fun _ => ⟨_, rfl, ?_⟩⟩
      exact .early hd h1 h2 h3'
    · have hearly : ∀ g ∈ fs, K g.2.name → ¬ OptArray g.2 := fun g hg h1 h2 => hearly ⟨g, hg, h1, h2⟩
      obtain ⟨fields, hsp⟩ := hsp1 fun g hg h => hearly g hg ((hI.cache _).1 h)
      rw [hsp]
      simp only
      have hI2 : Inv ast R K (name :: stk) (name :: stk) { st with visited := name :: st.visited } := by
        refine ⟨hI.settled, hI.cache, ?_, ?_, hI.unknown, hI.waiting, hI.taken, hI.decl⟩
        · intro m hm
          rcases List.mem_cons.1 hm with rfl | hm
          · exact Or.inr List.mem_cons_self
          · exact (hI.visited m hm).imp id (List.mem_cons_of_mem _)
        · intro m hm
          rcases List.mem_cons.1 hm with rfl | hm
          · exact List.mem_cons_self
          · exact List.mem_cons_of_mem _ (hI.stack m hm)
      have hfil := Below_filter hI.settled (p := fun m => st.cache.has m) hI.cache
      have hK : ∀ m, (m = name ∨ (K m ∨ Below ast (fs.filter fun f => !st.cache.has f.2.name) m)) ↔
          (K m ∨ Relation.ReflTransGen (Refers ast) name m) := by
        intro m
        rw [hfil fs m, reach_struct hu hd m]
        tauto
      split
      · -- all fields are known
        rename_i hemp
        have hemp : (fs.filter fun f => !st.cache.has f.2.name) = [] := List.isEmpty_iff.1 hemp
        have hall : ∀ g ∈ fs, K g.2.name := by
          intro g hg
          have := List.filter_eq_nil_iff.1 hemp g hg
          exact (hI.cache _).1 (by simpa using this)
        have hgood : ¬ Broken ast name := by
          rw [hbs]
          rintro (⟨g, hg, h⟩ | ⟨g, hg, h⟩)
          · exact hearly g hg (hall g hg) h
          · exact hI.settled.sound _ (hall g hg) h
        refine ⟨fun _ => ⟨_, rfl, ?_, Nat.le_refl _⟩, fun h => absurd h hgood⟩
        refine Inv.leave hI hI2 hns hstk hgood ?_ (name, .struct fields)
        intro m
        rw [← hK m, hemp]
        simp [Below]
      · have hdep := depsLoop_exact (ast := ast) (fuel := fuel) (R := R) (name := name) (stk := stk) (K := K)
          (fun m fs K st hm hI hs hn hl => ih m fs K st (name :: stk) hm hI hs hn (List.mem_cons_of_mem _ hRs) hl)
          (fs.filter fun f => !st.cache.has f.2.name) { st with visited := name :: st.visited }
          (fun f hf => ⟨fs, hd, f, List.mem_of_mem_filter hf, rfl⟩) hRs hstk hI2 (by simp only; omega)
        generalize depsLoop _ _ _ = r at hdep
        obtain ⟨hok, herr⟩ := hdep
        by_cases hbr : ∃ g ∈ fs, Broken ast g.2.name
        · have hb : Broken ast name := hbs.2 (Or.inr hbr)
          obtain ⟨pre, ⟨f, u⟩, post, rfl, h1, h2⟩ := exists_first hbr
          have hku : ¬ K u.name := fun h => hI.settled.sound _ h h1
          have hcu : (!st.cache.has u.name) = true := by
            cases hh : st.cache.has u.name with
            | false => rfl
            | true => exact absurd ((hI.cache _).1 hh) hku
          obtain ⟨e, rfl, he⟩ := herr (pre.filter fun f => !st.cache.has f.2.name) (f, u)
            (post.filter fun f => !st.cache.has f.2.name)
            (by rw [List.filter_append, List.filter_cons_of_pos (by exact hcu)])
            (fun g hg => h2 g (List.mem_of_mem_filter hg)) h1
          simp only
          refine ⟨fun h => absurd hb h, fun _ => ⟨e, rfl, ?_⟩⟩
          have heq : (fun m => K m ∨ Below ast (pre.filter fun f => !st.cache.has f.2.name) m) =
              fun m => K m ∨ Below ast pre m := by
            funext m; exact propext (hfil pre m)
          rw [heq] at he
          rcases he with ⟨h3, rfl⟩ | ⟨h3, h4, rfl⟩ | ⟨h3, h4⟩
          · exact .cycle hd hearly h2 h3
          · exact .missing hd hearly h2 h3 h4
          · exact .inside hd hearly h2 h1 h3 h4
        · have hbr : ∀ g ∈ fs, ¬ Broken ast g.2.name := fun g hg h => hbr ⟨g, hg, h⟩
          obtain ⟨st', rfl, hI', hl'⟩ := hok fun g hg => hbr g (List.mem_of_mem_filter hg)
          simp only at hl' ⊢
          obtain ⟨hf1, hf2⟩ := finishFields_exact st'.cache name (fs.filter fun f => !st.cache.has f.2.name)
            (fun g hg => (hI'.cache _).2 (Or.inr ⟨g, hg, .refl⟩))
          by_cases hopt : ∃ g ∈ fs, OptArray g.2
          · obtain ⟨pre, ⟨f, u⟩, post, rfl, h1, h2⟩ := exists_first hopt
            have hku : ¬ K u.name := fun h => hearly (f, u) (by simp) h h1
            have hcu : (!st.cache.has u.name) = true := by
              cases hh : st.cache.has u.name with
              | false => rfl
              | true => exact absurd ((hI.cache _).1 hh) hku
            rw [hf2 (pre.filter fun f => !st.cache.has f.2.name) f u (post.filter fun f => !st.cache.has f.2.name)
              (by rw [List.filter_append, List.filter_cons_of_pos (by exact hcu)]) h1
              fun g hg => h2 g (List.mem_of_mem_filter hg)]
            simp only
            refine ⟨fun h => absurd (hbs.2 (Or.inl ⟨(f, u), by simp, h1⟩)) h, fun _ => ⟨_, rfl, ?_⟩⟩
            exact .late hd hearly hbr h1 h2
          · have hopt : ∀ g ∈ fs, ¬ OptArray g.2 := fun g hg h => hopt ⟨g, hg, h⟩
            obtain ⟨now, hnow⟩ := hf1 fun g hg => hopt g (List.mem_of_mem_filter hg)
            rw [hnow]
            simp only
            have hgood : ¬ Broken ast name := by
              rw [hbs]
              rintro (⟨g, hg, h⟩ | ⟨g, hg, h⟩)
              · exact hopt g hg h
              · exact hbr g hg h
            exact ⟨fun _ => ⟨_, rfl, Inv.leave hI hI' hns hstk hgood hK _, hl'⟩, fun h => absurd h hgood⟩

/-! ### the report is determined -/

theorem first_unique {α : Type} {P : α → Prop} {pre pre' post post' : List α} {a b : α}
    (h : pre ++ a :: post = pre' ++ b :: post') (ha : P a) (hb : P b) (hp : ∀ c ∈ pre, ¬ P c)
    (hp' : ∀ c ∈ pre', ¬ P c) : pre = pre' ∧ a = b ∧ post = post' := by
  induction pre generalizing pre' with
  | nil =>
    cases pre' with
    | nil => simpa using h
    | cons c pre' =>
      simp only [List.nil_append, List.cons_append, List.cons.injEq] at h
      exact absurd (h.1 ▸ ha) (hp' c List.mem_cons_self)
  | cons c pre ih =>
    cases pre' with
    | nil =>
      simp only [List.nil_append, List.cons_append, List.cons.injEq] at h
      exact absurd (h.1 ▸ hb) (hp c List.mem_cons_self)
    | cons c' pre' =>
      simp only [List.cons_append, List.cons.injEq] at h
      obtain ⟨rfl, h⟩ := h
      obtain ⟨rfl, h2⟩ := ih h (fun d hd => hp d (List.mem_cons_of_mem _ hd)) (fun d hd => hp' d (List.mem_cons_of_mem _ hd))
      exact ⟨rfl, h2⟩

/-- All members of the stack lead to the current type, which is one of them. -/
def Chain (ast : AST) (R : Str) (stack : List Str) (n : Str) : Prop :=
  ∃ stk, stack = n :: stk ∧ (∀ s ∈ stk, Relation.TransGen (Refers ast) s n) ∧ R ∈ n :: stk

theorem Chain.broken {ast : AST} {R n m : Str} {stack : List Str} (h : Chain ast R stack n) (hr : Refers ast n m)
    (hm : m ∈ stack) : Broken ast m := by
  obtain ⟨stk, rfl, h2, -⟩ := h
  rcases List.mem_cons.1 hm with rfl | hm
  · exact Broken.of_recursive (.single hr)
  · exact Broken.of_recursive (.tail (h2 m hm) hr)

theorem Chain.next {ast : AST} {R n m : Str} {stack : List Str} (h : Chain ast R stack n) (hr : Refers ast n m) :
    Chain ast R (m :: stack) m := by
  obtain ⟨stk, rfl, h2, h3⟩ := h
  refine ⟨n :: stk, rfl, ?_, List.mem_cons_of_mem _ h3⟩
  intro s hs
  rcases List.mem_cons.1 hs with rfl | hs
  · exact .single hr
  · exact .tail (h2 s hs) hr

theorem Chain.root {ast : AST} {R n : Str} {stack : List Str} (h : Chain ast R stack n) : R ∈ stack := by
  obtain ⟨stk, rfl, -, h3⟩ := h; exact h3

/-- The three ways in which a struct can fail. -/
inductive View (ast : AST) (R : Str) (K : Str → Prop) (stack : List Str) (n : Str) (fs : List (Str × Unresolved))
    (e : CheckErr) : Prop
  | early (pre f u post) : fs = pre ++ (f, u) :: post → (K u.name ∧ OptArray u) →
      (∀ g ∈ pre, ¬ (K g.2.name ∧ OptArray g.2)) → e = .optionalArray f n → View ast R K stack n fs e
  | field (pre f u post) : fs = pre ++ (f, u) :: post → (∀ g ∈ fs, K g.2.name → ¬ OptArray g.2) →
      Broken ast u.name → (∀ g ∈ pre, ¬ Broken ast g.2.name) →
      FieldErr ast R (fun m => K m ∨ Below ast pre m) stack u.name e → View ast R K stack n fs e
  | late (pre f u post) : fs = pre ++ (f, u) :: post → (∀ g ∈ fs, K g.2.name → ¬ OptArray g.2) →
      (∀ g ∈ fs, ¬ Broken ast g.2.name) → OptArray u → (∀ g ∈ pre, ¬ OptArray g.2) →
      e = .optionalArray f n → View ast R K stack n fs e

theorem mem_mid {α : Type} {a : α} {pre post : List α} : a ∈ pre ++ a :: post := by simp

theorem refers_mid {ast : AST} {n f : Str} {u : Unresolved} {pre post : List (Str × Unresolved)}
    (hd : (n, .struct (pre ++ (f, u) :: post)) ∈ decls ast) : Refers ast n u.name :=
  ⟨_, hd, (f, u), by simp, rfl⟩

theorem Report.view {ast : AST} {R : Str} {K : Str → Prop} {stack : List Str} {n : Str} {e : CheckErr}
    (hc : Chain ast R stack n) (h : Report ast R K stack n e) :
    ∃ fs, (n, .struct fs) ∈ decls ast ∧ View ast R K stack n fs e := by
  cases h with
  | early hd h1 h2 h3 => exact ⟨_, hd, .early _ _ _ _ rfl ⟨h1, h2⟩ (fun g hg h => h3 g hg h.1 h.2) rfl⟩
  | cycle hd h1 h2 h3 =>
    exact ⟨_, hd, .field _ _ _ _ rfl h1 (hc.broken (refers_mid hd) (h3 ▸ hc.root)) h2 (Or.inl ⟨h3, rfl⟩)⟩
  | missing hd h1 h2 h3 h4 =>
    refine ⟨_, hd, .field _ _ _ _ rfl h1 ?_ h2 (Or.inr (Or.inl ⟨h3, h4, rfl⟩))⟩
    rcases h4 with h4 | ⟨h4, h5⟩
    · exact hc.broken (refers_mid hd) h4
    · exact ⟨_, .refl, .undeclared h4 h5⟩
  | inside hd h1 h2 h3 h4 h5 => exact ⟨_, hd, .field _ _ _ _ rfl h1 h3 h2 (Or.inr (Or.inr ⟨h4, h5⟩))⟩
  | late hd h1 h2 h3 h4 => exact ⟨_, hd, .late _ _ _ _ rfl h1 h2 h3 h4 rfl⟩

theorem Report.declared {ast : AST} {R : Str} {K : Str → Prop} {stack : List Str} {n : Str} {e : CheckErr}
    (h : Report ast R K stack n e) : Declared ast n := by
  cases h with
  | early hd | cycle hd | missing hd | inside hd | late hd => exact ⟨_, hd⟩

theorem Report.unique {ast : AST} (hu : ((decls ast).map Prod.fst).Nodup) {R : Str} {K : Str → Prop}
    {stack : List Str} {n : Str} {e e' : CheckErr} (hc : Chain ast R stack n)
    (h : Report ast R K stack n e) (h' : Report ast R K stack n e') : e = e' := by
  induction h generalizing e' with
  | @early K stack n pre f u post hd h1 h2 h3 =>
    obtain ⟨fs, hd', hv⟩ := Report.view hc h'
    cases decl_unique hu hd hd'
    cases hv with
    | early pre f u post heq g1 g2 g3 =>
      obtain ⟨-, h, -⟩ := first_unique (P := fun g : Str × Unresolved => K g.2.name ∧ OptArray g.2) heq ⟨h1, h2⟩ g1
        (fun g hg h => h3 g hg h.1 h.2) g2
      cases h; exact g3.symm
    | field pre f u post heq g1 => exact absurd h2 (g1 _ mem_mid h1)
    | late pre f u post heq g1 => exact absurd h2 (g1 _ mem_mid h1)
  | cycle hd h1 h2 h3 =>
    obtain ⟨fs, hd', hv⟩ := Report.view hc h'
    cases decl_unique hu hd hd'
    have hb := hc.broken (refers_mid hd) (h3 ▸ hc.root)
    cases hv with
    | early pre f u post heq g1 => exact absurd g1.2 (h1 (f, u) (by rw [heq]; simp) g1.1)
    | late pre f u post heq g1 g2 => exact absurd hb (g2 _ mem_mid)
    | field pre f u post heq g1 g2 g3 g4 =>
      obtain ⟨rfl, h, rfl⟩ := first_unique (P := fun g : Str × Unresolved => Broken ast g.2.name) heq hb g2 h2 g3
      cases h
      rcases g4 with ⟨_, g5⟩ | ⟨g5, _⟩ | ⟨g5, _⟩
      · exact g5.symm
      · exact absurd h3 g5
      · exact absurd (h3 ▸ hc.root) g5
  | @missing K stack n pre f u post hd h1 h2 h3 h4 =>
    obtain ⟨fs, hd', hv⟩ := Report.view hc h'
    cases decl_unique hu hd hd'
    have hb : Broken ast u.name := by
      rcases h4 with h4 | ⟨h4, h5⟩
      · exact hc.broken (refers_mid hd) h4
      · exact ⟨_, .refl, .undeclared h4 h5⟩
    cases hv with
    | early pre f u post heq g1 => exact absurd g1.2 (h1 (f, u) (by rw [heq]; simp) g1.1)
    | late pre f u post heq g1 g2 => exact absurd hb (g2 _ mem_mid)
    | field pre f u post heq g1 g2 g3 g4 =>
      obtain ⟨rfl, h, rfl⟩ := first_unique (P := fun g : Str × Unresolved => Broken ast g.2.name) heq hb g2 h2 g3
      cases h
      rcases g4 with ⟨g5, _⟩ | ⟨_, _, g5⟩ | ⟨g5, g6⟩
      · exact absurd g5 h3
      · exact g5.symm
      · rcases h4 with h4 | ⟨_, h4⟩
        · exact absurd h4 g5
        · exact absurd (Report.declared g6) h4
  | inside hd h1 h2 h3 h4 h5 ih =>
    obtain ⟨fs, hd', hv⟩ := Report.view hc h'
    cases decl_unique hu hd hd'
    cases hv with
    | early pre f u post heq g1 => exact absurd g1.2 (h1 (f, u) (by rw [heq]; simp) g1.1)
    | late pre f u post heq g1 g2 => exact absurd h3 (g2 _ mem_mid)
    | field pre f u post heq g1 g2 g3 g4 =>
      obtain ⟨rfl, h, rfl⟩ := first_unique (P := fun g : Str × Unresolved => Broken ast g.2.name) heq h3 g2 h2 g3
      cases h
      rcases g4 with ⟨g5, _⟩ | ⟨_, g5, _⟩ | ⟨_, g6⟩
      · exact absurd (g5 ▸ hc.root) h4
      · rcases g5 with g5 | ⟨_, g5⟩
        · exact absurd g5 h4
        · exact absurd (Report.declared h5) g5
      · exact ih (hc.next (refers_mid hd)) g6
  | late hd h1 h2 h3 h4 =>
    obtain ⟨fs, hd', hv⟩ := Report.view hc h'
    cases decl_unique hu hd hd'
    cases hv with
    | early pre f u post heq g1 => exact absurd g1.2 (h1 (f, u) (by rw [heq]; simp) g1.1)
    | field pre f u post heq g1 g2 => exact absurd g2 (h2 (f, u) (by rw [heq]; simp))
    | late pre f u post heq g1 g2 g3 g4 g5 =>
      obtain ⟨rfl, h, rfl⟩ := first_unique (P := fun g : Str × Unresolved => OptArray g.2) heq h3 g3 h4 g4
      cases h
      exact g5.symm

/-! ### the second pass -/

theorem secondPassLoop_exact {ast : AST} (hu : ((decls ast).map Prod.fst).Nodup) (fuel : Nat) (l : List (Str × Ty))
    (K : Str → Prop) (st : SecondPass) (hl : ∀ e ∈ l, e ∈ decls ast ∧ ∃ fs, e.2 = .struct fs)
    (hI : ∀ R, Inv ast R K [] [] st) (hlen : st.unresolved.length < fuel) :
    ((∀ d ∈ l, ¬ Broken ast d.1) → ∃ st', secondPassLoop fuel l st = .ok st') ∧
    ∀ pre R t post, l = pre ++ (R, t) :: post → (∀ d ∈ pre, ¬ Broken ast d.1) → Broken ast R →
      ∃ e, secondPassLoop fuel l st = .error (.err e) ∧
        Report ast R (fun m => K m ∨ ∃ d ∈ pre, Relation.ReflTransGen (Refers ast) d.1 m) [R] R e := by
  induction l generalizing K st with
  | nil => exact ⟨fun _ => ⟨st, rfl⟩, fun pre R t post h => by simp at h⟩
  | cons x l ih =>
    obtain ⟨n, t⟩ := x
    obtain ⟨hd, fs, ht⟩ := hl _ List.mem_cons_self
    simp only at ht; subst ht
    unfold secondPassLoop
    have good : ∀ st', resolveOneSecondPass fuel n (.struct fs) st = .ok st' → ¬ Broken ast n →
        (∀ R, Inv ast R (fun m => K m ∨ Relation.ReflTransGen (Refers ast) n m) [] [] st') →
        st'.unresolved.length ≤ st.unresolved.length → _ := fun st' h1 h2 h3 h4 =>
      And.intro h1 (And.intro h2 (ih _ st' (fun e he => hl e (List.mem_cons_of_mem _ he)) h3 (by omega)))
    have fin : ∀ st', resolveOneSecondPass fuel n (.struct fs) st = .ok st' → ¬ Broken ast n →
        (∀ R, Inv ast R (fun m => K m ∨ Relation.ReflTransGen (Refers ast) n m) [] [] st') →
        st'.unresolved.length ≤ st.unresolved.length →
        ((∀ d ∈ (n, Ty.struct fs) :: l, ¬ Broken ast d.1) → ∃ st'', secondPassLoop fuel l st' = .ok st'') ∧
        ∀ pre R t post, (n, Ty.struct fs) :: l = pre ++ (R, t) :: post → (∀ d ∈ pre, ¬ Broken ast d.1) →
          Broken ast R → ∃ e, secondPassLoop fuel l st' = .error (.err e) ∧
          Report ast R (fun m => K m ∨ ∃ d ∈ pre, Relation.ReflTransGen (Refers ast) d.1 m) [R] R e := by
      intro st' h1 h2 h3 h4
      obtain ⟨-, -, h5, h6⟩ := good st' h1 h2 h3 h4
      refine ⟨fun h => h5 fun d hd => h d (List.mem_cons_of_mem _ hd), ?_⟩
      intro pre R t post heq hp hb
      cases pre with
      | nil =>
        simp only [List.nil_append, List.cons.injEq, Prod.mk.injEq] at heq
        obtain ⟨⟨rfl, rfl⟩, rfl⟩ := heq
        exact absurd hb h2
      | cons d pre =>
        simp only [List.cons_append, List.cons.injEq] at heq
        obtain ⟨rfl, heq⟩ := heq
        obtain ⟨e, e1, e2⟩ := h6 pre R t post heq (fun d hd => hp d (List.mem_cons_of_mem _ hd)) hb
        refine ⟨e, e1, ?_⟩
        have : (fun m => K m ∨ ∃ d ∈ (n, Ty.struct fs) :: pre, Relation.ReflTransGen (Refers ast) d.1 m) =
            fun m => (K m ∨ Relation.ReflTransGen (Refers ast) n m) ∨
              ∃ d ∈ pre, Relation.ReflTransGen (Refers ast) d.1 m := by
          funext m; apply propext; simp [or_assoc]
        rw [this]; exact e2
    by_cases hk : K n
    · have hs := (hI n).settled.sound _ hk
      have hr : resolveOneSecondPass fuel n (.struct fs) st = .ok st := by
        cases fuel with
        | zero => omega
        | succ fuel => exact resolveOne_known (((hI n).cache n).2 hk)
      rw [hr]
      simp only
      refine fin st hr hs ?_ (Nat.le_refl _)
      intro R
      rw [known_add (hI n).settled hk]; exact hI R
    · have hI1 : Inv ast n K [] [n] st := by
        have h := hI n
        refine ⟨h.settled, h.cache, h.visited, h.stack, ?_, ?_, ?_, h.decl⟩
        · intro m hm; simp only [List.mem_singleton] at hm; subst hm; exact hk
        · intro m fs h1 h2 h3; exact h.waiting m fs h1 h2 (Or.inl (by simp))
        · intro m hm hne; simp only [List.mem_singleton] at hm; exact absurd hm hne
      obtain ⟨h1, h2⟩ := resolveOne_exact hu (R := n) fuel n fs K st [] hd hI1 (by simp) (by simp) (by simp) hlen
      by_cases hb : Broken ast n
      · obtain ⟨e, he, hrep⟩ := h2 hb
        rw [he]
        simp only
        refine ⟨fun h => absurd hb (h _ List.mem_cons_self), ?_⟩
        intro pre R t post heq hp _
        cases pre with
        | nil =>
          simp only [List.nil_append, List.cons.injEq, Prod.mk.injEq] at heq
          obtain ⟨⟨rfl, rfl⟩, rfl⟩ := heq
          refine ⟨e, rfl, ?_⟩
          have : (fun m => K m ∨ ∃ d ∈ ([] : List (Str × Ty)), Relation.ReflTransGen (Refers ast) d.1 m) = K := by
            funext m; apply propext; simp
          rw [this]; exact hrep
        | cons d pre =>
          simp only [List.cons_append, List.cons.injEq] at heq
          obtain ⟨rfl, -⟩ := heq
          exact absurd hb (hp _ List.mem_cons_self)
      · obtain ⟨st', he, hI', hl'⟩ := h1 hb
        rw [he]
        simp only
        refine fin st' he hb ?_ hl'
        intro R
        exact ⟨hI'.settled, hI'.cache, hI'.visited, hI'.stack, by simp,
          fun m fs h1 h2 _ => hI'.waiting m fs h1 h2 (Or.inl (by simp)), by simp, hI'.decl⟩

theorem builtin_no_refers {ast : AST} (hnb : NoBuiltinDecl ast) {n m : Str} (hn : n ∈ builtinNames) :
    ¬ Refers ast n m := by
  rintro ⟨fs, hd, _⟩
  exact hnb n ⟨_, hd⟩ hn

theorem builtin_sound {ast : AST} (hnb : NoBuiltinDecl ast) {n : Str} (hn : n ∈ builtinNames) : ¬ Broken ast n := by
  rintro ⟨k, h1, h2⟩
  rcases Relation.ReflTransGen.cases_head h1 with rfl | ⟨m, hr, -⟩
  · cases h2 with
    | undeclared h _ => exact h hn
    | optArray fs f hd => exact hnb n ⟨_, hd⟩ hn
    | recursive h =>
      obtain ⟨m, hr, -⟩ := (Relation.TransGen.head'_iff).1 h
      exact builtin_no_refers hnb hn hr
  · exact builtin_no_refers hnb hn hr

theorem enum_sound {ast : AST} (hu : ((decls ast).map Prod.fst).Nodup) {n : Str} {vs}
    (hn : (n, .enum vs) ∈ decls ast) : ¬ Broken ast n := by
  have hno : ∀ m, ¬ Refers ast n m := by
    rintro m ⟨fs, hd, _⟩
    cases decl_unique hu hn hd
  rintro ⟨k, h1, h2⟩
  rcases Relation.ReflTransGen.cases_head h1 with rfl | ⟨m, hr, -⟩
  · cases h2 with
    | undeclared _ h => exact h ⟨_, hn⟩
    | optArray fs f hd => cases decl_unique hu hn hd
    | recursive h =>
      obtain ⟨m, hr, -⟩ := (Relation.TransGen.head'_iff).1 h
      exact hno m hr
  · exact hno m hr

/-- The types resolved by the first pass. -/
theorem Between.settled {ast : AST} {B : TypeMap} {u : Map Ty} (h : Between ast B u) (hnb : NoBuiltinDecl ast) :
    Settled ast (Simple ast) := by
  refine ⟨fun _ h => h, ?_, ?_⟩
  · intro n m hr hn
    exact h.only_simple ((h.closed hnb).2 n m hr (h.simple hn))
  · intro n hs
    rcases hs with hs | ⟨vs, hs⟩ | ⟨fs, hs, hb⟩
    · exact builtin_sound hnb hs
    · exact enum_sound h.nodup hs
    · rw [broken_struct h.nodup hs]
      rintro (⟨g, hg, ho⟩ | ⟨g, hg, hbr⟩)
      · rcases h.decl _ _ hs with ⟨r, h1, -, -⟩ | ⟨h1, -, -⟩
        · cases h1 with
          | structFull _ rfs _ h5 =>
            obtain ⟨rf, -, hR⟩ := Forall₂.exists_right h5 hg
            exact hR.flags ho
        · cases h1 with
          | structPart _ _ h3 =>
            obtain ⟨f, hf, hn⟩ := h3
            exact hn (hb f hf)
      · exact builtin_sound hnb (hb g hg) hbr

/-- What the first pass leaves to do. -/
theorem Between.waiting {ast : AST} {B : TypeMap} {u : Map Ty} (h : Between ast B u) {n : Str} {fs}
    (hd : (n, .struct fs) ∈ decls ast) (hn : ¬ Simple ast n) : u.get n = some (.struct fs) := by
  rcases h.decl _ _ hd with ⟨r, -, h2, -⟩ | ⟨-, -, h3⟩
  · exact absurd (h.only_simple ((Map.has_iff _ _).2 ⟨_, h2⟩)) hn
  · exact h3

theorem Between.inv {ast : AST} {B : TypeMap} {u : Map Ty} (h : Between ast B u) (hnb : NoBuiltinDecl ast)
    (R : Str) : Inv ast R (Simple ast) [] [] ⟨B, [], u⟩ := by
  refine ⟨h.settled hnb, fun m => ⟨h.only_simple, h.simple⟩, by simp, by simp, by simp, ?_, by simp, ?_⟩
  · intro m fs hd hs _
    exact h.waiting hd hs
  · intro m t hm
    obtain ⟨h1, fs, rfl⟩ := h.J.unres m t hm
    exact ⟨fs, rfl, h1⟩

theorem Between.mem {ast : AST} {B : TypeMap} {u : Map Ty} (h : Between ast B u) {l : List (Str × Ty)}
    (hl : l.Perm u) : ∀ e ∈ l, e ∈ decls ast ∧ ∃ fs, e.2 = .struct fs := by
  intro e he
  have := hl.mem_iff.1 he
  obtain ⟨n, t⟩ := e
  exact h.J.unres n t (Map.mem_get h.ukeys this)

theorem Settled.addAll {ast : AST} {K : Str → Prop} (hK : Settled ast K) {l : List (Str × Ty)}
    (hl : ∀ d ∈ l, ¬ Broken ast d.1) :
    Settled ast (fun m => K m ∨ ∃ d ∈ l, Relation.ReflTransGen (Refers ast) d.1 m) := by
  refine ⟨fun m hm => Or.inl (hK.simple m hm), ?_, ?_⟩
  · rintro a b hr (h | ⟨g, hg, h⟩)
    · exact Or.inl (hK.closed a b hr h)
    · exact Or.inr ⟨g, hg, .tail h hr⟩
  · rintro a (h | ⟨g, hg, h⟩) hb
    · exact hK.sound a h hb
    · exact hl g hg (Broken.of_reach h hb)

/-- A broken declaration is left to the second pass. -/
theorem Between.broken_mem {ast : AST} {B : TypeMap} {u : Map Ty} (h : Between ast B u) (hnb : NoBuiltinDecl ast)
    {n : Str} (hd : Declared ast n) (hb : Broken ast n) : ∃ t, (n, t) ∈ u := by
  have hs : ¬ Simple ast n := fun hs => (h.settled hnb).sound n hs hb
  obtain ⟨fs, hfs⟩ := struct_of_unknown (h.settled hnb) hs (Or.inr hd)
  exact ⟨_, Map.get_mem (h.waiting hfs hs)⟩

/-- The second pass succeeds if no declaration is broken; otherwise it fails with one of the possible errors. -/
theorem resolveSecondPass_exact {ast : AST} {B : TypeMap} {u : Map Ty} (h : Between ast B u)
    (hnb : NoBuiltinDecl ast) {ord} (hord : FairOrd ord) :
    ((∀ n, Declared ast n → ¬ Broken ast n) ∧ ∃ c, resolveSecondPass ord B u = .ok c) ∨
    ∃ K R e, Settled ast K ∧ Declared ast R ∧ Broken ast R ∧ Report ast R K [R] R e ∧
      resolveSecondPass ord B u = .error (.err e) := by
  obtain ⟨h1, h2⟩ := secondPassLoop_exact h.nodup (u.length + 1) (ord u) (Simple ast) ⟨B, [], u⟩ (h.mem (hord u))
    (h.inv hnb) (by simp)
  unfold resolveSecondPass
  by_cases hb : ∃ d ∈ ord u, Broken ast d.1
  · obtain ⟨pre, ⟨R, t⟩, post, heq, h3, h4⟩ := exists_first hb
    obtain ⟨e, h5, h6⟩ := h2 pre R t post heq h4 h3
    refine Or.inr ⟨_, R, e, Settled.addAll (h.settled hnb) h4, ?_, h3, h6, by rw [h5]⟩
    exact ⟨t, (h.mem (hord u) (R, t) (by rw [heq]; simp)).1⟩
  · have hb : ∀ d ∈ ord u, ¬ Broken ast d.1 := fun d hd hbr => hb ⟨d, hd, hbr⟩
    obtain ⟨st', h5⟩ := h1 hb
    refine Or.inl ⟨?_, ⟨_, by rw [h5]⟩⟩
    intro n hd hbr
    obtain ⟨t, ht⟩ := h.broken_mem hnb hd hbr
    exact hb _ ((hord u).mem_iff.2 ht) hbr

open Classical in
/-- The hash order in which the types satisfying `K` come first, followed by the entry `x`. -/
noncomputable def orderFor (u : List (Str × Ty)) (K : Str → Prop) (x : Str × Ty) (l : List (Str × Ty)) :
    List (Str × Ty) :=
  if l = u then u.filter (fun d => decide (K d.1)) ++ x :: (u.filter (fun d => !decide (K d.1))).erase x else l

theorem orderFor_fair {u : List (Str × Ty)} {K : Str → Prop} {x : Str × Ty} (hx : x ∈ u) (hk : ¬ K x.1) :
    FairOrd (orderFor u K x) := by
  classical
  intro l
  unfold orderFor
  split
  · rename_i hl
    subst hl
    have h1 : x ∈ l.filter (fun d => !decide (K d.1)) := List.mem_filter.2 ⟨hx, by simpa using hk⟩
    refine List.Perm.trans (List.Perm.append_left _ (List.perm_cons_erase h1).symm) ?_
    exact perm_partition (fun d => decide (K d.1)) l
  · exact .refl _

/-- For some hash order, the types satisfying `K` come first, followed by `R`. -/
theorem resolveSecondPass_reach {ast : AST} {B : TypeMap} {u : Map Ty} (h : Between ast B u)
    (hnb : NoBuiltinDecl ast) {K : Str → Prop} {R : Str} (hK : Settled ast K) (hR : Declared ast R)
    (hb : Broken ast R) :
    ∃ ord e, FairOrd ord ∧ resolveSecondPass ord B u = .error (.err e) ∧ Report ast R K [R] R e := by
  classical
  obtain ⟨t, ht⟩ := h.broken_mem hnb hR hb
  have hk : ¬ K R := fun hk => hK.sound R hk hb
  have hfair := orderFor_fair (u := u) (K := K) (x := (R, t)) ht hk
  obtain ⟨h1, h2⟩ := secondPassLoop_exact h.nodup (u.length + 1) (orderFor u K (R, t) u) (Simple ast) ⟨B, [], u⟩
    (h.mem (hfair u)) (h.inv hnb) (by simp)
  have hpre : ∀ d ∈ u.filter (fun d => decide (K d.1)), K d.1 := fun d hd => by
    simpa using (List.mem_filter.1 hd).2
  obtain ⟨e', h3, h4⟩ := h2 (u.filter (fun d => decide (K d.1))) R t
    ((u.filter (fun d => !decide (K d.1))).erase (R, t)) (by unfold orderFor; rw [if_pos rfl])
    (fun d hd => hK.sound _ (hpre d hd)) hb
  have hKeq : (fun m => Simple ast m ∨ ∃ d ∈ u.filter (fun d => decide (K d.1)),
      Relation.ReflTransGen (Refers ast) d.1 m) = K := by
    funext m
    apply propext
    constructor
    · rintro (hs | ⟨d, hd, hr⟩)
      · exact hK.simple m hs
      · exact hK.reach (hpre d hd) hr
    · intro hm
      by_cases hs : Simple ast m
      · exact Or.inl hs
      · obtain ⟨fs, hfs⟩ := struct_of_unknown (h.settled hnb) hs (declared_of_sound (hK.sound m hm))
        exact Or.inr ⟨(m, .struct fs), List.mem_filter.2 ⟨Map.get_mem (h.waiting hfs hs), by simpa using hm⟩, .refl⟩
  rw [hKeq] at h4
  refine ⟨orderFor u K (R, t), e', hfair, ?_, h4⟩
  unfold resolveSecondPass
  rw [h3]

/-- Every possible error of the second pass is reported for some hash order. -/
theorem resolveSecondPass_some {ast : AST} {B : TypeMap} {u : Map Ty} (h : Between ast B u)
    (hnb : NoBuiltinDecl ast) {K : Str → Prop} {R : Str} {e : CheckErr} (hK : Settled ast K) (hR : Declared ast R)
    (hb : Broken ast R) (hrep : Report ast R K [R] R e) :
    ∃ ord, FairOrd ord ∧ resolveSecondPass ord B u = .error (.err e) := by
  obtain ⟨ord, e', h1, h2, h3⟩ := resolveSecondPass_reach h hnb hK hR hb
  have hc : Chain ast R [R] R := ⟨[], rfl, by simp, by simp⟩
  rw [Report.unique h.nodup hc h3 hrep] at h2
  exact ⟨ord, h1, h2⟩

end Packetc.Check
