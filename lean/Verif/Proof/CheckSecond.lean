import Verif.Proof.CheckFirst
/-!
# Second pass of the checker

`resolveOne_control`: no panic, no divergence, truthful errors. `resolveOne_data`: the cache only grows and
stays coherent.
-/

namespace Packetc.Check
open Ast WellFormed

/-- `b` extends `a`. -/
def Ext (a b : TypeMap) : Prop := ∀ n e, a.get n = some e → b.get n = some e

theorem Ext.refl (a : TypeMap) : Ext a a := fun _ _ h => h
theorem Ext.trans {a b c : TypeMap} (h : Ext a b) (h' : Ext b c) : Ext a c := fun n e hn => h' n e (h n e hn)
theorem Ext.has {a b : TypeMap} (h : Ext a b) {n : Str} (hn : a.has n = true) : b.has n = true := by
  obtain ⟨v, hv⟩ := (Map.has_iff _ _).1 hn
  exact (Map.has_iff _ _).2 ⟨v, h _ _ hv⟩

theorem Ext.insert {a : TypeMap} {n : Str} {e} (h : a.has n = false) : Ext a (a.insert n e) := by
  intro m e' hm
  rw [Map.get_insert]
  have : n ≠ m := by
    rintro rfl
    rw [(Map.has_false _ _).1 h] at hm; cases hm
  rw [if_neg this]; exact hm

theorem FieldOk.ext {a b : TypeMap} (h : Ext a b) {f rf} (hf : FieldOk a f rf) : FieldOk b f rf :=
  ⟨hf.name, hf.tyName, hf.array, hf.optional, hf.flags, h _ _ hf.ty⟩

inductive SF (c : TypeMap) (name : Str) (fs : List (Str × Unresolved)) :
    Except Fault (List RField × List (Str × Unresolved)) → Prop
  | ok (fields) : (Named c → List.Forall₂ (FieldOk c) (fs.filter fun f => c.has f.2.name) fields) →
      SF c name fs (.ok (fields, fs.filter fun f => !c.has f.2.name))
  | err (f u) : (f, u) ∈ fs → u.array = true → u.optional = true →
      SF c name fs (.error (.err (.optionalArray f name)))

theorem splitFields_spec (c : TypeMap) (name : Str) (fs : List (Str × Unresolved)) :
    SF c name fs (splitFields c name fs) := by
  induction fs with
  | nil => exact .ok [] (fun _ => .nil)
  | cons x fs ih =>
    obtain ⟨n, u⟩ := x
    unfold splitFields
    have hr := resolveStructField_spec n u c name
    generalize resolveStructField n u c name = r at hr
    cases hr with
    | err _ h => exact .err n u (by simp) h.1 h.2
    | none h =>
      have hh : c.has u.name = false := (Map.has_false _ _).2 h
      simp only
      generalize splitFields c name fs = r at ih
      cases ih with
      | err f u h1 h2 h3 => exact .err f u (List.mem_cons_of_mem _ h1) h2 h3
      | ok fields h1 =>
        have := SF.ok (c := c) (name := name) (fs := (n, u) :: fs) fields
        simp only [hh, Bool.not_false, List.filter_cons_of_pos, List.filter_cons_of_neg, Bool.false_eq_true,
          not_false_eq_true] at this
        exact this h1
    | some rf h hh _ =>
      simp only
      generalize splitFields c name fs = r at ih
      cases ih with
      | err f u h1 h2 h3 => exact .err f u (List.mem_cons_of_mem _ h1) h2 h3
      | ok fields h1 =>
        have := SF.ok (c := c) (name := name) (fs := (n, u) :: fs) (rf :: fields)
        simp only [hh, Bool.not_true, List.filter_cons_of_pos, List.filter_cons_of_neg, Bool.false_eq_true,
          not_false_eq_true] at this
        exact this fun hc => .cons (h hc) (h1 hc)

inductive FF (c : TypeMap) (name : Str) (fs : List (Str × Unresolved)) : Except Fault (List RField) → Prop
  | ok (rfs) : (Named c → List.Forall₂ (FieldOk c) fs rfs) → FF c name fs (.ok rfs)
  | err (f u) : (f, u) ∈ fs → u.array = true → u.optional = true →
      FF c name fs (.error (.err (.optionalArray f name)))
  | panic (f u) : (f, u) ∈ fs → c.has u.name = false → FF c name fs (.error .panic)

theorem finishFields_spec (c : TypeMap) (name : Str) (fs : List (Str × Unresolved)) :
    FF c name fs (finishFields c name fs) := by
  induction fs with
  | nil => exact .ok [] (fun _ => .nil)
  | cons x fs ih =>
    obtain ⟨n, u⟩ := x
    unfold finishFields
    have hr := resolveStructField_spec n u c name
    generalize resolveStructField n u c name = r at hr
    cases hr with
    | err _ h => exact .err n u (by simp) h.1 h.2
    | none h => exact .panic n u (by simp) ((Map.has_false _ _).2 h)
    | some rf h hh _ =>
      simp only
      generalize finishFields c name fs = r at ih
      cases ih with
      | err f u h1 h2 h3 => exact .err f u (List.mem_cons_of_mem _ h1) h2 h3
      | panic f u h1 h2 => exact .panic f u (List.mem_cons_of_mem _ h1) h2
      | ok rfs h1 => exact .ok _ fun hc => .cons (h hc) (h1 hc)

/-! ### control: no panic, no divergence, truthful errors -/

/-- What an error of the second pass says is true of the schema. -/
inductive Truth2 (ast : AST) : CheckErr → Prop
  | optionalArray (f u n fs) : (n, .struct fs) ∈ decls ast → (f, u) ∈ fs → u.array = true → u.optional = true →
      Truth2 ast (.optionalArray f n)
  | cycle (n) : Recursive ast n → Truth2 ast (.cycle n)
  | missing (k n) : Refers ast k n → n ∉ builtinNames → ¬ Declared ast n → Truth2 ast (.missingType n)
  | missingCycle (k n) : Refers ast k n → n ∉ builtinNames → Recursive ast n → Truth2 ast (.missingType n)

/-- Invariant. `stk`: types being resolved; `open'`: `stk`, plus the type about to be resolved. -/
structure J (ast : AST) (stk open' : List Str) (st : SecondPass) : Prop where
  unres : ∀ n t, st.unresolved.get n = some t → (n, t) ∈ decls ast ∧ ∃ fs, t = .struct fs
  visited : ∀ n ∈ st.visited, st.cache.has n = true ∨ n ∈ stk
  decl : ∀ n, Declared ast n → st.cache.has n = true ∨ n ∈ open' ∨ st.unresolved.has n = true
  builtin : ∀ n ∈ builtinNames, st.cache.has n = true

structure Done1 (ast : AST) (stk : List Str) (st st' : SecondPass) : Prop where
  inv : J ast stk stk st'
  mono : ∀ n, st.cache.has n = true → st'.cache.has n = true
  len : st'.unresolved.length ≤ st.unresolved.length

inductive Res1 (ast : AST) (stk : List Str) (st : SecondPass) (P : SecondPass → Prop) :
    Except Fault SecondPass → Prop
  | ok (st') : Done1 ast stk st st' → P st' → Res1 ast stk st P (.ok st')
  | err (e) : Truth2 ast e → Res1 ast stk st P (.error (.err e))

theorem depsLoop_control {ast : AST} {fuel : Nat} {name : Str} {stk : List Str}
    {rec : Str → Ty → SecondPass → Except Fault SecondPass}
    (hrec : ∀ m fs st, (m, .struct fs) ∈ decls ast → J ast (name :: stk) (m :: name :: stk) st →
      (∀ s ∈ name :: stk, Relation.TransGen (Refers ast) s m) → st.unresolved.length < fuel →
      Res1 ast (name :: stk) st (fun st' => st'.cache.has m = true) (rec m (.struct fs) st))
    (nots : List (Str × Unresolved)) (st : SecondPass)
    (hnots : ∀ f ∈ nots, Refers ast name f.2.name)
    (hstk : ∀ s ∈ stk, Relation.TransGen (Refers ast) s name)
    (hJ : J ast (name :: stk) (name :: stk) st) (hlen : st.unresolved.length ≤ fuel) :
    Res1 ast (name :: stk) st (fun st' => ∀ f ∈ nots, st'.cache.has f.2.name = true) (depsLoop rec nots st) := by
  induction nots generalizing st with
  | nil => exact .ok _ ⟨hJ, fun _ h => h, Nat.le_refl _⟩ (by simp)
  | cons x nots ih =>
    obtain ⟨fn, fty⟩ := x
    have hR : Refers ast name fty.name := hnots _ List.mem_cons_self
    have hstk' : ∀ s ∈ name :: stk, Relation.TransGen (Refers ast) s fty.name := by
      intro s hs
      rcases List.mem_cons.1 hs with rfl | hs
      · exact .single hR
      · exact .tail (hstk s hs) hR
    unfold depsLoop
    cases hg : st.unresolved.get fty.name with
    | some utype =>
      simp only
      obtain ⟨hd, fs, rfl⟩ := hJ.unres _ _ hg
      have hlt := Map.length_erase_lt hg
      have hJ' : J ast (name :: stk) (fty.name :: name :: stk)
          { st with unresolved := st.unresolved.erase fty.name } := by
        refine ⟨?_, hJ.visited, ?_, hJ.builtin⟩
        · intro n t h
          simp only [Map.get_erase] at h
          split at h
          · cases h
          · exact hJ.unres _ _ h
        · intro n hn
          rcases hJ.decl n hn with h | h | h
          · exact Or.inl h
          · exact Or.inr (Or.inl (List.mem_cons_of_mem _ h))
          · by_cases hne : fty.name = n
            · exact Or.inr (Or.inl (by simp [hne]))
            · refine Or.inr (Or.inr ?_)
              rw [Map.has_iff] at h ⊢
              simpa [Map.get_erase, hne] using h
      have := hrec fty.name fs _ hd hJ' hstk' (by simp only; omega)
      generalize rec fty.name (.struct fs) _ = r at this
      cases this with
      | err e he => exact .err e he
      | ok st' hD hP =>
        simp only
        have hl := hD.len
        simp only at hl
        have := ih st' (fun f hf => hnots f (List.mem_cons_of_mem _ hf)) hD.inv (by omega)
        generalize depsLoop rec nots st' = r at this
        cases this with
        | err e he => exact .err e he
        | ok st'' hD' hP' =>
          refine .ok _ ⟨hD'.inv, fun n hn => hD'.mono _ (hD.mono _ hn), ?_⟩ ?_
          · have := hD'.len; omega
          · intro f hf
            rcases List.mem_cons.1 hf with rfl | hf
            · exact hD'.mono _ hP
            · exact hP' f hf
    | none =>
      simp only
      by_cases hh : st.cache.has fty.name = true
      · rw [if_pos hh]
        have := ih st (fun f hf => hnots f (List.mem_cons_of_mem _ hf)) hJ hlen
        generalize depsLoop rec nots st = r at this
        cases this with
        | err e he => exact .err e he
        | ok st'' hD' hP' =>
          refine .ok _ hD' ?_
          intro f hf
          rcases List.mem_cons.1 hf with rfl | hf
          · exact hD'.mono _ hh
          · exact hP' f hf
      · rw [if_neg hh]
        refine .err _ ?_
        by_cases hd : Declared ast fty.name
        · rcases hJ.decl _ hd with h | h | h
          · exact absurd h hh
          · exact .missingCycle name _ hR (fun hb => hh (hJ.builtin _ hb)) (hstk' _ h)
          · simp [Map.has, hg] at h
        · exact .missing name _ hR (fun hb => hh (hJ.builtin _ hb)) hd

theorem resolveOne_control {ast : AST} (fuel : Nat) (name : Str) (fs : List (Str × Unresolved)) (st : SecondPass)
    (stk : List Str) (hd : (name, .struct fs) ∈ decls ast) (hJ : J ast stk (name :: stk) st)
    (hstk : ∀ s ∈ stk, Relation.TransGen (Refers ast) s name) (hlen : st.unresolved.length < fuel) :
    Res1 ast stk st (fun st' => st'.cache.has name = true) (resolveOneSecondPass fuel name (.struct fs) st) := by
  induction fuel generalizing name fs st stk with
  | zero => omega
  | succ fuel ih =>
    unfold resolveOneSecondPass
    by_cases hc : st.cache.has name = true
    · rw [if_pos hc]
      refine .ok _ ⟨⟨hJ.unres, hJ.visited, ?_, hJ.builtin⟩, fun _ h => h, Nat.le_refl _⟩ hc
      intro n hn
      rcases hJ.decl n hn with h | h | h
      · exact Or.inl h
      · rcases List.mem_cons.1 h with rfl | h
        · exact Or.inl hc
        · exact Or.inr (Or.inl h)
      · exact Or.inr (Or.inr h)
    · rw [if_neg hc]
      simp only
      by_cases hv : name ∈ st.visited
      · rw [if_pos hv]
        refine .err _ (.cycle _ ?_)
        rcases hJ.visited _ hv with h | h
        · exact absurd h hc
        · exact hstk _ h
      · rw [if_neg hv]
        have hs := splitFields_spec st.cache name fs
        generalize splitFields st.cache name fs = r at hs
        -- the state after inserting `name` into the cache
        have fin : ∀ (st' : SecondPass) e, J ast (name :: stk) (name :: stk) st' →
            (∀ n, st.cache.has n = true → st'.cache.has n = true) →
            st'.unresolved.length ≤ st.unresolved.length →
            Res1 ast stk st (fun st' => st'.cache.has name = true)
              (.ok { st' with cache := st'.cache.insert name e }) := by
          intro st' e hJ' hm hl
          have hins : ∀ n, (st'.cache.insert name e).has n = true ↔ n = name ∨ st'.cache.has n = true := by
            intro n
            simp only [Map.has_iff, Map.get_insert]
            by_cases h : name = n
            · simp [h]
            · simp [h, Ne.symm h]
          refine .ok _ ⟨⟨hJ'.unres, ?_, ?_, ?_⟩, ?_, hl⟩ ?_
          · intro n hn
            rw [hins]
            rcases hJ'.visited n hn with h | h
            · exact Or.inl (Or.inr h)
            · rcases List.mem_cons.1 h with rfl | h
              · exact Or.inl (Or.inl rfl)
              · exact Or.inr h
          · intro n hn
            rw [hins]
            rcases hJ'.decl n hn with h | h | h
            · exact Or.inl (Or.inr h)
            · rcases List.mem_cons.1 h with rfl | h
              · exact Or.inl (Or.inl rfl)
              · exact Or.inr (Or.inl h)
            · exact Or.inr (Or.inr h)
          · intro n hn; rw [hins]; exact Or.inr (hJ'.builtin n hn)
          · intro n hn; simp only [hins]; exact Or.inr (hm n hn)
          · simp only [hins]; exact Or.inl trivial
        have hJ2 : J ast (name :: stk) (name :: stk) { st with visited := name :: st.visited } := by
          refine ⟨hJ.unres, ?_, hJ.decl, hJ.builtin⟩
          intro n hn
          rcases List.mem_cons.1 hn with rfl | hn
          · exact Or.inr (by simp)
          · rcases hJ.visited n hn with h | h
            · exact Or.inl h
            · exact Or.inr (List.mem_cons_of_mem _ h)
        cases hs with
        | err f u h1 h2 h3 => exact .err _ (.optionalArray f u name fs hd h1 h2 h3)
        | ok fields h1 =>
          simp only
          split
          · exact fin { st with visited := name :: st.visited } _ hJ2 (fun _ h => h) (Nat.le_refl _)
          · have hdep := depsLoop_control (ast := ast) (fuel := fuel) (name := name) (stk := stk)
              (rec := resolveOneSecondPass fuel)
              (fun m fs st hm hJ hs hl => ih m fs st (name :: stk) hm hJ hs hl)
              (fs.filter fun f => !st.cache.has f.2.name) { st with visited := name :: st.visited }
              (fun f hf => ⟨fs, hd, f, List.mem_of_mem_filter hf, rfl⟩) hstk hJ2 (by simp only; omega)
            generalize depsLoop _ _ _ = r2 at hdep
            cases hdep with
            | err e he => exact .err e he
            | ok st' hD hP =>
              simp only
              have hf := finishFields_spec st'.cache name (fs.filter fun f => !st.cache.has f.2.name)
              generalize finishFields _ _ _ = r3 at hf
              cases hf with
              | err f u h1 h2 h3 =>
                exact .err _ (.optionalArray f u name fs hd (List.mem_of_mem_filter h1) h2 h3)
              | panic f u h1 h2 =>
                have := hP _ h1
                simp only at this
                rw [h2] at this; cases this
              | ok rfs h => exact fin st' _ hD.inv hD.mono hD.len

theorem secondPassLoop_control {ast : AST} (fuel : Nat) (l : List (Str × Ty)) (st : SecondPass)
    (hl : ∀ e ∈ l, e ∈ decls ast ∧ ∃ fs, e.2 = .struct fs) (hJ : J ast [] [] st)
    (hlen : st.unresolved.length < fuel) :
    Res1 ast [] st (fun st' => ∀ e ∈ l, st'.cache.has e.1 = true) (secondPassLoop fuel l st) := by
  induction l generalizing st with
  | nil => exact .ok _ ⟨hJ, fun _ h => h, Nat.le_refl _⟩ (by simp)
  | cons x l ih =>
    obtain ⟨n, t⟩ := x
    obtain ⟨hd, fs, ht⟩ := hl _ List.mem_cons_self
    simp only at ht; subst ht
    unfold secondPassLoop
    have := resolveOne_control fuel n fs st [] hd
      ⟨hJ.unres, hJ.visited, fun n hn => by
        rcases hJ.decl n hn with h | h | h
        · exact Or.inl h
        · simp at h
        · exact Or.inr (Or.inr h), hJ.builtin⟩ (by simp) hlen
    generalize resolveOneSecondPass _ _ _ _ = r at this
    cases this with
    | err e he => exact .err e he
    | ok st' hD hP =>
      simp only
      have hl' := hD.len
      have := ih st' (fun e he => hl e (List.mem_cons_of_mem _ he)) hD.inv (by omega)
      generalize secondPassLoop fuel l st' = r at this
      cases this with
      | err e he => exact .err e he
      | ok st'' hD' hP' =>
        refine .ok _ ⟨hD'.inv, fun n hn => hD'.mono _ (hD.mono _ hn), ?_⟩ ?_
        · have := hD'.len; omega
        · intro f hf
          rcases List.mem_cons.1 hf with rfl | hf
          · exact hD'.mono _ hP
          · exact hP' f hf

/-! ### data: the cache stays coherent -/

/-- Declarations are unique, and `B` has the field types of all structs that it has. -/
def BClosed (ast : AST) (B : TypeMap) : Prop :=
  ((decls ast).map Prod.fst).Nodup ∧ ∀ m k, Refers ast m k → B.has m = true → B.has k = true

/-- What the cache may contain. `B` is the cache before the second pass. -/
inductive Good (ast : AST) (B c : TypeMap) (n : Str) : Str × RType → Prop
  | base (e) : B.get n = some e → Good ast B c n e
  | struct (fs : List (Str × Unresolved)) (p : Str → Bool) (rfs : List RField) :
      (n, .struct fs) ∈ decls ast → (∀ m, B.has m = true → p m = true) →
      (BClosed ast B → ∀ m k, Refers ast m k → p m = true → p k = true) →
      List.Forall₂ (FieldOk c) (fs.filter (fun f => p f.2.name) ++ fs.filter (fun f => !p f.2.name)) rfs →
      Good ast B c n (n, .struct rfs)

def Coh (ast : AST) (B c : TypeMap) : Prop := ∀ n e, c.get n = some e → Good ast B c n e

theorem Forall₂.imp' {α β : Type} {R S : α → β → Prop} (h : ∀ a b, R a b → S a b) {l : List α} {l' : List β}
    (hl : List.Forall₂ R l l') : List.Forall₂ S l l' := hl.imp (fun _ _ => h _ _)

theorem Good.ext {ast : AST} {B c c' : TypeMap} (h : Ext c c') {n e} (hg : Good ast B c n e) :
    Good ast B c' n e := by
  cases hg with
  | base e h => exact .base _ h
  | struct fs p rfs h1 h2 h3 h4 => exact .struct fs p rfs h1 h2 h3 (h4.imp fun _ _ => FieldOk.ext h)

theorem mem_partition {α : Type} (p : α → Bool) (l : List α) (x : α) :
    x ∈ l.filter p ++ l.filter (fun a => !p a) ↔ x ∈ l := by
  simp only [List.mem_append, List.mem_filter]
  cases p x <;> simp

theorem Forall₂.exists_right {α β : Type} {R : α → β → Prop} {l : List α} {l' : List β} (h : List.Forall₂ R l l')
    {a : α} (ha : a ∈ l) : ∃ b ∈ l', R a b := by
  induction h with
  | nil => simp at ha
  | cons hr _ ih =>
    rcases List.mem_cons.1 ha with rfl | ha
    · exact ⟨_, List.mem_cons_self, hr⟩
    · obtain ⟨b, hb, hR⟩ := ih ha; exact ⟨b, List.mem_cons_of_mem _ hb, hR⟩

theorem decl_unique {ast : AST} (h : ((decls ast).map Prod.fst).Nodup) {n t t'} (h1 : (n, t) ∈ decls ast)
    (h2 : (n, t') ∈ decls ast) : t = t' := by
  have := (Map.mem_iff_get (m := decls ast) h n t).1 h1
  have h3 := (Map.mem_iff_get (m := decls ast) h n t').1 h2
  rw [this] at h3; exact Option.some.inj h3

/-- The cache has the field types of all structs that it has. -/
theorem Coh.closed {ast : AST} {B c : TypeMap} (hc : Coh ast B c) (he : Ext B c) (hB : BClosed ast B) {m k : Str}
    (hr : Refers ast m k) (hm : c.has m = true) : c.has k = true := by
  obtain ⟨e, hg⟩ := (Map.has_iff _ _).1 hm
  cases hc m e hg with
  | base _ h => exact he.has (hB.2 m k hr ((Map.has_iff _ _).2 ⟨_, h⟩))
  | struct fs p rfs h1 _ _ h4 =>
    obtain ⟨fs', hd, f, hf, rfl⟩ := hr
    cases decl_unique hB.1 h1 hd
    obtain ⟨rf, -, hR⟩ := Forall₂.exists_right h4
      ((mem_partition (fun f : Str × Unresolved => p f.2.name) fs f).2 hf)
    exact (Map.has_iff _ _).2 ⟨_, hR.ty⟩

structure Done2 (ast : AST) (B : TypeMap) (st st' : SecondPass) : Prop where
  unres : ∀ n t, st'.unresolved.get n = some t → st.unresolved.get n = some t
  visited : ∀ n ∈ st.visited, n ∈ st'.visited
  ext : Ext st.cache st'.cache
  frozen : ∀ n ∈ st.visited, st.cache.has n = false → st'.cache.has n = false
  coh : Named B → Ext B st.cache → Coh ast B st.cache → Coh ast B st'.cache
  keys : st.cache.keys.Nodup → st'.cache.keys.Nodup

theorem Done2.refl (ast : AST) (B : TypeMap) (st : SecondPass) : Done2 ast B st st :=
  ⟨fun _ _ h => h, fun _ h => h, .refl _, fun _ _ h => h, fun _ _ h => h, fun h => h⟩

theorem Done2.trans {ast : AST} {B : TypeMap} {a b c : SecondPass} (h : Done2 ast B a b) (h' : Done2 ast B b c) :
    Done2 ast B a c :=
  ⟨fun n t hn => h.unres n t (h'.unres n t hn), fun n hn => h'.visited n (h.visited n hn), h.ext.trans h'.ext,
    fun n hn hf => h'.frozen n (h.visited n hn) (h.frozen n hn hf),
    fun hB he hc => h'.coh hB (he.trans h.ext) (h.coh hB he hc), fun hk => h'.keys (h.keys hk)⟩

theorem Coh.named {ast : AST} {B c : TypeMap} (hB : Named B) (h : Coh ast B c) : Named c := by
  intro n e hn
  cases h n e hn with
  | base e h => exact hB _ _ h
  | struct => rfl

theorem depsLoop_data {ast : AST} {B : TypeMap} {rec : Str → Ty → SecondPass → Except Fault SecondPass}
    (hrec : ∀ m t st st', rec m t st = .ok st' → (m, t) ∈ decls ast →
      (∀ n t, st.unresolved.get n = some t → (n, t) ∈ decls ast) → Done2 ast B st st')
    (nots : List (Str × Unresolved)) (st st' : SecondPass)
    (hu : ∀ n t, st.unresolved.get n = some t → (n, t) ∈ decls ast)
    (h : depsLoop rec nots st = .ok st') : Done2 ast B st st' := by
  induction nots generalizing st with
  | nil => simp only [depsLoop] at h; cases h; exact .refl _ _ _
  | cons x nots ih =>
    obtain ⟨fn, fty⟩ := x
    simp only [depsLoop] at h
    split at h
    · rename_i utype hg
      split at h
      · cases h
      · rename_i st1 h1
        have := hrec _ _ _ _ h1 (hu _ _ hg) (by
          intro n t hn
          simp only [Map.get_erase] at hn
          split at hn
          · cases hn
          · exact hu _ _ hn)
        have h01 : Done2 ast B st st1 := by
          refine ⟨?_, this.visited, this.ext, this.frozen, this.coh, this.keys⟩
          intro n t hn
          have := this.unres n t hn
          simp only [Map.get_erase] at this
          split at this
          · cases this
          · exact this
        exact h01.trans (ih st1 (fun n t hn => hu n t (h01.unres n t hn)) h)
    · split at h
      · exact ih st hu h
      · cases h

theorem resolveOne_data {ast : AST} {B : TypeMap} (fuel : Nat) (name : Str) (t : Ty) (st st' : SecondPass)
    (h : resolveOneSecondPass fuel name t st = .ok st') (hd : (name, t) ∈ decls ast)
    (hu : ∀ n t, st.unresolved.get n = some t → (n, t) ∈ decls ast) : Done2 ast B st st' := by
  induction fuel generalizing name t st st' with
  | zero => simp [resolveOneSecondPass] at h
  | succ fuel ih =>
    unfold resolveOneSecondPass at h
    by_cases hc : st.cache.has name = true
    · rw [if_pos hc] at h; cases h; exact .refl _ _ _
    · rw [if_neg hc] at h
      replace hc : st.cache.has name = false := by simpa using hc
      cases t with
      | enum vs => simp at h
      | struct fs =>
        simp only at h
        by_cases hv : name ∈ st.visited
        · rw [if_pos hv] at h; cases h
        · rw [if_neg hv] at h
          have hs := splitFields_spec st.cache name fs
          generalize splitFields st.cache name fs = r at hs h
          -- inserting `name`
          have fin : ∀ (st1 : SecondPass) (rfs), Done2 ast B { st with visited := name :: st.visited } st1 →
              (Named B → Ext B st.cache → Coh ast B st.cache → List.Forall₂ (FieldOk st1.cache)
                (fs.filter (fun f => st.cache.has f.2.name) ++ fs.filter (fun f => !st.cache.has f.2.name)) rfs) →
              Done2 ast B st { st1 with cache := st1.cache.insert name (name, .struct rfs) } := by
            intro st1 rfs hD hF
            have hfz := hD.frozen name (by simp) hc
            have hE : Ext st1.cache (st1.cache.insert name (name, .struct rfs)) := Ext.insert hfz
            refine ⟨hD.unres, fun n hn => hD.visited n (List.mem_cons_of_mem _ hn), hD.ext.trans hE, ?_, ?_, ?_⟩
            · intro n hn hnf
              have h1 := hD.frozen n (List.mem_cons_of_mem _ hn) hnf
              rw [Map.has_false] at h1 ⊢
              simp only [Map.get_insert]
              rw [if_neg (fun hh : name = n => hv (hh ▸ hn))]; exact h1
            · intro hB he hcoh n e hn
              simp only [Map.get_insert] at hn
              split at hn
              · rename_i hnn
                subst hnn
                cases hn
                refine Good.ext hE (.struct fs (fun m => st.cache.has m) rfs hd (fun m hm => he.has hm)
                  (fun hBc m k hr hm => hcoh.closed he hBc hr hm) ?_)
                exact hF hB he hcoh
              · exact Good.ext hE (hD.coh hB he hcoh n e hn)
            · intro hk; exact Map.nodup_insert (hD.keys hk) _ _
          cases hs with
          | err f u h1 h2 h3 => cases h
          | ok fields h1 =>
            simp only at h
            split at h
            · rename_i hemp
              cases h
              refine fin { st with visited := name :: st.visited } fields (.refl _ _ _) ?_
              intro hB he hcoh
              have hnil : fs.filter (fun f => !st.cache.has f.2.name) = [] := List.isEmpty_iff.1 hemp
              rw [hnil, List.append_nil]
              exact h1 (hcoh.named hB)
            · split at h
              · cases h
              · rename_i st1 hdep
                have hD := depsLoop_data (B := B)
                  (fun m t st st' hh hm hu' => ih m t st st' hh hm hu') _
                  { st with visited := name :: st.visited } _ hu hdep
                have hf := finishFields_spec st1.cache name (fs.filter fun f => !st.cache.has f.2.name)
                generalize finishFields _ _ _ = r3 at hf h
                cases hf with
                | err => cases h
                | panic => cases h
                | ok rfs h2 =>
                  cases h
                  refine fin st1 (fields ++ rfs) hD ?_
                  intro hB he hcoh
                  have hcoh1 := hD.coh hB he hcoh
                  exact List.rel_append ((h1 (hcoh.named hB)).imp fun _ _ => FieldOk.ext hD.ext)
                    (h2 (hcoh1.named hB))

theorem secondPassLoop_data {ast : AST} {B : TypeMap} (fuel : Nat) (l : List (Str × Ty)) (st st' : SecondPass)
    (h : secondPassLoop fuel l st = .ok st') (hl : ∀ e ∈ l, e ∈ decls ast)
    (hu : ∀ n t, st.unresolved.get n = some t → (n, t) ∈ decls ast) : Done2 ast B st st' := by
  induction l generalizing st with
  | nil => simp only [secondPassLoop] at h; cases h; exact .refl _ _ _
  | cons x l ih =>
    obtain ⟨n, t⟩ := x
    simp only [secondPassLoop] at h
    split at h
    · cases h
    · rename_i st1 h1
      have hD := resolveOne_data (B := B) _ _ _ _ _ h1 (hl _ List.mem_cons_self) hu
      exact hD.trans (ih st1 h (fun e he => hl e (List.mem_cons_of_mem _ he)) (fun n t hn => hu n t (hD.unres n t hn)))

end Packetc.Check
