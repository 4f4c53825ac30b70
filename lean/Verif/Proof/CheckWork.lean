import Verif.Model.CheckWork
import Verif.Spec.Work
import Verif.Proof.CheckUsed
import Mathlib.Algebra.Order.BigOperators.Group.List
import Mathlib.Tactic.Linarith
import Mathlib.Tactic.Ring
/-!
# Bounds for the work done by the type checker

Each struct is resolved once, and each type is passed through once when the types that are used are collected: what is still to be done is
bounded by a sum over the names that are not in `visited`.
-/

namespace Packetc.CheckW
open Ast Check WellFormed

/-! ### potentials -/

section
variable {α : Type} (key : α → Str) (w : α → Nat)

/-- The sum of the weights of those with a name that has not been visited. -/
def pot (V : List Str) : List α → Nat
  | [] => 0
  | a :: K => (if key a ∈ V then 0 else w a) + pot V K

variable {key w}

theorem pot_mono {V V' : List Str} (h : ∀ x ∈ V, x ∈ V') (K : List α) : pot key w V' K ≤ pot key w V K := by
  induction K with
  | nil => simp [pot]
  | cons a K ih =>
    simp only [pot]
    by_cases h1 : key a ∈ V
    · rw [if_pos h1, if_pos (h _ h1)]; omega
    · rw [if_neg h1]; split <;> omega

theorem pot_le {V : List Str} {K : List α} {a : α} (ha : a ∈ K) (hv : key a ∉ V) :
    w a + pot key w (key a :: V) K ≤ pot key w V K := by
  induction K with
  | nil => cases ha
  | cons b K ih =>
    simp only [pot]
    rcases List.mem_cons.1 ha with rfl | ha
    · have := pot_mono (key := key) (w := w) (V := V) (V' := key a :: V) (fun x hx => List.mem_cons_of_mem _ hx) K
      rw [if_pos List.mem_cons_self, if_neg hv]; omega
    · have := ih ha
      by_cases h1 : key b ∈ V
      · rw [if_pos h1, if_pos (List.mem_cons_of_mem _ h1)]; omega
      · rw [if_neg h1]; split <;> omega

theorem pot_nil (K : List α) : pot key w [] K = (K.map w).sum := by
  induction K with
  | nil => rfl
  | cons a K ih => simp [pot, ih]

end

/-! ### before the second pass -/

/-- A node of the syntax tree counts 1, and 1 for each variant or field. -/
def nodeSize : Node → Nat
  | .decl _ t => 1 + tySize t
  | .export _ => 1

def astSize (ast : AST) : Nat := (ast.map nodeSize).sum

theorem getExportWork_le (found : Option Str) (ast : AST) : getExportWork found ast ≤ 1 + astSize ast := by
  unfold astSize
  induction ast generalizing found with
  | nil => simp [getExportWork]
  | cons x ast ih =>
    cases x with
    | decl n t =>
      have := ih found
      cases found <;> simp only [getExportWork, List.map_cons, List.sum_cons, nodeSize] <;> omega
    | «export» n =>
      have := ih (some n)
      cases found <;> simp only [getExportWork, List.map_cons, List.sum_cons, nodeSize] <;> omega

theorem collectWork_le (cache : Map Ty) (ast : AST) : collectWork cache ast ≤ 1 + 3 * astSize ast := by
  unfold astSize
  induction ast generalizing cache with
  | nil => simp [collectWork]
  | cons x ast ih =>
    cases x with
    | decl n t =>
      have := ih (cache.insert n t)
      simp only [collectWork, List.map_cons, List.sum_cons, nodeSize]
      split <;> omega
    | «export» n =>
      have := ih cache
      simp only [collectWork, List.map_cons, List.sum_cons, nodeSize]
      omega

theorem variantsWork_le (seen vs : List Str) : variantsWork seen vs ≤ 1 + 3 * vs.length := by
  induction vs generalizing seen with
  | nil => simp [variantsWork]
  | cons v vs ih =>
    have := ih (v :: seen)
    simp only [variantsWork, List.length_cons]
    split <;> omega

theorem enumWork_le (vs : List Str) : enumWork vs ≤ 2 + 3 * vs.length := by
  have := variantsWork_le [] vs
  unfold enumWork
  split
  · omega
  · split <;> omega

theorem firstFieldsWork_le (name : Str) (b : TypeMap) (seen : List Str) (fs : List (Str × Unresolved)) :
    firstFieldsWork name b seen fs ≤ 1 + 4 * fs.length := by
  induction fs generalizing seen with
  | nil => simp [firstFieldsWork]
  | cons f fs ih =>
    obtain ⟨fname, fty⟩ := f
    have := ih (fname :: seen)
    simp only [firstFieldsWork, List.length_cons]
    split
    · omega
    · split <;> omega

theorem firstOneWork_le (name : Str) (ty : Ty) (b : TypeMap) : firstOneWork name ty b ≤ 4 + 4 * tySize ty := by
  cases ty with
  | enum vs => have := enumWork_le vs; simp only [firstOneWork, tySize]; omega
  | struct fs => have := firstFieldsWork_le name b [] fs; simp only [firstOneWork, tySize]; omega

theorem firstPassWork_le (b : TypeMap) (ast : AST) (st : FirstPass) : firstPassWork b ast st ≤ 1 + 5 * astSize ast := by
  unfold astSize
  induction ast generalizing st with
  | nil => simp [firstPassWork]
  | cons x ast ih =>
    cases x with
    | decl n t =>
      have h1 := firstOneWork_le n t b
      simp only [firstPassWork, List.map_cons, List.sum_cons, nodeSize]
      split
      · omega
      · rename_i st' _
        have := ih st'
        omega
    | «export» n =>
      have := ih st
      simp only [firstPassWork, List.map_cons, List.sum_cons, nodeSize]
      omega

theorem insert_length {V : Type} (m : Map V) (k : Str) (v : V) : (m.insert k v).length ≤ 1 + m.length := by
  have := Map.length_erase_le m k
  simp only [Map.insert, List.length_cons]
  omega

theorem firstPass_length {b : TypeMap} {ast : AST} {st st' : FirstPass} (h : resolveFirstPass b ast st = .ok st') :
    st'.resolved.length ≤ st.resolved.length + astSize ast := by
  unfold astSize
  induction ast generalizing st with
  | nil => simp only [resolveFirstPass] at h; cases h; simp
  | cons x ast ih =>
    cases x with
    | decl n t =>
      simp only [resolveFirstPass] at h
      split at h
      · cases h
      · rename_i st₁ h1
        have h2 := ih h
        have h3 : st₁.resolved.length ≤ 1 + st.resolved.length := by
          cases t with
          | enum vs =>
            simp only [resolveOneFirstPass] at h1
            split at h1
            · cases h1; exact insert_length _ _ _
            · cases h1
          | struct fs =>
            simp only [resolveOneFirstPass] at h1
            split at h1
            · cases h1
            · split at h1
              · cases h1; exact insert_length _ _ _
              · cases h1; omega
        simp only [List.map_cons, List.sum_cons, nodeSize]
        omega
    | «export» n =>
      simp only [resolveFirstPass] at h
      have := ih h
      simp only [List.map_cons, List.sum_cons, nodeSize]
      omega

/-! ### the second pass -/

/-- What is left to do in the second pass. -/
abbrev left (U : List (Str × Ty)) (V : List Str) : Nat := pot Prod.fst (fun e => 10 * tySize e.2 + 4) V U

/-- The work `w` of a call that starts with `V` visited and gives `r` is paid for by the types it visits, but for `k` steps. -/
def Paid (U : List (Str × Ty)) (V : List Str) (w k : Nat) (r : Except Fault SecondPass) : Prop :=
  match r with
  | .error _ => w ≤ k + left U V
  | .ok st => w + left U st.visited ≤ k + left U V ∧ ∀ e ∈ st.unresolved, e ∈ U

theorem Paid.error {U V w k} {e : Fault} (h : w ≤ k + left U V) : Paid U V w k (.error e) := h

theorem Paid.ok {U V w k} {st : SecondPass} (h : w + left U st.visited ≤ k + left U V) (hu : ∀ e ∈ st.unresolved, e ∈ U) :
    Paid U V w k (.ok st) := ⟨h, hu⟩

theorem mem_erase {V : Type} {m : Map V} {k : Str} {e : Str × V} (h : e ∈ m.erase k) : e ∈ m := (List.mem_filter.1 h).1

theorem depsWork_le {U : List (Str × Ty)} {rec recWork}
    (hrec : ∀ name ty st, (name, ty) ∈ U → (∀ e ∈ st.unresolved, e ∈ U) → Paid U st.visited (recWork name ty st) 2 (rec name ty st))
    (nots : List (Str × Unresolved)) : ∀ st, (∀ e ∈ st.unresolved, e ∈ U) →
      Paid U st.visited (depsWork rec recWork nots st) (1 + 4 * nots.length) (depsLoop rec nots st) := by
  induction nots with
  | nil =>
    intro st hu
    simp only [depsWork, depsLoop]
    exact .ok (by simp) hu
  | cons f nots ih =>
    intro st hu
    obtain ⟨fname, fty⟩ := f
    simp only [depsWork, depsLoop, List.length_cons]
    cases hg : st.unresolved.get fty.name with
    | some utype =>
      dsimp only
      have h1 := hrec fty.name utype { st with unresolved := st.unresolved.erase fty.name } (hu _ (Map.get_mem hg))
        (fun e he => hu e (mem_erase he))
      cases hr : rec fty.name utype { st with unresolved := st.unresolved.erase fty.name } with
      | error e =>
        rw [hr] at h1
        have h1 : _ ≤ 2 + left U st.visited := h1
        exact .error (by dsimp only; omega)
      | ok st' =>
        rw [hr] at h1
        obtain ⟨h1, h2⟩ : _ + _ ≤ 2 + left U st.visited ∧ _ := h1
        have h3 := ih st' h2
        dsimp only
        cases hd : depsLoop rec nots st' with
        | error e =>
          rw [hd] at h3
          have h3 : _ ≤ _ := h3
          exact .error (by omega)
        | ok st'' =>
          rw [hd] at h3
          obtain ⟨h3, h4⟩ := h3
          exact .ok (by omega) h4
    | none =>
      dsimp only
      split
      · have h3 := ih st hu
        cases hd : depsLoop rec nots st with
        | error e =>
          rw [hd] at h3
          have h3 : _ ≤ _ := h3
          exact .error (by omega)
        | ok st'' =>
          rw [hd] at h3
          obtain ⟨h3, h4⟩ := h3
          exact .ok (by omega) h4
      · exact .error (by omega)

theorem splitFields_length {c : TypeMap} {name : Str} {fs : List (Str × Unresolved)} {fields nots}
    (h : splitFields c name fs = .ok (fields, nots)) : nots.length ≤ fs.length := by
  have hs := splitFields_spec c name fs
  rw [h] at hs
  cases hs
  exact List.length_filter_le _ _

theorem secondOneWork_le (U : List (Str × Ty)) (fuel : Nat) : ∀ name ty st, (name, ty) ∈ U → (∀ e ∈ st.unresolved, e ∈ U) →
    Paid U st.visited (secondOneWork fuel name ty st) 2 (resolveOneSecondPass fuel name ty st) := by
  induction fuel with
  | zero => intro name ty st _ _; exact .error (Nat.zero_le _)
  | succ fuel ih =>
    intro name ty st hm hu
    simp only [secondOneWork, resolveOneSecondPass]
    split
    · exact .ok (by omega) hu
    · cases ty with
      | enum vs => exact .error (by dsimp only; omega)
      | struct s =>
        dsimp only
        split
        · exact .error (by omega)
        · rename_i hv
          have hp : 10 * s.length + 4 + left U (name :: st.visited) ≤ left U st.visited :=
            pot_le (key := Prod.fst) (w := fun e : Str × Ty => 10 * tySize e.2 + 4) hm hv
          cases hs : splitFields st.cache name s with
          | error e => exact .error (by dsimp only; omega)
          | ok p =>
            obtain ⟨fields, nots⟩ := p
            have hl := splitFields_length hs
            dsimp only
            split
            · exact .ok (by dsimp only; omega) hu
            · have hd := depsWork_le ih nots { st with visited := name :: st.visited } hu
              cases hr : depsLoop (resolveOneSecondPass fuel) nots { st with visited := name :: st.visited } with
              | error e =>
                rw [hr] at hd
                have hd : _ ≤ _ + left U (name :: st.visited) := hd
                exact .error (by dsimp only; omega)
              | ok st' =>
                rw [hr] at hd
                obtain ⟨hd, hu'⟩ : _ ≤ _ + left U (name :: st.visited) ∧ _ := hd
                dsimp only
                split
                · exact .error (by omega)
                · exact .ok (by dsimp only; omega) hu'

theorem secondLoopWork_le (U : List (Str × Ty)) (fuel : Nat) : ∀ (l : List (Str × Ty)) st, (∀ e ∈ l, e ∈ U) → (∀ e ∈ st.unresolved, e ∈ U) →
    secondLoopWork fuel l st ≤ 1 + 3 * l.length + left U st.visited := by
  intro l
  induction l with
  | nil => intro st _ _; simp [secondLoopWork]
  | cons e l ih =>
    intro st hl hu
    obtain ⟨name, ty⟩ := e
    have h1 := secondOneWork_le U fuel name ty st (hl _ List.mem_cons_self) hu
    simp only [secondLoopWork, List.length_cons]
    cases hr : resolveOneSecondPass fuel name ty st with
    | error e =>
      rw [hr] at h1
      have h1 : _ ≤ _ := h1
      dsimp only
      omega
    | ok st' =>
      rw [hr] at h1
      obtain ⟨h1, h2⟩ := h1
      have := ih st' (fun e he => hl e (List.mem_cons_of_mem _ he)) h2
      dsimp only
      omega

theorem secondPassWork_le {ord : List (Str × Ty) → List (Str × Ty)} (hord : FairOrd ord) (cache : TypeMap) (U : Map Ty) :
    secondPassWork ord cache U ≤ 1 + 11 * (U.map fun e => 1 + tySize e.2).sum := by
  have h1 := secondLoopWork_le U (U.length + 1) (ord U) ⟨cache, [], U⟩ (fun e he => (hord U).mem_iff.1 he) (fun e he => he)
  have h2 : 3 * (ord U).length + left U [] ≤ 10 * (U.map fun e => 1 + tySize e.2).sum := by
    rw [(hord U).length_eq]
    unfold left
    rw [pot_nil]
    induction U with
    | nil => simp
    | cons e U ih =>
      simp only [List.map_cons, List.sum_cons, List.length_cons] at ih ⊢
      have := ih (by
        exact secondLoopWork_le U (U.length + 1) (ord U) ⟨cache, [], U⟩ (fun e he => (hord U).mem_iff.1 he) (fun e he => he))
      omega
  unfold secondPassWork
  dsimp only at h1
  omega

/-! ### the types that are used -/

/-- The fields of a resolved type. -/
def fieldCount : RType → Nat
  | .struct fs => fs.length
  | _ => 0

section
variable (K : List Str) (T : Str → RType)

/-- What is left to do when the names that are used are collected. -/
abbrev todo (V : List Str) : Nat := pot id (fun n => 3 * fieldCount (T n) + 2) V K

/-- The fields have names in `K`, and the types that `T` gives. -/
def Inside (fs : List RField) : Prop := ∀ f ∈ fs, f.tyName ∈ K ∧ T f.tyName = f.ty

variable {K T}

mutual
theorem collectUsedWork_le (hT : ∀ n fs, T n = .struct fs → Inside K T fs) (V : List Str) (name : Str) : (ty : RType) → T name = ty →
    collectUsedWork V name ty + todo K T (collectUsed V name ty) ≤ 2 + 3 * fieldCount ty + todo K T (name :: V)
  | .builtin b, _ => by simp only [collectUsedWork, collectUsed, fieldCount]; omega
  | .enum b, _ => by simp only [collectUsedWork, collectUsed, fieldCount]; omega
  | .struct fs, hn => by
    have := collectFieldsWork_le hT (name :: V) fs (hT _ _ hn)
    simp only [collectUsedWork, collectUsed, fieldCount]
    omega
theorem collectFieldsWork_le (hT : ∀ n fs, T n = .struct fs → Inside K T fs) (V : List Str) : (fs : List (FieldOf RType)) → Inside K T fs →
    collectFieldsWork V fs + todo K T (collectUsedFields V fs) ≤ 1 + 2 * fs.length + todo K T V
  | [], _ => by simp only [collectFieldsWork, collectUsedFields, List.length_nil]; omega
  | f :: fs, h => by
    have h1 := collectFieldWork_le hT V f (h f List.mem_cons_self)
    have h2 := collectFieldsWork_le hT (collectUsedField V f) fs (fun g hg => h g (List.mem_cons_of_mem _ hg))
    simp only [collectFieldsWork, collectUsedFields, List.length_cons]
    omega
theorem collectFieldWork_le (hT : ∀ n fs, T n = .struct fs → Inside K T fs) (V : List Str) : (f : FieldOf RType) → f.tyName ∈ K ∧ T f.tyName = f.ty →
    collectFieldWork V f + todo K T (collectUsedField V f) ≤ 2 + todo K T V
  | ⟨_, tyName, ty, _, _⟩, h => by
    simp only at h
    simp only [collectFieldWork, collectUsedField]
    split
    · omega
    · rename_i hv
      have h1 := collectUsedWork_le hT V tyName ty h.2
      have h2 := pot_le (key := id) (w := fun n => 3 * fieldCount (T n) + 2) h.1 hv
      simp only [id, h.2] at h2
      unfold todo at h1 ⊢
      omega
end

theorem exportVisitedWork_le (hT : ∀ n fs, T n = .struct fs → Inside K T fs) (V : List Str) (fs : List RField) (h : Inside K T fs) :
    exportVisitedWork V fs + todo K T (exportVisited V fs) ≤ 1 + 3 * fs.length + 3 * (fs.map fun f => fieldCount f.ty).sum + todo K T V := by
  induction fs generalizing V with
  | nil => simp [exportVisitedWork, exportVisited]
  | cons f fs ih =>
    have h1 := collectUsedWork_le hT V f.tyName f.ty (h f List.mem_cons_self).2
    have h2 := ih (collectUsed V f.tyName f.ty) (fun g hg => h g (List.mem_cons_of_mem _ hg))
    have h3 : todo K T (f.tyName :: V) ≤ todo K T V := pot_mono (fun x hx => List.mem_cons_of_mem _ hx) K
    simp only [exportVisitedWork, exportVisited, List.length_cons, List.map_cons, List.sum_cons]
    omega
end

/-- The exported struct's fields are passed through once each, together with the fields of their types. -/
theorem exportVisitedWork_ge (V : List Str) (fs : List RField) :
    (fs.map fun f => fieldCount f.ty).sum + fs.length ≤ exportVisitedWork V fs := by
  induction fs generalizing V with
  | nil => simp [exportVisitedWork]
  | cons f fs ih =>
    have h2 := ih (collectUsed V f.tyName f.ty)
    have h1 : fieldCount f.ty ≤ collectUsedWork V f.tyName f.ty := by
      cases f.ty <;> simp only [fieldCount, collectUsedWork] <;> omega
    simp only [exportVisitedWork, List.length_cons, List.map_cons, List.sum_cons]
    omega

/-! ### all of `type_check` -/

theorem declFields_of {ast : AST} (hn : ((decls ast).map Prod.fst).Nodup) {n : Str} {t : Ty} (h : (n, t) ∈ decls ast) :
    declFields ast n = structSize t := by
  unfold declFields
  generalize decls ast = l at hn h
  induction l with
  | nil => cases h
  | cons d l ih =>
    obtain ⟨m, u⟩ := d
    simp only [List.map_cons, List.sum_cons, List.nodup_cons] at hn ⊢
    rcases List.mem_cons.1 h with he | h
    · cases he
      have : (l.map fun d => if d.1 = n then structSize d.2 else 0).sum = 0 := by
        refine List.sum_eq_zero fun x hx => ?_
        obtain ⟨d, hd, rfl⟩ := List.mem_map.1 hx
        rw [if_neg]
        rintro rfl
        exact hn.1 (List.mem_map_of_mem hd)
      rw [this, if_pos rfl]
      rfl
    · rw [ih hn.2 h, if_neg, Nat.zero_add]
      rintro rfl
      exact hn.1 (List.mem_map_of_mem h)

theorem declFields_none {ast : AST} {n : Str} (h : ¬ Declared ast n) : declFields ast n = 0 := by
  refine List.sum_eq_zero fun x hx => ?_
  obtain ⟨d, hd, rfl⟩ := List.mem_map.1 hx
  rw [if_neg]
  rintro rfl
  exact h ⟨_, hd⟩

theorem decls_size (ast : AST) : ((decls ast).map fun e => 1 + tySize e.2).sum ≤ astSize ast := by
  unfold astSize decls
  induction ast with
  | nil => simp
  | cons x ast ih =>
    cases x with
    | decl n t => simp only [List.filterMap_cons, List.map_cons, List.sum_cons, nodeSize]; omega
    | «export» n => simp only [List.filterMap_cons, List.map_cons, List.sum_cons, nodeSize]; omega

theorem tySize_le {ast : AST} {n : Str} {t : Ty} (h : (n, t) ∈ decls ast) : tySize t ≤ astSize ast := by
  have h1 := decls_size ast
  have h2 := List.single_le_sum (l := (decls ast).map fun e => 1 + tySize e.2) (by simp) _ (List.mem_map_of_mem h)
  dsimp only at h2
  omega

theorem collect_size {ast : AST} {u : Map Ty} (h : collectTypes ast = .ok u) :
    (u.map fun e => 1 + tySize e.2).sum ≤ astSize ast := by
  have hu := collectTypes_ok h
  have hp : u.Perm (decls ast) := by
    refine (List.perm_ext_iff_of_nodup (List.Nodup.of_map _ hu.keys) (List.Nodup.of_map _ hu.nodup)).2 ?_
    rintro ⟨n, t⟩
    rw [Map.mem_iff_get hu.keys, hu.mem]
  rw [(hp.map _).sum_eq]
  exact decls_size ast

theorem final_fieldCount {ast : AST} {c : TypeMap} (h : Final ast c) {n : Str} {r} (hg : c.get n = some (n, r)) :
    fieldCount r = declFields ast n := by
  by_cases hd : Declared ast n
  · obtain ⟨t, ht⟩ := hd
    rw [declFields_of h.nodup ht]
    cases t with
    | enum vs =>
      have := (h.enum n vs ht).2
      rw [hg] at this; cases this; rfl
    | struct fs =>
      obtain ⟨-, rfs, p, h1, -, -, h4⟩ := h.struct n fs ht
      rw [hg] at h1; cases h1
      show rfs.length = fs.length
      rw [← h4.length_eq]
      exact (perm_partition (fun f : Str × Unresolved => p f.2.name) fs).length_eq
  · rw [declFields_none hd]
    by_cases hb : n ∈ builtinNames
    · rw [h.builtin n hb] at hg
      obtain ⟨b, hb⟩ := builtins_not_struct hg
      cases hb; rfl
    · rw [h.other n hb hd] at hg; cases hg

theorem sum_declFields (ast : AST) (hn : ((decls ast).map Prod.fst).Nodup) :
    (((decls ast).map Prod.fst).map fun n => 3 * declFields ast n + 2).sum ≤ 3 * astSize ast := by
  refine le_trans ?_ (Nat.mul_le_mul_left 3 (decls_size ast))
  rw [List.map_map]
  have : ∀ l : List (Str × Ty), (∀ d ∈ l, d ∈ decls ast) →
      (l.map ((fun n => 3 * declFields ast n + 2) ∘ Prod.fst)).sum ≤ 3 * (l.map fun e => 1 + tySize e.2).sum := by
    intro l
    induction l with
    | nil => simp
    | cons d l ih =>
      intro hl
      have h1 := ih fun d hd => hl d (List.mem_cons_of_mem _ hd)
      have h2 : declFields ast d.1 ≤ tySize d.2 := by
        rw [declFields_of hn (hl d List.mem_cons_self)]
        cases d.2 with
        | struct fs => exact Nat.le_refl _
        | enum vs => exact Nat.zero_le _
      simp only [List.map_cons, List.sum_cons, Function.comp]
      omega
  exact this _ fun _ h => h

theorem builtin_not_declared {ast : AST} (hnb : NoBuiltinDecl ast) {n : Str} (h : n ∈ builtinNames) : declFields ast n = 0 :=
  declFields_none fun hd => hnb n hd h

theorem nestedFields_of {ast : AST} (hn : ((decls ast).map Prod.fst).Nodup) {e : Str} {fs} (he : exports ast = [e])
    (h : (e, .struct fs) ∈ decls ast) : nestedFields ast = (fs.map fun f => declFields ast f.2.name).sum := by
  unfold nestedFields
  rw [he]
  generalize declFields ast = g
  generalize decls ast = l at hn h
  induction l with
  | nil => cases h
  | cons d l ih =>
    obtain ⟨m, u⟩ := d
    simp only [List.map_cons, List.sum_cons, List.nodup_cons] at hn ⊢
    rcases List.mem_cons.1 h with h | h
    · cases h
      have : (l.map fun d => if d.1 ∈ [e] then fieldSum g d.2 else 0).sum = 0 := by
        refine List.sum_eq_zero fun x hx => ?_
        obtain ⟨d, hd, rfl⟩ := List.mem_map.1 hx
        rw [if_neg]
        intro hh
        rw [List.mem_singleton] at hh
        exact hn.1 (hh ▸ List.mem_map_of_mem hd)
      rw [this, if_pos List.mem_cons_self]
      rfl
    · rw [ih hn.2 h, if_neg, Nat.zero_add]
      intro hh
      rw [List.mem_singleton] at hh
      exact hn.1 (hh ▸ List.mem_map_of_mem h)

theorem sum_fieldCount {ast : AST} {c : TypeMap} (h : Final ast c) {fs : List (Str × Unresolved)} {rfs : List RField}
    (hf : List.Forall₂ (FieldOk c) fs rfs) : (rfs.map fun f => fieldCount f.ty).sum = (fs.map fun f => declFields ast f.2.name).sum := by
  induction hf with
  | nil => rfl
  | cons h1 _ ih => simp only [List.map_cons, List.sum_cons, ih, final_fieldCount h h1.ty]

theorem final_nested {ast : AST} {c : TypeMap} (h : Final ast c) {e : Str} {rfs} (he : exports ast = [e])
    (hg : c.get e = some (e, .struct rfs)) : (rfs.map fun f => fieldCount f.ty).sum = nestedFields ast := by
  obtain ⟨fs, fs', hd, hp, hf⟩ := h.fields hg
  rw [nestedFields_of h.nodup he hd, sum_fieldCount h hf, (hp.map _).sum_eq]

theorem final_key {ast : AST} {c : TypeMap} (h : Final ast c) {n : Str} {r} (hg : c.get n = some r) :
    n ∈ builtinNames ++ (decls ast).map Prod.fst := by
  rw [List.mem_append]
  by_cases hb : n ∈ builtinNames
  · exact Or.inl hb
  · refine Or.inr (mem_decl_names.2 ?_)
    refine Classical.byContradiction fun hd => ?_
    rw [h.other n hb hd] at hg; cases hg

theorem final_length {ast : AST} {c : TypeMap} (h : Final ast c) : c.length ≤ 8 + astSize ast := by
  have h1 : c.keys.length ≤ (builtinNames ++ (decls ast).map Prod.fst).length := by
    refine (List.subperm_of_subset h.keys ?_).length_le
    intro n hn
    obtain ⟨⟨m, r⟩, hm, rfl⟩ := List.mem_map.1 hn
    exact final_key h (Map.mem_get h.keys hm)
  have h2 : (decls ast).length ≤ ((decls ast).map fun e => 1 + tySize e.2).sum := by
    generalize decls ast = l
    induction l with
    | nil => simp
    | cons d l ih => simp only [List.map_cons, List.sum_cons, List.length_cons]; omega
  have h3 := decls_size ast
  simp only [Map.keys, List.length_map, List.length_append, show builtinNames.length = 8 from rfl] at h1
  omega

theorem final_inside {ast : AST} {c : TypeMap} (h : Final ast c) (n : Str) (rfs : List RField) (hn : typeOf c n = .struct rfs) :
    Inside (builtinNames ++ (decls ast).map Prod.fst) (typeOf c) rfs := by
  intro f hf
  refine ⟨?_, h.closed n rfs hn f hf⟩
  rcases h.typeOf_cases n with hg | hg
  · rw [hn] at hg
    obtain ⟨fs, fs', _, _, h3⟩ := h.fields hg
    obtain ⟨a, ha, hR⟩ := Forall₂.exists_left h3 hf
    rw [hR.tyName]
    exact final_key h hR.ty
  · rw [hn] at hg
    cases hg
    cases hf

theorem final_todo_le {ast : AST} {c : TypeMap} (h : Final ast c) (hnb : NoBuiltinDecl ast) (V : List Str) :
    todo (builtinNames ++ (decls ast).map Prod.fst) (typeOf c) V ≤ 16 + 3 * astSize ast := by
  have hc : ∀ n, fieldCount (typeOf c n) = declFields ast n := by
    intro n
    cases hg : c.get n with
    | some r =>
      obtain ⟨m, r⟩ := r
      have := h.named n _ hg
      dsimp only at this
      subst this
      rw [← final_fieldCount h hg]
      unfold typeOf
      rw [hg]; rfl
    | none =>
      have h1 : typeOf c n = .struct [] := by unfold typeOf; rw [hg]; rfl
      rw [h1, declFields_none]
      · rfl
      · rintro ⟨t, ht⟩
        cases t with
        | enum vs => rw [(h.enum n vs ht).2] at hg; cases hg
        | struct fs =>
          obtain ⟨-, rfs, p, h1, -⟩ := h.struct n fs ht
          rw [h1] at hg; cases hg
  have h1 := sum_declFields ast h.nodup
  have h2 : todo (builtinNames ++ (decls ast).map Prod.fst) (typeOf c) V ≤
      todo (builtinNames ++ (decls ast).map Prod.fst) (typeOf c) [] := pot_mono (by simp) _
  unfold todo at h2 ⊢
  rw [pot_nil, List.map_append, List.sum_append] at h2
  have h3 : (builtinNames.map fun n => 3 * fieldCount (typeOf c n) + 2).sum = 16 := by
    have : builtinNames.map (fun n => 3 * fieldCount (typeOf c n) + 2) = builtinNames.map fun _ => 2 :=
      List.map_congr_left fun n hn => by rw [hc, builtin_not_declared hnb hn]
    rw [this]; rfl
  have h4 : (((decls ast).map Prod.fst).map fun n => 3 * fieldCount (typeOf c n) + 2) =
      (((decls ast).map Prod.fst).map fun n => 3 * declFields ast n + 2) :=
    List.map_congr_left fun n _ => by rw [hc]
  rw [h3, h4] at h2
  omega

theorem resolveExportWork_le {ast : AST} {c : TypeMap} (h : Final ast c) (hnb : NoBuiltinDecl ast) {e : Str} (he : exports ast = [e]) :
    resolveExportWork e c ≤ 35 + 9 * astSize ast + 3 * nestedFields ast := by
  unfold resolveExportWork
  cases hg : c.get e with
  | none => dsimp only; omega
  | some x =>
    obtain ⟨m, r⟩ := x
    have := h.named e _ hg
    dsimp only at this
    subst this
    cases r with
    | builtin b => dsimp only [RType.getStruct]; omega
    | enum b => dsimp only [RType.getStruct]; omega
    | struct rfs =>
      dsimp only [RType.getStruct]
      have hty : typeOf c m = .struct rfs := by unfold typeOf; rw [hg]; rfl
      have h1 := exportVisitedWork_le (final_inside h) [m] rfs (final_inside h m rfs hty)
      have h2 := final_todo_le h hnb [m]
      have h3 := final_length h
      rw [final_nested h he hg] at h1
      have h5 : rfs.length ≤ astSize ast := by
        obtain ⟨fs, fs', hd, hp, hf⟩ := h.fields hg
        rw [← hf.length_eq, hp.length_eq]
        exact tySize_le hd
      omega

theorem resolveExportWork_ge {ast : AST} {c : TypeMap} (h : Final ast c) {e : Str} {rfs} (he : exports ast = [e])
    (hg : c.get e = some (e, .struct rfs)) : nestedFields ast ≤ resolveExportWork e c := by
  unfold resolveExportWork
  rw [hg]
  dsimp only [RType.getStruct]
  have := exportVisitedWork_ge [e] rfs
  rw [final_nested h he hg] at this
  omega

theorem nestedFields_le (ast : AST) (hn : ((decls ast).map Prod.fst).Nodup) {e : Str} (he : exports ast = [e]) :
    nestedFields ast ≤ astSize ast * astSize ast := by
  by_cases h : ∃ fs, (e, Ty.struct fs) ∈ decls ast
  · obtain ⟨fs, h⟩ := h
    rw [nestedFields_of hn he h]
    have h1 : (fs.map fun f => declFields ast f.2.name).sum ≤ fs.length * astSize ast := by
      have h2 := List.sum_le_card_nsmul (fs.map fun f => declFields ast f.2.name) (astSize ast) ?_
      · rw [List.length_map] at h2
        exact h2
      intro x hx
      obtain ⟨f, hf, rfl⟩ := List.mem_map.1 hx
      by_cases hd : Declared ast f.2.name
      · obtain ⟨t, ht⟩ := hd
        rw [declFields_of hn ht]
        refine le_trans ?_ (tySize_le ht)
        cases t with
        | struct fs => exact Nat.le_refl _
        | enum vs => exact Nat.zero_le _
      · rw [declFields_none hd]; exact Nat.zero_le _
    exact le_trans h1 (Nat.mul_le_mul_right _ (tySize_le h))
  · have : nestedFields ast = 0 := by
      refine List.sum_eq_zero fun x hx => ?_
      obtain ⟨⟨m, t⟩, hd, rfl⟩ := List.mem_map.1 hx
      dsimp only
      rw [he]
      split
      · rename_i hm
        rw [List.mem_singleton] at hm
        subst hm
        cases t with
        | enum vs => rfl
        | struct fs => exact absurd ⟨fs, hd⟩ h
      · rfl
    omega

/-- The work of the checker, up to the term for the exported struct. -/
theorem typeCheckWork_cases {ord : List (Str × Ty) → List (Str × Ty)} (hord : FairOrd ord) {ast : AST} (hnb : NoBuiltinDecl ast) :
    (typeCheckWork ord ast ≤ 20 + 21 * astSize ast ∧ ∃ f, typeCheck ord ast = .error f) ∨
    ∃ e c, ((decls ast).map Prod.fst).Nodup ∧ exports ast = [e] ∧ Final ast c ∧ typeCheck ord ast = resolveExport e c ∧
      resolveExportWork e c ≤ typeCheckWork ord ast ∧ typeCheckWork ord ast ≤ 20 + 21 * astSize ast + resolveExportWork e c := by
  have w1 := getExportWork_le none ast
  have w2 := collectWork_le [] ast
  unfold typeCheckWork typeCheck
  cases hx : getExport ast with
  | error f => exact .inl ⟨by dsimp only; omega, f, rfl⟩
  | ok e =>
    have he : exports ast = [e] := by
      rw [getExport_eq] at hx
      rcases he : exports ast with _ | ⟨e', _ | ⟨e'', l⟩⟩ <;> rw [he] at hx <;> cases hx
      rfl
    dsimp only
    cases hu : collectTypes ast with
    | error f => exact .inl ⟨by dsimp only; omega, f, rfl⟩
    | ok u =>
      have w3 := firstPassWork_le getBuiltins ast ⟨[], u⟩
      dsimp only
      cases hf : resolveFirstPass getBuiltins ast ⟨[], u⟩ with
      | error f => exact .inl ⟨by dsimp only; omega, f, rfl⟩
      | ok fp =>
        have w4 := firstPass_length hf
        have w5 := secondPassWork_le hord (mergeMaps getBuiltins fp.resolved) fp.unresolved
        have hb := between hu hf
        have w6 : (fp.unresolved.map fun e => 1 + tySize e.2).sum ≤ astSize ast := by
          refine le_trans ?_ (collect_size hu)
          have hs := (resolveFirstPass_ok hf hb.nodup (by simp [Map.keys])).2.1
          exact List.Sublist.sum_le_sum (hs.map _) (by simp)
        have h2 := resolveSecondPass_spec hb (mergeMaps_keys _ _ builtins_nodup) hord
        dsimp only at w4 ⊢
        cases hr : resolveSecondPass ord (mergeMaps getBuiltins fp.resolved) fp.unresolved with
        | error f =>
          dsimp only
          simp only [List.length_nil] at w4
          exact .inl ⟨by omega, f, rfl⟩
        | ok c =>
          rw [hr] at h2
          cases h2 with
          | ok _ hA =>
            right
            dsimp only
            simp only [List.length_nil] at w4
            exact ⟨e, c, hb.nodup, he, hA.final hnb, rfl, by omega, by omega⟩

end Packetc.CheckW
