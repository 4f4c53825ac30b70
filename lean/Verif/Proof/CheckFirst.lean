import Verif.Proof.CheckMap
import Verif.Spec.Resolved
import Mathlib.Tactic.Set
import Mathlib.Tactic.Tauto
/-!
# Export, declarations and first pass of the checker
-/

namespace Packetc.Check
open Ast WellFormed

/-! ### exports and declarations -/

@[simp] theorem exports_nil : exports [] = [] := rfl
@[simp] theorem exports_decl (n t ast) : exports (.decl n t :: ast) = exports ast := rfl
@[simp] theorem exports_export (n ast) : exports (.export n :: ast) = n :: exports ast := rfl
@[simp] theorem decls_nil : decls [] = [] := rfl
@[simp] theorem decls_decl (n t ast) : decls (.decl n t :: ast) = (n, t) :: decls ast := rfl
@[simp] theorem decls_export (n ast) : decls (.export n :: ast) = decls ast := rfl

theorem getExportLoop_some (e : Str) (ast : AST) :
    getExportLoop (some e) ast =
      match exports ast with
      | [] => .ok (some e)
      | _ :: _ => .error (.err .moreThanOneExport) := by
  induction ast with
  | nil => rfl
  | cons x ast ih =>
    cases x with
    | decl n t => simp [getExportLoop, ih]
    | «export» n => simp [getExportLoop]

theorem getExportLoop_none (ast : AST) :
    getExportLoop none ast =
      match exports ast with
      | [] => .ok none
      | [e] => .ok (some e)
      | _ :: _ :: _ => .error (.err .moreThanOneExport) := by
  induction ast with
  | nil => rfl
  | cons x ast ih =>
    cases x with
    | decl n t => simp [getExportLoop, ih]
    | «export» n =>
      simp only [getExportLoop, getExportLoop_some, exports_export]
      cases exports ast <;> rfl

theorem getExport_eq (ast : AST) :
    getExport ast =
      match exports ast with
      | [] => .error (.err .noExport)
      | [e] => .ok e
      | _ :: _ :: _ => .error (.err .moreThanOneExport) := by
  unfold getExport
  rw [getExportLoop_none]
  rcases exports ast with _ | ⟨a, _ | ⟨b, l⟩⟩ <;> rfl

theorem getExport_ok_iff (ast : AST) (e : Str) : getExport ast = .ok e ↔ exports ast = [e] := by
  rw [getExport_eq]
  rcases exports ast with _ | ⟨a, _ | ⟨b, l⟩⟩ <;> simp

theorem collectLoop_ok {cache : Map Ty} {ast : AST} {u : Map Ty} (h : collectLoop cache ast = .ok u)
    (hc : cache.keys.Nodup) :
    u.keys.Nodup ∧ (decls ast |>.map Prod.fst).Nodup ∧
    (∀ n t, (n, t) ∈ decls ast → cache.get n = none) ∧
    (∀ n t, u.get n = some t ↔ cache.get n = some t ∨ (n, t) ∈ decls ast) := by
  induction ast generalizing cache with
  | nil => simp only [collectLoop] at h; cases h; simp [hc]
  | cons x ast ih =>
    cases x with
    | «export» n => simp only [collectLoop] at h; simpa using ih h hc
    | decl n t =>
      simp only [collectLoop] at h
      split at h
      · cases h
      · rename_i hn
        have hn : cache.get n = none := by simpa [Map.has_false] using hn
        obtain ⟨h1, h2, h3, h4⟩ := ih h (Map.nodup_insert hc n t)
        refine ⟨h1, ?_, ?_, ?_⟩
        · simp only [decls_decl, List.map_cons, List.nodup_cons]
          refine ⟨fun hm => ?_, h2⟩
          obtain ⟨⟨n', t'⟩, hm', rfl⟩ := List.mem_map.1 hm
          have := h3 _ _ hm'
          rw [Map.get_insert] at this; simp at this
        · intro n' t' hm
          simp only [decls_decl, List.mem_cons, Prod.mk.injEq] at hm
          rcases hm with ⟨rfl, rfl⟩ | hm
          · exact hn
          · have := h3 _ _ hm
            rw [Map.get_insert] at this; split at this
            · cases this
            · exact this
        · intro n' t'
          rw [h4, Map.get_insert]
          by_cases hnn : n = n'
          · subst hnn; simp [hn, eq_comm]
          · simp [hnn, Ne.symm hnn]

theorem collectLoop_err {cache : Map Ty} {ast : AST} {e : Fault} (h : collectLoop cache ast = .error e) :
    ∃ n pre post, e = .err (.duplicateDecl n) ∧ (decls ast).map Prod.fst = pre ++ n :: post ∧
      pre.Nodup ∧ (∀ p ∈ pre, cache.get p = none) ∧ (n ∈ pre ∨ cache.has n) := by
  induction ast generalizing cache with
  | nil => simp [collectLoop] at h
  | cons x ast ih =>
    cases x with
    | «export» n => simp only [collectLoop] at h; simpa using ih h
    | decl n t =>
      simp only [collectLoop] at h
      split at h
      · rename_i hn
        cases h
        exact ⟨n, [], (decls ast).map Prod.fst, rfl, by simp, by simp, by simp, Or.inr hn⟩
      · rename_i hn
        obtain ⟨m, pre, post, h1, h2, h3, h4, h5⟩ := ih h
        have hn : cache.get n = none := by simpa [Map.has_false] using hn
        refine ⟨m, n :: pre, post, h1, by simp [h2], ?_, ?_, ?_⟩
        · refine List.nodup_cons.2 ⟨fun hm => ?_, h3⟩
          have := h4 _ hm
          rw [Map.get_insert] at this; simp at this
        · intro p hp
          rcases List.mem_cons.1 hp with rfl | hp
          · exact hn
          · have := h4 _ hp
            rw [Map.get_insert] at this; split at this
            · cases this
            · exact this
        · rcases h5 with h5 | h5
          · exact Or.inl (List.mem_cons_of_mem _ h5)
          · rw [Map.has_iff] at h5
            obtain ⟨v, h5⟩ := h5
            rw [Map.get_insert] at h5
            split at h5
            · rename_i hnm; exact Or.inl (by simp [hnm])
            · exact Or.inr ((Map.has_iff _ _).2 ⟨v, h5⟩)

theorem collectTypes_err {ast : AST} {e : Fault} (h : collectTypes ast = .error e) :
    ∃ n, e = .err (.duplicateDecl n) ∧ FirstRepeat ((decls ast).map Prod.fst) n := by
  obtain ⟨n, pre, post, h1, h2, h3, _, h5⟩ := collectLoop_err h
  refine ⟨n, h1, pre, post, h2, h3, ?_⟩
  simpa [Map.has] using h5

theorem _root_.Packetc.WellFormed.FirstRepeat.not_nodup {names : List Str} {n : Str} (h : FirstRepeat names n) : ¬ names.Nodup := by
  obtain ⟨pre, post, rfl, _, hn⟩ := h
  intro hd
  exact (List.nodup_append.1 hd).2.2 _ hn _ (by simp) rfl

theorem _root_.Packetc.WellFormed.FirstRepeat.unique {names : List Str} {n m : Str} (h : FirstRepeat names n) (h' : FirstRepeat names m) :
    n = m := by
  obtain ⟨p, q, rfl, hp, hn⟩ := h
  obtain ⟨p', q', he, hp', hm⟩ := h'
  rcases List.append_eq_append_iff.1 he with ⟨as, h1, h2⟩ | ⟨bs, h1, h2⟩
  · cases as with
    | nil => simp at h2; exact h2.1
    | cons a as =>
      simp only [List.cons_append, List.cons.injEq] at h2
      rw [h1, ← h2.1] at hp'
      exact absurd rfl ((List.nodup_append.1 hp').2.2 _ hn _ (by simp))
  · cases bs with
    | nil => simp at h2; exact h2.1.symm
    | cons a as =>
      simp only [List.cons_append, List.cons.injEq] at h2
      rw [h1, ← h2.1] at hp
      exact absurd rfl ((List.nodup_append.1 hp).2.2 _ hm _ (by simp))

/-- What `collect_types` returns. -/
structure IsDecls (ast : AST) (u : Map Ty) : Prop where
  nodup : ((decls ast).map Prod.fst).Nodup
  keys : u.keys.Nodup
  mem : ∀ n t, u.get n = some t ↔ (n, t) ∈ decls ast

theorem collectTypes_ok {ast : AST} {u : Map Ty} (h : collectTypes ast = .ok u) : IsDecls ast u := by
  obtain ⟨h1, h2, _, h4⟩ := collectLoop_ok h (by simp [Map.keys])
  exact ⟨h2, h1, by simpa using h4⟩

theorem collectTypes_ok_iff (ast : AST) :
    (∃ u, collectTypes ast = .ok u) ↔ ((decls ast).map Prod.fst).Nodup := by
  constructor
  · rintro ⟨u, h⟩; exact (collectTypes_ok h).nodup
  · intro hn
    cases h : collectTypes ast with
    | ok u => exact ⟨u, rfl⟩
    | error e =>
      obtain ⟨n, _, hf⟩ := collectTypes_err h
      exact absurd hn hf.not_nodup

/-! ### fields -/

/-- Every entry is stored under its own name. -/
def Named (c : TypeMap) : Prop := ∀ n e, c.get n = some e → e.1 = n

/-- `rf` is the resolution of the declared field `f` with respect to the map `c`. -/
structure FieldOk (c : TypeMap) (f : Str × Unresolved) (rf : RField) : Prop where
  name : rf.name = f.1
  tyName : rf.tyName = f.2.name
  array : rf.array = f.2.array
  optional : rf.optional = f.2.optional
  flags : ¬ (f.2.array = true ∧ f.2.optional = true)
  ty : c.get f.2.name = some (f.2.name, rf.ty)

inductive RSF (fname : Str) (fty : Unresolved) (c : TypeMap) (name : Str) : Except Fault (Option RField) → Prop
  | none : c.get fty.name = none → RSF fname fty c name (.ok none)
  | some (rf) : (Named c → FieldOk c (fname, fty) rf) → c.has fty.name = true →
      ¬ (fty.array = true ∧ fty.optional = true) → RSF fname fty c name (.ok (some rf))
  | err : c.has fty.name = true → fty.array = true ∧ fty.optional = true →
      RSF fname fty c name (.error (.err (.optionalArray fname name)))

theorem resolveStructField_spec (fname : Str) (fty : Unresolved) (c : TypeMap) (name : Str) :
    RSF fname fty c name (resolveStructField fname fty c name) := by
  unfold resolveStructField
  split
  · rename_i rty h
    split
    · rename_i hb
      exact .err ((Map.has_iff _ _).2 ⟨_, h⟩) (by simpa using hb)
    · rename_i hb
      refine .some _ ?_ ((Map.has_iff _ _).2 ⟨_, h⟩) (by simpa using hb)
      intro hn
      have := hn _ _ h
      refine ⟨rfl, this, rfl, rfl, by simpa using hb, ?_⟩
      obtain ⟨a, b⟩ := rty
      simp only at this
      simp [h, this]
  · rename_i h; exact .none h

theorem builtins_named : Named getBuiltins := by
  intro n e h
  have := Map.get_mem h
  revert this
  unfold getBuiltins
  simp only [List.mem_cons, Prod.mk.injEq, List.not_mem_nil, or_false]
  rintro (⟨rfl, rfl⟩ | ⟨rfl, rfl⟩ | ⟨rfl, rfl⟩ | ⟨rfl, rfl⟩ | ⟨rfl, rfl⟩ | ⟨rfl, rfl⟩ | ⟨rfl, rfl⟩ | ⟨rfl, rfl⟩) <;> rfl

theorem builtins_keys : getBuiltins.keys = builtinNames := rfl

theorem builtins_nodup : getBuiltins.keys.Nodup := by rw [builtins_keys]; decide

theorem builtins_has (n : Str) : getBuiltins.has n = true ↔ n ∈ builtinNames := by
  rw [Map.has_iff, ← builtins_keys]
  unfold Map.keys
  constructor
  · rintro ⟨v, h⟩; exact List.mem_map_of_mem (f := Prod.fst) (Map.get_mem h)
  · intro h
    obtain ⟨⟨a, v⟩, h', rfl⟩ := List.mem_map.1 h
    exact ⟨v, Map.mem_get builtins_nodup h'⟩

/-- `FieldNamesOk` relative to names already seen. -/
def FNO (seen : List Str) (fs : List (Str × Unresolved)) : Prop :=
  ∀ pre f post, fs = pre ++ f :: post → (∀ g ∈ pre, g.2.name ∈ builtinNames) →
    f.1 ∉ seen ∧ f.1 ∉ pre.map Prod.fst

theorem FNO_nil_seen (fs) : FNO [] fs ↔ FieldNamesOk fs := by
  simp [FNO, FieldNamesOk]

theorem FNO_nil (seen) : FNO seen [] := by
  intro pre f post h; simp at h

theorem FNO_cons (seen : List Str) (n : Str) (u : Unresolved) (fs : List (Str × Unresolved)) :
    FNO seen ((n, u) :: fs) ↔ n ∉ seen ∧ (u.name ∈ builtinNames → FNO (n :: seen) fs) := by
  constructor
  · intro h
    refine ⟨(h [] (n, u) fs rfl (by simp)).1, fun hu pre f post he hp => ?_⟩
    have := h ((n, u) :: pre) f post (by simp [he]) (by simpa [hu] using hp)
    simp only [List.map_cons, List.mem_cons, not_or] at this ⊢
    tauto
  · rintro ⟨h1, h2⟩ pre f post he hp
    cases pre with
    | nil => simp at he; obtain ⟨rfl, rfl⟩ := he; simpa using h1
    | cons g pre =>
      simp only [List.cons_append, List.cons.injEq] at he
      obtain ⟨rfl, rfl⟩ := he
      have := h2 (hp (n, u) (by simp)) pre f post rfl (fun g hg => hp g (by simp [hg]))
      simp only [List.map_cons, List.mem_cons, not_or] at this ⊢
      tauto

inductive FPF (name : Str) (seen : List Str) (fs : List (Str × Unresolved)) : Except Fault (List RField) → Prop
  | full (rfs) : FNO seen fs → List.Forall₂ (FieldOk getBuiltins) fs rfs → FPF name seen fs (.ok rfs)
  | part (rfs : List RField) : FNO seen fs → rfs.length < fs.length → (∃ f ∈ fs, f.2.name ∉ builtinNames) →
      FPF name seen fs (.ok rfs)
  | dup (f) : ¬ FNO seen fs → f ∈ fs.map Prod.fst → f ∈ seen ∨ 2 ≤ (fs.map Prod.fst).count f → FPF name seen fs (.error (.err (.duplicateField f name)))
  | opt (f u) : (f, u) ∈ fs → u.array = true → u.optional = true →
      FPF name seen fs (.error (.err (.optionalArray f name)))

theorem firstPassFields_spec (name : Str) (seen : List Str) (fs : List (Str × Unresolved)) :
    FPF name seen fs (firstPassFields name getBuiltins seen fs) := by
  induction fs generalizing seen with
  | nil => exact .full _ (FNO_nil _) .nil
  | cons x fs ih =>
    obtain ⟨n, u⟩ := x
    unfold firstPassFields
    by_cases hn : n ∈ seen
    · rw [if_pos hn]
      exact .dup _ (fun h => ((FNO_cons _ _ _ _).1 h).1 hn) (by simp) (Or.inl hn)
    · rw [if_neg hn]
      have hr := resolveStructField_spec n u getBuiltins name
      generalize resolveStructField n u getBuiltins name = r at hr
      cases hr with
      | none h =>
        have hu : u.name ∉ builtinNames := by
          rw [← builtins_has]; simp [Map.has, h]
        exact .part _ ((FNO_cons _ _ _ _).2 ⟨hn, fun hb => absurd hb hu⟩) (by simp) ⟨_, List.mem_cons_self, hu⟩
      | err _ h => exact .opt n u (by simp) h.1 h.2
      | some rf h hu _ =>
        have := ih (n :: seen)
        generalize firstPassFields name getBuiltins (n :: seen) fs = r2 at this
        cases this with
        | full rfs h1 h2 =>
          exact .full _ ((FNO_cons _ _ _ _).2 ⟨hn, fun _ => h1⟩) (.cons (h builtins_named) h2)
        | part rfs h1 h2 h3 =>
          refine .part _ ((FNO_cons _ _ _ _).2 ⟨hn, fun _ => h1⟩) (by simpa using h2) ?_
          obtain ⟨f, hf, h3⟩ := h3
          exact ⟨f, List.mem_cons_of_mem _ hf, h3⟩
        | dup f h1 h2 h3 =>
          refine .dup f (fun hf => h1 (((FNO_cons _ _ _ _).1 hf).2 ?_)) (by simp at h2 ⊢; right; exact h2) ?_
          · rwa [← builtins_has]
          · have h4 : 1 ≤ (fs.map Prod.fst).count f := List.count_pos_iff.2 h2
            simp only [List.map_cons, List.count_cons]
            rcases h3 with h3 | h3
            · rcases List.mem_cons.1 h3 with rfl | h3
              · right; rw [if_pos (by simp)]; omega
              · exact Or.inl h3
            · right; omega
        | opt f u h1 h2 h3 => exact .opt f u (List.mem_cons_of_mem _ h1) h2 h3

/-! ### enums -/

/-- The smallest representation with at least `n` bits. -/
def smallestRepr (n : Nat) : EnumRepr := if n ≤ 8 then .u8 else if n ≤ 16 then .u16 else .u32

/-- What an enum must resolve to. -/
def enumSpec (vs : List Str) : REnum := ⟨smallestRepr vs.length, vs.zipIdx.map fun v => ⟨v.1, v.2⟩⟩

theorem resolveVariants_ok {name : Str} {seen : List Str} {k : Nat} {vs : List Str} {r : List EnumVariant}
    (h : resolveVariants name seen k vs = .ok r) :
    vs.Nodup ∧ (∀ v ∈ vs, v ∉ seen) ∧ r = (vs.zipIdx k).map (fun v => ⟨v.1, v.2⟩) := by
  induction vs generalizing seen k r with
  | nil => simp only [resolveVariants] at h; cases h; simp
  | cons v vs ih =>
    simp only [resolveVariants] at h
    split at h
    · cases h
    · rename_i hv
      split at h
      · cases h
      · rename_i r' h'
        cases h
        obtain ⟨h1, h2, h3⟩ := ih h'
        refine ⟨?_, ?_, by simp [h3, List.zipIdx_cons]⟩
        · exact List.nodup_cons.2 ⟨fun hm => h2 _ hm (by simp), h1⟩
        · intro w hw
          rcases List.mem_cons.1 hw with rfl | hw
          · exact hv
          · exact fun hs => h2 _ hw (List.mem_cons_of_mem _ hs)

theorem resolveVariants_err {name : Str} {seen : List Str} {k : Nat} {vs : List Str} {e : Fault}
    (h : resolveVariants name seen k vs = .error e) :
    ∃ v, e = .err (.duplicateVariant v name) ∧ v ∈ vs ∧ (v ∈ seen ∨ 2 ≤ vs.count v) := by
  induction vs generalizing seen k with
  | nil => simp [resolveVariants] at h
  | cons v vs ih =>
    simp only [resolveVariants] at h
    split at h
    · rename_i hv; cases h; exact ⟨v, rfl, by simp, Or.inl hv⟩
    · rename_i hv
      split at h
      · rename_i e' h'
        cases h
        obtain ⟨w, h1, h2, h3⟩ := ih h'
        refine ⟨w, h1, List.mem_cons_of_mem _ h2, ?_⟩
        rcases h3 with h3 | h3
        · rcases List.mem_cons.1 h3 with rfl | h3
          · have h4 : 1 ≤ vs.count w := List.count_pos_iff.2 h2
            right; simp; omega
          · exact Or.inl h3
        · right; simp only [List.count_cons]; omega
      · cases h

inductive RE (name : Str) (vs : List Str) : Except Fault REnum → Prop
  | ok : EnumOk vs → RE name vs (.ok (enumSpec vs))
  | empty : vs = [] → RE name vs (.error (.err (.emptyEnum name)))
  | many : 32 < vs.length → RE name vs (.error (.err (.tooManyVariants name vs.length)))
  | dup (v) : 2 ≤ vs.count v → RE name vs (.error (.err (.duplicateVariant v name)))

theorem resolveEnum_spec (name : Str) (vs : List Str) : RE name vs (resolveEnum name vs) := by
  unfold resolveEnum
  have key : ∀ r, 1 ≤ vs.length → vs.length ≤ 32 → r = smallestRepr vs.length →
      RE name vs (match resolveVariants name [] 0 vs with
        | .error e => .error e
        | .ok vs => .ok ⟨r, vs⟩) := by
    intro r h1 h2 hr
    cases h : resolveVariants name [] 0 vs with
    | ok l =>
      obtain ⟨h3, _, h4⟩ := resolveVariants_ok h
      have := RE.ok (name := name) (vs := vs) ⟨h1, h2, h3⟩
      simpa [enumSpec, hr, h4] using this
    | error e =>
      obtain ⟨v, rfl, h3, h4⟩ := resolveVariants_err h
      exact .dup v (by simpa using h4)
  simp only
  by_cases h0 : vs.length = 0
  · rw [if_pos h0]; exact .empty (List.length_eq_zero_iff.1 h0)
  · rw [if_neg h0]
    by_cases h8 : vs.length ≤ 8
    · rw [if_pos h8]; exact key _ (by omega) (by omega) (by simp [smallestRepr, h8])
    · rw [if_neg h8]
      by_cases h16 : vs.length ≤ 16
      · rw [if_pos h16]; exact key _ (by omega) (by omega) (by simp [smallestRepr, h8, h16])
      · rw [if_neg h16]
        by_cases h32 : vs.length ≤ 32
        · rw [if_pos h32]; exact key _ (by omega) (by omega) (by simp [smallestRepr, h8, h16])
        · rw [if_neg h32]; exact .many (by omega)

/-! ### the first pass -/

/-- What the first pass does with one declaration. -/
inductive FP (n : Str) : Ty → Except Fault (Option RType) → Prop
  | enumOk (vs) : EnumOk vs → FP n (.enum vs) (.ok (some (.enum (enumSpec vs))))
  | emptyEnum : FP n (.enum []) (.error (.err (.emptyEnum n)))
  | manyVariants (vs) : 32 < vs.length → FP n (.enum vs) (.error (.err (.tooManyVariants n vs.length)))
  | dupVariant (vs v) : 2 ≤ vs.count v → FP n (.enum vs) (.error (.err (.duplicateVariant v n)))
  | structFull (fs rfs) : FieldNamesOk fs → List.Forall₂ (FieldOk getBuiltins) fs rfs →
      FP n (.struct fs) (.ok (some (.struct rfs)))
  | structPart (fs) : FieldNamesOk fs → (∃ f ∈ fs, f.2.name ∉ builtinNames) → FP n (.struct fs) (.ok none)
  | dupField (fs f) : ¬ FieldNamesOk fs → 2 ≤ (fs.map Prod.fst).count f → FP n (.struct fs) (.error (.err (.duplicateField f n)))
  | optArray (fs f u) : (f, u) ∈ fs → u.array = true → u.optional = true →
      FP n (.struct fs) (.error (.err (.optionalArray f n)))

theorem resolveOneFirstPass_spec (n : Str) (t : Ty) (st : FirstPass) :
    ∃ r, FP n t r ∧ resolveOneFirstPass n t getBuiltins st =
      match r with
      | .error e => .error e
      | .ok none => .ok st
      | .ok (some r) => .ok ⟨st.resolved.insert n (n, r), st.unresolved.erase n⟩ := by
  cases t with
  | enum vs =>
    have := resolveEnum_spec n vs
    unfold resolveOneFirstPass
    simp only
    generalize resolveEnum n vs = r at this
    cases this with
    | ok h => exact ⟨_, .enumOk _ h, rfl⟩
    | empty h => subst h; exact ⟨_, .emptyEnum, rfl⟩
    | many h => exact ⟨_, .manyVariants _ h, rfl⟩
    | dup v h => exact ⟨_, .dupVariant _ _ h, rfl⟩
  | struct fs =>
    have := firstPassFields_spec n [] fs
    unfold resolveOneFirstPass
    simp only
    generalize firstPassFields n getBuiltins [] fs = r at this
    cases this with
    | full rfs h1 h2 =>
      have hl := h2.length_eq
      exact ⟨_, .structFull _ _ ((FNO_nil_seen _).1 h1) h2, by simp [hl]⟩
    | part rfs h1 h2 h3 =>
      exact ⟨_, .structPart _ ((FNO_nil_seen _).1 h1) h3, by simp [Nat.ne_of_lt h2]⟩
    | dup f h1 h2 h3 => exact ⟨_, .dupField _ f (fun h => h1 ((FNO_nil_seen _).2 h)) (by simpa using h3), rfl⟩
    | opt f u h1 h2 h3 => exact ⟨_, .optArray _ f u h1 h2 h3, rfl⟩

theorem resolveFirstPass_err {ast : AST} {st : FirstPass} {e : Fault}
    (h : resolveFirstPass getBuiltins ast st = .error e) : ∃ n t, (n, t) ∈ decls ast ∧ FP n t (.error e) := by
  induction ast generalizing st with
  | nil => simp [resolveFirstPass] at h
  | cons x ast ih =>
    cases x with
    | «export» n => simp only [resolveFirstPass] at h; simpa using ih h
    | decl n t =>
      simp only [resolveFirstPass] at h
      obtain ⟨r, hr, heq⟩ := resolveOneFirstPass_spec n t st
      rw [heq] at h
      rcases r with e' | _ | r
      · simp only [Except.error.injEq] at h; subst h; exact ⟨n, t, by simp, hr⟩
      all_goals
        obtain ⟨n', t', h1, h2⟩ := ih h
        exact ⟨n', t', by simp [h1], h2⟩

theorem resolveFirstPass_ok {ast : AST} {st st' : FirstPass}
    (h : resolveFirstPass getBuiltins ast st = .ok st') (hd : ((decls ast).map Prod.fst).Nodup)
    (hk : st.resolved.keys.Nodup) :
    st'.resolved.keys.Nodup ∧ List.Sublist st'.unresolved st.unresolved ∧
    (∀ n t, (n, t) ∈ decls ast →
      (∃ r, FP n t (.ok (some r)) ∧ st'.resolved.get n = some (n, r) ∧ st'.unresolved.get n = none) ∨
      (FP n t (.ok none) ∧ st'.resolved.get n = st.resolved.get n ∧
        st'.unresolved.get n = st.unresolved.get n)) ∧
    (∀ n, n ∉ (decls ast).map Prod.fst →
      st'.resolved.get n = st.resolved.get n ∧ st'.unresolved.get n = st.unresolved.get n) := by
  induction ast generalizing st with
  | nil => simp only [resolveFirstPass] at h; cases h; simp [hk]
  | cons x ast ih =>
    cases x with
    | «export» n => simp only [resolveFirstPass] at h; simpa using ih h hd hk
    | decl n t =>
      simp only [resolveFirstPass] at h
      simp only [decls_decl, List.map_cons, List.nodup_cons] at hd
      obtain ⟨r, hr, heq⟩ := resolveOneFirstPass_spec n t st
      rw [heq] at h
      rcases r with e' | _ | r
      · cases h
      · obtain ⟨h0, h0', h1, h2⟩ := ih h hd.2 hk
        refine ⟨h0, h0', ?_, ?_⟩
        · intro n' t' hm
          simp only [decls_decl, List.mem_cons, Prod.mk.injEq] at hm
          rcases hm with ⟨rfl, rfl⟩ | hm
          · exact Or.inr ⟨hr, h2 _ hd.1⟩
          · exact h1 _ _ hm
        · intro n' hn'
          simp only [decls_decl, List.map_cons, List.mem_cons, not_or] at hn'
          exact h2 _ hn'.2
      · obtain ⟨h0, h0', h1, h2⟩ := ih h hd.2 (Map.nodup_insert hk _ _)
        simp only [Map.get_insert, Map.get_erase] at h1 h2
        refine ⟨h0, h0'.trans List.filter_sublist, ?_, ?_⟩
        · intro n' t' hm
          simp only [decls_decl, List.mem_cons, Prod.mk.injEq] at hm
          rcases hm with ⟨rfl, rfl⟩ | hm
          · exact Or.inl ⟨r, hr, by simpa using h2 _ hd.1⟩
          · have hne : n ≠ n' := fun hh => hd.1 (hh ▸ List.mem_map_of_mem (f := Prod.fst) hm)
            have := h1 _ _ hm
            simpa [hne] using this
        · intro n' hn'
          simp only [decls_decl, List.map_cons, List.mem_cons, not_or] at hn'
          have := h2 _ hn'.2
          simpa [Ne.symm hn'.1] using this

/-- The state between the passes. -/
structure Between (ast : AST) (B : TypeMap) (u : Map Ty) : Prop where
  nodup : ((decls ast).map Prod.fst).Nodup
  ukeys : u.keys.Nodup
  /-- every declaration is either resolved by the first pass, or left for the second pass -/
  decl : ∀ n t, (n, t) ∈ decls ast →
    (∃ r, FP n t (.ok (some r)) ∧ B.get n = some (n, r) ∧ u.get n = none) ∨
    (FP n t (.ok none) ∧ B.get n = getBuiltins.get n ∧ u.get n = some t)
  other : ∀ n, ¬ Declared ast n → B.get n = getBuiltins.get n ∧ u.get n = none

theorem mem_decl_names {ast : AST} {n : Str} : n ∈ (decls ast).map Prod.fst ↔ Declared ast n := by
  simp [Declared]

theorem between {ast : AST} {u : Map Ty} {fp : FirstPass} (hu : collectTypes ast = .ok u)
    (h : resolveFirstPass getBuiltins ast ⟨[], u⟩ = .ok fp) :
    Between ast (mergeMaps getBuiltins fp.resolved) fp.unresolved := by
  have hu := collectTypes_ok hu
  obtain ⟨h0, h1, h2, h3⟩ := resolveFirstPass_ok h hu.nodup (by simp [Map.keys])
  have hB : ∀ k, (mergeMaps getBuiltins fp.resolved).get k = (fp.resolved.get k).orElse (fun _ => getBuiltins.get k) :=
    fun k => Map.get_foldl_insert _ _ h0 k
  refine ⟨hu.nodup, hu.keys.sublist (List.Sublist.map _ h1), ?_, ?_⟩
  · intro n t hm
    rcases h2 _ _ hm with ⟨r, hr, h4, h5⟩ | ⟨hr, h4, h5⟩
    · exact Or.inl ⟨r, hr, by rw [hB, h4]; rfl, h5⟩
    · refine Or.inr ⟨hr, by rw [hB, h4]; rfl, ?_⟩
      rw [h5]; exact (hu.mem _ _).2 hm
  · intro n hn
    have := h3 n (by rwa [mem_decl_names])
    refine ⟨by rw [hB, this.1]; rfl, ?_⟩
    rw [this.2]
    cases hg : u.get n with
    | none => rfl
    | some t => exact absurd ⟨t, (hu.mem _ _).1 hg⟩ hn

end Packetc.Check
