import Verif.Proof.CheckFinal
/-!
# `collect_used_types` collects exactly the nested type names
-/

namespace Packetc.Check
open Ast WellFormed

mutual
/-- All type names nested in a type. -/
def RType.names : RType → List Str
  | .struct fs => fieldsNames fs
  | .builtin _ => []
  | .enum _ => []
def fieldsNames : List (FieldOf RType) → List Str
  | [] => []
  | f :: fs => fieldNames f ++ fieldsNames fs
def fieldNames : FieldOf RType → List Str
  | ⟨_, tyName, ty, _, _⟩ => tyName :: ty.names
end

/-- Every nested occurrence of a name has the type `T` assigns to it. -/
def CohF (T : Str → RType) (fs : List RField) : Prop := ∀ f ∈ fs, T f.tyName = f.ty

/-- `T` is closed: the fields of the types it assigns are typed by it. -/
def Closed (T : Str → RType) : Prop := ∀ n fs, T n = .struct fs → CohF T fs

/-- Types of size at most `k` in `V` have all their nested names in `V`. -/
def Complete (T : Str → RType) (V : List Str) (k : Nat) : Prop :=
  ∀ m ∈ V, sizeOf (T m) ≤ k → ∀ x ∈ (T m).names, x ∈ V

theorem names_size {T : Str → RType} (hT : Closed T) (n : Nat) : ∀ m, sizeOf (T m) ≤ n →
    ∀ x ∈ (T m).names, sizeOf (T x) < sizeOf (T m) := by
  induction n with
  | zero =>
    intro m hm
    have : 0 < sizeOf (T m) := by cases T m <;> simp <;> omega
    omega
  | succ n ih =>
    intro m hm x hx
    cases hTm : T m with
    | builtin b => rw [hTm] at hx; simp [RType.names] at hx
    | enum e => rw [hTm] at hx; simp [RType.names] at hx
    | struct fs =>
      have hc := hT m fs hTm
      rw [hTm] at hx hm
      simp only [RType.names] at hx
      have hsz : ∀ f ∈ fs, sizeOf f.ty < sizeOf (RType.struct fs) := fun f hf => sizeOf_field hf
      clear hTm
      have : ∀ l : List RField, (∀ f ∈ l, f ∈ fs) → x ∈ fieldsNames l → sizeOf (T x) < sizeOf (RType.struct fs) := by
        intro l
        induction l with
        | nil => intro _ h; simp [fieldsNames] at h
        | cons f l ihl =>
          intro hl h
          have hf := hl f List.mem_cons_self
          have hTf := hc f hf
          have hs := hsz f hf
          simp only [fieldsNames, List.mem_append] at h
          rcases h with h | h
          · obtain ⟨a, b, ty, c, d⟩ := f
            simp only [fieldNames, List.mem_cons] at h
            simp only at hTf hs
            rcases h with rfl | h
            · rw [hTf]; exact hs
            · have := ih b (by rw [hTf]; omega) x (by rw [hTf]; exact h)
              rw [hTf] at this; omega
          · exact ihl (fun g hg => hl g (List.mem_cons_of_mem _ hg)) h
      exact this fs (fun _ h => h) hx

/-- Result of collecting: exactly the old names, plus `S`. -/
structure Collected (T : Str → RType) (V V' : List Str) (S : List Str) (k : Nat) : Prop where
  mem : ∀ x, x ∈ V' ↔ x ∈ V ∨ x ∈ S
  complete : Complete T V' k

mutual
theorem collectUsed_spec (T : Str → RType) (hT : Closed T) (V : List Str) (name : Str) :
    (ty : RType) → T name = ty → (k : Nat) → sizeOf ty ≤ k → Complete T V k →
      Collected T V (collectUsed V name ty) (name :: ty.names) k
  | .builtin b, hn, k, hk, hc => by
    refine ⟨fun x => by simp [collectUsed, RType.names, or_comm], ?_⟩
    intro m hm hs x hx
    simp only [collectUsed, List.mem_cons] at hm ⊢
    rcases hm with rfl | hm
    · rw [hn] at hx; simp [RType.names] at hx
    · exact Or.inr (hc m hm hs x hx)
  | .enum b, hn, k, hk, hc => by
    refine ⟨fun x => by simp [collectUsed, RType.names, or_comm], ?_⟩
    intro m hm hs x hx
    simp only [collectUsed, List.mem_cons] at hm ⊢
    rcases hm with rfl | hm
    · rw [hn] at hx; simp [RType.names] at hx
    · exact Or.inr (hc m hm hs x hx)
  | .struct fs, hn, k, hk, hc => by
    have hsz : ∀ f ∈ fs, sizeOf f.ty ≤ sizeOf (RType.struct fs) - 1 := by
      intro f hf; have := sizeOf_field hf; omega
    have hc' : Complete T (name :: V) (sizeOf (RType.struct fs) - 1) := by
      intro m hm hs x hx
      rcases List.mem_cons.1 hm with rfl | hm
      · rw [hn] at hs; simp at hs; omega
      · exact List.mem_cons_of_mem _ (hc m hm (by omega) x hx)
    have := collectUsedFields_spec T hT (name :: V) fs (hT _ _ hn) _ hsz hc'
    have hmem : ∀ x, x ∈ collectUsed V name (.struct fs) ↔ x ∈ V ∨ x ∈ name :: (RType.struct fs).names := by
      intro x
      simp only [collectUsed, RType.names, List.mem_cons]
      rw [this.mem]; simp only [List.mem_cons]; tauto
    refine ⟨hmem, ?_⟩
    intro m hm hs x hx
    by_cases hle : sizeOf (T m) ≤ sizeOf (RType.struct fs) - 1
    · exact this.complete m hm hle x hx
    · rw [hmem] at hm ⊢
      rcases hm with hm | hm
      · exact Or.inl (hc m hm hs x hx)
      · rcases List.mem_cons.1 hm with rfl | hm
        · rw [hn] at hx; exact Or.inr (List.mem_cons_of_mem _ hx)
        · have := names_size hT _ name (Nat.le_refl _) m (by rw [hn]; exact hm)
          rw [hn] at this; omega
theorem collectUsedFields_spec (T : Str → RType) (hT : Closed T) (V : List Str) :
    (fs : List (FieldOf RType)) → CohF T fs → (k : Nat) → (∀ f ∈ fs, sizeOf f.ty ≤ k) → Complete T V k →
      Collected T V (collectUsedFields V fs) (fieldsNames fs) k
  | [], hn, k, hk, hc => ⟨by simp [collectUsedFields, fieldsNames], by simpa [collectUsedFields] using hc⟩
  | f :: fs, hn, k, hk, hc => by
    have h1 := collectUsedField_spec T hT V f (hn f List.mem_cons_self) k (hk f List.mem_cons_self) hc
    have h2 := collectUsedFields_spec T hT (collectUsedField V f) fs (fun g hg => hn g (List.mem_cons_of_mem _ hg)) k
      (fun g hg => hk g (List.mem_cons_of_mem _ hg)) h1.complete
    refine ⟨fun x => ?_, by simpa [collectUsedFields] using h2.complete⟩
    simp only [collectUsedFields, fieldsNames, List.mem_append]
    rw [h2.mem, h1.mem]; tauto
theorem collectUsedField_spec (T : Str → RType) (hT : Closed T) (V : List Str) :
    (f : FieldOf RType) → T f.tyName = f.ty → (k : Nat) → sizeOf f.ty ≤ k → Complete T V k →
      Collected T V (collectUsedField V f) (fieldNames f) k
  | ⟨_, tyName, ty, _, _⟩, hn, k, hk, hc => by
    simp only [collectUsedField, fieldNames]
    simp only at hn hk
    by_cases hv : tyName ∈ V
    · rw [if_pos hv]
      refine ⟨fun x => ⟨Or.inl, ?_⟩, hc⟩
      rintro (h | h)
      · exact h
      · rcases List.mem_cons.1 h with rfl | h
        · exact hv
        · exact hc tyName hv (by rw [hn]; exact hk) x (by rw [hn]; exact h)
    · rw [if_neg hv]
      exact collectUsed_spec T hT V tyName ty hn k hk hc
end

theorem exportVisited_spec (T : Str → RType) (hT : Closed T) (V : List Str) (fs : List RField) (hn : CohF T fs)
    (k : Nat) (hk : ∀ f ∈ fs, sizeOf f.ty ≤ k) (hc : Complete T V k) :
    Collected T V (exportVisited V fs) (fieldsNames fs) k := by
  induction fs generalizing V with
  | nil => exact ⟨by simp [exportVisited, fieldsNames], by simpa [exportVisited] using hc⟩
  | cons f fs ih =>
    have h1 := collectUsed_spec T hT V f.tyName f.ty (hn f List.mem_cons_self) k (hk f List.mem_cons_self) hc
    have h2 := ih (collectUsed V f.tyName f.ty) (fun g hg => hn g (List.mem_cons_of_mem _ hg))
      (fun g hg => hk g (List.mem_cons_of_mem _ hg)) h1.complete
    refine ⟨fun x => ?_, by simpa [exportVisited] using h2.complete⟩
    simp only [exportVisited, fieldsNames, List.mem_append]
    rw [h2.mem, h1.mem]
    obtain ⟨a, b, ty, c, d⟩ := f
    simp only [fieldNames, List.mem_cons]; tauto

/-! ### connection with the declarations -/

theorem Final.get_struct {ast : AST} {c : TypeMap} (h : Final ast c) {n : Str} {rfs}
    (hg : c.get n = some (n, .struct rfs)) : ∃ fs, (n, .struct fs) ∈ decls ast := by
  by_cases hb : n ∈ builtinNames
  · rw [h.builtin n hb] at hg
    obtain ⟨b, hb⟩ := builtins_not_struct hg
    cases hb
  · by_cases hd : Declared ast n
    · obtain ⟨t, ht⟩ := hd
      cases t with
      | enum vs => rw [(h.enum n vs ht).2] at hg; cases hg
      | struct fs' => exact ⟨fs', ht⟩
    · rw [h.other n hb hd] at hg; cases hg

/-- fields of a resolved struct come from the declaration -/
theorem Final.fields {ast : AST} {c : TypeMap} (h : Final ast c) {n : Str} {rfs}
    (hg : c.get n = some (n, .struct rfs)) :
    ∃ fs fs', (n, .struct fs) ∈ decls ast ∧ fs'.Perm fs ∧ List.Forall₂ (FieldOk c) fs' rfs := by
  obtain ⟨fs, hd⟩ := h.get_struct hg
  obtain ⟨_, rfs', p, h1, _, _, h3⟩ := h.struct n fs hd
  rw [hg] at h1; cases h1
  exact ⟨fs, _, hd, perm_partition (fun f : Str × Unresolved => p f.2.name) fs, h3⟩

/-- the types assigned by the final map -/
theorem Final.typeOf_cases {ast : AST} {c : TypeMap} (h : Final ast c) (n : Str) :
    c.get n = some (n, typeOf c n) ∨ typeOf c n = .struct [] := by
  unfold typeOf
  cases hg : c.get n with
  | none => exact Or.inr rfl
  | some e =>
    left
    have := h.named n e hg
    obtain ⟨a, b⟩ := e
    simp only at this; subst this; rfl

theorem Final.closed {ast : AST} {c : TypeMap} (h : Final ast c) : Closed (typeOf c) := by
  intro n rfs hn f hf
  rcases h.typeOf_cases n with hg | hg
  · rw [hn] at hg
    obtain ⟨fs, fs', _, _, h3⟩ := h.fields hg
    obtain ⟨a, ha, hR⟩ := Forall₂.exists_left h3 hf
    rw [hR.tyName]
    unfold typeOf
    rw [hR.ty]; rfl
  · rw [hn] at hg; cases hg; simp at hf

/-- nested names are those reachable -/
theorem Final.names_iff {ast : AST} {c : TypeMap} (h : Final ast c) (k : Nat) : ∀ (n : Str), sizeOf (typeOf c n) ≤ k →
    ∀ x, x ∈ (typeOf c n).names ↔ Relation.TransGen (Refers ast) n x := by
  induction k with
  | zero =>
    intro n hn
    have : 0 < sizeOf (typeOf c n) := by cases typeOf c n <;> simp <;> omega
    omega
  | succ k ih =>
    intro n hn x
    have hmem : ∀ (l : List RField), x ∈ fieldsNames l ↔ ∃ f ∈ l, x = f.tyName ∨ x ∈ f.ty.names := by
      intro l
      induction l with
      | nil => simp [fieldsNames]
      | cons f l ihl =>
        obtain ⟨a, b, ty, d, e⟩ := f
        simp [fieldsNames, fieldNames, ihl, or_assoc]
    have hT := h.closed
    constructor
    · intro hx
      cases hty : typeOf c n with
      | builtin b => rw [hty] at hx; simp [RType.names] at hx
      | enum b => rw [hty] at hx; simp [RType.names] at hx
      | struct rfs =>
        have hcoh := hT n rfs hty
        rw [hty] at hx hn
        simp only [RType.names] at hx
        obtain ⟨f, hf, hx⟩ := (hmem _).1 hx
        have hR : Refers ast n f.tyName := by
          rcases h.typeOf_cases n with hg | hg
          · rw [hty] at hg
            obtain ⟨fs, fs', hd, hp, h3⟩ := h.fields hg
            obtain ⟨a, ha, hR⟩ := Forall₂.exists_left h3 hf
            exact ⟨fs, hd, a, hp.mem_iff.1 ha, hR.tyName.symm⟩
          · rw [hty] at hg; cases hg; simp at hf
        rcases hx with rfl | hx
        · exact .single hR
        · have hs := sizeOf_field hf
          have hTf := hcoh f hf
          exact .head hR ((ih f.tyName (by rw [hTf]; omega) x).1 (by rw [hTf]; exact hx))
    · intro hx
      have step : ∀ m, Refers ast n m → ∃ rfs f, typeOf c n = .struct rfs ∧ f ∈ rfs ∧ f.tyName = m := by
        rintro m ⟨fs, hd, f, hf, rfl⟩
        obtain ⟨rfs, rf, h1, h2, h3⟩ := h.field hd hf
        refine ⟨rfs, rf, ?_, h2, h3.tyName⟩
        unfold typeOf; rw [h1]; rfl
      rcases Relation.TransGen.head'_iff.1 hx with ⟨m, hm, hr⟩
      obtain ⟨rfs, f, hty, hf, rfl⟩ := step m hm
      have hcoh := hT n rfs hty
      rw [hty] at hn ⊢
      simp only [RType.names]
      refine (hmem _).2 ⟨f, hf, ?_⟩
      rcases Relation.reflTransGen_iff_eq_or_transGen.1 hr with hr | hr
      · exact Or.inl hr
      · right
        have hs := sizeOf_field hf
        have hTf := hcoh f hf
        have := (ih f.tyName (by rw [hTf]; omega) x).2 hr
        rwa [hTf] at this

/-- the names kept are the export and what is reachable from it -/
theorem Final.visited_iff {ast : AST} {c : TypeMap} (h : Final ast c) {e : Str} {fs}
    (hg : c.get e = some (e, .struct fs)) (x : Str) :
    x ∈ exportVisited [e] fs ↔ Relation.ReflTransGen (Refers ast) e x := by
  have hty : typeOf c e = .struct fs := by unfold typeOf; rw [hg]; rfl
  have hk : ∀ f ∈ fs, sizeOf f.ty ≤ sizeOf (RType.struct fs) - 1 := by
    intro f hf; have := sizeOf_field hf; omega
  have := exportVisited_spec (typeOf c) h.closed [e] fs (h.closed _ _ hty) (sizeOf (RType.struct fs) - 1) hk (by
    intro m hm hs
    simp only [List.mem_singleton] at hm
    subst hm
    rw [hty] at hs
    simp at hs; omega)
  rw [this.mem, Relation.reflTransGen_iff_eq_or_transGen]
  have := h.names_iff _ e (Nat.le_refl _) x
  rw [hty] at this
  simp only [RType.names] at this
  rw [this]; simp

end Packetc.Check
