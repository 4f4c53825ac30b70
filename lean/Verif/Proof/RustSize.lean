import Verif.Proof.Size
import Verif.Spec.RustSize
import Verif.Proof.RustGood
/-!
# How long the emitted Rust functions are (for C124)
-/

namespace Packetc.Rs
open Check Gen
open Js (deeper length_bindname length_varname length_deeper fname_single length_fname_snoc length_reprName NamesLeFs NamesLeF NamesLeT)

/-- Printing what `prog` makes takes at most `M * T` characters, at any path and indentation that leave `s` of `T`. -/
def Cost (T s M : Nat) (prog : List Str → List Stmt) : Prop :=
  ∀ st, st ≠ [] → ∀ ind : Str, (fname st).length + ind.length + s ≤ T → (printStmts ind (prog st)).length ≤ M * T

theorem Cost.mono {T s M s' M' prog} (h : Cost T s M prog) (hs : s ≤ s') (hM : M ≤ M') : Cost T s' M' prog :=
  fun st hn ind hT => Nat.le_trans (h st hn ind (by omega)) (Nat.mul_le_mul_right _ hM)

theorem length_amp (y : Bool) : (if y then "&".toList else []).length ≤ 1 := by cases y <;> decide

theorem cost_wArr {T s M prog} (h : Cost T s M prog) (hs : 20 ≤ s) : Cost T (s + 9) (M + 30) (wArr prog) := by
  intro st hn ind hT
  have := h [varname st "item".toList] (by simp) (deeper ind) (by
    rw [fname_single, length_varname, length_deeper, show ("item".toList).length = 4 from rfl]; omega)
  unfold wArr
  simp only [ps_cons, ps_nil, ps_write, ps_forIter, print_path, pr_cast, pr_len, List.length_append,
    length_varname, length_deeper, List.length_nil]
  simp only [String.reduceToList, List.length_cons, List.length_nil, Nat.reduceAdd] at this ⊢
  rw [Nat.add_mul]
  omega

theorem cost_wOpt {T s M prog} (y : Bool) (h : Cost T s M prog) (hs : 20 ≤ s) : Cost T (s + 8) (M + 30) (wOpt y prog) := by
  intro st hn ind hT
  have := h [bindname st] (by simp) (deeper (deeper ind)) (by
    rw [fname_single, length_bindname, length_deeper, length_deeper]; omega)
  have h0 : ((Expr.u8 0).print).length = 3 := by decide
  have h1 : ((Expr.u8 1).print).length = 3 := by decide
  have h2 := length_amp y
  unfold wOpt
  simp only [ps_cons, ps_nil, ps_match, ps_write, print_path, List.length_append, length_bindname, length_deeper, List.length_nil, h0, h1]
  generalize (if y then "&".toList else []).length = k at *
  simp only [String.reduceToList, List.length_cons, List.length_nil, Nat.reduceAdd] at this ⊢
  rw [Nat.add_mul]
  omega

theorem cost_rOpt {T s M prog} {ty : Str} (hy : ty.length ≤ s) (h : Cost T s M prog) (hs : 20 ≤ s) : Cost T (s + 4) (M + 30) (rOpt ty prog) := by
  intro st hn ind hT
  have := h [bindname st] (by simp) (deeper ind) (by rw [fname_single, length_bindname, length_deeper]; omega)
  have h0 : ((toString 0).toList).length = 1 := by decide
  unfold rOpt
  simp only [ps_cons, ps_nil, ps_if, ps_letMut, ps_assign, print_path, pr_read, pr_dflt, pr_some, pr_var, List.length_append, length_bindname,
    length_deeper, List.length_nil, printStmts_append, h0]
  simp only [String.reduceToList, List.length_cons, List.length_nil, Nat.reduceAdd] at this ⊢
  rw [Nat.add_mul]
  omega

theorem cost_rArr {T s M prog} {ty : Str} (hy : ty.length ≤ s) (h : Cost T s M prog) (hs : 20 ≤ s) :
    Cost T (s + 9) (M + 40) (rArr ty prog) := by
  intro st hn ind hT
  have := h [varname st "item".toList] (by simp) (deeper ind) (by
    rw [fname_single, length_varname, length_deeper, show ("item".toList).length = 4 from rfl]; omega)
  unfold rArr
  simp only [ps_cons, ps_nil, ps_let, ps_letMut, ps_reserve, ps_range, ps_push, print_path, pr_var, pr_read, pr_cast, pr_dflt,
    List.length_append, length_varname, length_deeper, List.length_nil, printStmts_append]
  simp only [String.reduceToList, List.length_cons, List.length_nil, Nat.reduceAdd] at this ⊢
  rw [Nat.add_mul]
  omega

theorem length_reprType (r : EnumRepr) : (RustGen.reprType r).length ≤ 3 := by cases r <;> decide

theorem length_rustName (n : Str) : (rustName n).length ≤ n.length := by
  unfold rustName RustGen.resolveTypename
  split_ifs <;> first | (subst_vars; decide) | exact Nat.le_refl _

/-! ### write -/

theorem cost_writeBuiltin {T N : Nat} {tn : Str} (h : tn.length ≤ N) (b : Builtin) :
    Cost T (N + 20) 30 (fun st => writeType st tn (.builtin b)) := by
  intro st hn ind hT
  have other : (printStmts ind [.write tn (path st)]).length ≤ 30 * T := by
    simp only [ps_cons, ps_nil, ps_write, print_path, List.length_append, List.length_nil]
    simp only [String.reduceToList, List.length_cons, List.length_nil, Nat.reduceAdd]
    omega
  cases b with
  | string =>
    show (printStmts ind [.write "uint32".toList (.cast (.len (path st)) "u32".toList), .write "string".toList (.addr (path st))]).length ≤ 30 * T
    simp only [ps_cons, ps_nil, ps_write, print_path, pr_cast, pr_len, pr_addr, List.length_append, List.length_nil]
    simp only [String.reduceToList, List.length_cons, List.length_nil, Nat.reduceAdd]
    omega
  | _ => exact other

theorem cost_writeEnum {T N : Nat} (tn : Str) (e : REnum) : Cost T (N + 20) 30 (fun st => writeType st tn (.enum e)) := by
  intro st hn ind hT
  have := length_reprName e.repr
  have := length_reprType e.repr
  show (printStmts ind [.write (reprName e.repr) (.cast (path st) (RustGen.reprType e.repr))]).length ≤ 30 * T
  simp only [ps_cons, ps_nil, ps_write, print_path, pr_cast, List.length_append, List.length_nil]
  simp only [String.reduceToList, List.length_cons, List.length_nil, Nat.reduceAdd]
  omega

theorem cost_writeField {T s M N : Nat} {f : FieldOf RType} (hs : 20 ≤ s) (hN : f.name.length ≤ N)
    (h : Cost T s M (fun st => writeType st f.tyName f.ty)) : Cost T (s + N + 18) (M + 60) (fun st => writeField st f) := by
  intro st hn ind hT
  show (printStmts ind (writeField st f)).length ≤ _
  rw [writeField_eq]
  have key : Cost T (s + 17) (M + 60)
      (if f.optional then wOpt (byRef f.ty) (if f.array then wArr (fun st => writeType st f.tyName f.ty)
          else fun st => writeType st f.tyName f.ty)
        else (if f.array then wArr (fun st => writeType st f.tyName f.ty)
          else fun st => writeType st f.tyName f.ty)) := by
    cases f.optional <;> cases f.array <;> simp only [if_true, Bool.false_eq_true, if_false]
    · exact h.mono (by omega) (by omega)
    · exact (cost_wArr h hs).mono (by omega) (by omega)
    · exact (cost_wOpt _ h hs).mono (by omega) (by omega)
    · exact (cost_wOpt _ (cost_wArr h hs) (by omega)).mono (by omega) (by omega)
  exact key _ (by simp) ind (by rw [length_fname_snoc hn]; omega)

mutual
theorem cost_writeStruct {T N : Nat} : (fs : List (FieldOf RType)) → NamesLeFs N fs →
    Cost T (fieldsDepth fs * (N + 20) + N + 20) (fieldsAll fs * 100) (fun st => writeStruct st fs)
  | [], _ => fun st _ ind _ => by
    show (0 : Nat) ≤ _
    omega
  | f :: fs, h => fun st hn ind hT => by
    show (printStmts ind (writeField st f ++ writeStruct st fs)).length ≤ (fieldAll f + fieldsAll fs) * 100 * T
    have hT : (fname st).length + ind.length + (max (fieldDepth f) (fieldsDepth fs) * (N + 20) + N + 20) ≤ T := hT
    have ha : fieldDepth f * (N + 20) ≤ max (fieldDepth f) (fieldsDepth fs) * (N + 20) := Nat.mul_le_mul_right _ (Nat.le_max_left _ _)
    have hb : fieldsDepth fs * (N + 20) ≤ max (fieldDepth f) (fieldsDepth fs) * (N + 20) := Nat.mul_le_mul_right _ (Nat.le_max_right _ _)
    have h1 := cost_writeF (T := T) f h.1 st hn ind (by omega)
    have h2 := cost_writeStruct (T := T) fs h.2 st hn ind (by omega)
    simp only at h1 h2
    rw [printStmts_append, List.length_append, Nat.add_mul, Nat.add_mul]
    omega
theorem cost_writeF {T N : Nat} : (f : FieldOf RType) → NamesLeF N f →
    Cost T (fieldDepth f * (N + 20) + N + 20) (fieldAll f * 100) (fun st => writeField st f)
  | ⟨n, tn, t, a, o⟩, h => by
    have h1 := cost_writeType (T := T) tn h.2.1 t h.2.2
    have h2 := cost_writeField (f := ⟨n, tn, t, a, o⟩) (by omega) h.1 h1
    refine h2.mono ?_ ?_
    · show typeDepth t * (N + 20) + N + 20 + N + 18 ≤ (1 + typeDepth t) * (N + 20) + N + 20
      rw [Nat.add_mul]
      omega
    · show typeAll t * 100 + 30 + 60 ≤ (1 + typeAll t) * 100
      omega
theorem cost_writeType {T N : Nat} (tn : Str) (hn : tn.length ≤ N) : (t : RType) → NamesLeT N t →
    Cost T (typeDepth t * (N + 20) + N + 20) (typeAll t * 100 + 30) (fun st => writeType st tn t)
  | .builtin b, _ => (cost_writeBuiltin hn b).mono (by omega) (by omega)
  | .enum e, _ => (cost_writeEnum (N := N) tn e).mono (by omega) (by omega)
  | .struct fs, h => (cost_writeStruct fs h).mono (Nat.le_refl _) (by show fieldsAll fs * 100 ≤ fieldsAll fs * 100 + 30; omega)
end

/-! ### read -/

theorem cost_readBuiltin {T N : Nat} {tn : Str} (h : tn.length ≤ N) (b : Builtin) :
    Cost T (N + 20) 30 (fun st => readType st tn (.builtin b)) := by
  intro st hn ind hT
  have other : (printStmts ind [.assign (path st) (.read tn)]).length ≤ 30 * T := by
    simp only [ps_cons, ps_nil, ps_assign, print_path, pr_read, List.length_append, List.length_nil]
    simp only [String.reduceToList, List.length_cons, List.length_nil, Nat.reduceAdd]
    omega
  cases b with
  | string =>
    show (printStmts ind [.letS false (varname st "len".toList) (.cast (.read "uint32".toList) "usize".toList),
      .assign (path st) (.readString (.var (varname st "len".toList)))]).length ≤ 30 * T
    simp only [ps_cons, ps_nil, ps_assign, ps_let, print_path, pr_read, pr_cast, pr_readString, pr_var, length_varname, List.length_append,
      List.length_nil]
    simp only [String.reduceToList, List.length_cons, List.length_nil, Nat.reduceAdd]
    omega
  | _ => exact other

theorem cost_readEnum {T N : Nat} {tn : Str} (h : tn.length ≤ N) (e : REnum) : Cost T (N + 20) 30 (fun st => readType st tn (.enum e)) := by
  intro st hn ind hT
  have := length_reprName e.repr
  show (printStmts ind [.assign (path st) (.tryFrom tn (.read (Gen.reprName e.repr)))]).length ≤ 30 * T
  simp only [ps_cons, ps_nil, ps_assign, print_path, pr_read, pr_tryFrom, List.length_append, List.length_nil]
  simp only [String.reduceToList, List.length_cons, List.length_nil, Nat.reduceAdd]
  omega

theorem cost_readField {T s M N : Nat} {f : FieldOf RType} (hs : 20 ≤ s) (hN : f.name.length ≤ N) (hy : f.tyName.length ≤ s)
    (h : Cost T s M (fun st => readType st f.tyName f.ty)) : Cost T (s + N + 18) (M + 70) (fun st => readField st f) := by
  intro st hn ind hT
  show (printStmts ind (readField st f)).length ≤ _
  rw [readField_eq]
  have hy' := Nat.le_trans (length_rustName f.tyName) hy
  have key : Cost T (s + 17) (M + 70)
      (if f.optional then rOpt (rustName f.tyName) (if f.array then rArr (rustName f.tyName) (fun st => readType st f.tyName f.ty)
          else fun st => readType st f.tyName f.ty)
        else (if f.array then rArr (rustName f.tyName) (fun st => readType st f.tyName f.ty)
          else fun st => readType st f.tyName f.ty)) := by
    cases f.optional <;> cases f.array <;> simp only [if_true, Bool.false_eq_true, if_false]
    · exact h.mono (by omega) (by omega)
    · exact (cost_rArr hy' h hs).mono (by omega) (by omega)
    · exact (cost_rOpt hy' h hs).mono (by omega) (by omega)
    · exact (cost_rOpt (by omega) (cost_rArr hy' h hs) (by omega)).mono (by omega) (by omega)
  exact key _ (by simp) ind (by rw [length_fname_snoc hn]; omega)

mutual
theorem cost_readStruct {T N : Nat} : (fs : List (FieldOf RType)) → NamesLeFs N fs →
    Cost T (fieldsDepth fs * (N + 20) + N + 20) (fieldsAll fs * 100) (fun st => readStruct st fs)
  | [], _ => fun st _ ind _ => by
    show (0 : Nat) ≤ _
    omega
  | f :: fs, h => fun st hn ind hT => by
    show (printStmts ind (readField st f ++ readStruct st fs)).length ≤ (fieldAll f + fieldsAll fs) * 100 * T
    have hT : (fname st).length + ind.length + (max (fieldDepth f) (fieldsDepth fs) * (N + 20) + N + 20) ≤ T := hT
    have ha : fieldDepth f * (N + 20) ≤ max (fieldDepth f) (fieldsDepth fs) * (N + 20) := Nat.mul_le_mul_right _ (Nat.le_max_left _ _)
    have hb : fieldsDepth fs * (N + 20) ≤ max (fieldDepth f) (fieldsDepth fs) * (N + 20) := Nat.mul_le_mul_right _ (Nat.le_max_right _ _)
    have h1 := cost_readF (T := T) f h.1 st hn ind (by omega)
    have h2 := cost_readStruct (T := T) fs h.2 st hn ind (by omega)
    simp only at h1 h2
    rw [printStmts_append, List.length_append, Nat.add_mul, Nat.add_mul]
    omega
theorem cost_readF {T N : Nat} : (f : FieldOf RType) → NamesLeF N f →
    Cost T (fieldDepth f * (N + 20) + N + 20) (fieldAll f * 100) (fun st => readField st f)
  | ⟨n, tn, t, a, o⟩, h => by
    have h1 := cost_readType (T := T) tn h.2.1 t h.2.2
    have hy := h.2.1
    have h2 := cost_readField (f := ⟨n, tn, t, a, o⟩) (by omega) h.1 (by show tn.length ≤ _; omega) h1
    refine h2.mono ?_ ?_
    · show typeDepth t * (N + 20) + N + 20 + N + 18 ≤ (1 + typeDepth t) * (N + 20) + N + 20
      rw [Nat.add_mul]
      omega
    · show typeAll t * 100 + 30 + 70 ≤ (1 + typeAll t) * 100
      omega
theorem cost_readType {T N : Nat} (tn : Str) (hn : tn.length ≤ N) : (t : RType) → NamesLeT N t →
    Cost T (typeDepth t * (N + 20) + N + 20) (typeAll t * 100 + 30) (fun st => readType st tn t)
  | .builtin b, _ => (cost_readBuiltin hn b).mono (by omega) (by omega)
  | .enum e, _ => (cost_readEnum hn e).mono (by omega) (by omega)
  | .struct fs, h => (cost_readStruct fs h).mono (Nat.le_refl _) (by show fieldsAll fs * 100 ≤ fieldsAll fs * 100 + 30; omega)
end

/-! ### and at least how long -/

theorem least_field {m : Nat} {f : FieldOf RType} (h : ∀ st ind, m ≤ (printStmts ind (readType st f.tyName f.ty)).length)
    (st : List Str) (ind : Str) : m ≤ (printStmts ind (readField st f)).length := by
  have arr : ∀ st ind, m ≤ (printStmts ind (rArr (rustName f.tyName) (fun st => readType st f.tyName f.ty) st)).length := by
    intro st ind
    have := h [varname st "item".toList] (deeper ind)
    unfold rArr
    simp only [ps_cons, ps_nil, ps_range, printStmts_append, List.length_append]
    omega
  have opt : ∀ prog : List Str → List Stmt, (∀ st ind, m ≤ (printStmts ind (prog st)).length) →
      ∀ st ind, m ≤ (printStmts ind (rOpt (rustName f.tyName) prog st)).length := by
    intro prog hp st ind
    have := hp [bindname st] (deeper ind)
    unfold rOpt
    simp only [ps_cons, ps_nil, ps_if, printStmts_append, List.length_append]
    omega
  rw [readField_eq]
  cases f.optional <;> cases f.array <;> simp only [if_true, Bool.false_eq_true, if_false]
  · exact h _ _
  · exact arr _ _
  · exact opt _ h _ _
  · exact opt _ arr _ _

mutual
theorem least_readStruct : (fs : List (FieldOf RType)) → (st : List Str) → (ind : Str) →
    leavesFs fs ≤ (printStmts ind (readStruct st fs)).length
  | [], _, _ => Nat.zero_le _
  | f :: fs, st, ind => by
    show leavesF f + leavesFs fs ≤ (printStmts ind (readField st f ++ readStruct st fs)).length
    have h1 := least_readF f st ind
    have h2 := least_readStruct fs st ind
    rw [printStmts_append, List.length_append]
    omega
theorem least_readF : (f : FieldOf RType) → (st : List Str) → (ind : Str) → leavesF f ≤ (printStmts ind (readField st f)).length
  | ⟨n, tn, t, a, o⟩, st, ind => least_field (m := leavesT t) (f := ⟨n, tn, t, a, o⟩) (fun st ind => least_readType t tn st ind) st ind
theorem least_readType : (t : RType) → (tn : Str) → (st : List Str) → (ind : Str) →
    leavesT t ≤ (printStmts ind (readType st tn t)).length
  | .builtin b, tn, st, ind => by
    have other : 1 ≤ (printStmts ind [.assign (path st) (.read tn)]).length := by
      simp only [ps_cons, ps_nil, ps_assign, List.length_append]
      simp only [String.reduceToList, List.length_cons, List.length_nil, Nat.reduceAdd]
      omega
    cases b with
    | string =>
      show 1 ≤ (printStmts ind [.letS false (varname st "len".toList) (.cast (.read "uint32".toList) "usize".toList),
        .assign (path st) (.readString (.var (varname st "len".toList)))]).length
      simp only [ps_cons, ps_nil, ps_let, List.length_append]
      simp only [String.reduceToList, List.length_cons, List.length_nil, Nat.reduceAdd]
      omega
    | _ => exact other
  | .enum e, tn, st, ind => by
    show 1 ≤ (printStmts ind [.assign (path st) (.tryFrom tn (.read (Gen.reprName e.repr)))]).length
    simp only [ps_cons, ps_nil, ps_assign, List.length_append]
    simp only [String.reduceToList, List.length_cons, List.length_nil, Nat.reduceAdd]
    omega
  | .struct fs, tn, st, ind => least_readStruct fs st ind
end

mutual
theorem leavesFs_le : (fs : List (FieldOf RType)) → leavesFs fs ≤ fieldsAll fs
  | [] => Nat.zero_le _
  | f :: fs => by
    have h1 := leavesF_le f
    have h2 := leavesFs_le fs
    show leavesF f + leavesFs fs ≤ fieldAll f + fieldsAll fs
    omega
theorem leavesF_le : (f : FieldOf RType) → leavesF f ≤ fieldAll f
  | ⟨_, _, t, _, _⟩ => leavesT_le t
theorem leavesT_le : (t : RType) → leavesT t ≤ 1 + typeAll t
  | .builtin _ => Nat.le_refl _
  | .enum _ => Nat.le_refl _
  | .struct fs => by
    have := leavesFs_le fs
    show leavesFs fs ≤ 1 + fieldsAll fs
    omega
end

end Packetc.Rs
