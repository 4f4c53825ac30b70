import Verif.Proof.JsPrint
import Verif.Spec.Size
import Mathlib.Tactic.Ring
/-!
# How long the generated methods are
-/

namespace Packetc.Js
open Check Gen

/-- Printing what `prog` makes takes at most `M * T` characters, at any path and indentation that leave `s` of `T`. -/
def Cost (T s M : Nat) (prog : List Str → List Stmt) : Prop :=
  ∀ st, st ≠ [] → ∀ ind : Str, (fname st).length + ind.length + s ≤ T → (printStmts ind (prog st)).length ≤ M * T

theorem length_join (a b : Char) : (st : List Str) → (joinWith [a] st).length = (joinWith [b] st).length
  | [] => rfl
  | [x] => rfl
  | x :: y :: ys => by
    show (x ++ [a] ++ joinWith [a] (y :: ys)).length = (x ++ [b] ++ joinWith [b] (y :: ys)).length
    simp only [List.length_append, length_join a b (y :: ys), List.length_singleton]

theorem length_bindname (st : List Str) : (bindname st).length = (fname st).length := length_join '_' '.' st
theorem length_varname (st : List Str) (x : Str) : (varname st x).length = (fname st).length + 1 + x.length := by
  show (bindname st ++ "_".toList ++ x).length = _
  simp only [List.length_append, length_bindname, show ("_".toList).length = 1 from rfl]
theorem length_deeper (ind : Str) : (deeper ind).length = ind.length + 4 := by simp [deeper]
theorem fname_single (x : Str) : fname [x] = x := rfl
theorem length_fname_snoc {st : List Str} (h : st ≠ []) (x : Str) : (fname (st ++ [x])).length = (fname st).length + 1 + x.length := by
  unfold fname
  rw [joinWith_snoc _ _ _ h]
  simp only [List.length_append, show (".".toList).length = 1 from rfl]

theorem Cost.mono {T s M s' M' prog} (h : Cost T s M prog) (hs : s ≤ s') (hM : M ≤ M') : Cost T s' M' prog :=
  fun st hn ind hT => Nat.le_trans (h st hn ind (by omega)) (Nat.mul_le_mul_right _ hM)

theorem cost_wArr {T s M prog} (h : Cost T s M prog) (hs : 20 ≤ s) : Cost T (s + 9) (M + 30) (wArr prog) := by
  intro st hn ind hT
  have := h [varname st "item".toList] (by simp) (deeper ind) (by
    rw [fname_single, length_varname, length_deeper, show ("item".toList).length = 4 from rfl]; omega)
  unfold wArr
  simp only [ps_cons, ps_nil, ps_let, ps_for, ps_expr, print_path, pr_var, pr_writeCall, pr_prop, pr_index, List.length_append,
    length_varname, length_deeper, List.length_nil]
  simp only [String.reduceToList, List.length_cons, List.length_nil, Nat.reduceAdd] at this ⊢
  rw [Nat.add_mul]
  omega

theorem cost_wOpt {T s M prog} (h : Cost T s M prog) (hs : 20 ≤ s) : Cost T (s + 8) (M + 30) (wOpt prog) := by
  intro st hn ind hT
  have := h [bindname st] (by simp) (deeper (deeper ind)) (by
    rw [fname_single, length_bindname, length_deeper, length_deeper]; omega)
  have h0 : (showInt 0).length = 1 := by decide
  have h1 : (showInt 1).length = 1 := by decide
  unfold wOpt
  simp only [ps_cons, ps_nil, ps_let, ps_switch, ps_expr, print_path, pr_var, pr_writeCall, pr_num, List.length_append,
    length_bindname, length_deeper, List.length_nil, h0, h1]
  simp only [String.reduceToList, List.length_cons, List.length_nil, Nat.reduceAdd] at this ⊢
  rw [Nat.add_mul]
  omega

theorem cost_rOpt {T s M prog} (h : Cost T s M prog) (hs : 20 ≤ s) : Cost T (s + 4) (M + 30) (rOpt prog) := by
  intro st hn ind hT
  have := h st hn (deeper ind) (by rw [length_deeper]; omega)
  have h0 : (showInt 0).length = 1 := by decide
  unfold rOpt
  simp only [ps_cons, ps_nil, ps_ifElse, ps_assign, print_path, pr_gt, pr_undef, pr_readCall, pr_num, List.length_append,
    length_deeper, List.length_nil, h0]
  simp only [String.reduceToList, List.length_cons, List.length_nil, Nat.reduceAdd] at this ⊢
  rw [Nat.add_mul]
  omega

theorem cost_rArr {T s M prog} {init : Expr} (hi : init.print.length ≤ 9) (h : Cost T s M prog) (hs : 20 ≤ s) :
    Cost T (s + 9) (M + 30) (rArr init prog) := by
  intro st hn ind hT
  have := h [varname st "item".toList] (by simp) (deeper ind) (by
    rw [fname_single, length_varname, length_deeper, show ("item".toList).length = 4 from rfl]; omega)
  unfold rArr
  simp only [ps_cons, ps_nil, ps_let, ps_letAny, ps_for, ps_assign, print_path, pr_var, pr_readCall, pr_new1, pr_index, List.length_append,
    length_varname, length_deeper, List.length_nil, printStmts_append]
  simp only [String.reduceToList, List.length_cons, List.length_nil, Nat.reduceAdd] at this ⊢
  rw [Nat.add_mul]
  omega

theorem length_reprName (r : EnumRepr) : (reprName r).length ≤ 6 := by cases r <;> decide

theorem length_shl {v : Nat} {a : Int} (h : i32Shl1 v = some a) : (showInt a).length ≤ 11 := by
  unfold i32Shl1 at h
  split at h
  · rename_i hv
    cases h
    have : ∀ v < 32, (showInt ((1#32 <<< v).toInt)).length ≤ 11 := by decide +kernel
    exact this v hv
  · cases h

theorem length_bounds (vs : List EnumVariant) : (showInt ((enumBounds vs).getD (0, 0)).1).length ≤ 11 ∧
    (showInt ((enumBounds vs).getD (0, 0)).2).length ≤ 11 := by
  have h0 : (showInt 0).length ≤ 11 := by decide
  unfold enumBounds
  cases vs.head? with
  | none => exact ⟨h0, h0⟩
  | some lo =>
    cases vs.getLast? with
    | none => exact ⟨h0, h0⟩
    | some hi =>
      simp only
      cases h1 : i32Shl1 lo.value with
      | none => exact ⟨h0, h0⟩
      | some a =>
        cases h2 : i32Shl1 hi.value with
        | none => exact ⟨h0, h0⟩
        | some b => exact ⟨length_shl h1, length_shl h2⟩

/-! ### names -/

mutual
/-- No field name and no type name is longer than `N`. -/
def NamesLeFs (N : Nat) : List (FieldOf RType) → Prop
  | [] => True
  | f :: fs => NamesLeF N f ∧ NamesLeFs N fs
def NamesLeF (N : Nat) : FieldOf RType → Prop
  | ⟨n, tn, t, _, _⟩ => n.length ≤ N ∧ tn.length ≤ N ∧ NamesLeT N t
def NamesLeT (N : Nat) : RType → Prop
  | .builtin _ => True
  | .enum _ => True
  | .struct fs => NamesLeFs N fs
end

/-! ### write -/

theorem cost_writeBuiltin {T N : Nat} {tn : Str} (h : tn.length ≤ N) (b : Builtin) :
    Cost T (N + 20) 30 (fun st => writeType st tn (.builtin b)) := by
  intro st hn ind hT
  have other : (printStmts ind [.expr (writeCall tn (path st))]).length ≤ 30 * T := by
    simp only [ps_cons, ps_nil, ps_expr, print_path, pr_writeCall, List.length_append, List.length_nil]
    simp only [String.reduceToList, List.length_cons, List.length_nil, Nat.reduceAdd]
    omega
  cases b with
  | string =>
    show (printStmts ind [.expr (writeCall "uint32".toList (.prop (path st) "length".toList)),
     .expr (writeCall "string".toList (path st))]).length ≤ 30 * T
    simp only [ps_cons, ps_nil, ps_expr, print_path, pr_writeCall, pr_prop, List.length_append, List.length_nil]
    simp only [String.reduceToList, List.length_cons, List.length_nil, Nat.reduceAdd]
    omega
  | _ => exact other

theorem cost_writeEnum {T N : Nat} (tn : Str) (e : REnum) : Cost T (N + 20) 30 (fun st => writeType st tn (.enum e)) := by
  intro st hn ind hT
  have := length_reprName e.repr
  show (printStmts ind [.expr (writeCall (reprName e.repr) (.asNumber (path st)))]).length ≤ 30 * T
  simp only [ps_cons, ps_nil, ps_expr, print_path, pr_writeCall, pr_as, List.length_append, List.length_nil]
  simp only [String.reduceToList, List.length_cons, List.length_nil, Nat.reduceAdd]
  omega

theorem cost_writeField {T s M N : Nat} {f : FieldOf RType} (hs : 20 ≤ s) (hN : f.name.length ≤ N)
    (h : Cost T s M (fun st => writeType st f.tyName f.ty)) : Cost T (s + N + 18) (M + 60) (fun st => writeField st f) := by
  intro st hn ind hT
  show (printStmts ind (writeField st f)).length ≤ _
  rw [writeField_eq]
  have key : Cost T (s + 17) (M + 60)
      (if f.optional then wOpt (if f.array then wArr (fun st => writeType st f.tyName f.ty)
          else fun st => writeType st f.tyName f.ty)
        else (if f.array then wArr (fun st => writeType st f.tyName f.ty)
          else fun st => writeType st f.tyName f.ty)) := by
    cases f.optional <;> cases f.array <;> simp only [if_true, Bool.false_eq_true, if_false]
    · exact h.mono (by omega) (by omega)
    · exact (cost_wArr h hs).mono (by omega) (by omega)
    · exact (cost_wOpt h hs).mono (by omega) (by omega)
    · exact (cost_wOpt (cost_wArr h hs) (by omega)).mono (by omega) (by omega)
  exact key _ (by simp) ind (by rw [length_fname_snoc hn]; omega)

mutual
theorem cost_writeStruct {T N : Nat} : (fs : List (FieldOf RType)) → NamesLeFs N fs →
    Cost T (fieldsDepth fs * (N + 20) + N + 20) (fieldsAll fs * 100) (fun st => writeStruct st fs)
  | [], _ => fun st _ ind _ => by
    show (0 : Nat) ≤ _
    omega
  | f :: fs, h => fun st hn ind hT => by
    show (printStmts ind (writeField st f ++ writeStruct st fs)).length ≤ (fieldAll f + fieldsAll fs) * 100 * T
    have hT : (fname st).length + ind.length + (max (fieldDepth f) (fieldsDepth fs) * (N + 20) + N + 20) ≤ T := hT
    have ha : fieldDepth f * (N + 20) ≤ max (fieldDepth f) (fieldsDepth fs) * (N + 20) := Nat.mul_le_mul_right _ (Nat.le_max_left _ _)
    have hb : fieldsDepth fs * (N + 20) ≤ max (fieldDepth f) (fieldsDepth fs) * (N + 20) := Nat.mul_le_mul_right _ (Nat.le_max_right _ _)
    have h1 := cost_writeF (T := T) f h.1 st hn ind (by omega)
    have h2 := cost_writeStruct (T := T) fs h.2 st hn ind (by omega)
    simp only at h1 h2
    rw [printStmts_append, List.length_append, Nat.add_mul, Nat.add_mul]
    omega
theorem cost_writeF {T N : Nat} : (f : FieldOf RType) → NamesLeF N f →
    Cost T (fieldDepth f * (N + 20) + N + 20) (fieldAll f * 100) (fun st => writeField st f)
  | ⟨n, tn, t, a, o⟩, h => by
    have h1 := cost_writeType (T := T) tn h.2.1 t h.2.2
    have h2 := cost_writeField (f := ⟨n, tn, t, a, o⟩) (by omega) h.1 h1
    refine h2.mono ?_ ?_
    · show typeDepth t * (N + 20) + N + 20 + N + 18 ≤ (1 + typeDepth t) * (N + 20) + N + 20
      rw [Nat.add_mul]
      omega
    · show typeAll t * 100 + 30 + 60 ≤ (1 + typeAll t) * 100
      omega
theorem cost_writeType {T N : Nat} (tn : Str) (hn : tn.length ≤ N) : (t : RType) → NamesLeT N t →
    Cost T (typeDepth t * (N + 20) + N + 20) (typeAll t * 100 + 30) (fun st => writeType st tn t)
  | .builtin b, _ => (cost_writeBuiltin hn b).mono (by omega) (by omega)
  | .enum e, _ => (cost_writeEnum (N := N) tn e).mono (by omega) (by omega)
  | .struct fs, h => (cost_writeStruct fs h).mono (Nat.le_refl _) (by show fieldsAll fs * 100 ≤ fieldsAll fs * 100 + 30; omega)
end

/-! ### read -/

theorem cost_readBuiltin {T N : Nat} {tn : Str} (h : tn.length ≤ N) (b : Builtin) (init : Bool) :
    Cost T (N + 20) 30 (fun st => readType init st tn (.builtin b)) := by
  intro st hn ind hT
  have other : (printStmts ind [.assign (path st) (readCall tn)]).length ≤ 30 * T := by
    simp only [ps_cons, ps_nil, ps_assign, print_path, pr_readCall, List.length_append, List.length_nil]
    simp only [String.reduceToList, List.length_cons, List.length_nil, Nat.reduceAdd]
    omega
  cases b with
  | string =>
    show (printStmts ind [.letS (varname st "len".toList) false (readCall "uint32".toList),
     .assign (path st) (.call1 reader "read_string".toList (.var (varname st "len".toList)))]).length ≤ 30 * T
    simp only [ps_cons, ps_nil, ps_assign, ps_let, print_path, pr_readCall, pr_call1, pr_var, length_varname, List.length_append, List.length_nil]
    simp only [String.reduceToList, List.length_cons, List.length_nil, Nat.reduceAdd]
    omega
  | _ => exact other

theorem cost_readEnum {T N : Nat} (tn : Str) (e : REnum) (init : Bool) : Cost T (N + 20) 30 (fun st => readType init st tn (.enum e)) := by
  intro st hn ind hT
  have := length_reprName e.repr
  obtain ⟨h1, h2⟩ := length_bounds e.variants
  show (printStmts ind [.letS (varname st "temp".toList) false (readCall (Gen.reprName e.repr)),
     .ifAssign (.and (.le (.num ((Gen.enumBounds e.variants).getD (0, 0)).1) (.var (varname st "temp".toList)))
       (.le (.var (varname st "temp".toList)) (.num ((Gen.enumBounds e.variants).getD (0, 0)).2))) (path st) (.var (varname st "temp".toList))
       (.prop reader "failed".toList) .tru]).length ≤ 30 * T
  simp only [ps_cons, ps_nil, ps_ifAssign, ps_let, print_path, pr_readCall, pr_and, pr_le, pr_num, pr_prop, pr_tru, pr_var, length_varname,
    List.length_append, List.length_nil]
  simp only [String.reduceToList, List.length_cons, List.length_nil, Nat.reduceAdd]
  omega

theorem cost_readStruct {T s M : Nat} {fs : List (FieldOf RType)} (hs : 20 ≤ s) (tn : Str) (init : Bool)
    (h : Cost T s M (fun st => readFields st fs)) : Cost T s (M + 30) (fun st => readType init st tn (.struct fs)) := by
  cases init with
  | false =>
    intro st hn ind hT
    exact Nat.le_trans (h st hn ind hT) (Nat.mul_le_mul_right _ (by omega))
  | true =>
    intro st hn ind hT
    have := h [bindname st] (by simp) ind (by rw [fname_single, length_bindname]; exact hT)
    show (printStmts ind ([.letS (bindname st) true .obj] ++ readFields [bindname st] fs ++ [.assign (path st) (.var (bindname st))])).length ≤ _
    simp only [ps_cons, ps_nil, ps_letAny, ps_assign, print_path, pr_obj, pr_var, printStmts_append, length_bindname, List.length_append,
      List.length_nil]
    simp only [String.reduceToList, List.length_cons, List.length_nil, Nat.reduceAdd] at this ⊢
    rw [Nat.add_mul]
    omega

theorem length_itemInit (t : RType) : (itemInit t).print.length ≤ 9 := by
  cases t with
  | struct fs => exact (by decide : ("{}".toList).length ≤ 9)
  | _ => exact (by decide : ("undefined".toList).length ≤ 9)

theorem cost_readField {T s M N : Nat} {f : FieldOf RType} (hs : 20 ≤ s) (hN : f.name.length ≤ N)
    (h : ∀ init, Cost T s M (fun st => readType init st f.tyName f.ty)) : Cost T (s + N + 18) (M + 60) (fun st => readField st f) := by
  intro st hn ind hT
  show (printStmts ind (readField st f)).length ≤ _
  rw [readField_eq]
  have key : Cost T (s + 17) (M + 60)
      (if f.optional then rOpt (if f.array then rArr (itemInit f.ty) (fun st => readType false st f.tyName f.ty)
          else fun st => readType true st f.tyName f.ty)
        else (if f.array then rArr (itemInit f.ty) (fun st => readType false st f.tyName f.ty)
          else fun st => readType true st f.tyName f.ty)) := by
    have hi := length_itemInit f.ty
    cases f.optional <;> cases f.array <;> simp only [if_true, Bool.false_eq_true, if_false]
    · exact (h true).mono (by omega) (by omega)
    · exact (cost_rArr hi (h false) hs).mono (by omega) (by omega)
    · exact (cost_rOpt (h true) hs).mono (by omega) (by omega)
    · exact (cost_rOpt (cost_rArr hi (h false) hs) (by omega)).mono (by omega) (by omega)
  exact key _ (by simp) ind (by rw [length_fname_snoc hn]; omega)

mutual
theorem cost_readFields {T N : Nat} : (fs : List (FieldOf RType)) → NamesLeFs N fs →
    Cost T (fieldsDepth fs * (N + 20) + N + 20) (fieldsAll fs * 100) (fun st => readFields st fs)
  | [], _ => fun st _ ind _ => by
    show (0 : Nat) ≤ _
    omega
  | f :: fs, h => fun st hn ind hT => by
    show (printStmts ind (readField st f ++ readFields st fs)).length ≤ (fieldAll f + fieldsAll fs) * 100 * T
    have hT : (fname st).length + ind.length + (max (fieldDepth f) (fieldsDepth fs) * (N + 20) + N + 20) ≤ T := hT
    have ha : fieldDepth f * (N + 20) ≤ max (fieldDepth f) (fieldsDepth fs) * (N + 20) := Nat.mul_le_mul_right _ (Nat.le_max_left _ _)
    have hb : fieldsDepth fs * (N + 20) ≤ max (fieldDepth f) (fieldsDepth fs) * (N + 20) := Nat.mul_le_mul_right _ (Nat.le_max_right _ _)
    have h1 := cost_readF (T := T) f h.1 st hn ind (by omega)
    have h2 := cost_readFields (T := T) fs h.2 st hn ind (by omega)
    simp only at h1 h2
    rw [printStmts_append, List.length_append, Nat.add_mul, Nat.add_mul]
    omega
theorem cost_readF {T N : Nat} : (f : FieldOf RType) → NamesLeF N f →
    Cost T (fieldDepth f * (N + 20) + N + 20) (fieldAll f * 100) (fun st => readField st f)
  | ⟨n, tn, t, a, o⟩, h => by
    have h1 := fun init => cost_readType (T := T) init tn h.2.1 t h.2.2
    have h2 := cost_readField (f := ⟨n, tn, t, a, o⟩) (by omega) h.1 h1
    refine h2.mono ?_ ?_
    · show typeDepth t * (N + 20) + N + 20 + N + 18 ≤ (1 + typeDepth t) * (N + 20) + N + 20
      rw [Nat.add_mul]
      omega
    · show typeAll t * 100 + 30 + 60 ≤ (1 + typeAll t) * 100
      omega
theorem cost_readType {T N : Nat} (init : Bool) (tn : Str) (hn : tn.length ≤ N) : (t : RType) → NamesLeT N t →
    Cost T (typeDepth t * (N + 20) + N + 20) (typeAll t * 100 + 30) (fun st => readType init st tn t)
  | .builtin b, _ => (cost_readBuiltin hn b init).mono (by omega) (by omega)
  | .enum e, _ => (cost_readEnum (N := N) tn e init).mono (by omega) (by omega)
  | .struct fs, h => cost_readStruct (by show 20 ≤ fieldsDepth fs * (N + 20) + N + 20; omega) tn init (cost_readFields fs h)
end

/-! ### and at least how long -/

theorem least_rOpt {m : Nat} {prog : List Str → List Stmt} (h : ∀ st ind, m ≤ (printStmts ind (prog st)).length) (st : List Str) (ind : Str) :
    m ≤ (printStmts ind (rOpt prog st)).length := by
  have := h st (deeper ind)
  unfold rOpt
  simp only [ps_cons, ps_nil, ps_ifElse, List.length_append]
  omega

theorem least_rArr {m : Nat} {init : Expr} {prog : List Str → List Stmt} (h : ∀ st ind, m ≤ (printStmts ind (prog st)).length) (st : List Str)
    (ind : Str) : 1 + m ≤ (printStmts ind (rArr init prog st)).length := by
  have := h [varname st "item".toList] (deeper ind)
  unfold rArr
  simp only [ps_cons, ps_nil, ps_for, printStmts_append, List.length_append]
  simp only [String.reduceToList, List.length_cons, List.length_nil, Nat.reduceAdd] at this ⊢
  omega

theorem least_readField {m : Nat} {f : FieldOf RType} (h : ∀ st ind, m ≤ (printStmts ind (readType false st f.tyName f.ty)).length)
    (h' : ∀ st ind, 1 + m ≤ (printStmts ind (readType true st f.tyName f.ty)).length) (st : List Str) (ind : Str) :
    1 + m ≤ (printStmts ind (readField st f)).length := by
  rw [readField_eq]
  cases f.optional <;> cases f.array <;> simp only [if_true, Bool.false_eq_true, if_false]
  · exact h' _ _
  · exact least_rArr (prog := fun st => readType false st f.tyName f.ty) h _ _
  · exact least_rOpt (prog := fun st => readType true st f.tyName f.ty) h' _ _
  · exact least_rOpt (least_rArr (prog := fun st => readType false st f.tyName f.ty) h) _ _

mutual
theorem least_readFields : (fs : List (FieldOf RType)) → (st : List Str) → (ind : Str) →
    fieldsAll fs ≤ (printStmts ind (readFields st fs)).length
  | [], _, _ => Nat.zero_le _
  | f :: fs, st, ind => by
    show fieldAll f + fieldsAll fs ≤ (printStmts ind (readField st f ++ readFields st fs)).length
    have h1 := least_readF f st ind
    have h2 := least_readFields fs st ind
    rw [printStmts_append, List.length_append]
    omega
theorem least_readF : (f : FieldOf RType) → (st : List Str) → (ind : Str) → fieldAll f ≤ (printStmts ind (readField st f)).length
  | ⟨n, tn, t, a, o⟩, st, ind => least_readField (m := typeAll t) (f := ⟨n, tn, t, a, o⟩)
    (fun st ind => (least_readType t tn st ind).1) (fun st ind => (least_readType t tn st ind).2) st ind
theorem least_readType : (t : RType) → (tn : Str) → (st : List Str) → (ind : Str) →
    typeAll t ≤ (printStmts ind (readType false st tn t)).length ∧ 1 + typeAll t ≤ (printStmts ind (readType true st tn t)).length
  | .builtin b, tn, st, ind => by
    refine ⟨Nat.zero_le _, ?_⟩
    have other : 1 ≤ (printStmts ind [.assign (path st) (readCall tn)]).length := by
      simp only [ps_cons, ps_nil, ps_assign, List.length_append]
      simp only [String.reduceToList, List.length_cons, List.length_nil, Nat.reduceAdd]
      omega
    cases b with
    | string =>
      show 1 ≤ (printStmts ind [.letS (varname st "len".toList) false (readCall "uint32".toList),
        .assign (path st) (.call1 reader "read_string".toList (.var (varname st "len".toList)))]).length
      simp only [ps_cons, ps_nil, ps_let, List.length_append]
      simp only [String.reduceToList, List.length_cons, List.length_nil, Nat.reduceAdd]
      omega
    | _ => exact other
  | .enum e, tn, st, ind => by
    refine ⟨Nat.zero_le _, ?_⟩
    show 1 ≤ (Stmt.print ind (.letS (varname st "temp".toList) false (readCall (Gen.reprName e.repr))) ++ printStmts ind _).length
    rw [ps_let]
    simp only [List.length_append]
    simp only [String.reduceToList, List.length_cons, List.length_nil, Nat.reduceAdd]
    omega
  | .struct fs, tn, st, ind => by
    refine ⟨least_readFields fs st ind, ?_⟩
    have := least_readFields fs [bindname st] ind
    show 1 + fieldsAll fs ≤
      (printStmts ind ([.letS (bindname st) true .obj] ++ readFields [bindname st] fs ++ [.assign (path st) (.var (bindname st))])).length
    simp only [ps_cons, ps_nil, ps_letAny, printStmts_append, List.length_append]
    simp only [String.reduceToList, List.length_cons, List.length_nil, Nat.reduceAdd] at this ⊢
    omega
end

end Packetc.Js
