import Verif.Spec.Construct
import Verif.Proof.Text
import Verif.Proof.JsRep
/-!
# Helper lemmas for C115-C117
-/

namespace Packetc.Props
open Ast Check Js WellFormed

theorem has_iff_get {V : Type} (m : Map V) (k : Str) : m.has k = true ↔ m.get k ≠ none := by
  unfold Map.has
  cases m.get k <;> simp

theorem set_inst {props : Map Val} {p : Str} (hp : p ≠ "__proto__".toList) (v : Val) :
    (Obj.obj .inst props).set p v = .ok (.obj .inst (props.insert p v)) := by
  unfold Obj.set
  simp only [if_neg hp]
  split_ifs with h1 h2
  · rfl
  · exact absurd h2.1 (by decide)
  · rfl

/-- The constructor stores the arguments in the properties of the new object. -/
theorem assign_ok : ∀ (ns : List Str) (props : Map Val) (args : List Val), ns.Nodup → "__proto__".toList ∉ ns →
    ∃ props', assignParams (.obj .inst props) ns args = .ok (.obj .inst props') ∧
      (∀ (i : Nat) (n : Str), ns[i]? = some n → props'.get n = some ((args[i]?).getD .undef)) ∧
      ∀ n, n ∉ ns → props'.get n = props.get n := by
  intro ns
  induction ns with
  | nil => intro props args _ _; exact ⟨props, rfl, fun i n h => by simp at h, fun _ _ => rfl⟩
  | cons p ns ih =>
    intro props args hnd hpr
    obtain ⟨hp, hnd⟩ := List.nodup_cons.1 hnd
    obtain ⟨hpp, hpr⟩ := not_or.1 (fun h => hpr (List.mem_cons.2 h))
    obtain ⟨props', h1, h2, h3⟩ := ih (props.insert p (args.head?.getD .undef)) args.tail hnd hpr
    refine ⟨props', ?_, ?_, ?_⟩
    · rw [assignParams.eq_2, set_inst (Ne.symm hpp)]
      exact h1
    · intro i n hi
      cases i with
      | zero =>
        simp only [List.getElem?_cons_zero, Option.some.injEq] at hi
        subst hi
        rw [h3 _ hp, Map.get_insert, if_pos rfl]
        cases args <;> rfl
      | succ i =>
        rw [List.getElem?_cons_succ] at hi
        rw [h2 i n hi]
        cases args <;> simp
    · intro n hn
      obtain ⟨h4, h5⟩ := not_or.1 (fun h => hn (List.mem_cons.2 h))
      rw [h3 n h5, Map.get_insert, if_neg (Ne.symm h4)]

/-- The constructor never makes a property called `__proto__`. -/
theorem assign_proto : ∀ (ns : List Str) (props : Map Val) (args : List Val) (o : Obj),
    assignParams (.obj .inst props) ns args = .ok o → props.get "__proto__".toList = none →
    ∃ props', o = .obj .inst props' ∧ props'.get "__proto__".toList = none := by
  intro ns
  induction ns with
  | nil => intro props args o h hp; cases h; exact ⟨props, rfl, hp⟩
  | cons p ns ih =>
    intro props args o h hp
    rw [assignParams.eq_2] at h
    by_cases hpp : p = "__proto__".toList
    · subst hpp
      unfold Obj.set at h
      simp only [if_true] at h
      have hh : ¬ props.has "__proto__".toList = true := by rw [has_iff_get]; exact fun h => h hp
      rw [if_neg hh] at h
      by_cases hv : (args.head?.getD Val.undef).primitive = true
      · rw [if_pos hv] at h
        exact ih props args.tail o h hp
      · rw [if_neg hv] at h
        cases h
    · rw [set_inst hpp] at h
      refine ih _ args.tail o h ?_
      rw [Map.get_insert, if_neg hpp, hp]

/-- The parameters of the constructor are the fields. -/
theorem compiled_params {ast : AST} {e : Artifact} (hc : Compiled ast e) (h : load e.code ≠ none) :
    (e.fields.map FieldOf.name).Nodup ∧ "write".toList ∉ e.fields.map FieldOf.name ∧ ∀ heap args, newText e.code heap args =
      match assignParams (.obj .inst []) (e.fields.map FieldOf.name) args with
      | .error t => .throws t
      | .ok o => .returns (.ref heap.length) (heap ++ [o]) := by
  obtain ⟨m, hm⟩ := Option.ne_none_iff_exists'.1 h
  obtain ⟨ds, tds, fs, fs', R, -, rfl, hl, hok⟩ := compiled_load hc hm
  have hpar : (moduleOf e.toExport (tds.map Prod.fst) fs').params.map TsMember.name = e.fields.map FieldOf.name := by
    rw [← R.names]
    show (fs'.map (paramOf e.name)).map TsMember.name = _
    rw [List.map_map]
    rfl
  unfold TsModule.loads at hl
  simp only [Bool.and_eq_true] at hl
  refine ⟨?_, ?_, fun heap args => ?_⟩
  · rw [← hpar]
    exact of_decide_eq_true hl.1.1.1.2
  · have h2 := List.all_eq_true.1 hl.2 (writeMethod (writeBody e.toExport)) (by
      show _ ∈ [_, _]
      exact List.mem_cons_of_mem _ List.mem_cons_self)
    unfold TsModule.methodOk at h2
    simp only [Bool.and_eq_true] at h2
    have h3 := h2.2
    rw [hpar] at h3
    intro hmem
    have : ((e.fields.map FieldOf.name).contains (writeMethod (writeBody e.toExport)).name) = true := by
      rw [List.contains_iff_mem]
      exact hmem
    rw [this] at h3
    cases h3
  · unfold newText
    rw [hm]
    simp only [hpar]
    cases assignParams (.obj .inst []) (e.fields.map FieldOf.name) args <;> rfl

/-- Components have the names of the fields. -/
theorem shaped_names {S : Str → Prop} {E : REnum → Num → Prop} : ∀ (fs : List (FieldOf RType)) (ps : List (PropOf JVal)),
    TypedFs S E fs ps → ps.map PropOf.name = fs.map FieldOf.name := by
  intro fs
  induction fs with
  | nil => intro ps h; rw [TypedFs] at h; rw [h]; rfl
  | cons f fs ih =>
    intro ps h
    rw [TypedFs] at h
    obtain ⟨p, qs, rfl, h1, h2⟩ := h
    rw [List.map_cons, List.map_cons, ih qs h2]
    cases f
    rw [TypedF] at h1
    rw [h1.1]

theorem rep_extend {heap ext : List Obj} {j : JVal} {v : Val} (h : Rep heap j v) : Rep (heap ++ ext) j v :=
  repFrom_mono (Nat.le_refl _) (fun k o _ hk => by
    rw [List.getElem?_append_left (List.getElem?_eq_some_iff.1 hk).1]
    exact hk) j v h

end Packetc.Props
