import Verif.Proof.Text
import Verif.Spec.Vars
/-!
# Exactly when the generated functions declare no variable twice
-/

namespace Packetc.Js
open Ast Check Gen WellFormed

mutual
/-- The variables that `read` declares in the block of a struct: field path and name. -/
def rvs : List (FieldOf RType) → List (List Str × Str)
  | [] => []
  | f :: fs => rv f ++ rvs fs
def rv : FieldOf RType → List (List Str × Str)
  | ⟨n, _, t, a, o⟩ => if o then [] else if a then [([n], n ++ "_len".toList)] else rvT n t
def rvT (n : Str) : RType → List (List Str × Str)
  | .builtin .string => [([n], n ++ "_len".toList)]
  | .builtin _ => []
  | .enum _ => [([n], n ++ "_temp".toList)]
  | .struct fs => ([n], n) :: (rvs fs).map fun x => (n :: x.1, n ++ "_".toList ++ x.2)
end

mutual
/-- The same for `write`. -/
def wvs : List (FieldOf RType) → List (List Str × Str)
  | [] => []
  | f :: fs => wv f ++ wvs fs
def wv : FieldOf RType → List (List Str × Str)
  | ⟨n, _, t, a, o⟩ => if o then [([n], n)] else if a then [] else wvT n t
def wvT (n : Str) : RType → List (List Str × Str)
  | .struct fs => (wvs fs).map fun x => (n :: x.1, n ++ "_".toList ++ x.2)
  | _ => []
end

mutual
/-- `Q` holds for the fields of every struct inside. -/
def AllT (Q : List (FieldOf RType) → Prop) : RType → Prop
  | .struct fs => Q fs ∧ AllFs Q fs
  | _ => True
def AllFs (Q : List (FieldOf RType) → Prop) : List (FieldOf RType) → Prop
  | [] => True
  | f :: fs => AllF Q f ∧ AllFs Q fs
def AllF (Q : List (FieldOf RType) → Prop) : FieldOf RType → Prop
  | ⟨_, _, t, _, _⟩ => AllT Q t
end

theorem allFs_iff {Q : List (FieldOf RType) → Prop} (fs : List (FieldOf RType)) : AllFs Q fs ↔ ∀ f ∈ fs, AllT Q f.ty := by
  induction fs with
  | nil => simp [AllFs]
  | cons f fs ih =>
    have : AllF Q f ↔ AllT Q f.ty := by cases f; rfl
    simp [AllFs, ih, this]

theorem rvs_flat (fs : List (FieldOf RType)) : rvs fs = fs.flatMap rv := by
  induction fs with
  | nil => rfl
  | cons f fs ih => show rv f ++ rvs fs = _; rw [ih, List.flatMap_cons]

theorem wvs_flat (fs : List (FieldOf RType)) : wvs fs = fs.flatMap wv := by
  induction fs with
  | nil => rfl
  | cons f fs ih => show wv f ++ wvs fs = _; rw [ih, List.flatMap_cons]

theorem rv_eq (f : FieldOf RType) : rv f = if f.optional then [] else if f.array then [([f.name], f.name ++ "_len".toList)] else rvT f.name f.ty := by
  cases f; rfl
theorem wv_eq (f : FieldOf RType) : wv f = if f.optional then [([f.name], f.name)] else if f.array then [] else wvT f.name f.ty := by
  cases f; rfl

/-- Nothing declared twice in the block of the type's own fields. -/
def OwnR : RType → Prop
  | .struct fs => ((rvs fs).map Prod.snd).Nodup
  | _ => True
def OwnW : RType → Prop
  | .struct fs => ((wvs fs).map Prod.snd).Nodup
  | _ => True

abbrev QR (fs : List (FieldOf RType)) : Prop := ((rvs fs).map Prod.snd).Nodup
abbrev QW (fs : List (FieldOf RType)) : Prop := ((wvs fs).map Prod.snd).Nodup

theorem bind2 (s n : Str) : bindname [s, n] = s ++ "_".toList ++ n := by simp [bindname, joinWith]
theorem var2 (s n x : Str) : varname [s, n] x = s ++ "_".toList ++ (n ++ "_".toList ++ x) := by simp [varname, joinWith]

theorem under_inj (s : Str) : Function.Injective fun x : Str => s ++ "_".toList ++ x := by
  intro a b h
  exact List.append_cancel_left h

theorem nodup_under (s : Str) (l : List (List Str × Str)) :
    (l.map fun x => s ++ "_".toList ++ x.2).Nodup ↔ (l.map Prod.snd).Nodup := by
  have : (l.map fun x => s ++ "_".toList ++ x.2) = (l.map Prod.snd).map fun x => s ++ "_".toList ++ x := by simp
  rw [this, List.nodup_map_iff (under_inj s)]

/-! ### the names -/

mutual
theorem names_readFields : (fs : List (FieldOf RType)) → (s : Str) →
    letNames (readFields [s] fs) = (rvs fs).map fun x => s ++ "_".toList ++ x.2
  | [], s => rfl
  | f :: fs, s => by
    show letNames (readField [s] f ++ readFields [s] fs) = (rv f ++ rvs fs).map _
    rw [letNames_append, List.map_append, names_readField f s, names_readFields fs s]
theorem names_readField : (f : FieldOf RType) → (s : Str) →
    letNames (readField [s] f) = (rv f).map fun x => s ++ "_".toList ++ x.2
  | ⟨n, tn, t, a, o⟩, s => by
    rw [readField_eq, rv_eq]
    cases o with
    | true => rfl
    | false =>
      cases a with
      | true =>
        show [varname [s, n] "len".toList] = [s ++ "_".toList ++ (n ++ "_len".toList)]
        rw [var2]
        simp
      | false => exact names_readType tn t s n
theorem names_readType (tn : Str) : (t : RType) → (s n : Str) →
    letNames (readType true [s, n] tn t) = (rvT n t).map fun x => s ++ "_".toList ++ x.2
  | .builtin b, s, n => by
    cases b with
    | string =>
      show [varname [s, n] "len".toList] = [s ++ "_".toList ++ (n ++ "_len".toList)]
      rw [var2]
      simp
    | _ => rfl
  | .enum e, s, n => by
    show [varname [s, n] "temp".toList] = [s ++ "_".toList ++ (n ++ "_temp".toList)]
    rw [var2]
    simp
  | .struct fs, s, n => by
    have ih := names_readFields fs (bindname [s, n])
    show letNames ([.letS (bindname [s, n]) true .obj] ++ readFields [bindname [s, n]] fs ++
          [.assign (path [s, n]) (.var (bindname [s, n]))]) = _
    rw [letNames_append, letNames_append, ih]
    show [bindname [s, n]] ++ _ ++ [] = (([n], n) :: (rvs fs).map fun x => (n :: x.1, n ++ "_".toList ++ x.2)).map _
    rw [bind2]
    simp
end

mutual
theorem names_writeStruct : (fs : List (FieldOf RType)) → (st : List Str) → st ≠ [] →
    letNames (writeStruct st fs) = (wvs fs).map fun x => bindname st ++ "_".toList ++ x.2
  | [], _, _ => rfl
  | f :: fs, st, h => by
    show letNames (writeField st f ++ writeStruct st fs) = (wv f ++ wvs fs).map _
    rw [letNames_append, List.map_append, names_writeField f st h, names_writeStruct fs st h]
theorem names_writeField : (f : FieldOf RType) → (st : List Str) → st ≠ [] →
    letNames (writeField st f) = (wv f).map fun x => bindname st ++ "_".toList ++ x.2
  | ⟨n, tn, t, a, o⟩, st, h => by
    rw [writeField_eq, wv_eq]
    cases o with
    | true =>
      show [bindname (st ++ [n])] = [bindname st ++ "_".toList ++ n]
      unfold bindname
      rw [joinWith_snoc _ _ _ h]
    | false =>
      cases a with
      | true => rfl
      | false => exact names_writeType tn t st n h
theorem names_writeType (tn : Str) : (t : RType) → (st : List Str) → (n : Str) → st ≠ [] →
    letNames (writeType (st ++ [n]) tn t) = (wvT n t).map fun x => bindname st ++ "_".toList ++ x.2
  | .builtin b, st, n, h => by cases b <;> rfl
  | .enum e, st, n, h => rfl
  | .struct fs, st, n, h => by
    have ih := names_writeStruct fs (st ++ [n]) (by simp)
    show letNames (writeStruct (st ++ [n]) fs) = ((wvs fs).map fun x => (n :: x.1, n ++ "_".toList ++ x.2)).map _
    rw [ih]
    unfold bindname
    rw [joinWith_snoc _ _ _ h]
    simp
end

/-! ### the blocks -/

theorem stmtsOk_flat (prog : FieldOf RType → List Stmt) (fs : List (FieldOf RType)) :
    stmtsOk (fs.flatMap prog) = true ↔ ∀ f ∈ fs, stmtsOk (prog f) = true := by
  induction fs with
  | nil => simp [stmtsOk]
  | cons f fs ih => rw [List.flatMap_cons, stmtsOk_append, Bool.and_eq_true, ih]; simp

theorem ownR_rvT (n : Str) (t : RType) : ((rvT n t).map Prod.snd).Nodup ↔ OwnR t := by
  cases t with
  | builtin b => cases b <;> simp [rvT, OwnR]
  | enum e => simp [rvT, OwnR]
  | struct fs =>
    show (n :: ((rvs fs).map fun x => (n :: x.1, n ++ "_".toList ++ x.2)).map Prod.snd).Nodup ↔ ((rvs fs).map Prod.snd).Nodup
    have e : ((rvs fs).map fun x => (n :: x.1, n ++ "_".toList ++ x.2)).map Prod.snd = (rvs fs).map fun x => n ++ "_".toList ++ x.2 := by simp
    rw [List.nodup_cons, e, nodup_under]
    refine and_iff_right ?_
    intro h
    obtain ⟨x, -, hx⟩ := List.mem_map.1 h
    have := congrArg List.length hx
    simp at this

theorem ownW_wvT (n : Str) (t : RType) : ((wvT n t).map Prod.snd).Nodup ↔ OwnW t := by
  cases t with
  | builtin b => simp [wvT, OwnW]
  | enum e => simp [wvT, OwnW]
  | struct fs =>
    show (((wvs fs).map fun x => (n :: x.1, n ++ "_".toList ++ x.2)).map Prod.snd).Nodup ↔ ((wvs fs).map Prod.snd).Nodup
    have e : ((wvs fs).map fun x => (n :: x.1, n ++ "_".toList ++ x.2)).map Prod.snd = (wvs fs).map fun x => n ++ "_".toList ++ x.2 := by simp
    rw [e, nodup_under]

/-- Own fields, then everything inside. -/
theorem allT_own {t : RType} (h : AllT QR t) : OwnR t := by
  cases t with
  | struct fs => exact h.1
  | _ => trivial
theorem allT_ownW {t : RType} (h : AllT QW t) : OwnW t := by
  cases t with
  | struct fs => exact h.1
  | _ => trivial

theorem nodup_flat_mem {α β : Type} {g : α → List β} {l : List α} (h : (l.flatMap g).Nodup) {a : α} (ha : a ∈ l) : (g a).Nodup := by
  exact (List.nodup_flatMap.1 h).1 a ha

theorem sub_rv {fs : List (FieldOf RType)} (h : QR fs) {f : FieldOf RType} (hf : f ∈ fs) : ((rv f).map Prod.snd).Nodup := by
  unfold QR at h
  rw [rvs_flat, List.map_flatMap] at h
  exact nodup_flat_mem h hf
theorem sub_wv {fs : List (FieldOf RType)} (h : QW fs) {f : FieldOf RType} (hf : f ∈ fs) : ((wv f).map Prod.snd).Nodup := by
  unfold QW at h
  rw [wvs_flat, List.map_flatMap] at h
  exact nodup_flat_mem h hf

/-- `read`: own fields without a clash, then the blocks inside are those of the types. -/
theorem ok_readFields_of {fs : List (FieldOf RType)} (ih : ∀ f ∈ fs, ((rv f).map Prod.snd).Nodup →
    ∀ s, (stmtsOk (readField [s] f) = true ↔ AllT QR f.ty)) (h : QR fs) (s : Str) :
    stmtsOk (readFields [s] fs) = true ↔ AllFs QR fs := by
  rw [readFields_flat, stmtsOk_flat, allFs_iff]
  exact forall₂_congr fun f hf => ih f hf (sub_rv h hf) s

theorem stmtsOk_rArr (s n tn : Str) (t : RType) :
    stmtsOk (rArr (itemInit t) (fun st => readType false st tn t) [s, n]) = true ↔
      (letNames (readType false [varname [s, n] "item".toList] tn t)).Nodup ∧
        stmtsOk (readType false [varname [s, n] "item".toList] tn t) = true := by
  have e1 : letNames ([.letS (varname [s, n] "item".toList) true (itemInit t)] ++ readType false [varname [s, n] "item".toList] tn t ++
    [.assign (.index (path [s, n]) (.var (varname [s, n] "index".toList))) (.var (varname [s, n] "item".toList))]) =
    varname [s, n] "item".toList :: letNames (readType false [varname [s, n] "item".toList] tn t) := by
    rw [letNames_append, letNames_append]
    simp [letNames]
  have e2 : stmtsOk ([.letS (varname [s, n] "item".toList) true (itemInit t)] ++ readType false [varname [s, n] "item".toList] tn t ++
    [.assign (.index (path [s, n]) (.var (varname [s, n] "index".toList))) (.var (varname [s, n] "item".toList))]) =
    stmtsOk (readType false [varname [s, n] "item".toList] tn t) := by
    rw [stmtsOk_append, stmtsOk_append]
    simp [stmtsOk, Stmt.scopeOk]
  have e3 : (varname [s, n] "item".toList :: letNames (readType false [varname [s, n] "item".toList] tn t)).Nodup ↔
      (letNames (readType false [varname [s, n] "item".toList] tn t)).Nodup := by
    rw [List.nodup_cons]
    exact and_iff_right fun hx => ne_of_prefix (nread_typeB tn t _ _ hx) rfl
  rw [← e3, ← e1, ← e2]
  have e4 : ∀ body : List Stmt, (true && (true && ((decide (letNames body).Nodup && stmtsOk body) && true))) = true ↔
      (letNames body).Nodup ∧ stmtsOk body = true := by simp
  exact e4 _

mutual
theorem ok_readAll : (fs : List (FieldOf RType)) → ∀ f ∈ fs, ((rv f).map Prod.snd).Nodup →
    ∀ s, (stmtsOk (readField [s] f) = true ↔ AllT QR f.ty)
  | [], f, hf => by simp at hf
  | g :: fs, f, hf => by
    rcases List.mem_cons.1 hf with h | h
    · rw [h]
      exact ok_readField g
    · exact ok_readAll fs f h
theorem ok_readField : (f : FieldOf RType) → ((rv f).map Prod.snd).Nodup →
    ∀ s, (stmtsOk (readField [s] f) = true ↔ AllT QR f.ty)
  | ⟨n, tn, t, a, o⟩ => fun h s => by
    obtain ⟨X, Y⟩ := ok_readType tn t
    rw [readField_eq]
    rw [rv_eq] at h
    have harr := (stmtsOk_rArr s n tn t).trans (Y (varname [s, n] "item".toList))
    have hopt : ∀ body : List Stmt, ((decide (letNames body).Nodup && stmtsOk body) &&
        ((decide ([] : List Str).Nodup && (true && true))) && true) = true ↔ (letNames body).Nodup ∧ stmtsOk body = true := by simp
    cases o with
    | true =>
      cases a with
      | true =>
        refine (hopt (rArr (itemInit t) (fun st => readType false st tn t) [s, n])).trans ?_
        rw [harr]
        refine and_iff_right ?_
        show [varname ([s] ++ [n]) "len".toList].Nodup
        simp
      | false =>
        refine (hopt (readType true [s, n] tn t)).trans ?_
        rw [names_readType, nodup_under, ownR_rvT]
        constructor
        · rintro ⟨h1, h2⟩
          exact (X h1 s n).1 h2
        · intro h1
          exact ⟨allT_own h1, (X (allT_own h1) s n).2 h1⟩
    | false =>
      cases a with
      | true => exact harr
      | false => exact X ((ownR_rvT n t).1 h) s n
theorem ok_readType (tn : Str) : (t : RType) →
    (OwnR t → ∀ s n, (stmtsOk (readType true [s, n] tn t) = true ↔ AllT QR t)) ∧
    ∀ item, ((letNames (readType false [item] tn t)).Nodup ∧ stmtsOk (readType false [item] tn t) = true ↔ AllT QR t)
  | .builtin b => by
    refine ⟨fun _ s n => iff_of_true ?_ trivial, fun item => iff_of_true ?_ trivial⟩
    · cases b <;> rfl
    · cases b <;> exact ⟨by simp [readType, letNames], rfl⟩
  | .enum e => ⟨fun _ s n => iff_of_true rfl trivial, fun item => iff_of_true ⟨by simp [readType, letNames], rfl⟩ trivial⟩
  | .struct fs => by
    have ih := fun h s => ok_readFields_of (fs := fs) (ok_readAll fs) h s
    refine ⟨fun h s n => ?_, fun item => ?_⟩
    · have e : stmtsOk (readType true [s, n] tn (.struct fs)) = stmtsOk (readFields [bindname [s, n]] fs) := by
        show stmtsOk ([.letS (bindname [s, n]) true .obj] ++ readFields [bindname [s, n]] fs ++
          [.assign (path [s, n]) (.var (bindname [s, n]))]) = _
        rw [stmtsOk_append, stmtsOk_append]
        simp [stmtsOk, Stmt.scopeOk]
      rw [e, ih h]
      exact (and_iff_right h).symm
    · show (letNames (readFields [item] fs)).Nodup ∧ stmtsOk (readFields [item] fs) = true ↔ QR fs ∧ AllFs QR fs
      rw [names_readFields, nodup_under]
      exact and_congr_right fun h => ih h item
end

theorem ok_readFields (fs : List (FieldOf RType)) (s : Str) :
    (letNames (readFields [s] fs)).Nodup ∧ stmtsOk (readFields [s] fs) = true ↔ AllT QR (.struct fs) :=
  (ok_readType [] (.struct fs)).2 s

/-! ### write -/

theorem ok_writeStruct_of {fs : List (FieldOf RType)} (ih : ∀ f ∈ fs, ((wv f).map Prod.snd).Nodup →
    ∀ st, st ≠ [] → (stmtsOk (writeField st f) = true ↔ AllT QW f.ty)) (h : QW fs) (st : List Str) (hs : st ≠ []) :
    stmtsOk (writeStruct st fs) = true ↔ AllFs QW fs := by
  rw [writeStruct_flat, stmtsOk_flat, allFs_iff]
  exact forall₂_congr fun f hf => ih f hf (sub_wv h hf) st hs

/-- The variables of a value handled in a block of its own. -/
theorem names_writeTop (tn : Str) (t : RType) (st : List Str) (h : st ≠ []) :
    (letNames (writeType st tn t)).Nodup ↔ OwnW t := by
  cases t with
  | builtin b => exact iff_of_true (by cases b <;> exact List.nodup_nil) trivial
  | enum e => exact iff_of_true List.nodup_nil trivial
  | struct fs =>
    show (letNames (writeStruct st fs)).Nodup ↔ ((wvs fs).map Prod.snd).Nodup
    rw [names_writeStruct fs st h, nodup_under]

mutual
theorem ok_writeAll : (fs : List (FieldOf RType)) → ∀ f ∈ fs, ((wv f).map Prod.snd).Nodup →
    ∀ st, st ≠ [] → (stmtsOk (writeField st f) = true ↔ AllT QW f.ty)
  | [], f, hf => by simp at hf
  | g :: fs, f, hf => by
    rcases List.mem_cons.1 hf with h | h
    · rw [h]
      exact ok_writeField g
    · exact ok_writeAll fs f h
theorem ok_writeField : (f : FieldOf RType) → ((wv f).map Prod.snd).Nodup →
    ∀ st, st ≠ [] → (stmtsOk (writeField st f) = true ↔ AllT QW f.ty)
  | ⟨n, tn, t, a, o⟩ => fun h st hs => by
    have X := ok_writeType tn t
    have Y : ∀ st, st ≠ [] → ((letNames (writeType st tn t)).Nodup ∧ stmtsOk (writeType st tn t) = true ↔ AllT QW t) := by
      intro st hs
      rw [names_writeTop tn t st hs]
      constructor
      · rintro ⟨h1, h2⟩
        exact (X h1 st hs).1 h2
      · intro h1
        exact ⟨allT_ownW h1, (X (allT_ownW h1) st hs).2 h1⟩
    have harr : ∀ st, stmtsOk (wArr (fun st => writeType st tn t) st) = true ↔ AllT QW t := by
      intro st
      have e3 : (varname st "item".toList :: letNames (writeType [varname st "item".toList] tn t)).Nodup ↔
          (letNames (writeType [varname st "item".toList] tn t)).Nodup := by
        rw [List.nodup_cons]
        exact and_iff_right fun hx => ne_of_prefix (nprog_type tn t _ [] _ hx) rfl
      rw [← Y [varname st "item".toList] (by simp), ← e3]
      have e4 : ∀ (x : Str) (body : List Stmt), (true && ((decide (x :: letNames body).Nodup && (true && stmtsOk body)) && true)) = true ↔
          (x :: letNames body).Nodup ∧ stmtsOk body = true := by simp
      exact e4 _ _
    rw [writeField_eq]
    rw [wv_eq] at h
    have hopt : ∀ body : List Stmt, (true && ((decide (letNames body).Nodup && (true && stmtsOk body)) && true)) = true ↔
        (letNames body).Nodup ∧ stmtsOk body = true := by simp
    cases o with
    | true =>
      cases a with
      | true =>
        refine (hopt (wArr (fun st => writeType st tn t) [bindname (st ++ [n])])).trans ?_
        rw [harr]
        exact and_iff_right List.nodup_nil
      | false => exact (hopt (writeType [bindname (st ++ [n])] tn t)).trans (Y _ (by simp))
    | false =>
      cases a with
      | true => exact harr _
      | false => exact X ((ownW_wvT n t).1 h) (st ++ [n]) (by simp)
theorem ok_writeType (tn : Str) : (t : RType) → OwnW t → ∀ st, st ≠ [] → (stmtsOk (writeType st tn t) = true ↔ AllT QW t)
  | .builtin b => fun _ st _ => iff_of_true (by cases b <;> rfl) trivial
  | .enum e => fun _ st _ => iff_of_true rfl trivial
  | .struct fs => fun h st hs => by
    show stmtsOk (writeStruct st fs) = true ↔ QW fs ∧ AllFs QW fs
    rw [ok_writeStruct_of (ok_writeAll fs) h st hs]
    exact (and_iff_right h).symm
end

theorem ok_writeStruct (fs : List (FieldOf RType)) (st : List Str) (hs : st ≠ []) :
    (letNames (writeStruct st fs)).Nodup ∧ stmtsOk (writeStruct st fs) = true ↔ AllT QW (.struct fs) := by
  show _ ↔ QW fs ∧ AllFs QW fs
  rw [names_writeStruct fs st hs, nodup_under]
  exact and_congr_right fun h => ok_writeStruct_of (ok_writeAll fs) h st hs

/-! ### the functions -/

theorem readBody_ok_iff (e : Export) : blockOk (readBody e) = true ↔ AllT QR (.struct e.fields) := by
  have hp : ∀ x ∈ letNames (readFields ["output".toList] e.fields), "output_".toList <+: x :=
    nread_fields e.fields "output".toList
  have hnot : ∀ y : Str, ¬ "output_".toList <+: y → y ∉ letNames (readFields ["output".toList] e.fields) :=
    fun y hy hx => hy (hp y hx)
  rw [← ok_readFields e.fields "output".toList]
  unfold blockOk
  rw [letNames_readBody, stmtsOk_readBody, Bool.and_eq_true, decide_eq_true_eq, List.nodup_cons, List.nodup_cons, List.mem_cons]
  refine and_congr_left fun _ => ?_
  rw [and_iff_right (hnot _ (by decide)), and_iff_right]
  rintro (h | h)
  · revert h
    decide
  · exact hnot _ (by decide) h

theorem writeBody_ok_iff (e : Export) : blockOk (writeBody e) = true ↔ AllT QW (.struct e.fields) := by
  have hp : ∀ x ∈ letNames (writeStruct ["this".toList] e.fields), "this_".toList <+: x :=
    nprog_fields e.fields "this".toList []
  have hnot : ∀ y : Str, ¬ "this_".toList <+: y → y ∉ letNames (writeStruct ["this".toList] e.fields) :=
    fun y hy hx => hy (hp y hx)
  rw [← ok_writeStruct e.fields ["this".toList] (by simp)]
  unfold blockOk
  rw [letNames_writeBody, stmtsOk_writeBody, Bool.and_eq_true, decide_eq_true_eq, List.nodup_cons]
  refine and_congr_left fun _ => ?_
  rw [and_iff_right (hnot _ (by decide))]

theorem data_free (e : Export) : "data".toList ∉ letNames (readBody e) := by
  have hp : ∀ x ∈ letNames (readFields ["output".toList] e.fields), "output_".toList <+: x :=
    nread_fields e.fields "output".toList
  rw [letNames_readBody, List.mem_cons, List.mem_cons]
  rintro (h | h | h)
  · revert h
    decide
  · revert h
    decide
  · exact absurd (hp _ h) (by decide)

theorem buffer_free (e : Export) : "buffer".toList ∉ letNames (writeBody e) := by
  have hp : ∀ x ∈ letNames (writeStruct ["this".toList] e.fields), "this_".toList <+: x :=
    nprog_fields e.fields "this".toList []
  rw [letNames_writeBody, List.mem_cons]
  rintro (h | h)
  · revert h
    decide
  · exact absurd (hp _ h) (by decide)

/-! ### in terms of the schema -/

theorem Inline.ne_nil {ast : AST} {n : Str} {p : List Str} {u : Unresolved} (h : Inline ast n p u) : p ≠ [] := by
  cases h <;> simp

theorem intercalate_cons (f : Str) {p : List Str} (h : p ≠ []) :
    List.intercalate "_".toList (f :: p) = f ++ "_".toList ++ List.intercalate "_".toList p := by
  cases p with
  | nil => exact absurd rfl h
  | cons a as => simp [List.intercalate, List.intersperse]

theorem readVar_iff {ast : AST} {n : Str} {p : List Str} {x : Str} : ReadVar ast n p x ↔
    ∃ fs f u, .decl n (.struct fs) ∈ ast ∧ (f, u) ∈ fs ∧ ((∃ s, ReadTemp ast u s ∧ p = [f] ∧ x = f ++ s) ∨
      (u.array = false ∧ u.optional = false ∧ ∃ q y, ReadVar ast u.name q y ∧ p = f :: q ∧ x = f ++ "_".toList ++ y)) := by
  constructor
  · rintro ⟨v, s, hi, ht, rfl⟩
    cases hi with
    | field hd hf => exact ⟨_, _, _, hd, hf, .inl ⟨s, ht, rfl, by simp [List.intercalate]⟩⟩
    | inside hd hf ha ho hi' =>
      refine ⟨_, _, _, hd, hf, .inr ⟨ha, ho, _, _, ⟨v, s, hi', ht, rfl⟩, rfl, ?_⟩⟩
      rw [intercalate_cons _ (Inline.ne_nil hi')]
      simp
  · rintro ⟨fs, f, u, hd, hf, ⟨s, ht, rfl, rfl⟩ | ⟨ha, ho, q, y, ⟨v, s, hi, ht, rfl⟩, rfl, rfl⟩⟩
    · exact ⟨u, s, .field hd hf, ht, by simp [List.intercalate]⟩
    · refine ⟨v, s, .inside hd hf ha ho hi, ht, ?_⟩
      rw [intercalate_cons _ (Inline.ne_nil hi)]
      simp

theorem writeVar_iff {ast : AST} {n : Str} {p : List Str} {x : Str} : WriteVar ast n p x ↔
    ∃ fs f u, .decl n (.struct fs) ∈ ast ∧ (f, u) ∈ fs ∧ ((u.optional = true ∧ p = [f] ∧ x = f) ∨
      (u.array = false ∧ u.optional = false ∧ ∃ q y, WriteVar ast u.name q y ∧ p = f :: q ∧ x = f ++ "_".toList ++ y)) := by
  constructor
  · rintro ⟨v, hi, ht, rfl⟩
    cases hi with
    | field hd hf => exact ⟨_, _, _, hd, hf, .inl ⟨ht, rfl, by simp [List.intercalate]⟩⟩
    | inside hd hf ha ho hi' =>
      refine ⟨_, _, _, hd, hf, .inr ⟨ha, ho, _, _, ⟨v, hi', ht, rfl⟩, rfl, ?_⟩⟩
      rw [intercalate_cons _ (Inline.ne_nil hi')]
  · rintro ⟨fs, f, u, hd, hf, ⟨ht, rfl, rfl⟩ | ⟨ha, ho, q, y, ⟨v, hi, ht, rfl⟩, rfl, rfl⟩⟩
    · exact ⟨u, .field hd hf, ht, by simp [List.intercalate]⟩
    · refine ⟨v, .inside hd hf ha ho hi, ht, ?_⟩
      rw [intercalate_cons _ (Inline.ne_nil hi)]

/-- What an entry of the final map can be. -/
theorem final_entry {ast : AST} {c : TypeMap} (hf : Final ast c) {n m : Str} {t : RType} (h : c.get n = some (m, t)) :
    (n ∈ builtinNames ∧ ∃ b, t = .builtin b ∧ n = builtinName b) ∨
    (∃ vs e, .decl n (.enum vs) ∈ ast ∧ t = .enum e) ∨
    ∃ fs fs' rfs, .decl n (.struct fs) ∈ ast ∧ fs'.Perm fs ∧ t = .struct rfs ∧ List.Forall₂ (FieldOk c) fs' rfs := by
  by_cases hb : n ∈ builtinNames
  · rw [hf.builtin n hb] at h
    obtain ⟨b, rfl, hb'⟩ := builtin_entry h
    exact .inl ⟨hb, b, rfl, hb'⟩
  · by_cases hd : Declared ast n
    · obtain ⟨ty, hty⟩ := hd
      cases ty with
      | enum vs =>
        obtain ⟨h1, h2⟩ := hf.enum n vs hty
        rw [h2] at h
        cases h
        exact .inr (.inl ⟨vs, _, mem_decls.1 hty, rfl⟩)
      | struct fs =>
        obtain ⟨_, rfs, p, h1, h2, _, h3⟩ := hf.struct n fs hty
        rw [h1] at h
        cases h
        exact .inr (.inr ⟨fs, _, rfs, mem_decls.1 hty, filter_split_perm (fun f : Str × Unresolved => p f.2.name) fs, rfl, h3⟩)
    · rw [hf.other n hb hd] at h
      cases h

theorem decl_once {ast : AST} {c : TypeMap} (hf : Final ast c) {n : Str} {t t' : Ty} (h : .decl n t ∈ ast) (h' : .decl n t' ∈ ast) : t = t' := by
  have := List.inj_on_of_nodup_map hf.nodup (mem_decls.2 h) (mem_decls.2 h') rfl
  exact (Prod.mk.inj this).2

/-- An entry that is a struct is declared as one. -/
theorem final_struct {ast : AST} {c : TypeMap} (hf : Final ast c) (hnb : NoBuiltinDecl ast) {n m : Str} {t : RType} {fs : List (Str × Unresolved)}
    (h : c.get n = some (m, t)) (hd : .decl n (.struct fs) ∈ ast) :
    ∃ fs' rfs, fs'.Perm fs ∧ t = .struct rfs ∧ List.Forall₂ (FieldOk c) fs' rfs := by
  rcases final_entry hf h with ⟨hb, -⟩ | ⟨vs, e, h1, -⟩ | ⟨gs, fs', rfs, h1, h2, h3, h4⟩
  · exact absurd hb (hnb n ⟨_, mem_decls.2 hd⟩)
  · cases decl_once hf hd h1
  · cases decl_once hf hd h1
    exact ⟨fs', rfs, h2, h3, h4⟩

theorem forall2_left {α β : Type} {R : α → β → Prop} {l : List α} {m : List β} (h : List.Forall₂ R l m) :
    ∀ a ∈ l, ∃ b ∈ m, R a b := by
  intro a ha
  exact forall2_right h.flip a ha

theorem string_name {b : Builtin} : builtinName b = "string".toList ↔ b = .string := by
  cases b <;> decide

section
variable {ast : AST} {c : TypeMap} (hf : Final ast c) (hnb : NoBuiltinDecl ast)
include hf hnb

theorem mem_rvs_iff (k : Nat) : ∀ n m rfs, sizeOf (RType.struct rfs) ≤ k → c.get n = some (m, .struct rfs) →
    ∀ p x, (p, x) ∈ rvs rfs ↔ ReadVar ast n p x := by
  induction k with
  | zero =>
    intro n m rfs hk
    simp at hk
  | succ k ih =>
    intro n m rfs hk hg p x
    rcases final_entry hf hg with ⟨-, b, h, -⟩ | ⟨vs, e, -, h⟩ | ⟨fs, fs', rfs', hd, hperm, h, hR⟩
    · cases h
    · cases h
    cases h
    have hfield : ∀ f rf, FieldOk c f rf → rf ∈ rfs → ((p, x) ∈ rv rf ↔
        ((∃ s, ReadTemp ast f.2 s ∧ p = [f.1] ∧ x = f.1 ++ s) ∨
          (f.2.array = false ∧ f.2.optional = false ∧ ∃ q y, ReadVar ast f.2.name q y ∧ p = f.1 :: q ∧ x = f.1 ++ "_".toList ++ y))) := by
      rintro ⟨fn, u⟩ rf hok hmem
      have hsz := sizeOf_field hmem
      rw [rv_eq, hok.name, hok.array, hok.optional]
      dsimp only
      have hty := hok.ty
      dsimp only at hty
      cases ho : u.optional with
      | true =>
        simp only [if_true, List.not_mem_nil, false_iff, not_or, not_exists, not_and, reduceCtorEq, false_and, and_false, not_false_eq_true, and_true]
        intro s hs
        cases hs <;> simp_all
      | false =>
        cases ha : u.array with
        | true =>
          simp only [if_true, Bool.false_eq_true, if_false, reduceCtorEq, false_and, or_false, List.mem_singleton, Prod.mk.injEq]
          constructor
          · rintro ⟨rfl, rfl⟩
            exact ⟨_, .array ho ha, rfl, rfl⟩
          · rintro ⟨s, hs, rfl, rfl⟩
            cases hs <;> simp_all
        | false =>
          simp only [Bool.false_eq_true, if_false, true_and]
          rcases final_entry hf hty with ⟨hb, b, h, hbn⟩ | ⟨vs, e, hd', h⟩ | ⟨gs, gs', rgs, hd', hperm', h, hR'⟩
          · have hnod : ∀ t, .decl u.name t ∉ ast := fun t ht => hnb _ ⟨t, mem_decls.2 ht⟩ hb
            have hno : ¬ ∃ q y, ReadVar ast u.name q y ∧ p = fn :: q ∧ x = fn ++ "_".toList ++ y := by
              rintro ⟨q, y, hv, -⟩
              obtain ⟨gs, -, -, h, -⟩ := readVar_iff.1 hv
              exact hnod _ h
            rw [or_iff_left hno, h]
            by_cases hs : b = .string
            · subst hs
              show (p, x) ∈ [([fn], fn ++ "_len".toList)] ↔ _
              simp only [List.mem_singleton, Prod.mk.injEq]
              constructor
              · rintro ⟨rfl, rfl⟩
                exact ⟨_, .string ho ha hbn, rfl, rfl⟩
              · rintro ⟨s, hs, rfl, rfl⟩
                cases hs with
                | array h1 h2 => simp_all
                | string => exact ⟨rfl, rfl⟩
                | enum vs _ _ h => exact absurd h (hnod _)
                | struct gs _ _ h => exact absurd h (hnod _)
            · have : rvT fn (.builtin b) = [] := by cases b <;> first | rfl | exact absurd rfl hs
              rw [this]
              simp only [List.not_mem_nil, false_iff]
              rintro ⟨s, hs', -, -⟩
              cases hs' with
              | array h1 h2 => simp_all
              | string _ _ h => exact hs (string_name.1 (hbn ▸ h))
              | enum vs _ _ h => exact absurd h (hnod _)
              | struct gs _ _ h => exact absurd h (hnod _)
          · have hno : ¬ ∃ q y, ReadVar ast u.name q y ∧ p = fn :: q ∧ x = fn ++ "_".toList ++ y := by
              rintro ⟨q, y, hv, -⟩
              obtain ⟨gs, -, -, h, -⟩ := readVar_iff.1 hv
              cases decl_once hf h hd'
            rw [or_iff_left hno, h]
            show (p, x) ∈ [([fn], fn ++ "_temp".toList)] ↔ _
            simp only [List.mem_singleton, Prod.mk.injEq]
            constructor
            · rintro ⟨rfl, rfl⟩
              exact ⟨_, .enum vs ho ha hd', rfl, rfl⟩
            · rintro ⟨s, hs, rfl, rfl⟩
              cases hs with
              | array h1 h2 => simp_all
              | string _ _ h => exact absurd (by rw [h]; decide) (hnb _ ⟨_, mem_decls.2 hd'⟩)
              | enum vs => exact ⟨rfl, rfl⟩
              | struct gs _ _ h => cases decl_once hf h hd'
          · rw [h] at hty hsz ⊢
            have ih' := ih u.name _ rgs (by omega) hty
            show (p, x) ∈ ([fn], fn) :: (rvs rgs).map (fun x => (fn :: x.1, fn ++ "_".toList ++ x.2)) ↔ _
            rw [List.mem_cons]
            refine or_congr ?_ ?_
            · simp only [Prod.mk.injEq]
              constructor
              · rintro ⟨rfl, rfl⟩
                exact ⟨_, .struct gs ho ha hd', rfl, by simp⟩
              · rintro ⟨s, hs, rfl, rfl⟩
                cases hs with
                | array h1 h2 => simp_all
                | string _ _ h => exact absurd (by rw [h]; decide) (hnb _ ⟨_, mem_decls.2 hd'⟩)
                | enum vs _ _ h => cases decl_once hf h hd'
                | struct gs => exact ⟨rfl, by simp⟩
            · rw [List.mem_map]
              constructor
              · rintro ⟨⟨q, y⟩, hq, he⟩
                simp only [Prod.mk.injEq] at he
                exact ⟨q, y, (ih' q y).1 hq, he.1.symm, he.2.symm⟩
              · rintro ⟨q, y, hq, rfl, rfl⟩
                exact ⟨(q, y), (ih' q y).2 hq, rfl⟩
    rw [rvs_flat, List.mem_flatMap, readVar_iff]
    constructor
    · rintro ⟨rf, hrf, hx⟩
      obtain ⟨⟨f, u⟩, hfm, hok⟩ := forall2_right hR rf hrf
      exact ⟨fs, f, u, hd, hperm.mem_iff.1 hfm, (hfield _ _ hok hrf).1 hx⟩
    · rintro ⟨gs, f, u, hd', hfm, hx⟩
      cases decl_once hf hd hd'
      obtain ⟨rf, hrf, hok⟩ := forall2_left hR (f, u) (hperm.mem_iff.2 hfm)
      exact ⟨rf, hrf, (hfield _ _ hok hrf).2 hx⟩

theorem mem_wvs_iff (k : Nat) : ∀ n m rfs, sizeOf (RType.struct rfs) ≤ k → c.get n = some (m, .struct rfs) →
    ∀ p x, (p, x) ∈ wvs rfs ↔ WriteVar ast n p x := by
  induction k with
  | zero =>
    intro n m rfs hk
    simp at hk
  | succ k ih =>
    intro n m rfs hk hg p x
    rcases final_entry hf hg with ⟨-, b, h, -⟩ | ⟨vs, e, -, h⟩ | ⟨fs, fs', rfs', hd, hperm, h, hR⟩
    · cases h
    · cases h
    cases h
    have hfield : ∀ f rf, FieldOk c f rf → rf ∈ rfs → ((p, x) ∈ wv rf ↔
        ((f.2.optional = true ∧ p = [f.1] ∧ x = f.1) ∨
          (f.2.array = false ∧ f.2.optional = false ∧ ∃ q y, WriteVar ast f.2.name q y ∧ p = f.1 :: q ∧ x = f.1 ++ "_".toList ++ y))) := by
      rintro ⟨fn, u⟩ rf hok hmem
      have hsz := sizeOf_field hmem
      rw [wv_eq, hok.name, hok.array, hok.optional]
      dsimp only
      have hty := hok.ty
      dsimp only at hty
      cases ho : u.optional with
      | true => simp
      | false =>
        cases ha : u.array with
        | true => simp
        | false =>
          simp only [Bool.false_eq_true, if_false, true_and, false_and, false_or]
          have hnone : (∀ gs, .decl u.name (.struct gs) ∉ ast) → ¬ ∃ q y, WriteVar ast u.name q y ∧ p = fn :: q ∧ x = fn ++ "_".toList ++ y := by
            rintro hn ⟨q, y, hv, -⟩
            obtain ⟨gs, -, -, h, -⟩ := writeVar_iff.1 hv
            exact hn _ h
          rcases final_entry hf hty with ⟨hb, b, h, hbn⟩ | ⟨vs, e, hd', h⟩ | ⟨gs, gs', rgs, hd', hperm', h, hR'⟩
          · rw [h]
            exact iff_of_false (by simp [wvT]) (hnone fun gs ht => hnb _ ⟨_, mem_decls.2 ht⟩ hb)
          · rw [h]
            exact iff_of_false (by simp [wvT]) (hnone fun gs ht => by cases decl_once hf ht hd')
          · rw [h] at hty hsz ⊢
            have ih' := ih u.name _ rgs (by omega) hty
            show (p, x) ∈ (wvs rgs).map (fun x => (fn :: x.1, fn ++ "_".toList ++ x.2)) ↔ _
            rw [List.mem_map]
            constructor
            · rintro ⟨⟨q, y⟩, hq, he⟩
              simp only [Prod.mk.injEq] at he
              exact ⟨q, y, (ih' q y).1 hq, he.1.symm, he.2.symm⟩
            · rintro ⟨q, y, hq, rfl, rfl⟩
              exact ⟨(q, y), (ih' q y).2 hq, rfl⟩
    rw [wvs_flat, List.mem_flatMap, writeVar_iff]
    constructor
    · rintro ⟨rf, hrf, hx⟩
      obtain ⟨⟨f, u⟩, hfm, hok⟩ := forall2_right hR rf hrf
      exact ⟨fs, f, u, hd, hperm.mem_iff.1 hfm, (hfield _ _ hok hrf).1 hx⟩
    · rintro ⟨gs, f, u, hd', hfm, hx⟩
      cases decl_once hf hd hd'
      obtain ⟨rf, hrf, hok⟩ := forall2_left hR (f, u) (hperm.mem_iff.2 hfm)
      exact ⟨rf, hrf, (hfield _ _ hok hrf).2 hx⟩

end

/-! ### different paths -/

abbrev QN (fs : List (FieldOf RType)) : Prop := (fs.map FieldOf.name).Nodup

theorem head_rv {f : FieldOf RType} {x : List Str × Str} (h : x ∈ rv f) : x.1.head? = some f.name := by
  obtain ⟨n, tn, t, a, o⟩ := f
  rw [rv_eq] at h
  cases o with
  | true => simp at h
  | false =>
    cases a with
    | true => simp at h; rw [h]; rfl
    | false =>
      simp only [Bool.false_eq_true, if_false] at h
      cases t with
      | builtin b => cases b <;> simp [rvT] at h; rw [h]; rfl
      | enum e => simp [rvT] at h; rw [h]; rfl
      | struct fs =>
        simp only [rvT, List.mem_cons, List.mem_map] at h
        rcases h with rfl | ⟨y, -, rfl⟩ <;> rfl

mutual
theorem nodup_rvs : (fs : List (FieldOf RType)) → QN fs → AllFs QN fs → (rvs fs).Nodup
  | [], _, _ => List.nodup_nil
  | f :: fs, h, ha => by
    show (rv f ++ rvs fs).Nodup
    unfold QN at h
    rw [List.map_cons, List.nodup_cons] at h
    rw [List.nodup_append]
    refine ⟨nodup_rv f ha.1, nodup_rvs fs h.2 ha.2, ?_⟩
    rintro a hm _ hm' rfl
    rw [rvs_flat, List.mem_flatMap] at hm'
    obtain ⟨g, hg, hx⟩ := hm'
    refine h.1 (List.mem_map.2 ⟨g, hg, ?_⟩)
    have h1 := head_rv hm
    rw [head_rv hx] at h1
    exact Option.some.inj h1
theorem nodup_rv : (f : FieldOf RType) → AllF QN f → (rv f).Nodup
  | ⟨n, _, t, a, o⟩, h => by
    rw [rv_eq]
    cases o with
    | true => simp
    | false =>
      cases a with
      | true => simp
      | false => exact nodup_rvT n t h
theorem nodup_rvT (n : Str) : (t : RType) → AllT QN t → (rvT n t).Nodup
  | .builtin b, _ => by cases b <;> simp [rvT]
  | .enum _, _ => by simp [rvT]
  | .struct fs, h => by
    show (([n], n) :: (rvs fs).map fun x => (n :: x.1, n ++ "_".toList ++ x.2)).Nodup
    rw [List.nodup_cons]
    constructor
    · intro hm
      obtain ⟨x, -, hx⟩ := List.mem_map.1 hm
      have := congrArg (fun y => y.2.length) hx
      simp at this
    · refine (List.nodup_map_iff ?_).2 (nodup_rvs fs h.1 h.2)
      rintro ⟨p, x⟩ ⟨q, y⟩ he
      simpa using he
end

theorem head_wv {f : FieldOf RType} {x : List Str × Str} (h : x ∈ wv f) : x.1.head? = some f.name := by
  obtain ⟨n, tn, t, a, o⟩ := f
  rw [wv_eq] at h
  cases o with
  | true => simp at h; rw [h]; rfl
  | false =>
    cases a with
    | true => simp at h
    | false =>
      simp only [Bool.false_eq_true, if_false] at h
      cases t with
      | builtin b => simp [wvT] at h
      | enum e => simp [wvT] at h
      | struct fs =>
        simp only [wvT, List.mem_map] at h
        rcases h with ⟨y, -, rfl⟩
        rfl

mutual
theorem nodup_wvs : (fs : List (FieldOf RType)) → QN fs → AllFs QN fs → (wvs fs).Nodup
  | [], _, _ => List.nodup_nil
  | f :: fs, h, ha => by
    show (wv f ++ wvs fs).Nodup
    unfold QN at h
    rw [List.map_cons, List.nodup_cons] at h
    rw [List.nodup_append]
    refine ⟨nodup_wv f ha.1, nodup_wvs fs h.2 ha.2, ?_⟩
    rintro a hm _ hm' rfl
    rw [wvs_flat, List.mem_flatMap] at hm'
    obtain ⟨g, hg, hx⟩ := hm'
    refine h.1 (List.mem_map.2 ⟨g, hg, ?_⟩)
    have h1 := head_wv hm
    rw [head_wv hx] at h1
    exact Option.some.inj h1
theorem nodup_wv : (f : FieldOf RType) → AllF QN f → (wv f).Nodup
  | ⟨n, _, t, a, o⟩, h => by
    rw [wv_eq]
    cases o with
    | true => simp
    | false =>
      cases a with
      | true => simp
      | false => exact nodup_wvT n t h
theorem nodup_wvT (n : Str) : (t : RType) → AllT QN t → (wvT n t).Nodup
  | .builtin _, _ => by simp [wvT]
  | .enum _, _ => by simp [wvT]
  | .struct fs, h => by
    show ((wvs fs).map fun x => (n :: x.1, n ++ "_".toList ++ x.2)).Nodup
    refine (List.nodup_map_iff ?_).2 (nodup_wvs fs h.1 h.2)
    rintro ⟨p, x⟩ ⟨q, y⟩ he
    simpa using he
end

/-- No two entries with the same name. -/
theorem nodup_names_iff {l : List (List Str × Str)} (h : l.Nodup) :
    (l.map Prod.snd).Nodup ↔ ∀ p q x, (p, x) ∈ l → (q, x) ∈ l → p = q := by
  constructor
  · intro hn p q x h1 h2
    have := List.inj_on_of_nodup_map hn h1 h2 rfl
    exact (Prod.mk.inj this).1
  · intro hn
    refine h.map_on ?_
    rintro ⟨p, x⟩ h1 ⟨q, y⟩ h2 (rfl : x = y)
    rw [hn p q x h1 h2]

/-- A property of all structs inside a type is one of all structs that can be reached from it. -/
theorem final_all {ast : AST} {c : TypeMap} (hf : Final ast c) (hnb : NoBuiltinDecl ast) (Q : List (FieldOf RType) → Prop) (k : Nat) :
    ∀ n m t, sizeOf t ≤ k → c.get n = some (m, t) →
      (AllT Q t ↔ ∀ j rfs i, Relation.ReflTransGen (Refers ast) n j → c.get j = some (i, .struct rfs) → Q rfs) := by
  induction k with
  | zero =>
    intro n m t hk
    have : 0 < sizeOf t := by cases t <;> simp
    omega
  | succ k ih =>
    intro n m t hk hg
    have hstop : (∀ fs, .decl n (.struct fs) ∉ ast) → ∀ j, Relation.ReflTransGen (Refers ast) n j → j = n := by
      intro hn j hr
      rcases hr.cases_head with h | ⟨b, ⟨fs, h, -⟩, -⟩
      · exact h.symm
      · exact absurd (mem_decls.1 h) (hn fs)
    rcases final_entry hf hg with ⟨hb, b, rfl, -⟩ | ⟨vs, e, hd, rfl⟩ | ⟨fs, fs', rfs, hd, hperm, rfl, hR⟩
    · refine iff_of_true trivial fun j rfs i hr h => ?_
      rw [hstop (fun fs h => hnb n ⟨_, mem_decls.2 h⟩ hb) j hr, hg] at h
      cases h
    · refine iff_of_true trivial fun j rfs i hr h => ?_
      rw [hstop (fun fs h => by cases decl_once hf h hd) j hr, hg] at h
      cases h
    · have hsub : ∀ rf ∈ rfs, ∃ f ∈ fs, c.get f.2.name = some (f.2.name, rf.ty) := by
        intro rf hrf
        obtain ⟨f, hfm, hok⟩ := forall2_right hR rf hrf
        exact ⟨f, hperm.mem_iff.1 hfm, hok.ty⟩
      show Q rfs ∧ AllFs Q rfs ↔ _
      rw [allFs_iff]
      constructor
      · rintro ⟨h1, h2⟩ j rfs' i hr hj
        rcases hr.cases_head with rfl | ⟨b, ⟨gs, hgs, f, hfm, rfl⟩, hr'⟩
        · rw [hg] at hj
          cases hj
          exact h1
        · cases decl_once hf (mem_decls.1 hgs) hd
          obtain ⟨rf, hrf, hok⟩ := forall2_left hR f (hperm.mem_iff.2 hfm)
          have hsz := sizeOf_field hrf
          exact (ih _ _ rf.ty (by omega) hok.ty).1 (h2 rf hrf) j rfs' i hr' hj
      · intro h
        refine ⟨h n rfs m .refl hg, fun rf hrf => ?_⟩
        obtain ⟨f, hfm, hty⟩ := hsub rf hrf
        have hsz := sizeOf_field hrf
        refine (ih _ _ rf.ty (by omega) hty).2 fun j rfs' i hr hj => h j rfs' i ?_ hj
        exact .head ⟨fs, mem_decls.2 hd, f, hfm, rfl⟩ hr

/-- Variables do not clash exactly if different fields have different ones. -/
theorem vars_iff {ord} (hord : FairOrd ord) {ast : AST} (hnb : NoBuiltinDecl ast) {r} (h : typeCheck ord ast = .ok r)
    (hn : ∀ n fs, Used ast n → .decl n (.struct fs) ∈ ast → (fs.map Prod.fst).Nodup) :
    (blockOk (readBody r.export) = true ↔ ∀ n p q x, Used ast n → ReadVar ast n p x → ReadVar ast n q x → p = q) ∧
    (blockOk (writeBody r.export) = true ↔ ∀ n p q x, Used ast n → WriteVar ast n p x → WriteVar ast n q x → p = q) := by
  obtain ⟨c, hf, he, hg, -, -, -⟩ := Props.typeCheck_final hord hnb h
  have hu : ∀ n, Used ast n ↔ Relation.ReflTransGen (Refers ast) r.export.name n := by
    intro n
    constructor
    · rintro ⟨e, h1, h2⟩
      rw [he] at h1
      cases h1
      exact h2
    · intro h
      exact ⟨_, he, h⟩
  have hstruct : ∀ n rfs i, c.get n = some (i, .struct rfs) → ∃ fs, .decl n (.struct fs) ∈ ast ∧
      (rfs.map FieldOf.name).Perm (fs.map Prod.fst) := by
    intro n rfs i hj
    rcases final_entry hf hj with ⟨-, b, h, -⟩ | ⟨vs, e, -, h⟩ | ⟨fs, fs', rfs', hd, hperm, h, hR⟩
    · cases h
    · cases h
    · cases h
      refine ⟨fs, hd, ?_⟩
      rw [forall2_names hR]
      exact hperm.map _
  have hall := fun Q => final_all hf hnb Q _ _ _ _ (Nat.le_refl _) hg
  have hQN : ∀ n rfs i, Used ast n → c.get n = some (i, .struct rfs) → AllT QN (.struct rfs) := by
    intro n rfs i hn' hj
    refine (final_all hf hnb QN _ _ _ _ (Nat.le_refl _) hj).2 fun j rfs' i' hr hj' => ?_
    obtain ⟨fs, hd, hperm⟩ := hstruct j rfs' i' hj'
    exact hperm.nodup_iff.2 (hn j fs ((hu j).2 (((hu n).1 hn').trans hr)) hd)
  have hdecl : ∀ n fs, .decl n (.struct fs) ∈ ast → ∃ rfs, c.get n = some (n, .struct rfs) := by
    intro n fs hd
    obtain ⟨_, rfs, p, h1, -⟩ := hf.struct n fs (mem_decls.2 hd)
    exact ⟨rfs, h1⟩
  constructor
  · rw [readBody_ok_iff, hall QR]
    constructor
    · intro h n p q x hn' h1 h2
      obtain ⟨fs, -, -, hd, -⟩ := readVar_iff.1 h1
      obtain ⟨rfs, hj⟩ := hdecl n fs hd
      have hm := mem_rvs_iff hf hnb _ n _ rfs (Nat.le_refl _) hj
      have ha := hQN n rfs _ hn' hj
      exact (nodup_names_iff (nodup_rvs rfs ha.1 ha.2)).1 (h n rfs _ ((hu n).1 hn') hj) p q x ((hm p x).2 h1) ((hm q x).2 h2)
    · intro h n rfs i hr hj
      have hm := mem_rvs_iff hf hnb _ n _ rfs (Nat.le_refl _) hj
      have ha := hQN n rfs _ ((hu n).2 hr) hj
      refine (nodup_names_iff (nodup_rvs rfs ha.1 ha.2)).2 fun p q x h1 h2 => ?_
      exact h n p q x ((hu n).2 hr) ((hm p x).1 h1) ((hm q x).1 h2)
  · rw [writeBody_ok_iff, hall QW]
    constructor
    · intro h n p q x hn' h1 h2
      obtain ⟨fs, -, -, hd, -⟩ := writeVar_iff.1 h1
      obtain ⟨rfs, hj⟩ := hdecl n fs hd
      have hm := mem_wvs_iff hf hnb _ n _ rfs (Nat.le_refl _) hj
      have ha := hQN n rfs _ hn' hj
      exact (nodup_names_iff (nodup_wvs rfs ha.1 ha.2)).1 (h n rfs _ ((hu n).1 hn') hj) p q x ((hm p x).2 h1) ((hm q x).2 h2)
    · intro h n rfs i hr hj
      have hm := mem_wvs_iff hf hnb _ n _ rfs (Nat.le_refl _) hj
      have ha := hQN n rfs _ ((hu n).2 hr) hj
      refine (nodup_names_iff (nodup_wvs rfs ha.1 ha.2)).2 fun p q x h1 h2 => ?_
      exact h n p q x ((hu n).2 hr) ((hm p x).1 h1) ((hm q x).1 h2)

end Packetc.Js
