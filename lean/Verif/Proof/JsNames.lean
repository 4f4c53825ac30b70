import Verif.Proof.JsSound
/-!
# When the generated functions declare no variable twice

If the field names within each struct are different, and none is another one continued with an underscore, then no block of the generated
`read` and `write` declares a variable twice.
-/

namespace Packetc.Js
open Ast Check Gen WellFormed

/-- Equal to `b`, or `b` followed by an underscore and more. -/
def Ext (b x : Str) : Prop := x = b ∨ (b ++ "_".toList) <+: x

theorem Ext.trans {a b c : Str} (h1 : Ext a b) (h2 : Ext b c) : Ext a c := by
  rcases h1 with rfl | h1
  · exact h2
  · rcases h2 with rfl | h2
    · exact Or.inr h1
    · exact Or.inr (h1.trans ((List.prefix_append _ _).trans h2))

/-- Names below different fields are different. -/
theorem ext_disjoint {s m n x : Str} (hm : ¬ (m ++ "_".toList) <+: n) (hn : ¬ (n ++ "_".toList) <+: m)
    (h1 : Ext (s ++ "_".toList ++ m) x) (h2 : Ext (s ++ "_".toList ++ n) x) : m = n := by
  have key : ∀ m n : Str, ¬ (m ++ "_".toList) <+: n → m <+: n → Ext (s ++ "_".toList ++ m) x →
      Ext (s ++ "_".toList ++ n) x → m = n := by
    rintro m n hm ⟨u, rfl⟩ h1 h2
    have hx2 : (s ++ "_".toList ++ (m ++ u)) <+: x := by
      rcases h2 with rfl | h2
      · exact List.prefix_refl _
      · exact (List.prefix_append _ _).trans h2
    rcases h1 with rfl | h1
    · have := hx2.length_le
      simp only [List.length_append] at this
      have : u = [] := List.length_eq_zero_iff.1 (by omega)
      rw [this, List.append_nil]
    · cases u with
      | nil => rw [List.append_nil]
      | cons c u =>
        exfalso
        apply hm
        have h3 : (s ++ "_".toList ++ m ++ "_".toList) <+: (s ++ "_".toList ++ (m ++ c :: u)) :=
          List.prefix_of_prefix_length_le h1 hx2 (by simp)
        rw [List.append_assoc _ m, List.prefix_append_right_inj] at h3
        exact h3
  have hp : ∀ m, Ext (s ++ "_".toList ++ m) x → (s ++ "_".toList ++ m) <+: x := by
    intro m h
    rcases h with rfl | h
    · exact List.prefix_refl _
    · exact (List.prefix_append _ _).trans h
  rcases List.prefix_or_prefix_of_prefix (hp m h1) (hp n h2) with h | h
  · rw [List.prefix_append_right_inj] at h
    exact key m n hm h h1 h2
  · rw [List.prefix_append_right_inj] at h
    exact (key n m hn h h2 h1).symm

/-- Nothing declared twice in any block; variables of the block itself are `Ext b`. -/
structure Clean (b : Str) (ss : List Stmt) : Prop where
  nodup : (letNames ss).Nodup
  ok : stmtsOk ss = true
  ext : ∀ x ∈ letNames ss, Ext b x

theorem clean_nil (b : Str) : Clean b [] := ⟨by simp [letNames], rfl, by simp [letNames]⟩

/-- Statements without variables of their own and without blocks. -/
theorem clean_flat (b : Str) (ss : List Stmt) (h1 : letNames ss = []) (h2 : stmtsOk ss = true) : Clean b ss :=
  ⟨by simp [h1], h2, by simp [h1]⟩

theorem clean_one (b x : Str) (ss : List Stmt) (h1 : letNames ss = [x]) (h2 : stmtsOk ss = true) (hx : Ext b x) :
    Clean b ss :=
  ⟨by simp [h1], h2, by simp [h1, hx]⟩

/-- The fields of a struct, one after the other. -/
theorem clean_fields {s : Str} {prog : FieldOf RType → List Stmt} {fs : List (FieldOf RType)}
    (hnd : PlainNames (fs.map FieldOf.name)) (h : ∀ f ∈ fs, Clean (s ++ "_".toList ++ f.name) (prog f)) :
    (letNames (fs.flatMap prog)).Nodup ∧ stmtsOk (fs.flatMap prog) = true ∧
      ∀ x ∈ letNames (fs.flatMap prog), ∃ f ∈ fs, Ext (s ++ "_".toList ++ f.name) x := by
  induction fs with
  | nil => simp [letNames, stmtsOk]
  | cons f fs ih =>
    obtain ⟨hnd1, hnd2, hnd3⟩ := hnd
    rw [List.map_cons, List.nodup_cons] at hnd1
    obtain ⟨i1, i2, i3⟩ := ih ⟨hnd1.2, fun m hm n hn =>
      hnd2 m (List.mem_cons_of_mem _ hm) n (List.mem_cons_of_mem _ hn), fun h => hnd3 (List.mem_cons_of_mem _ h)⟩
      (fun g hg => h g (List.mem_cons_of_mem _ hg))
    obtain ⟨c1, c2, c3⟩ := h f List.mem_cons_self
    rw [List.flatMap_cons, letNames_append, stmtsOk_append]
    refine ⟨?_, by simp [c2, i2], ?_⟩
    · rw [List.nodup_append]
      refine ⟨c1, i1, ?_⟩
      rintro x hx _ hy rfl
      obtain ⟨g, hg, he⟩ := i3 x hy
      have m1 : f.name ∈ (f :: fs).map FieldOf.name := List.mem_map_of_mem List.mem_cons_self
      have m2 : g.name ∈ (f :: fs).map FieldOf.name := List.mem_map_of_mem (List.mem_cons_of_mem _ hg)
      have := ext_disjoint (hnd2 _ m1 _ m2) (hnd2 _ m2 _ m1) (c3 x hx) he
      exact hnd1.1 (this ▸ List.mem_map_of_mem hg)
    · intro x hx
      rcases List.mem_append.1 hx with hx | hx
      · exact ⟨f, List.mem_cons_self, c3 x hx⟩
      · obtain ⟨g, hg, he⟩ := i3 x hx
        exact ⟨g, List.mem_cons_of_mem _ hg, he⟩

theorem clean_fields' {s : Str} {prog : FieldOf RType → List Stmt} {fs : List (FieldOf RType)}
    (hnd : PlainNames (fs.map FieldOf.name)) (h : ∀ f ∈ fs, Clean (s ++ "_".toList ++ f.name) (prog f)) :
    Clean s (fs.flatMap prog) := by
  obtain ⟨h1, h2, h3⟩ := clean_fields hnd h
  refine ⟨h1, h2, fun x hx => ?_⟩
  obtain ⟨f, _, he⟩ := h3 x hx
  exact Ext.trans (Or.inr (List.prefix_append _ _)) he

theorem ext_var (b n : Str) : Ext b (b ++ "_".toList ++ n) := Or.inr (List.prefix_append _ _)

theorem scopeOk_forS (i : Str) (b : Expr) (body : List Stmt) (h1 : (letNames body).Nodup) (h2 : stmtsOk body = true) :
    stmtsOk [.forS i b body] = true := by
  simp [stmtsOk, Stmt.scopeOk, h1, h2]

theorem scopeOk_ifElse (c : Expr) (t e : List Stmt) (h1 : (letNames t).Nodup) (h2 : stmtsOk t = true)
    (h3 : (letNames e).Nodup) (h4 : stmtsOk e = true) : stmtsOk [.ifElse c t e] = true := by
  simp [stmtsOk, Stmt.scopeOk, h1, h2, h3, h4]

theorem scopeOk_switch (e n : Expr) (d : List Stmt) (h1 : (letNames d).Nodup) (h2 : stmtsOk d = true) :
    stmtsOk [.switchNullish e n d] = true := by
  simp [stmtsOk, Stmt.scopeOk, h1, h2]

/-! ### read -/

theorem readFields_flat (st : List Str) (fs : List (FieldOf RType)) :
    readFields st fs = fs.flatMap (readField st) := by
  induction fs with
  | nil => rfl
  | cons f fs ih =>
    show readField st f ++ readFields st fs = _
    rw [ih, List.flatMap_cons]

theorem clean_rArr {st : List Str} {init : Expr} {tn : Str} {t : RType}
    (h : Clean (varname st "item".toList) (readType false [varname st "item".toList] tn t)) :
    Clean (bindname st) (rArr init (fun st => readType false st tn t) st) := by
  refine clean_one _ (varname st "len".toList) _ rfl ?_ (ext_var _ _)
  refine scopeOk_forS _ _ _ ?_ ?_
  · have : letNames ([.letS (varname st "item".toList) true init] ++ readType false [varname st "item".toList] tn t ++
        [.assign (.index (path st) (.var (varname st "index".toList))) (.var (varname st "item".toList))]) =
        varname st "item".toList :: letNames (readType false [varname st "item".toList] tn t) := by
      rw [letNames_append, letNames_append]
      simp [letNames]
    rw [this, List.nodup_cons]
    refine ⟨fun hx => ?_, h.nodup⟩
    exact ne_of_prefix (nread_typeB tn t _ _ hx) rfl
  · rw [stmtsOk_append, stmtsOk_append, h.ok]
    rfl

/-- The statements reading a value of the type declare nothing twice. -/
def CleanRead (tn : Str) (t : RType) : Prop :=
  (∀ st, st ≠ [] → Clean (bindname st) (readType true st tn t)) ∧ ∀ item, Clean item (readType false [item] tn t)

theorem clean_readField {f : FieldOf RType} {s : Str} (ih : CleanRead f.tyName f.ty) :
    Clean (s ++ "_".toList ++ f.name) (readField [s] f) := by
  have hbn : bindname [s, f.name] = s ++ "_".toList ++ f.name := by
    simp [bindname, joinWith]
  have hbody : Clean (bindname [s, f.name]) ((if f.array then rArr (itemInit f.ty)
      (fun st => readType false st f.tyName f.ty) else fun st => readType true st f.tyName f.ty) [s, f.name]) := by
    cases f.array with
    | true => exact clean_rArr (ih.2 _)
    | false => exact ih.1 _ (by simp)
  rw [← hbn, readField_eq]
  cases f.optional with
  | true =>
    refine clean_flat _ _ rfl ?_
    exact scopeOk_ifElse _ _ _ hbody.nodup hbody.ok (by simp [letNames]) rfl
  | false => exact hbody

theorem clean_readFields {fs : List (FieldOf RType)} (hn : PlainNames (fs.map FieldOf.name))
    (h : ∀ f ∈ fs, CleanRead f.tyName f.ty) (s : Str) : Clean s (readFields [s] fs) := by
  rw [readFields_flat]
  exact clean_fields' hn fun f hf => clean_readField (h f hf)

mutual
theorem clean_readAll : (fs : List (FieldOf RType)) → DeepFs PlainNames (fun _ => True) fs →
    ∀ f ∈ fs, CleanRead f.tyName f.ty
  | [], _, f, hf => by simp at hf
  | g :: fs, hd, f, hf => by
    rcases List.mem_cons.1 hf with h | h
    · rw [h]
      exact clean_readF g hd.1
    · exact clean_readAll fs hd.2 f h
theorem clean_readF : (f : FieldOf RType) → DeepF PlainNames (fun _ => True) f → CleanRead f.tyName f.ty
  | ⟨_, tn, t, _, _⟩, hd => clean_readType tn t hd
theorem clean_readType (tn : Str) : (t : RType) → DeepT PlainNames (fun _ => True) t → CleanRead tn t
  | .builtin b, _ => by
    refine ⟨fun st _ => ?_, fun item => ?_⟩
    · cases b with
      | string => exact clean_one _ (varname st "len".toList) _ rfl rfl (ext_var _ _)
      | _ => exact clean_flat _ _ rfl rfl
    · cases b with
      | string => exact clean_one _ (varname [item] "len".toList) _ rfl rfl (ext_var _ _)
      | _ => exact clean_flat _ _ rfl rfl
  | .enum e, _ => by
    refine ⟨fun st _ => ?_, fun item => ?_⟩
    · exact clean_one _ (varname st "temp".toList) _ rfl rfl (ext_var _ _)
    · exact clean_one _ (varname [item] "temp".toList) _ rfl rfl (ext_var _ _)
  | .struct fs, hd => by
    have key := clean_readFields hd.1 (clean_readAll fs hd.2)
    refine ⟨fun st _ => ?_, fun item => ?_⟩
    · have h := key (bindname st)
      have e1 : letNames (readType true st tn (.struct fs)) = bindname st :: letNames (readFields [bindname st] fs) := by
        show letNames ([.letS (bindname st) true .obj] ++ readFields [bindname st] fs ++
          [.assign (path st) (.var (bindname st))]) = _
        rw [letNames_append, letNames_append]
        simp [letNames]
      refine ⟨?_, ?_, ?_⟩
      · rw [e1, List.nodup_cons]
        exact ⟨fun hx => ne_of_prefix (nread_fields fs _ _ hx) rfl, h.nodup⟩
      · show stmtsOk ([.letS (bindname st) true .obj] ++ readFields [bindname st] fs ++
          [.assign (path st) (.var (bindname st))]) = true
        rw [stmtsOk_append, stmtsOk_append, h.ok]
        rfl
      · intro x hx
        rw [e1] at hx
        rcases List.mem_cons.1 hx with hx | hx
        · exact Or.inl hx
        · exact h.ext x hx
    · exact key item
end

/-! ### write -/

theorem writeStruct_flat (st : List Str) (fs : List (FieldOf RType)) :
    writeStruct st fs = fs.flatMap (writeField st) := by
  induction fs with
  | nil => rfl
  | cons f fs ih =>
    show writeField st f ++ writeStruct st fs = _
    rw [ih, List.flatMap_cons]

/-- The statements writing a value of the type declare nothing twice. -/
def CleanWrite (tn : Str) (t : RType) : Prop := ∀ st, st ≠ [] → Clean (bindname st) (writeType st tn t)

theorem clean_wArr {st : List Str} {tn : Str} {t : RType} (h : CleanWrite tn t) :
    Clean (bindname st) (wArr (fun st => writeType st tn t) st) := by
  refine clean_flat _ _ rfl ?_
  have hi := h [varname st "item".toList] (by simp)
  refine scopeOk_forS _ _ _ ?_ ?_
  · show (varname st "item".toList :: letNames (writeType [varname st "item".toList] tn t)).Nodup
    rw [List.nodup_cons]
    exact ⟨fun hx => ne_of_prefix (nprog_type tn t _ [] _ hx) rfl, hi.nodup⟩
  · exact hi.ok

theorem clean_writeField {f : FieldOf RType} {st : List Str} (hne : st ≠ []) (ih : CleanWrite f.tyName f.ty) :
    Clean (bindname st ++ "_".toList ++ f.name) (writeField st f) := by
  have hbn : bindname (st ++ [f.name]) = bindname st ++ "_".toList ++ f.name := joinWith_snoc _ _ _ hne
  have hbody : ∀ st, st ≠ [] → Clean (bindname st) ((if f.array then wArr (fun st => writeType st f.tyName f.ty)
      else fun st => writeType st f.tyName f.ty) st) := by
    intro st h
    cases f.array with
    | true => exact clean_wArr ih
    | false => exact ih st h
  rw [← hbn, writeField_eq]
  cases f.optional with
  | true =>
    refine clean_one _ (bindname (st ++ [f.name])) _ rfl ?_ (Or.inl rfl)
    have hb := hbody [bindname (st ++ [f.name])] (by simp)
    exact scopeOk_switch _ _ _ hb.nodup hb.ok
  | false => exact hbody _ (by simp)

theorem clean_writeStruct {fs : List (FieldOf RType)} (hn : PlainNames (fs.map FieldOf.name))
    (h : ∀ f ∈ fs, CleanWrite f.tyName f.ty) {st : List Str} (hne : st ≠ []) : Clean (bindname st) (writeStruct st fs) := by
  rw [writeStruct_flat]
  exact clean_fields' hn fun f hf => clean_writeField hne (h f hf)

mutual
theorem clean_writeAll : (fs : List (FieldOf RType)) → DeepFs PlainNames (fun _ => True) fs →
    ∀ f ∈ fs, CleanWrite f.tyName f.ty
  | [], _, f, hf => by simp at hf
  | g :: fs, hd, f, hf => by
    rcases List.mem_cons.1 hf with h | h
    · rw [h]
      exact clean_writeF g hd.1
    · exact clean_writeAll fs hd.2 f h
theorem clean_writeF : (f : FieldOf RType) → DeepF PlainNames (fun _ => True) f → CleanWrite f.tyName f.ty
  | ⟨_, tn, t, _, _⟩, hd => clean_writeType tn t hd
theorem clean_writeType (tn : Str) : (t : RType) → DeepT PlainNames (fun _ => True) t → CleanWrite tn t
  | .builtin b, _ => fun st _ => by
    cases b <;> exact clean_flat _ _ rfl rfl
  | .enum e, _ => fun st _ => clean_flat _ _ rfl rfl
  | .struct fs, hd => fun st h => clean_writeStruct hd.1 (clean_writeAll fs hd.2) h
end

/-! ### the whole functions -/

theorem plain_readBody {e : Export} (hn : PlainNames (e.fields.map FieldOf.name))
    (hd : DeepFs PlainNames (fun _ => True) e.fields) :
    blockOk (readBody e) = true ∧ "data".toList ∉ letNames (readBody e) := by
  have h := clean_readFields hn (clean_readAll _ hd) "output".toList
  have hp : ∀ x ∈ letNames (readFields ["output".toList] e.fields), "output_".toList <+: x :=
    nread_fields e.fields "output".toList
  have hnot : ∀ y : Str, ¬ "output_".toList <+: y → y ∉ letNames (readFields ["output".toList] e.fields) :=
    fun y hy hx => hy (hp y hx)
  rw [letNames_readBody]
  unfold blockOk
  rw [letNames_readBody, stmtsOk_readBody, h.ok]
  refine ⟨?_, ?_⟩
  · simp only [Bool.and_true, decide_eq_true_eq, List.nodup_cons]
    refine ⟨?_, ?_, h.nodup⟩
    · rw [List.mem_cons]
      rintro (h | h)
      · revert h
        decide
      · exact hnot _ (by decide) h
    · exact hnot _ (by decide)
  · rw [List.mem_cons, List.mem_cons]
    rintro (h | h | h)
    · revert h
      decide
    · revert h
      decide
    · exact hnot _ (by decide) h

theorem plain_writeBody {e : Export} (hn : PlainNames (e.fields.map FieldOf.name))
    (hd : DeepFs PlainNames (fun _ => True) e.fields) :
    blockOk (writeBody e) = true ∧ "buffer".toList ∉ letNames (writeBody e) := by
  have h := clean_writeStruct hn (clean_writeAll _ hd) (st := ["this".toList]) (by simp)
  have hp : ∀ x ∈ letNames (writeStruct ["this".toList] e.fields), "this_".toList <+: x :=
    nprog_fields e.fields "this".toList []
  have hnot : ∀ y : Str, ¬ "this_".toList <+: y → y ∉ letNames (writeStruct ["this".toList] e.fields) :=
    fun y hy hx => hy (hp y hx)
  rw [letNames_writeBody]
  unfold blockOk
  rw [letNames_writeBody, stmtsOk_writeBody, h.ok]
  refine ⟨?_, ?_⟩
  · simp only [Bool.and_true, decide_eq_true_eq, List.nodup_cons]
    exact ⟨hnot _ (by decide), h.nodup⟩
  · rw [List.mem_cons]
    rintro (h | h)
    · revert h
      decide
    · exact hnot _ (by decide) h

end Packetc.Js
