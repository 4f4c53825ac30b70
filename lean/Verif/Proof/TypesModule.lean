import Verif.Proof.Types
import Verif.Props.Text
/-!
# The generated module passes the type checker
-/

namespace Packetc.Props
open Ast Check Gen WellFormed Js Module

theorem find_name {α : Type} (nm : α → Str) : (l : List α) → (l.map nm).Nodup → (x : α) → x ∈ l →
    l.find? (fun y => decide (nm y = nm x)) = some x
  | [], _, _, h => by cases h
  | y :: l, hn, x, h => by
    rw [List.map_cons, List.nodup_cons] at hn
    rcases List.mem_cons.1 h with rfl | h
    · simp
    · have : nm y ≠ nm x := fun e => hn.1 (e ▸ List.mem_map_of_mem h)
      rw [List.find?_cons, decide_eq_false this]
      exact find_name nm l hn.2 x h

theorem forall2_left {α β : Type} {R : α → β → Prop} {l : List α} {l' : List β} (h : List.Forall₂ R l l') :
    ∀ a ∈ l, ∃ b ∈ l', R a b := by
  induction h with
  | nil => intro a ha; cases ha
  | cons h1 _ ih =>
    intro a ha
    rcases List.mem_cons.1 ha with rfl | ha
    · exact ⟨_, List.mem_cons_self, h1⟩
    · obtain ⟨b, hb, hr⟩ := ih a ha
      exact ⟨b, List.mem_cons_of_mem _ hb, hr⟩

/-- Builtin types are called by their names, other types are declared. -/
def KnownType (m : TsModule) (k : Str) (t : RType) : Prop :=
  (∃ b, t = .builtin b ∧ k = builtinName b) ∨
  ((∀ b, t ≠ .builtin b) ∧ k ∉ builtinNames ∧ k ∉ reservedWords ∧ k ∉ reservedTypeNames ∧ k ∈ m.decls.map TsDecl.name)

theorem baseType_declared {k : Str} {t : RType} (h : ∀ b, t ≠ .builtin b) : baseType k t = .named k := by
  cases t with
  | builtin b => exact absurd rfl (h b)
  | enum e => rfl
  | struct fs => rfl

theorem tsType_builtin (b : Builtin) : tsType (builtinName b) = (if b = .string then "string".toList else "number".toList) := by
  cases b <;> decide

theorem pathType_builtin (m : TsModule) (inside : Bool) (b : Builtin) :
    m.pathType inside [tsType (builtinName b)] = some (baseType (builtinName b) (.builtin b)) := by
  rw [tsType_builtin]
  unfold TsModule.pathType
  cases b <;> rfl

theorem builtinName_mem (b : Builtin) : builtinName b ∈ builtinNames := by cases b <;> decide

theorem tsType_declared {k : Str} (h : k ∉ builtinNames) : tsType k = k := by
  unfold tsType
  rw [if_neg, if_neg h]
  rintro rfl
  exact h (by decide)

theorem pathType_member {m : TsModule} {k : Str} {t : RType} (h : KnownType m k t) :
    m.pathType true [tsType k] = some (baseType k t) := by
  rcases h with ⟨b, rfl, rfl⟩ | ⟨h1, h2, h3, h4, h5⟩
  · exact pathType_builtin m true b
  · rw [tsType_declared h2, baseType_declared h1]
    unfold TsModule.pathType
    dsimp only
    rw [if_neg, if_neg, if_neg, if_neg, if_pos]
    · simp only [Bool.true_and, List.contains_eq_mem, decide_eq_true_eq]
      exact h5
    all_goals (rintro rfl; first | exact h3 (by decide) | exact h4 (by decide))

theorem pathType_param {m : TsModule} {k : Str} {t : RType} (h : KnownType m k t) :
    m.pathType false (qualPath m.space k) = some (baseType k t) := by
  unfold qualPath
  rcases h with ⟨b, rfl, rfl⟩ | ⟨h1, h2, h3, h4, h5⟩
  · rw [if_pos (builtinName_mem b)]
    exact pathType_builtin m false b
  · rw [if_neg h2, baseType_declared h1]
    unfold TsModule.pathType
    simp only [decide_true, Bool.true_and, List.contains_eq_mem, decide_eq_true_eq]
    rw [if_pos h5]

theorem memberType_member {m : TsModule} {f : Str × Unresolved} {t : RType} (h : KnownType m f.2.name t) :
    m.memberType true (memberOf f) = some (fieldType f.2.name t f.2.array f.2.optional) := by
  unfold TsModule.memberType memberOf fieldType
  show ((m.atomType true ⟨[tsType f.2.name], f.2.array⟩).map _) = _
  unfold TsModule.atomType
  simp only
  rw [pathType_member h]
  rfl

theorem memberType_param {m : TsModule} {f : Str × Unresolved} {t : RType} (h : KnownType m f.2.name t) :
    m.memberType false (paramOf m.space f) = some (fieldType f.2.name t f.2.array f.2.optional) := by
  have ha : m.atomType false ⟨qualPath m.space f.2.name, f.2.array⟩ =
      some (if f.2.array then .array (baseType f.2.name t) else baseType f.2.name t) := by
    unfold TsModule.atomType
    simp only
    rw [pathType_param h]
    rfl
  unfold TsModule.memberType paramOf fieldType
  cases f.2.optional with
  | false =>
    show ((m.atomType false _).map _) = _
    rw [ha]
    rfl
  | true =>
    show (((m.atomType false _).bind _).map _) = _
    rw [ha]
    rfl

section
variable {ast : AST} {e : Artifact} {ds : List (Str × Str)} {tds : List (TsDecl × List Tok)} {fs fs' : List (Str × Unresolved)}
  (R : Run ast e ds tds fs fs') (hl : Loadable ast)
include R hl

/-- The name of the type of a field of a used struct. -/
theorem Run.known {c : TypeMap} (hf : Final ast c) {n : Str} (hu : Used ast n) {f : Str × Unresolved} {gs : List (Str × Unresolved)}
    (hd : .decl n (.struct gs) ∈ ast) (hg : f ∈ gs) {m' : Str} {t : RType} (ht : c.get f.2.name = some (m', t)) :
    KnownType (moduleOf e.toExport (tds.map Prod.fst) fs') f.2.name t ∧ Used ast f.2.name ∧ f.2.name ≠ e.name := by
  have hr : Refers ast n f.2.name := ⟨gs, mem_decls.2 hd, f, hg, rfl⟩
  have hu' := used_ref hu hr
  have hne : f.2.name ≠ e.name := by
    obtain ⟨x, hx, hp⟩ := hu
    rw [R.exp] at hx
    injection hx with hx
    subst hx
    intro he
    exact R.wf.acyclic _ (he ▸ (Relation.TransGen.tail' hp hr))
  refine ⟨?_, hu', hne⟩
  by_cases hb : f.2.name ∈ builtinNames
  · rw [hf.builtin _ hb] at ht
    obtain ⟨b, h1, h2⟩ := builtin_entry ht
    exact Or.inl ⟨b, h1, h2⟩
  · have h1 := (R.ref_declared hu hr hb).resolve_left hne
    obtain ⟨ty, hty⟩ : Declared ast f.2.name := by
      by_contra hdd
      rw [hf.other _ hb hdd] at ht
      cases ht
    have h2 := hl.typeNames _ ty hu' (mem_decls.1 hty)
    refine Or.inr ⟨?_, hb, h2.1, h2.2, ?_⟩
    · cases ty with
      | enum vs =>
        rw [(hf.enum _ vs hty).2] at ht
        cases ht
        simp
      | struct fs =>
        obtain ⟨_, rfs, p, h1, -⟩ := hf.struct _ fs hty
        rw [h1] at ht
        cases ht
        simp
    · show _ ∈ (tds.map Prod.fst).map TsDecl.name
      rw [R.declNames]
      exact h1

/-- The declaration of a used type. -/
theorem Run.declared {n : Str} (hu : Used ast n) (hb : n ∉ builtinNames) (hne : n ≠ e.name) :
    ∃ td ∈ tds.map Prod.fst, td.name = n ∧ ((∃ vs, .decl n (.enum vs) ∈ ast ∧ td = .enum n vs.zipIdx) ∨
      ∃ gs gs' : List (Str × Unresolved), .decl n (.struct gs) ∈ ast ∧ gs'.Perm gs ∧ td = .interface n (gs'.map memberOf)) := by
  have h1 := (R.complete.exact n).2 ⟨hu, hb, hne⟩
  rw [← R.declNames] at h1
  obtain ⟨td, h2, rfl⟩ := List.mem_map.1 h1
  obtain ⟨x, hx1, rfl⟩ := List.mem_map.1 h2
  obtain ⟨d, -, h1, -, -, h3⟩ := forall2_right R.entries x hx1
  refine ⟨x.1, h2, rfl, ?_⟩
  rw [h1]
  rcases h3 with h | ⟨gs, gs', h3, h4, h5, -⟩
  · exact Or.inl h
  · exact Or.inr ⟨gs, gs', h3, h4, h5⟩

theorem Run.unique_decl {n : Str} {t u : Ty} (h1 : .decl n t ∈ ast) (h2 : .decl n u ∈ ast) : t = u :=
  (Prod.mk.inj (List.inj_on_of_nodup_map R.wf.unique (mem_decls.2 h1) (mem_decls.2 h2) rfl)).2

theorem Run.fits {c : TypeMap} (hf : Final ast c) (k : Nat) : ∀ n m' t, sizeOf t ≤ k → c.get n = some (m', t) →
    Used ast n → n ≠ e.name → FitsT (moduleOf e.toExport (tds.map Prod.fst) fs') n t := by
  set M := moduleOf e.toExport (tds.map Prod.fst) fs' with hM
  have hnodup : (M.decls.map TsDecl.name).Nodup := by
    show ((tds.map Prod.fst).map TsDecl.name).Nodup
    rw [R.declNames]
    exact R.complete.once
  induction k with
  | zero =>
    intro n m t hn
    have : 0 < sizeOf t := by cases t <;> simp
    omega
  | succ k ih =>
    intro n m' t hn hg hu hne
    by_cases hb : n ∈ builtinNames
    · rw [hf.builtin n hb] at hg
      obtain ⟨b, rfl, hb⟩ := builtin_entry hg
      exact hb
    · obtain ⟨td, h1, h2, h3⟩ := R.declared hl hu hb hne
      rcases h3 with ⟨vs, h4, rfl⟩ | ⟨gs, gs', h4, h5, rfl⟩
      · rw [(hf.enum n vs (mem_decls.2 h4)).2] at hg
        cases hg
        show M.isEnum (.named n) = true
        unfold TsModule.isEnum
        simp only
        rw [List.any_eq_true]
        exact ⟨_, h1, by simp⟩
      · obtain ⟨_, rfs, p, h6, _, _, h7⟩ := hf.struct n gs (mem_decls.2 h4)
        rw [h6] at hg
        cases hg
        show FitsFs M (.named n) rfs
        rw [fitsFs_iff]
        intro rf hrf
        obtain ⟨f, hfm, hR⟩ := forall2_right h7 rf hrf
        have hfg : f ∈ gs := ((filter_split_perm (fun f : Str × Unresolved => p f.2.name) gs).mem_iff).1 hfm
        obtain ⟨hk, hu', hne'⟩ := R.known hl hf hu h4 hfg hR.ty
        have hsz := sizeOf_field hrf
        have hT := ih f.2.name f.2.name rf.ty (by omega) hR.ty hu' hne'
        obtain ⟨rn, rt, rty, ra, ro⟩ := rf
        obtain ⟨rfl, rfl, rfl, rfl⟩ : rn = f.1 ∧ rt = f.2.name ∧ ra = f.2.array ∧ ro = f.2.optional :=
          ⟨hR.name, hR.tyName, hR.array, hR.optional⟩
        refine ⟨?_, hT⟩
        have hfind : M.decls.find? (fun d => decide (d.name = n)) = some (.interface n (gs'.map memberOf)) :=
          find_name TsDecl.name _ hnodup _ h1
        have hmem : (gs'.map memberOf).find? (fun x : TsMember => decide (x.name = f.1)) = some (memberOf f) := by
          refine find_name TsMember.name _ ?_ (memberOf f) (List.mem_map_of_mem (h5.mem_iff.2 hfg))
          rw [List.map_map]
          show (gs'.map Prod.fst).Nodup
          exact ((h5.map Prod.fst).nodup_iff).2 (hl.members n gs hu h4)
        show (match M.decls.find? fun d => decide (d.name = n) with
          | some (.interface _ ms) => (ms.find? fun x : TsMember => decide (x.name = f.1)).bind (M.memberType true)
          | _ => none) = _
        rw [hfind]
        show ((gs'.map memberOf).find? fun x : TsMember => decide (x.name = f.1)).bind (M.memberType true) = _
        rw [hmem]
        exact memberType_member hk

/-- The exported fields fit the parameters of the constructor. -/
theorem Run.fits_export {c : TypeMap} (hf : Final ast c) (hg : c.get e.name = some (e.name, .struct e.fields)) :
    FitsFs (moduleOf e.toExport (tds.map Prod.fst) fs') .inst e.fields := by
  set M := moduleOf e.toExport (tds.map Prod.fst) fs' with hM
  rw [fitsFs_iff]
  intro rf hrf
  obtain ⟨_, rfs, p, h6, _, _, h7⟩ := hf.struct e.name fs (mem_decls.2 R.decl)
  rw [h6] at hg
  cases hg
  obtain ⟨f, hfm, hR⟩ := forall2_right h7 rf hrf
  have hfg : f ∈ fs := ((filter_split_perm (fun f : Str × Unresolved => p f.2.name) fs).mem_iff).1 hfm
  obtain ⟨hk, hu', hne'⟩ := R.known hl hf R.used R.decl hfg hR.ty
  have hT := R.fits hl hf _ f.2.name f.2.name rf.ty (Nat.le_refl _) hR.ty hu' hne'
  obtain ⟨rn, rt, rty, ra, ro⟩ := rf
  obtain ⟨rfl, rfl, rfl, rfl⟩ : rn = f.1 ∧ rt = f.2.name ∧ ra = f.2.array ∧ ro = f.2.optional :=
    ⟨hR.name, hR.tyName, hR.array, hR.optional⟩
  refine ⟨?_, hT⟩
  show (M.params.find? fun x => decide (x.name = f.1)).bind (M.memberType false) = _
  have hmem : (fs'.map (paramOf e.name)).find? (fun x : TsMember => decide (x.name = f.1)) = some (paramOf e.name f) := by
    refine find_name TsMember.name _ ?_ (paramOf e.name f) (List.mem_map_of_mem (R.perm.mem_iff.2 hfg))
    rw [List.map_map]
    show (fs'.map Prod.fst).Nodup
    exact ((R.perm.map Prod.fst).nodup_iff).2 (hl.members _ fs R.used R.decl)
  have : M.params = fs'.map (paramOf e.name) := rfl
  rw [this, hmem]
  exact memberType_param (m := M) hk

/-- The types of members and parameters are known. -/
theorem Run.types_known {c : TypeMap} (hf : Final ast c) :
    (∀ p ∈ (moduleOf e.toExport (tds.map Prod.fst) fs').params, ((moduleOf e.toExport (tds.map Prod.fst) fs').memberType false p).isSome) ∧
    ∀ n ms, .interface n ms ∈ (moduleOf e.toExport (tds.map Prod.fst) fs').decls → ∀ x ∈ ms,
      ((moduleOf e.toExport (tds.map Prod.fst) fs').memberType true x).isSome := by
  have hget : ∀ n gs, .decl n (.struct gs) ∈ ast → ∀ f ∈ gs, ∃ m' t, c.get f.2.name = some (m', t) := by
    intro n gs hd f hfg
    obtain ⟨_, rfs, p, h6, _, _, h7⟩ := hf.struct n gs (mem_decls.2 hd)
    obtain ⟨rf, -, hR⟩ := forall2_left h7 f (((filter_split_perm (fun f : Str × Unresolved => p f.2.name) gs).mem_iff).2 hfg)
    exact ⟨_, _, hR.ty⟩
  refine ⟨fun p hp => ?_, fun n ms hms x hx => ?_⟩
  · obtain ⟨f, hfm, rfl⟩ := List.mem_map.1 hp
    have hfg := R.perm.mem_iff.1 hfm
    obtain ⟨m', t, ht⟩ := hget _ _ R.decl f hfg
    have := memberType_param (R.known hl hf R.used R.decl hfg ht).1
    exact Option.isSome_iff_exists.2 ⟨_, this⟩
  · have hn : n ∈ ds.map Prod.fst := by
      rw [← R.declNames]
      exact List.mem_map_of_mem hms
    obtain ⟨hu, hb, hne⟩ := (R.complete.exact n).1 hn
    obtain ⟨y, hy1, hy2⟩ := List.mem_map.1 hms
    obtain ⟨d, -, h1, -, -, h3⟩ := forall2_right R.entries y hy1
    rw [hy2] at h1 h3
    rcases h3 with ⟨vs, -, h3⟩ | ⟨gs, gs', h3, h4, h5, -⟩
    · cases h3
    · injection h5 with h6 h7
      subst h7
      rw [← h6] at h3
      obtain ⟨f, hfm, rfl⟩ := List.mem_map.1 hx
      have hfg := h4.mem_iff.1 hfm
      obtain ⟨m', t, ht⟩ := hget _ _ h3 f hfg
      exact Option.isSome_iff_exists.2 ⟨_, memberType_member (R.known hl hf hu h3 hfg ht).1⟩

end

/-! ### the methods -/

section
variable {m : TsModule} (hi : m.imports = ["Reader".toList, "Writer".toList]) (hc : m.className ≠ "Object".toList ∧ m.className ≠ "ArrayBuffer".toList)
  (hw : m.className ∉ reservedWords) (ht : m.className ∉ reservedTypeNames)
  (h1 : m.className ≠ "Reader".toList) (h2 : m.className ≠ "Writer".toList)
include hi hc hw ht h1 h2

theorem value_reader : m.valueType "Reader".toList = some .readerFn := by
  unfold TsModule.valueType
  rw [if_neg (fun e => h1 e.symm), hi]
  rfl

theorem value_writer : m.valueType "Writer".toList = some .writerFn := by
  unfold TsModule.valueType
  rw [if_neg (fun e => h2 e.symm), hi]
  rfl

theorem value_object : m.valueType "Object".toList = some .objectFn := by
  unfold TsModule.valueType
  rw [if_neg (fun e => hc.1 e.symm), hi]
  rfl

omit hc hw ht h1 h2 in
theorem value_array (ha : m.className ≠ "Array".toList) : m.valueType "Array".toList = some .arrayFn := by
  unfold TsModule.valueType
  rw [if_neg (fun e => ha e.symm), hi]
  rfl

theorem value_class : m.valueType m.className = some .cls := by
  unfold TsModule.valueType
  rw [if_pos rfl]

theorem type_buffer : m.unionType false arrayBuffer = some .buffer := by
  show (m.pathType false ["ArrayBuffer".toList]).map _ = _
  have : m.pathType false ["ArrayBuffer".toList] = some .buffer := by
    unfold TsModule.pathType
    dsimp only
    rw [if_neg (by decide), if_neg (by decide), if_neg (by decide), if_neg (by decide), if_neg (by simp),
      if_neg (fun e => hc.2 e.symm), if_pos rfl]
  rw [this]
  rfl

theorem type_result : m.unionType false [⟨[m.className], false⟩, ⟨["null".toList], false⟩] = some (.or .inst .null) := by
  have : m.pathType false [m.className] = some .inst := by
    unfold TsModule.pathType
    dsimp only
    rw [if_neg (fun e => ht (by rw [e]; decide)), if_neg (fun e => ht (by rw [e]; decide)), if_neg (fun e => ht (by rw [e]; decide)),
      if_neg (fun e => hw (by rw [e]; decide)), if_neg (by simp), if_pos rfl]
  show ((m.pathType false [m.className]).map _).bind _ = _
  rw [this]
  rfl

theorem read_method {e : Export} (he : e.name = m.className) (hs : SoundFs e.fields)
    (hv : m.className = "reader".toList ∨ m.className ∉ letNames (readBody e)) (hQ : AllT (ArrOk m) (.struct e.fields)) :
    m.methodTypes (readMethod m.className (readBody e)) = true := by
  have hnames := letNames_readBody e
  set Γ0 : TEnv := TEnv.enter [("data".toList, some .buffer)] (readBody e) with hΓ0
  have hfind : ∀ x, x ≠ "reader".toList → ¬ "output".toList <+: x → Γ0.find x = if "data".toList = x then some (some .buffer) else none := by
    intro x hx1 hx2
    rw [hΓ0, find_enter, if_neg]
    · rfl
    · rw [hnames, List.mem_cons, List.mem_cons]
      rintro (h | h | h)
      · exact hx1 h
      · exact hx2 (h ▸ List.prefix_refl _)
      · exact hx2 (prefix_root (List.prefix_refl _) (nread_fields e.fields _ x h))
  set Γ1 : TEnv := ("reader".toList, some .reader) :: Γ0 with hΓ1
  set Γ2 : TEnv := ("output".toList, some .any) :: Γ1 with hΓ2
  have hfind1 : ∀ x, x ≠ "reader".toList → ¬ "output".toList <+: x → Γ1.find x = if "data".toList = x then some (some .buffer) else none :=
    fun x a b => (find_cons_ne (Ne.symm a)).trans (hfind x a b)
  have e1 : m.checkStmt (.or .inst .null) Γ0 (.letS "reader".toList false (.new1 "Reader".toList (.var "data".toList))) = some Γ1 := by
    show (m.typeOf Γ0 (.new1 "Reader".toList (.var "data".toList))).bind _ = _
    have : m.typeOf Γ0 (.new1 "Reader".toList (.var "data".toList)) = some .reader := by
      show (m.varType Γ0 "Reader".toList).bind (fun t => (m.varType Γ0 "data".toList).bind fun u => m.newType1 t u) = _
      have hr : Γ0.find "Reader".toList = none := hfind _ (by decide) (by decide)
      have hd : Γ0.find "data".toList = some (some .buffer) := hfind _ (by decide) (by decide)
      rw [varType_none hr, varType_of hd, value_reader hi hc hw ht h1 h2]
      rfl
    rw [this]
    rfl
  have e2 : m.checkStmt (.or .inst .null) Γ1 (.letS "output".toList false (.call1 (.var "Object".toList) "create".toList (.var e.name))) =
      some Γ2 := by
    show (m.typeOf Γ1 (.call1 (.var "Object".toList) "create".toList (.var e.name))).bind _ = _
    have : m.typeOf Γ1 (.call1 (.var "Object".toList) "create".toList (.var e.name)) = some .any := by
      show (m.varType Γ1 "Object".toList).bind (fun t => (m.varType Γ1 e.name).bind fun u => m.callType1 t "create".toList u) = _
      have hr : Γ1.find "Object".toList = none := hfind1 _ (by decide) (by decide)
      rw [varType_none hr, value_object hi hc hw ht h1 h2, he]
      have hcls : ∃ t, m.varType Γ1 m.className = some t ∧ TsModule.isObject t = true := by
        by_cases hr : m.className = "reader".toList
        · refine ⟨.reader, ?_, rfl⟩
          rw [hr]
          exact varType_of find_cons_eq
        · have hf : Γ1.find m.className = if "data".toList = m.className then some (some .buffer) else none := by
            rw [hΓ1, find_cons_ne (Ne.symm hr), hΓ0, find_enter, if_neg (hv.resolve_left hr)]
            rfl
          by_cases hd : "data".toList = m.className
          · exact ⟨_, varType_of (hf.trans (if_pos hd)), rfl⟩
          · refine ⟨_, (varType_none (hf.trans (if_neg hd))).trans (value_class hi hc hw ht h1 h2), rfl⟩
      obtain ⟨t, ht1, ht2⟩ := hcls
      rw [ht1]
      show (if "create".toList = "create".toList ∧ TsModule.isObject t = true then some STy.any else none) = _
      rw [if_pos ⟨rfl, ht2⟩]
    rw [this]
    rfl
  have hR : RTypes m Γ2 "output".toList := by
    refine ⟨find_cons_eq, ?_, ?_, List.prefix_refl _⟩
    · exact (find_cons_ne (by decide)).trans find_cons_eq
    · exact (find_cons_ne (by decide)).trans (hfind1 _ (by decide) (by decide))
  obtain ⟨Γ3, e3, f3⟩ := read_fields (ret := .or .inst .null) e.fields hs hQ.1 hQ.2 Γ2 "output".toList hR
  have hR3 : RTypes m Γ3 "output".toList := hR.congr f3
  have e4 : m.checkStmts (.or .inst .null) Γ3 [.ifRet (.prop reader "failed".toList) .null, .ret (.var "output".toList)] = some Γ3 := by
    have h4 : m.checkStmt (.or .inst .null) Γ3 (.ifRet (.prop reader "failed".toList) .null) = some Γ3 := by
      show (if (m.condOk Γ3 (.prop reader "failed".toList) && m.returnOk (.or .inst .null) Γ3 .null) = true then _ else _) = _
      have : m.typeOf Γ3 (.prop reader "failed".toList) = some .boolean := by
        show (m.varType Γ3 "reader".toList).bind _ = _
        rw [varType_of hR3.reader]
        rfl
      unfold TsModule.condOk
      rw [this]
      rfl
    have h5 : m.checkStmt (.or .inst .null) Γ3 (.ret (.var "output".toList)) = some Γ3 := by
      show (if m.returnOk (.or .inst .null) Γ3 (.var "output".toList) = true then _ else _) = _
      have : m.typeOf Γ3 (.var "output".toList) = some .any := varType_of hR3.root
      unfold TsModule.returnOk
      rw [this]
      rfl
    show (m.checkStmt _ Γ3 _).bind (fun Γ => (m.checkStmt _ Γ _).bind _) = _
    rw [h4]
    show (m.checkStmt _ Γ3 _).bind _ = _
    rw [h5]
    rfl
  have hall : m.checkStmts (.or .inst .null) Γ0 (readBody e) = some Γ3 := by
    show m.checkStmts _ Γ0 (([.letS "reader".toList false (.new1 "Reader".toList (.var "data".toList)),
      .letS "output".toList false (.call1 (.var "Object".toList) "create".toList (.var e.name))] ++
      readFields ["output".toList] e.fields) ++ [.ifRet (.prop reader "failed".toList) .null, .ret (.var "output".toList)]) = _
    rw [checkStmts_append, checkStmts_append]
    show (((m.checkStmt _ Γ0 _).bind (fun Γ => (m.checkStmt _ Γ _).bind fun Γ => some Γ)).bind _).bind _ = _
    rw [e1]
    show (((m.checkStmt _ Γ1 _).bind fun Γ => some Γ).bind _).bind _ = _
    rw [e2]
    show (m.checkStmts _ Γ2 _).bind _ = _
    rw [e3]
    exact e4
  have hend : TsModule.endsInReturn (readBody e) = true := by
    unfold TsModule.endsInReturn readBody
    rw [List.getLast?_append]
    rfl
  have hp : m.memberType false ⟨"data".toList, false, arrayBuffer⟩ = some .buffer := by
    unfold TsModule.memberType
    dsimp only
    rw [type_buffer hi hc hw ht h1 h2]
    rfl
  unfold TsModule.methodTypes readMethod
  dsimp only
  rw [hp, type_result hi hc hw ht h1 h2]
  show (TsModule.endsInReturn (readBody e) && (m.checkStmts (.or .inst .null) Γ0 (readBody e)).isSome) = true
  rw [hend, hall]
  rfl

theorem write_method {e : Export} (hf : FitsFs m .inst e.fields) : m.methodTypes (writeMethod (writeBody e)) = true := by
  have hnames := letNames_writeBody e
  set Γ0 : TEnv := TEnv.enter [("buffer".toList, some (.or .buffer .undef)), ("this".toList, some .inst)] (writeBody e) with hΓ0
  have hfind : ∀ x, x ≠ "writer".toList → ¬ ("this".toList ++ "_".toList) <+: x →
      Γ0.find x = TEnv.find [("buffer".toList, some (.or .buffer .undef)), ("this".toList, some .inst)] x := by
    intro x hx1 hx2
    rw [hΓ0, find_enter, if_neg]
    rw [hnames, List.mem_cons]
    rintro (h | h)
    · exact hx1 h
    · exact hx2 (nprog_fields e.fields "this".toList [] x h)
  set Γ1 : TEnv := ("writer".toList, some .writer) :: Γ0 with hΓ1
  have hW : Γ0.find "Writer".toList = none := hfind _ (by decide) (by decide)
  have hB : Γ0.find "buffer".toList = some (some (.or .buffer .undef)) := hfind _ (by decide) (by decide)
  have e1 : m.checkStmt .buffer Γ0 (.letS "writer".toList false
      (.cond (.var "buffer".toList) (.new1 "Writer".toList (.var "buffer".toList)) (.new0 "Writer".toList))) = some Γ1 := by
    have ht1 : m.typeOf Γ0 (.var "buffer".toList) = some (.or .buffer .undef) := varType_of hB
    have hn : TsModule.narrow Γ0 (.var "buffer".toList) = ("buffer".toList, some .buffer) :: Γ0 := by
      show (match Γ0.find "buffer".toList with | some (some t) => ("buffer".toList, some t.nonNullish) :: Γ0 | _ => Γ0) = _
      rw [hB]
      rfl
    have ht2 : m.typeOf (("buffer".toList, some .buffer) :: Γ0) (.new1 "Writer".toList (.var "buffer".toList)) = some .writer := by
      show (m.varType _ "Writer".toList).bind (fun t => (m.varType _ "buffer".toList).bind fun u => m.newType1 t u) = _
      have a : TEnv.find (("buffer".toList, some .buffer) :: Γ0) "Writer".toList = none := (find_cons_ne (by decide)).trans hW
      have b : TEnv.find (("buffer".toList, some .buffer) :: Γ0) "buffer".toList = some (some .buffer) := find_cons_eq
      rw [varType_none a, varType_of b, value_writer hi hc hw ht h1 h2]
      rfl
    have ht3 : m.typeOf Γ0 (.new0 "Writer".toList) = some .writer := by
      show (m.varType Γ0 "Writer".toList).bind TsModule.newType0 = _
      rw [varType_none hW, value_writer hi hc hw ht h1 h2]
      rfl
    have : m.typeOf Γ0 (.cond (.var "buffer".toList) (.new1 "Writer".toList (.var "buffer".toList)) (.new0 "Writer".toList)) =
        some .writer := by
      show (m.typeOf Γ0 (.var "buffer".toList)).bind (fun k =>
        (m.typeOf (TsModule.narrow Γ0 (.var "buffer".toList)) (.new1 "Writer".toList (.var "buffer".toList))).bind fun a =>
        (m.typeOf Γ0 (.new0 "Writer".toList)).bind fun b => if k ≠ .void ∧ a = b then some a else none) = _
      rw [ht1, hn, ht2, ht3]
      rfl
    show (m.typeOf Γ0 _).bind _ = _
    rw [this]
    rfl
  have hthis : Γ1.find "this".toList = some (some .inst) := (find_cons_ne (by decide)).trans (hfind _ (by decide) (by decide))
  have hWT : WTypes m Γ1 "this".toList := ⟨find_cons_eq, ⟨_, hthis⟩, List.prefix_refl _⟩
  obtain ⟨Γ2, e2, f2⟩ := write_fields (ret := .buffer) e.fields .inst hf Γ1 "this".toList [] hWT (varType_of hthis)
  have e2 : m.checkStmts .buffer Γ1 (writeStruct ["this".toList] e.fields) = some Γ2 := e2
  have e3 : m.checkStmts .buffer Γ2 [.ret (.call0 writer "finish".toList)] = some Γ2 := by
    have : m.typeOf Γ2 (.call0 writer "finish".toList) = some .buffer := by
      show (m.varType Γ2 "writer".toList).bind _ = _
      rw [varType_of (hWT.congr f2).writer]
      rfl
    have h : m.checkStmt .buffer Γ2 (.ret (.call0 writer "finish".toList)) = some Γ2 := by
      show (if m.returnOk .buffer Γ2 _ = true then _ else _) = _
      unfold TsModule.returnOk
      rw [this]
      rfl
    show (m.checkStmt .buffer Γ2 _).bind _ = _
    rw [h]
    rfl
  have hall : m.checkStmts .buffer Γ0 (writeBody e) = some Γ2 := by
    show m.checkStmts _ Γ0 (([.letS "writer".toList false
      (.cond (.var "buffer".toList) (.new1 "Writer".toList (.var "buffer".toList)) (.new0 "Writer".toList))] ++
      writeStruct ["this".toList] e.fields) ++ [.ret (.call0 writer "finish".toList)]) = _
    rw [checkStmts_append, checkStmts_append]
    show (((m.checkStmt _ Γ0 _).bind fun Γ => some Γ).bind _).bind _ = _
    rw [e1]
    show (m.checkStmts _ Γ1 _).bind _ = _
    rw [e2]
    exact e3
  have hend : TsModule.endsInReturn (writeBody e) = true := by
    unfold TsModule.endsInReturn writeBody
    rw [List.getLast?_append]
    rfl
  have hp : m.memberType false ⟨"buffer".toList, true, arrayBuffer⟩ = some (.or .buffer .undef) := by
    unfold TsModule.memberType
    dsimp only
    rw [type_buffer hi hc hw ht h1 h2]
    rfl
  unfold TsModule.methodTypes writeMethod
  dsimp only
  rw [hp, type_buffer hi hc hw ht h1 h2]
  show (TsModule.endsInReturn (writeBody e) && (m.checkStmts .buffer Γ0 (writeBody e)).isSome) = true
  rw [hend, hall]
  rfl

end

/-- The module in a generated text that TypeScript can read passes the type checker. -/
theorem run_typeChecks {ast : AST} {e : Artifact} (hc : Compiled ast e) {m : TsModule} (hm : load e.code = some m)
    (hn : m.className ≠ "Object".toList ∧ m.className ≠ "ArrayBuffer".toList)
    (hv : m.className = "reader".toList ∨ m.className ∉ letNames (readBody e.toExport)) (hQ : AllT (ArrOk m) (.struct e.fields)) :
    m.typeChecks = true := by
  obtain ⟨hl, hr, hw, -⟩ := C60_needs hc (by rw [hm]; simp)
  obtain ⟨ds, tds, fs, fs', R, hb, rfl, -, -⟩ := compiled_load hc hm
  obtain ⟨env, text, r, hf, hline, hp, hcomp, ht, he⟩ := hc
  obtain ⟨c, hF, -, hg, -, -, -⟩ := typeCheck_final hf.1 (parsed_noBuiltinDecl hp) ht
  rw [he] at hg
  obtain ⟨k1, k2⟩ := R.types_known hl hF
  have hres := hl.typeNames _ _ R.used R.decl
  unfold TsModule.typeChecks
  simp only [Bool.and_eq_true, List.all_eq_true]
  refine ⟨⟨k1, fun d hd => ?_⟩, fun f hf => ?_⟩
  · cases d with
    | enum n vs => rfl
    | interface n ms =>
      rw [List.all_eq_true]
      exact k2 n ms hd
  · have hf : f ∈ [readMethod e.name (readBody e.toExport), writeMethod (writeBody e.toExport)] := hf
    simp only [List.mem_cons, List.not_mem_nil, or_false] at hf
    rcases hf with rfl | rfl
    · exact read_method rfl hn hres.1 hres.2 hr hw rfl R.sound hv hQ
    · exact write_method rfl hn hres.1 hres.2 hr hw (R.fits_export hl hF hg)

/-! ### which names are in order -/

/-- The variables of `read`, outside of inner blocks. -/
theorem mem_readBody {ast : AST} {e : Artifact} (hc : Compiled ast e) {x : Str} : x ∈ letNames (readBody e.toExport) ↔
    x = "reader".toList ∨ x = "output".toList ∨ ∃ p y, ReadVar ast e.name p y ∧ x = "output_".toList ++ y := by
  obtain ⟨env, text, r, hf, -, hp, -, ht, he⟩ := hc
  have hnb := parsed_noBuiltinDecl hp
  obtain ⟨c, hF, -, hg, -, -, -⟩ := typeCheck_final hf.1 hnb ht
  rw [he] at hg
  have hvars := mem_rvs_iff hF hnb _ e.name _ e.fields (Nat.le_refl _) hg
  rw [letNames_readBody, List.mem_cons, List.mem_cons]
  refine or_congr_right (or_congr_right ?_)
  show x ∈ letNames (readFields ["output".toList] e.fields) ↔ _
  rw [names_readFields, List.mem_map]
  constructor
  · rintro ⟨⟨p, y⟩, h, rfl⟩
    exact ⟨p, y, (hvars p y).1 h, rfl⟩
  · rintro ⟨p, y, h, rfl⟩
    exact ⟨(p, y), (hvars p y).2 h, rfl⟩

/-- No array in any struct inside, in terms of the schema. -/
theorem noArrays_iff {ast : AST} {e : Artifact} (hc : Compiled ast e) :
    AllT (fun fs => ∀ f ∈ fs, f.array = false) (.struct e.fields) ↔
      ∀ n fs, Used ast n → .decl n (.struct fs) ∈ ast → ∀ f ∈ fs, f.2.array = false := by
  obtain ⟨env, text, r, hfair, -, hp, -, ht, he⟩ := hc
  have hnb := parsed_noBuiltinDecl hp
  obtain ⟨c, hf, hex, hg, -, -, -⟩ := typeCheck_final hfair.1 hnb ht
  rw [he] at hg hex
  refine (final_all hf hnb (fun fs => ∀ f ∈ fs, f.array = false) _ _ _ _ (Nat.le_refl _) hg).trans ?_
  constructor
  · rintro h n fs ⟨x, hx, hr⟩ hd f hfm
    rw [hex] at hx
    cases hx
    obtain ⟨_, rfs, p, h2, -⟩ := hf.struct n fs (mem_decls.2 hd)
    obtain ⟨fs', rfs', h3, h4, h5⟩ := final_struct hf hnb h2 hd
    cases h4
    obtain ⟨rf, hrf, hok⟩ := Js.forall2_left h5 f (h3.mem_iff.2 hfm)
    rw [← hok.array]
    exact h n rfs n hr h2 rf hrf
  · intro h n rfs i hr hj rf hrf
    rcases final_entry hf hj with ⟨-, b, h2, -⟩ | ⟨vs, e, -, h2⟩ | ⟨fs, fs', rfs', hd, h3, h2, h4⟩
    · cases h2
    · cases h2
    · cases h2
      obtain ⟨f, hfm, hok⟩ := forall2_right h4 rf hrf
      rw [hok.array]
      exact h n fs ⟨_, hex, hr⟩ hd f (h3.mem_iff.1 hfm)

theorem AllT.imp {P Q : List (FieldOf RType) → Prop} (h : ∀ fs, P fs → Q fs) : (k : Nat) → (t : RType) → sizeOf t ≤ k → AllT P t → AllT Q t
  | 0, t, hk, _ => by
    have : 0 < sizeOf t := by cases t <;> simp
    omega
  | k + 1, .builtin _, _, _ => trivial
  | k + 1, .enum _, _, _ => trivial
  | k + 1, .struct fs, hk, ht => ⟨h fs ht.1, (allFs_iff fs).2 fun f hf =>
      AllT.imp h k f.ty (by have := sizeOf_field hf; omega) ((allFs_iff fs).1 ht.2 f hf)⟩

theorem allT_of {Q : List (FieldOf RType) → Prop} (h : ∀ fs, Q fs) : (k : Nat) → (t : RType) → sizeOf t ≤ k → AllT Q t
  | 0, t, hk => by
    have : 0 < sizeOf t := by cases t <;> simp
    omega
  | k + 1, .builtin _, _ => trivial
  | k + 1, .enum _, _ => trivial
  | k + 1, .struct fs, hk => ⟨h fs, (allFs_iff fs).2 fun f hf => allT_of h k f.ty (by have := sizeOf_field hf; omega)⟩

theorem compiled_typeChecks {ast : AST} {e : Artifact} (hc : Compiled ast e) {m : TsModule} (hm : load e.code = some m)
    (hn : ExportNameOk ast e.name) : m.typeChecks = true := by
  have hcls : m.className = e.name ∧ m.imports = ["Reader".toList, "Writer".toList] := by
    obtain ⟨ds, tds, fs, fs', R, hb, rfl, -, -⟩ := compiled_load hc hm
    exact ⟨rfl, rfl⟩
  refine run_typeChecks hc hm (by rw [hcls.1]; exact ⟨hn.object, hn.buffer⟩) ?_ ?_
  · rw [hcls.1, mem_readBody hc]
    by_cases hr : e.name = "reader".toList
    · exact .inl hr
    · refine .inr ?_
      rintro (h | h | ⟨p, y, h1, h2⟩)
      · exact hr h
      · exact hn.result h
      · exact hn.vars p y h1 h2
  · by_cases ha : e.name = "Array".toList
    · refine AllT.imp (fun fs h f hf h' => ?_) _ _ (Nat.le_refl _) ((noArrays_iff hc).2 (hn.array ha))
      rw [h f hf] at h'
      cases h'
    · exact allT_of (fun fs f _ _ => value_array hcls.2 (by rw [hcls.1]; exact ha)) _ _ (Nat.le_refl _)

end Packetc.Props
