import Verif.Js.Types
import Verif.Proof.JsVars
/-!
# The generated programs pass the type checker
-/

namespace Packetc.Js
open Ast Check Gen WellFormed Module

theorem find_enter (Γ : TEnv) (ss : List Stmt) (x : Str) :
    (Γ.enter ss).find x = if x ∈ letNames ss then some none else Γ.find x := by
  unfold TEnv.enter
  induction letNames ss with
  | nil => rfl
  | cons y ys ih =>
    show (if y = x then _ else _) = _
    by_cases h : y = x
    · rw [if_pos h, if_pos (by rw [h]; exact List.mem_cons_self)]
    · rw [if_neg h]
      refine ih.trans ?_
      have h' : x ≠ y := fun e => h e.symm
      simp only [List.mem_cons, h', false_or]

theorem find_cons_ne {Γ : TEnv} {x y : Str} {t : Option STy} (h : y ≠ x) : TEnv.find ((y, t) :: Γ) x = TEnv.find Γ x := if_neg h

theorem find_cons_eq {Γ : TEnv} {x : Str} {t : Option STy} : TEnv.find ((x, t) :: Γ) x = some t := if_pos rfl

section
variable {m : TsModule} {ret : STy}

theorem varType_of {Γ : TEnv} {x : Str} {t : Option STy} (h : Γ.find x = some t) : m.varType Γ x = t := by
  unfold TsModule.varType
  rw [h]

theorem varType_none {Γ : TEnv} {x : Str} (h : Γ.find x = none) : m.varType Γ x = m.valueType x := by
  unfold TsModule.varType
  rw [h]

theorem assignable_any (s : STy) : m.assignable s .any = true := by
  induction s with
  | or a b iha ihb =>
    show (m.assignable a .any && m.assignable b .any) = true
    rw [iha, ihb]
    rfl
  | _ => rfl

theorem checkStmts_append (a b : List Stmt) (Γ : TEnv) :
    m.checkStmts ret Γ (a ++ b) = (m.checkStmts ret Γ a).bind fun Γ => m.checkStmts ret Γ b := by
  induction a generalizing Γ with
  | nil => rfl
  | cons s ss ih =>
    show (m.checkStmt ret Γ s).bind (fun Γ => m.checkStmts ret Γ (ss ++ b)) =
      ((m.checkStmt ret Γ s).bind fun Γ => m.checkStmts ret Γ ss).bind _
    rw [Option.bind_assoc]
    congr 1
    funext Γ'
    exact ih Γ'

/-- The statements pass, and afterwards nothing is new but variables whose names continue `h`. -/
def Passes (m : TsModule) (ret : STy) (h : Str) (Γ : TEnv) (ss : List Stmt) : Prop :=
  ∃ Γ', m.checkStmts ret Γ ss = some Γ' ∧ ∀ x, ¬ (h ++ "_".toList) <+: x → Γ'.find x = Γ.find x

theorem passes_nil (h : Str) (Γ : TEnv) : Passes m ret h Γ [] := ⟨Γ, rfl, fun _ _ => rfl⟩

theorem passes_append {h : Str} {Γ : TEnv} {a b : List Stmt} (h1 : Passes m ret h Γ a)
    (h2 : ∀ Γ', (∀ x, ¬ (h ++ "_".toList) <+: x → Γ'.find x = Γ.find x) → Passes m ret h Γ' b) : Passes m ret h Γ (a ++ b) := by
  obtain ⟨Γ1, e1, f1⟩ := h1
  obtain ⟨Γ2, e2, f2⟩ := h2 Γ1 f1
  exact ⟨Γ2, by rw [checkStmts_append, e1]; exact e2, fun x hx => (f2 x hx).trans (f1 x hx)⟩

theorem passes_keep {h : Str} {Γ : TEnv} {s : Stmt} (e : m.checkStmt ret Γ s = some Γ) : Passes m ret h Γ [s] :=
  ⟨Γ, by show (m.checkStmt ret Γ s).bind _ = _; rw [e]; rfl, fun _ _ => rfl⟩

theorem passes_step {h : Str} {Γ : TEnv} {s : Stmt} {ss : List Stmt} (e : m.checkStmt ret Γ s = some Γ) (hss : Passes m ret h Γ ss) :
    Passes m ret h Γ (s :: ss) := by
  obtain ⟨Γ', e1, f1⟩ := hss
  exact ⟨Γ', by show (m.checkStmt ret Γ s).bind _ = _; rw [e]; exact e1, f1⟩

theorem passes_let {h x : Str} {Γ : TEnv} {any : Bool} {e : Expr} {t u : STy} {ss : List Stmt} (hx : (h ++ "_".toList) <+: x)
    (he : m.typeOf Γ e = some t) (hu : TsModule.letType any t = some u) (hss : Passes m ret h ((x, some u) :: Γ) ss) :
    Passes m ret h Γ (.letS x any e :: ss) := by
  obtain ⟨Γ', e1, f1⟩ := hss
  refine ⟨Γ', ?_, fun y hy => (f1 y hy).trans (find_cons_ne fun e => hy (e ▸ hx))⟩
  show (m.checkStmt ret Γ (.letS x any e)).bind _ = _
  have : m.checkStmt ret Γ (.letS x any e) = some ((x, some u) :: Γ) := by
    show (m.typeOf Γ e).bind _ = _
    rw [he]
    show (TsModule.letType any t).map _ = _
    rw [hu]
    rfl
  rw [this]
  exact e1

theorem passes_mono {h k : Str} (hk : (h ++ "_".toList) <+: k) {Γ : TEnv} {ss : List Stmt} (hp : Passes m ret k Γ ss) :
    Passes m ret h Γ ss := by
  obtain ⟨Γ', e, f⟩ := hp
  exact ⟨Γ', e, fun x hx => f x fun h2 => hx ((hk.trans (List.prefix_append _ _)).trans h2)⟩

theorem Passes.some {h : Str} {Γ : TEnv} {ss : List Stmt} (hp : Passes m ret h Γ ss) : ∃ Γ', m.checkStmts ret Γ ss = some Γ' :=
  ⟨_, hp.choose_spec.1⟩

/-! ### reading -/

/-- What reading needs to know about the variables: the root of the path is `any`, and `Array` is not hidden. -/
structure RTypes (m : TsModule) (Γ : TEnv) (h : Str) : Prop where
  root : Γ.find h = some (some .any)
  reader : Γ.find "reader".toList = some (some .reader)
  array : Γ.find "Array".toList = none
  out : "output".toList <+: h

theorem not_cont_self (h : Str) : ¬ (h ++ "_".toList) <+: h := fun x => ne_of_prefix x rfl

theorem out_ne {h x y : Str} (ho : "output".toList <+: h) (hx : ¬ "output".toList <+: x) (hy : (h ++ "_".toList) <+: y) : y ≠ x :=
  fun e => hx (e ▸ prefix_root ho hy)

theorem RTypes.congr {Γ Γ' : TEnv} {h : Str} (R : RTypes m Γ h) (hΓ : ∀ x, ¬ (h ++ "_".toList) <+: x → Γ'.find x = Γ.find x) :
    RTypes m Γ' h where
  root := (hΓ _ (not_cont_self h)).trans R.root
  reader := (hΓ _ fun e => out_ne R.out (by decide) e rfl).trans R.reader
  array := (hΓ _ fun e => out_ne R.out (by decide) e rfl).trans R.array
  out := R.out

theorem RTypes.enter {Γ : TEnv} {h : Str} (R : RTypes m Γ h) {ss : List Stmt} (hs : ∀ x ∈ letNames ss, (h ++ "_".toList) <+: x) :
    RTypes m (Γ.enter ss) h :=
  R.congr fun x hx => by rw [find_enter, if_neg fun hm => hx (hs x hm)]

theorem RTypes.cons {Γ : TEnv} {h x : Str} (R : RTypes m Γ h) (t : Option STy) (hx : (h ++ "_".toList) <+: x) :
    RTypes m ((x, t) :: Γ) h :=
  R.congr fun y hy => find_cons_ne fun e => hy (e ▸ hx)

theorem numericNames_mem (s : Scalar) : s.name ∈ TsModule.numericNames := by cases s <;> decide

theorem typeOf_read {Γ : TEnv} {h : Str} (R : RTypes m Γ h) (s : Scalar) : m.typeOf Γ (readCall s.name) = some .number := by
  show (m.varType Γ "reader".toList).bind _ = _
  rw [varType_of R.reader]
  show (if TsModule.numericNames.any (fun t => decide ("read_".toList ++ s.name = "read_".toList ++ t)) = true then _ else _) = _
  rw [if_pos]
  rw [List.any_eq_true]
  exact ⟨_, numericNames_mem s, by simp⟩

/-- A place in the output. -/
def Place (m : TsModule) (h : Str) (l : Expr) : Prop := ∀ Γ, RTypes m Γ h → m.targetType Γ l = some .any ∧ m.typeOf Γ l = some .any

theorem place_var (h : Str) : Place m h (.var h) := fun Γ R => by
  constructor
  · show (match Γ.find h with | some (some .any) => some .any | _ => none : Option STy) = _
    rw [R.root]
  · exact varType_of R.root

theorem place_prop (h n : Str) : Place m h (path [h, n]) := fun Γ R => by
  have h1 : m.typeOf Γ (.var h) = some .any := varType_of R.root
  constructor
  · show (m.typeOf Γ (.var h)).bind _ = _
    rw [h1]
    rfl
  · show (m.typeOf Γ (.var h)).bind _ = _
    rw [h1]
    rfl

theorem check_assign {Γ : TEnv} {l r : Expr} {t : STy} (hl : m.targetType Γ l = some .any) (hr : m.typeOf Γ r = some t) :
    m.checkStmt ret Γ (.assign l r) = some Γ := by
  show (if m.assignOk Γ l r = true then _ else _) = _
  rw [if_pos]
  unfold TsModule.assignOk
  rw [hl, hr]
  exact assignable_any _

theorem read_builtin {Γ : TEnv} {h : Str} (R : RTypes m Γ h) {st : List Str} (hs : ∃ xs, st = h :: xs) (hl : Place m h (path st))
    (tn : Str) (b : Builtin) (htn : tn = builtinName b) (init : Bool) : Passes m ret h Γ (readType init st tn (.builtin b)) := by
  obtain ⟨xs, rfl⟩ := hs
  have hv : (h ++ "_".toList) <+: varname (h :: xs) "len".toList := varname_prefix _ _ _
  have hnum : ∀ s : Scalar, tn = s.name → Passes m ret h Γ [.assign (path (h :: xs)) (readCall tn)] := by
    intro s e
    rw [e]
    exact passes_keep (check_assign (hl Γ R).1 (typeOf_read R s))
  cases b
  case string =>
    show Passes m ret h Γ (.letS (varname (h :: xs) "len".toList) false (readCall "uint32".toList) ::
      [.assign (path (h :: xs)) (.call1 Js.reader "read_string".toList (.var (varname (h :: xs) "len".toList)))])
    refine passes_let hv (typeOf_read R .uint32) (u := .number) rfl ?_
    have R' := R.cons (some .number) hv
    refine passes_keep (check_assign (hl _ R').1 (t := .string) ?_)
    show (m.varType _ "reader".toList).bind _ = _
    rw [varType_of R'.reader]
    show (m.varType _ (varname (h :: xs) "len".toList)).bind _ = _
    rw [varType_of find_cons_eq]
    rfl
  case uint8 => exact hnum .uint8 htn
  case uint16 => exact hnum .uint16 htn
  case uint32 => exact hnum .uint32 htn
  case int8 => exact hnum .int8 htn
  case int16 => exact hnum .int16 htn
  case int32 => exact hnum .int32 htn
  case float => exact hnum .float htn

theorem read_enum {Γ : TEnv} {h : Str} (R : RTypes m Γ h) {st : List Str} (hs : ∃ xs, st = h :: xs) (hl : Place m h (path st))
    (tn : Str) (e : REnum) (init : Bool) : Passes m ret h Γ (readType init st tn (.enum e)) := by
  obtain ⟨xs, rfl⟩ := hs
  have hv : (h ++ "_".toList) <+: varname (h :: xs) "temp".toList := varname_prefix _ _ _
  obtain ⟨s, hs⟩ : ∃ s : Scalar, reprName e.repr = s.name := ⟨_, reprName_scalar e.repr⟩
  show Passes m ret h Γ (.letS (varname (h :: xs) "temp".toList) false (readCall (reprName e.repr)) ::
    [.ifAssign (.and (.le (.num ((enumBounds e.variants).getD (0, 0)).1) (.var (varname (h :: xs) "temp".toList)))
      (.le (.var (varname (h :: xs) "temp".toList)) (.num ((enumBounds e.variants).getD (0, 0)).2)))
      (path (h :: xs)) (.var (varname (h :: xs) "temp".toList)) (.prop Js.reader "failed".toList) .tru])
  rw [hs]
  refine passes_let hv (typeOf_read R s) (u := .number) rfl ?_
  have R' := R.cons (some .number) hv
  refine passes_keep ?_
  show (if (m.condOk _ _ && m.assignOk _ _ _ && m.assignOk _ _ _) = true then _ else _) = _
  rw [if_pos]
  have ht : m.varType ((varname (h :: xs) "temp".toList, some .number) :: Γ) (varname (h :: xs) "temp".toList) = some .number :=
    varType_of find_cons_eq
  simp only [Bool.and_eq_true]
  refine ⟨⟨?_, ?_⟩, ?_⟩
  · unfold TsModule.condOk
    have : m.typeOf ((varname (h :: xs) "temp".toList, some .number) :: Γ)
        (.and (.le (.num ((enumBounds e.variants).getD (0, 0)).1) (.var (varname (h :: xs) "temp".toList)))
      (.le (.var (varname (h :: xs) "temp".toList)) (.num ((enumBounds e.variants).getD (0, 0)).2))) = some .boolean := by
      show ((m.varType _ _).bind _).bind (fun t => ((m.varType _ _).bind _).bind _) = _
      rw [ht]
      rfl
    rw [this]
    rfl
  · unfold TsModule.assignOk
    rw [(hl _ R').1]
    have : m.typeOf ((varname (h :: xs) "temp".toList, some .number) :: Γ) (.var (varname (h :: xs) "temp".toList)) = some .number := ht
    rw [this]
    rfl
  · unfold TsModule.assignOk
    have : m.targetType ((varname (h :: xs) "temp".toList, some .number) :: Γ) (.prop Js.reader "failed".toList) = some .boolean := by
      show (m.varType _ "reader".toList).bind _ = _
      rw [varType_of R'.reader]
      rfl
    rw [this]
    rfl

theorem typeOf_gt_read {Γ : TEnv} {h : Str} (R : RTypes m Γ h) : m.condOk Γ (.gt (readCall "uint8".toList) (.num 0)) = true := by
  unfold TsModule.condOk
  have : m.typeOf Γ (.gt (readCall "uint8".toList) (.num 0)) = some .boolean := by
    show (m.typeOf Γ (readCall Scalar.uint8.name)).bind _ = _
    rw [typeOf_read R]
    rfl
  rw [this]
  rfl

/-- If there are arrays among the fields, `Array` is the global object. -/
def ArrOk (m : TsModule) (fs : List (FieldOf RType)) : Prop := ∀ f ∈ fs, f.array = true → m.valueType "Array".toList = some .arrayFn

theorem read_array (hA : m.valueType "Array".toList = some .arrayFn) {Γ : TEnv} {h n : Str} (R : RTypes m Γ h) {init : Expr} (hi : init = .obj ∨ init = .undef)
    {prog : List Str → List Stmt}
    (hn : ∀ item, ∀ x ∈ letNames (prog [item]), (item ++ "_".toList) <+: x)
    (hp : ∀ Γ item, RTypes m Γ item → Passes m ret item Γ (prog [item])) : Passes m ret h Γ (rArr init prog [h, n]) := by
  have hlen : (h ++ "_".toList) <+: varname [h, n] "len".toList := varname_prefix _ _ _
  have hidx : (h ++ "_".toList) <+: varname [h, n] "index".toList := varname_prefix _ _ _
  have hitem : (h ++ "_".toList) <+: varname [h, n] "item".toList := varname_prefix _ _ _
  set item := varname [h, n] "item".toList with hitemD
  set idx := varname [h, n] "index".toList with hidxD
  set len := varname [h, n] "len".toList with hlenD
  have hne : idx ≠ len := by
    rw [hidxD, hlenD]
    unfold varname
    intro e
    have := List.append_cancel_left e
    revert this
    decide
  have hii : ¬ (item ++ "_".toList) <+: idx := by
    rintro ⟨t, ht⟩
    rw [hitemD, hidxD] at ht
    unfold varname at ht
    simp only [List.append_assoc] at ht
    have := List.append_cancel_left ht
    have := List.append_cancel_left this
    revert this
    show ¬ 'i' :: 't' :: _ = 'i' :: 'n' :: _
    simp
  have hii' : item ≠ idx := by
    rw [hitemD, hidxD]
    unfold varname
    intro e
    have := List.append_cancel_left e
    revert this
    decide
  show Passes m ret h Γ (.letS len false (readCall "uint32".toList) ::
    ([.assign (path [h, n]) (.new1 "Array".toList (.var len))] ++
      [.forS idx (.var len) ([.letS item true init] ++ prog [item] ++ [.assign (.index (path [h, n]) (.var idx)) (.var item)])]))
  refine passes_let hlen (typeOf_read R .uint32) (u := .number) rfl ?_
  have R1 := R.cons (some .number) hlen
  refine passes_step (check_assign (place_prop h n _ R1).1 (t := .array .any) ?_) ?_
  · show (m.varType _ "Array".toList).bind _ = _
    rw [varType_none R1.array, hA]
    show (m.varType _ len).bind _ = _
    rw [varType_of find_cons_eq]
    rfl
  refine passes_keep ?_
  set Γ1 : TEnv := (len, some .number) :: Γ with hΓ1
  set body := [.letS item true init] ++ prog [item] ++ [.assign (.index (path [h, n]) (.var idx)) (.var item)] with hbody
  have hnames : letNames body = item :: letNames (prog [item]) := by
    rw [hbody, letNames_append, letNames_append]
    simp [letNames]
  have hpre : ∀ x ∈ letNames body, (h ++ "_".toList) <+: x := by
    intro x hx
    rw [hnames, List.mem_cons] at hx
    rcases hx with rfl | hx
    · exact hitem
    · exact (hitem.trans (List.prefix_append _ _)).trans (hn item x hx)
  set Γ2 : TEnv := (idx, some .number) :: Γ1 with hΓ2
  have R2 : RTypes m Γ2 h := R1.cons _ hidx
  have R3 : RTypes m (Γ2.enter body) h := R2.enter hpre
  have hidx3 : (Γ2.enter body).find idx = some (some .number) := by
    rw [find_enter, if_neg, hΓ2, find_cons_eq]
    rw [hnames, List.mem_cons]
    rintro (h1 | h1)
    · exact hii' h1.symm
    · exact hii (hn item idx h1)
  have hbodyok : ∃ Γ', m.checkStmts ret (Γ2.enter body) body = some Γ' := by
    refine Passes.some (h := h) ?_
    show Passes m ret h (Γ2.enter body) (.letS item true init :: (prog [item] ++ _))
    obtain ⟨t, ht, htv⟩ : ∃ t, m.typeOf (Γ2.enter body) init = some t ∧ t ≠ .void := by
      rcases hi with rfl | rfl
      · exact ⟨.object, rfl, by simp⟩
      · exact ⟨.undef, rfl, by simp⟩
    refine passes_let hitem ht (u := .any) (by unfold TsModule.letType; rw [if_neg htv]; rfl) ?_
    have R4 := R3.cons (some .any) hitem
    have Ri : RTypes m ((item, some .any) :: Γ2.enter body) item :=
      ⟨find_cons_eq, R4.reader, R4.array, prefix_root R.out hitem⟩
    obtain ⟨Γ5, e5, f5⟩ := hp _ item Ri
    refine ⟨Γ5, ?_, fun x hx => ?_⟩
    · rw [checkStmts_append, e5]
      show (m.checkStmt ret Γ5 _).bind _ = _
      have R5 : RTypes m Γ5 h := R4.congr fun x hx => f5 x fun hx' => hx ((hitem.trans (List.prefix_append _ _)).trans hx')
      rw [check_assign (t := .any)]
      · rfl
      · show (m.typeOf Γ5 (path [h, n])).bind (fun t => (m.varType Γ5 idx).bind fun u => TsModule.indexType t u) = _
        rw [(place_prop h n _ R5).2]
        have : Γ5.find idx = some (some .number) := by
          rw [f5 idx hii, find_cons_ne hii', hidx3]
        rw [varType_of this]
        rfl
      · show m.varType Γ5 item = _
        exact varType_of ((f5 item (not_cont_self item)).trans find_cons_eq)
    · rw [f5 x fun hx' => hx ((hitem.trans (List.prefix_append _ _)).trans hx')]
  show (m.typeOf Γ2 (.lt (.var idx) (.var len))).bind (fun _ => (m.checkStmts ret (Γ2.enter body) body).map fun _ => Γ1) = _
  have h1 : m.varType Γ2 idx = some .number := varType_of find_cons_eq
  have h2 : m.varType Γ2 len = some .number := varType_of (by rw [hΓ2, find_cons_ne hne, hΓ1, find_cons_eq])
  have : m.typeOf Γ2 (.lt (.var idx) (.var len)) = some .boolean := by
    show (m.varType Γ2 idx).bind (fun t => (m.varType Γ2 len).bind _) = _
    rw [h1, h2]
    rfl
  rw [this]
  obtain ⟨Γ', e⟩ := hbodyok
  rw [e]
  rfl

theorem read_optional {Γ : TEnv} {h n : Str} (R : RTypes m Γ h) {prog : List Str → List Stmt}
    (hn : ∀ x ∈ letNames (prog [h, n]), (h ++ "_".toList) <+: x)
    (hp : ∀ Γ, RTypes m Γ h → Passes m ret h Γ (prog [h, n])) : Passes m ret h Γ (rOpt prog [h, n]) := by
  refine passes_keep ?_
  show (if m.condOk Γ _ = true then _ else _) = _
  rw [if_pos (typeOf_gt_read R)]
  obtain ⟨Γ1, e1⟩ := (hp _ (R.enter hn)).some
  rw [e1]
  show (m.checkStmts ret (Γ.enter _) _).map _ = _
  have : m.checkStmts ret (Γ.enter [.assign (path [h, n]) .undef]) [.assign (path [h, n]) .undef] = some _ :=
    (passes_keep (h := h) (check_assign (place_prop h n _ (R.enter (fun x hx => by cases hx))).1 (t := .undef) rfl)).some.choose_spec
  rw [this]
  rfl

mutual
theorem read_fields : (fs : List (FieldOf RType)) → SoundFs fs → ArrOk m fs → AllFs (ArrOk m) fs → (Γ : TEnv) → (h : Str) → RTypes m Γ h →
    Passes m ret h Γ (readFields [h] fs)
  | [], _, _, _, Γ, h, _ => passes_nil h Γ
  | f :: fs, hs, hA, hQ, Γ, h, R => by
    show Passes m ret h Γ (readField [h] f ++ readFields [h] fs)
    exact passes_append (read_field f hs.1 (hA f List.mem_cons_self) hQ.1 Γ h R) fun Γ' hΓ =>
      read_fields fs hs.2 (fun g hg => hA g (List.mem_cons_of_mem _ hg)) hQ.2 Γ' h (R.congr hΓ)
theorem read_field : (f : FieldOf RType) → SoundF f → (f.array = true → m.valueType "Array".toList = some .arrayFn) → AllF (ArrOk m) f →
    (Γ : TEnv) → (h : Str) → RTypes m Γ h → Passes m ret h Γ (readField [h] f)
  | ⟨n, tn, t, a, o⟩, hs, hA, hQ, Γ, h, R => by
    have hb : ∀ Γ, RTypes m Γ h → Passes m ret h Γ ((if a then rArr (itemInit t) (fun st => readType false st tn t)
          else fun st => readType true st tn t) [h, n]) := by
      intro Γ R
      cases a with
      | false => exact read_typeA n tn t hs.1 hs.2 hQ Γ h R
      | true =>
        exact read_array (n := n) (init := itemInit t) (prog := fun st => readType false st tn t) (hA rfl) R
          (by cases t <;> simp [itemInit]) (nread_typeB tn t) fun Γ item R => read_typeB tn t hs.1 hs.2 hQ Γ item R
    have hn : ∀ x ∈ letNames ((if a then rArr (itemInit t) (fun st => readType false st tn t)
          else fun st => readType true st tn t) [h, n]), (h ++ "_".toList) <+: x := by
      have := nread_field ⟨n, tn, t, a, false⟩ h
      rw [readField_eq] at this
      exact this
    rw [readField_eq]
    cases o with
    | false => exact hb Γ R
    | true => exact read_optional (n := n) R hn hb
theorem read_typeA (n tn : Str) : (t : RType) → (∀ b, t = .builtin b → tn = builtinName b) → SoundT t → AllT (ArrOk m) t → (Γ : TEnv) → (h : Str) →
    RTypes m Γ h → Passes m ret h Γ (readType true [h, n] tn t)
  | .builtin b, htn, _, _, Γ, h, R => read_builtin R ⟨_, rfl⟩ (place_prop h n) tn b (htn b rfl) true
  | .enum e, _, _, _, Γ, h, R => read_enum R ⟨_, rfl⟩ (place_prop h n) tn e true
  | .struct fs, _, hs, hQ, Γ, h, R => by
    have hb : (h ++ "_".toList) <+: bindname [h, n] := bindname_two h n
    show Passes m ret h Γ (.letS (bindname [h, n]) true .obj :: (readFields [bindname [h, n]] fs ++
      [.assign (path [h, n]) (.var (bindname [h, n]))]))
    refine passes_let hb (t := .object) rfl (u := .any) rfl ?_
    have R1 := R.cons (some .any) hb
    have Rb : RTypes m ((bindname [h, n], some .any) :: Γ) (bindname [h, n]) :=
      ⟨find_cons_eq, R1.reader, R1.array, prefix_root R.out hb⟩
    obtain ⟨Γ2, e2, f2⟩ := read_fields fs hs hQ.1 hQ.2 _ _ Rb
    have R2 : RTypes m Γ2 h := R1.congr fun x hx => f2 x fun hx' => hx ((hb.trans (List.prefix_append _ _)).trans hx')
    refine ⟨Γ2, ?_, fun x hx => f2 x fun hx' => hx ((hb.trans (List.prefix_append _ _)).trans hx')⟩
    rw [checkStmts_append, e2]
    show (m.checkStmt ret Γ2 _).bind _ = _
    rw [check_assign (place_prop h n _ R2).1 (t := .any)]
    · rfl
    · show m.varType Γ2 _ = _
      exact varType_of ((f2 _ (not_cont_self _)).trans find_cons_eq)
theorem read_typeB (tn : Str) : (t : RType) → (∀ b, t = .builtin b → tn = builtinName b) → SoundT t → AllT (ArrOk m) t → (Γ : TEnv) → (h : Str) →
    RTypes m Γ h → Passes m ret h Γ (readType false [h] tn t)
  | .builtin b, htn, _, _, Γ, h, R => read_builtin R ⟨_, rfl⟩ (place_var h) tn b (htn b rfl) false
  | .enum e, _, _, _, Γ, h, R => read_enum R ⟨_, rfl⟩ (place_var h) tn e false
  | .struct fs, _, hs, hQ, Γ, h, R => read_fields fs hs hQ.1 hQ.2 Γ h R
end

/-! ### what reading needs -/

/-- Checking statements changes nothing about variables that they do not declare. -/
theorem checkStmts_keeps : (ss : List Stmt) → (Γ Γ' : TEnv) → m.checkStmts ret Γ ss = some Γ' → ∀ x, x ∉ letNames ss → Γ'.find x = Γ.find x
  | [], Γ, Γ', h, x, _ => by
    cases h
    rfl
  | s :: ss, Γ, Γ', h, x, hx => by
    obtain ⟨Γ1, h1, h2⟩ := Option.bind_eq_some_iff.1 h
    have ih := checkStmts_keeps ss Γ1 Γ' h2 x
    cases s with
    | letS y any e =>
      obtain ⟨t, -, h3⟩ := Option.bind_eq_some_iff.1 h1
      obtain ⟨u, -, rfl⟩ := Option.map_eq_some_iff.1 h3
      have hx : x ∉ y :: letNames ss := hx
      rw [List.mem_cons, not_or] at hx
      rw [ih hx.2, find_cons_ne (Ne.symm hx.1)]
    | assign l r =>
      have h1 : (if _ then _ else _) = some Γ1 := h1
      split at h1 <;> cases h1
      exact ih hx
    | expr e =>
      obtain ⟨t, -, rfl⟩ := Option.map_eq_some_iff.1 h1
      exact ih hx
    | ifElse c t e =>
      have h1 : (if _ then (m.checkStmts ret (Γ.enter t) t).bind fun _ => (m.checkStmts ret (Γ.enter e) e).map fun _ => Γ else none) = some Γ1 := h1
      split at h1
      · obtain ⟨-, -, h3⟩ := Option.bind_eq_some_iff.1 h1
        obtain ⟨-, -, rfl⟩ := Option.map_eq_some_iff.1 h3
        exact ih hx
      · cases h1
    | ifAssign c l r l' r' =>
      have h1 : (if _ then _ else _) = some Γ1 := h1
      split at h1 <;> cases h1
      exact ih hx
    | ifRet c e =>
      have h1 : (if _ then _ else _) = some Γ1 := h1
      split at h1 <;> cases h1
      exact ih hx
    | forS i b body =>
      obtain ⟨-, -, h3⟩ := Option.bind_eq_some_iff.1 h1
      obtain ⟨-, -, rfl⟩ := Option.map_eq_some_iff.1 h3
      exact ih hx
    | switchNullish e n d =>
      obtain ⟨-, -, h3⟩ := Option.bind_eq_some_iff.1 h1
      obtain ⟨-, -, h4⟩ := Option.bind_eq_some_iff.1 h3
      obtain ⟨-, -, rfl⟩ := Option.map_eq_some_iff.1 h4
      exact ih hx
    | ret e =>
      have h1 : (if _ then _ else _) = some Γ1 := h1
      split at h1 <;> cases h1
      exact ih hx

theorem checkStmts_split {a b : List Stmt} {Γ Γ' : TEnv} (h : m.checkStmts ret Γ (a ++ b) = some Γ') :
    ∃ Γ1, m.checkStmts ret Γ a = some Γ1 ∧ m.checkStmts ret Γ1 b = some Γ' ∧ ∀ x, x ∉ letNames a → Γ1.find x = Γ.find x := by
  rw [checkStmts_append] at h
  obtain ⟨Γ1, h1, h2⟩ := Option.bind_eq_some_iff.1 h
  exact ⟨Γ1, h1, h2, checkStmts_keeps a Γ Γ1 h1⟩

section
variable (hA : m.valueType "Array".toList = some .cls)
include hA

/-- If `Array` is the class, no array can be made. -/
theorem noArray_array {Γ Γ' : TEnv} {h n : Str} (ho : "output".toList <+: h) (hΓ : Γ.find "Array".toList = none) {init : Expr}
    {prog : List Str → List Stmt} : m.checkStmts ret Γ (rArr init prog [h, n]) ≠ some Γ' := by
  intro hc
  have hlen : (h ++ "_".toList) <+: varname [h, n] "len".toList := varname_prefix _ _ _
  have hc : (m.checkStmt ret Γ (.letS (varname [h, n] "len".toList) false (readCall "uint32".toList))).bind (fun Γ =>
    (m.checkStmt ret Γ (.assign (path [h, n]) (.new1 "Array".toList (.var (varname [h, n] "len".toList))))).bind _) = some Γ' := hc
  obtain ⟨Γ1, h1, h2⟩ := Option.bind_eq_some_iff.1 hc
  obtain ⟨t, -, h3⟩ := Option.bind_eq_some_iff.1 h1
  obtain ⟨u, -, rfl⟩ := Option.map_eq_some_iff.1 h3
  obtain ⟨Γ2, h4, -⟩ := Option.bind_eq_some_iff.1 h2
  have h4 : (if m.assignOk _ _ (.new1 "Array".toList (.var (varname [h, n] "len".toList))) = true then _ else none) = some Γ2 := h4
  split at h4
  case isFalse => cases h4
  case isTrue h5 =>
    unfold TsModule.assignOk at h5
    have h6 : m.typeOf ((varname [h, n] "len".toList, some u) :: Γ) (.new1 "Array".toList (.var (varname [h, n] "len".toList))) = none := by
      show (m.varType _ "Array".toList).bind _ = _
      rw [varType_none ((find_cons_ne (out_ne ho (by decide) hlen)).trans hΓ), hA]
      show (m.varType _ _).bind _ = _
      rw [varType_of find_cons_eq]
      rfl
    rw [h6] at h5
    split at h5
    case h_1 h7 => cases h7
    case h_2 => cases h5

mutual
theorem noArray_fields : (fs : List (FieldOf RType)) → (Γ Γ' : TEnv) → (h : Str) → "output".toList <+: h → Γ.find "Array".toList = none →
    m.checkStmts ret Γ (readFields [h] fs) = some Γ' →
    (∀ f ∈ fs, f.array = false) ∧ AllFs (fun fs => ∀ f ∈ fs, f.array = false) fs
  | [], _, _, _, _, _, _ => ⟨(fun _ hf => by cases hf), trivial⟩
  | f :: fs, Γ, Γ', h, ho, hΓ, hc => by
    have hc : m.checkStmts ret Γ (readField [h] f ++ readFields [h] fs) = some Γ' := hc
    obtain ⟨Γ1, h1, h2, h3⟩ := checkStmts_split hc
    have a := noArray_field f Γ Γ1 h ho hΓ h1
    have b := noArray_fields fs Γ1 Γ' h ho ((h3 _ fun hx => out_ne ho (by decide) (nread_field f h _ hx) rfl).trans hΓ) h2
    exact ⟨List.forall_mem_cons.2 ⟨a.1, b.1⟩, a.2, b.2⟩
theorem noArray_field : (f : FieldOf RType) → (Γ Γ' : TEnv) → (h : Str) → "output".toList <+: h → Γ.find "Array".toList = none →
    m.checkStmts ret Γ (readField [h] f) = some Γ' → f.array = false ∧ AllF (fun fs => ∀ f ∈ fs, f.array = false) f
  | ⟨n, tn, t, a, o⟩, Γ, Γ', h, ho, hΓ, hc => by
    have hb : ∀ Γ Γ', Γ.find "Array".toList = none → m.checkStmts ret Γ ((if a then rArr (itemInit t) (fun st => readType false st tn t)
          else fun st => readType true st tn t) [h, n]) = some Γ' → a = false ∧ AllT (fun fs => ∀ f ∈ fs, f.array = false) t := by
      intro Γ Γ' hΓ hc
      cases a with
      | false =>
        rw [if_neg Bool.false_ne_true] at hc
        exact ⟨rfl, noArray_type n tn t Γ Γ' h ho hΓ hc⟩
      | true =>
        rw [if_pos rfl] at hc
        exact absurd hc (noArray_array hA ho hΓ)
    have hn : ∀ x ∈ letNames ((if a then rArr (itemInit t) (fun st => readType false st tn t)
          else fun st => readType true st tn t) [h, n]), (h ++ "_".toList) <+: x := by
      have := nread_field ⟨n, tn, t, a, false⟩ h
      rw [readField_eq] at this
      exact this
    rw [readField_eq] at hc
    dsimp only at hc
    cases o with
    | false =>
      rw [if_neg Bool.false_ne_true] at hc
      exact hb Γ Γ' hΓ hc
    | true =>
      rw [if_pos rfl] at hc
      obtain ⟨Γ1, h1, -⟩ := Option.bind_eq_some_iff.1 hc
      have h1 : (if m.condOk Γ _ = true then (m.checkStmts ret (Γ.enter _) ((if a then rArr (itemInit t) (fun st => readType false st tn t)
          else fun st => readType true st tn t) [h, n])).bind _ else none) = some Γ1 := h1
      split at h1
      case isFalse => cases h1
      case isTrue =>
        obtain ⟨Γ2, h2, -⟩ := Option.bind_eq_some_iff.1 h1
        refine hb _ _ ?_ h2
        have hx : "Array".toList ∉ letNames ((if a then rArr (itemInit t) (fun st => readType false st tn t)
            else fun st => readType true st tn t) [h, n]) := fun hx => out_ne ho (by decide) (hn _ hx) rfl
        exact (find_enter _ _ _).trans ((if_neg hx).trans hΓ)
theorem noArray_type (n tn : Str) : (t : RType) → (Γ Γ' : TEnv) → (h : Str) → "output".toList <+: h → Γ.find "Array".toList = none →
    m.checkStmts ret Γ (readType true [h, n] tn t) = some Γ' → AllT (fun fs => ∀ f ∈ fs, f.array = false) t
  | .builtin _, _, _, _, _, _, _ => True.intro
  | .enum _, _, _, _, _, _, _ => True.intro
  | .struct fs, Γ, Γ', h, ho, hΓ, hc => by
    have hb : (h ++ "_".toList) <+: bindname [h, n] := bindname_two h n
    have hc : m.checkStmts ret Γ ([.letS (bindname [h, n]) true .obj] ++ (readFields [bindname [h, n]] fs ++
      [.assign (path [h, n]) (.var (bindname [h, n]))])) = some Γ' := hc
    obtain ⟨Γ1, -, h2, h3⟩ := checkStmts_split hc
    obtain ⟨Γ2, h4, -, -⟩ := checkStmts_split h2
    refine noArray_fields fs Γ1 Γ2 _ (prefix_root ho hb) ((h3 _ ?_).trans hΓ) h4
    intro hx
    have hx : "Array".toList ∈ [bindname [h, n]] := hx
    exact out_ne ho (by decide) hb (List.mem_singleton.1 hx).symm
end

end

end

/-! ### writing -/

/-- The static type of a field, without its flags. -/
def baseType (tn : Str) : RType → STy
  | .builtin .string => .string
  | .builtin _ => .number
  | _ => .named tn

/-- The static type of a field. -/
def fieldType (tn : Str) (t : RType) (array optional : Bool) : STy :=
  let u := if array then STy.array (baseType tn t) else baseType tn t
  if optional then .or u .undef else u

mutual
/-- The declarations of the module fit the resolved type. -/
def FitsT (m : TsModule) (tn : Str) : RType → Prop
  | .builtin b => tn = builtinName b
  | .enum _ => m.isEnum (.named tn) = true
  | .struct fs => FitsFs m (.named tn) fs
/-- The fields of a struct are properties of the type `T`. -/
def FitsFs (m : TsModule) (T : STy) : List (FieldOf RType) → Prop
  | [] => True
  | f :: fs => FitsF m T f ∧ FitsFs m T fs
def FitsF (m : TsModule) (T : STy) : FieldOf RType → Prop
  | ⟨n, tn, t, a, o⟩ => m.propType T n = some (fieldType tn t a o) ∧ FitsT m tn t
end

theorem fitsFs_iff {m : TsModule} {T : STy} (fs : List (FieldOf RType)) : FitsFs m T fs ↔ ∀ f ∈ fs, FitsF m T f := by
  induction fs with
  | nil => simp [FitsFs]
  | cons f fs ih => simp [FitsFs, ih]

section
variable {m : TsModule} {ret : STy}

/-- What writing needs to know about the variables. -/
structure WTypes (m : TsModule) (Γ : TEnv) (h : Str) : Prop where
  writer : Γ.find "writer".toList = some (some .writer)
  root : ∃ t, Γ.find h = some t
  this : "this".toList <+: h

theorem this_ne {h x : Str} (ho : "this".toList <+: h) (hx : (h ++ "_".toList) <+: x) : x ≠ "writer".toList :=
  this_ne_writer (prefix_root ho hx)

theorem WTypes.congr {Γ Γ' : TEnv} {h : Str} (R : WTypes m Γ h) (hΓ : ∀ x, ¬ (h ++ "_".toList) <+: x → Γ'.find x = Γ.find x) :
    WTypes m Γ' h where
  writer := (hΓ _ fun e => this_ne R.this e rfl).trans R.writer
  root := R.root.imp fun _ ht => (hΓ _ (not_cont_self h)).trans ht
  this := R.this

theorem typeOf_path (Γ Γ' : TEnv) (h : Str) (hΓ : Γ'.find h = Γ.find h) (xs : List Str) :
    m.typeOf Γ' (path (h :: xs)) = m.typeOf Γ (path (h :: xs)) := by
  induction xs using List.reverseRecOn with
  | nil =>
    show m.varType Γ' h = m.varType Γ h
    unfold TsModule.varType
    rw [hΓ]
  | append_singleton xs x ih =>
    rw [← List.cons_append, path_snoc _ _ (by simp)]
    show (m.typeOf Γ' (path (h :: xs))).bind _ = (m.typeOf Γ (path (h :: xs))).bind _
    rw [ih]

theorem typeOf_write {Γ : TEnv} {h : Str} (R : WTypes m Γ h) (s : Scalar) {e : Expr} (he : m.typeOf Γ e = some .number) :
    m.typeOf Γ (writeCall s.name e) = some .void := by
  show (m.varType Γ "writer".toList).bind _ = _
  rw [varType_of R.writer]
  show (m.typeOf Γ e).bind (fun u => m.callType1 .writer ("write_".toList ++ s.name) u) = _
  rw [he]
  show (if "write_".toList ++ s.name = "write_string".toList then _ else
    if (TsModule.numericNames.any (fun t => decide ("write_".toList ++ s.name = "write_".toList ++ t)) = true ∧ _) then _ else _) = _
  rw [if_neg (by cases s <;> decide), if_pos]
  refine ⟨?_, rfl⟩
  rw [List.any_eq_true]
  exact ⟨_, numericNames_mem s, by simp⟩

theorem check_expr {Γ : TEnv} {e : Expr} {t : STy} (h : m.typeOf Γ e = some t) : m.checkStmt ret Γ (.expr e) = some Γ := by
  show (m.typeOf Γ e).map _ = _
  rw [h]
  rfl

/-- A program that writes what is found at a path of static type `T`. -/
def WPasses (m : TsModule) (ret : STy) (T : STy) (prog : List Str → List Stmt) : Prop :=
  ∀ (Γ : TEnv) (h : Str) (xs : List Str), WTypes m Γ h → m.typeOf Γ (path (h :: xs)) = some T → Passes m ret h Γ (prog (h :: xs))

theorem typeOf_length {Γ : TEnv} {e : Expr} {T : STy} (h : m.typeOf Γ e = some T) (hT : T = .string ∨ ∃ U, T = .array U) :
    m.typeOf Γ (.prop e "length".toList) = some .number := by
  show (m.typeOf Γ e).bind _ = _
  rw [h]
  rcases hT with rfl | ⟨U, rfl⟩ <;> rfl

theorem write_array {T : STy} (hT : T ≠ .void ∧ T ≠ .undef ∧ T ≠ .null) {prog : List Str → List Stmt} (hp : WPasses m ret T prog) (hn : NProg prog) :
    WPasses m ret (.array T) (wArr prog) := by
  intro Γ h xs R hty
  set st := h :: xs with hst
  have hidx : (h ++ "_".toList) <+: varname st "index".toList := varname_prefix _ _ _
  have hitem : (h ++ "_".toList) <+: varname st "item".toList := varname_prefix _ _ _
  set idx := varname st "index".toList with hidxD
  set item := varname st "item".toList with hitemD
  have hii' : item ≠ idx := by
    rw [hitemD, hidxD]
    unfold varname
    intro e
    have := List.append_cancel_left e
    revert this
    decide
  have hii : ¬ (item ++ "_".toList) <+: idx := by
    rintro ⟨t, ht⟩
    rw [hitemD, hidxD] at ht
    unfold varname at ht
    simp only [List.append_assoc] at ht
    have := List.append_cancel_left ht
    have := List.append_cancel_left this
    revert this
    show ¬ 'i' :: 't' :: _ = 'i' :: 'n' :: _
    simp
  show Passes m ret h Γ (.expr (writeCall Scalar.uint32.name (.prop (path st) "length".toList)) ::
    [.forS idx (.prop (path st) "length".toList) (.letS item false (.index (path st) (.var idx)) :: prog [item])])
  refine passes_step (check_expr (typeOf_write R .uint32 (typeOf_length hty (Or.inr ⟨_, rfl⟩)))) (passes_keep ?_)
  set body := .letS item false (.index (path st) (.var idx)) :: prog [item] with hbody
  have hnames : letNames body = item :: letNames (prog [item]) := rfl
  set Γ2 : TEnv := (idx, some .number) :: Γ with hΓ2
  have hty2 : m.typeOf Γ2 (path st) = some (.array T) := by
    rw [hst, typeOf_path Γ Γ2 h (find_cons_ne fun e => not_cont_self h (e ▸ hidx)), ← hst, hty]
  have hpre : ∀ x ∈ letNames body, (h ++ "_".toList) <+: x := by
    intro x hx
    rw [hnames, List.mem_cons] at hx
    rcases hx with rfl | hx
    · exact hitem
    · exact (hitem.trans (List.prefix_append _ _)).trans (hn item [] x hx)
  have hΓ3 : ∀ x, ¬ (h ++ "_".toList) <+: x → (Γ2.enter body).find x = Γ.find x := by
    intro x hx
    rw [find_enter, if_neg fun hm => hx (hpre x hm), hΓ2]
    exact find_cons_ne fun e => hx (e ▸ hidx)
  have hidx3 : (Γ2.enter body).find idx = some (some .number) := by
    rw [find_enter, if_neg, hΓ2, find_cons_eq]
    rw [hnames, List.mem_cons]
    rintro (h1 | h1)
    · exact hii' h1.symm
    · exact hii (hn item [] idx h1)
  have hbodyok : ∃ Γ', m.checkStmts ret (Γ2.enter body) body = some Γ' := by
    refine Passes.some (h := h) ?_
    refine passes_let hitem (t := T) (u := T) ?_ ?_ ?_
    · show (m.typeOf _ (path st)).bind (fun t => (m.varType _ idx).bind fun u => TsModule.indexType t u) = _
      rw [hst, typeOf_path Γ _ h (hΓ3 _ (not_cont_self h)), ← hst, hty, varType_of hidx3]
      rfl
    · unfold TsModule.letType
      rw [if_neg hT.1, if_neg (by simp), if_neg (fun h => h.elim hT.2.1 hT.2.2)]
    · refine passes_mono hitem (hp _ item [] ⟨?_, ⟨_, find_cons_eq⟩, prefix_root R.this hitem⟩ (varType_of find_cons_eq))
      rw [find_cons_ne (this_ne R.this hitem), hΓ3 _ fun e => this_ne R.this e rfl]
      exact R.writer
  show (m.typeOf Γ2 (.lt (.var idx) (.prop (path st) "length".toList))).bind
    (fun _ => (m.checkStmts ret (Γ2.enter body) body).map fun _ => Γ) = _
  have h1 : m.varType Γ2 idx = some .number := varType_of find_cons_eq
  have : m.typeOf Γ2 (.lt (.var idx) (.prop (path st) "length".toList)) = some .boolean := by
    show (m.varType Γ2 idx).bind (fun t => (m.typeOf Γ2 (.prop (path st) "length".toList)).bind _) = _
    rw [h1, typeOf_length hty2 (Or.inr ⟨_, rfl⟩)]
    rfl
  rw [this]
  obtain ⟨Γ', e⟩ := hbodyok
  rw [e]
  rfl

theorem write_optional {T : STy} (hT : T.nonNullish = T) {prog : List Str → List Stmt} (hp : WPasses m ret T prog) (hn : NProg prog)
    {Γ : TEnv} {h : Str} {xs : List Str} {n : Str} (R : WTypes m Γ h) (hty : m.typeOf Γ (path (h :: (xs ++ [n]))) = some (.or T .undef)) :
    Passes m ret h Γ (wOpt prog (h :: (xs ++ [n]))) := by
  have hb : (h ++ "_".toList) <+: bindname (h :: (xs ++ [n])) := bindname_prefix h xs n
  set b := bindname (h :: (xs ++ [n])) with hbD
  show Passes m ret h Γ (.letS b false (path (h :: (xs ++ [n]))) ::
    [.switchNullish (.var b) (writeCall Scalar.uint8.name (.num 0)) (.expr (writeCall Scalar.uint8.name (.num 1)) :: prog [b])])
  refine passes_let hb hty (u := .or T .undef) rfl (passes_keep ?_)
  set Γ1 : TEnv := (b, some (.or T .undef)) :: Γ with hΓ1
  set body := .expr (writeCall Scalar.uint8.name (.num 1)) :: prog [b] with hbody
  have hw1 : WTypes m Γ1 h := R.congr fun x hx => find_cons_ne fun e => hx (e ▸ hb)
  have hnar : TsModule.narrow Γ1 (.var b) = (b, some T) :: Γ1 := by
    show (match Γ1.find b with | some (some t) => (b, some t.nonNullish) :: Γ1 | _ => Γ1) = _
    rw [hΓ1, find_cons_eq]
    show (b, some T.nonNullish) :: _ = _
    rw [hT]
  have hpre : ∀ x ∈ letNames body, (b ++ "_".toList) <+: x := fun x hx => hn b [] x hx
  set Γ3 : TEnv := TEnv.enter ((b, some T) :: Γ1) body with hΓ3
  have hb3 : Γ3.find b = some (some T) := by
    rw [hΓ3, find_enter, if_neg fun hm => not_cont_self b (hpre _ hm), find_cons_eq]
  have hw3 : WTypes m Γ3 b := by
    refine ⟨?_, ⟨_, hb3⟩, prefix_root R.this hb⟩
    rw [hΓ3, find_enter, if_neg fun hm => this_ne (prefix_root R.this hb) (hpre _ hm) rfl, find_cons_ne (this_ne R.this hb)]
    exact hw1.writer
  obtain ⟨Γ4, e4⟩ := (passes_step (check_expr (typeOf_write hw3 .uint8 (e := .num 1) rfl)) (hp Γ3 b [] hw3 (varType_of hb3))).some (ret := ret)
  show (m.typeOf Γ1 (.var b)).bind (fun _ => (m.typeOf Γ1 (writeCall Scalar.uint8.name (.num 0))).bind fun _ =>
    (m.checkStmts ret ((TsModule.narrow Γ1 (.var b)).enter body) body).map fun _ => Γ1) = _
  have h1 : m.typeOf Γ1 (.var b) = some (.or T .undef) := varType_of find_cons_eq
  rw [h1, typeOf_write hw1 .uint8 (e := .num 0) rfl, hnar]
  show ((m.checkStmts ret Γ3 body).map fun _ => Γ1) = _
  rw [e4]
  rfl

theorem baseType_plain (tn : Str) (t : RType) : baseType tn t ≠ .void ∧ baseType tn t ≠ .undef ∧ baseType tn t ≠ .null ∧
    (baseType tn t).nonNullish = baseType tn t := by
  cases t with
  | builtin b => cases b <;> exact ⟨by simp [baseType], by simp [baseType], by simp [baseType], rfl⟩
  | enum e => exact ⟨by simp [baseType], by simp [baseType], by simp [baseType], rfl⟩
  | struct fs => exact ⟨by simp [baseType], by simp [baseType], by simp [baseType], rfl⟩

mutual
theorem write_fields : (fs : List (FieldOf RType)) → (T : STy) → FitsFs m T fs → WPasses m ret T (fun st => writeStruct st fs)
  | [], _, _ => fun Γ h _ _ _ => passes_nil h Γ
  | f :: fs, T, hf => fun Γ h xs R hty => by
    show Passes m ret h Γ (writeField (h :: xs) f ++ writeStruct (h :: xs) fs)
    exact passes_append (write_field f T hf.1 Γ h xs R hty) fun Γ' hΓ => write_fields fs T hf.2 Γ' h xs (R.congr hΓ)
      ((typeOf_path Γ Γ' h (hΓ _ (not_cont_self h)) xs).trans hty)
theorem write_field : (f : FieldOf RType) → (T : STy) → FitsF m T f → WPasses m ret T (fun st => writeField st f)
  | ⟨n, tn, t, a, o⟩, T, hf => fun Γ h xs R hty => by
    have hp := write_type tn t hf.2
    have hty' : m.typeOf Γ (path (h :: (xs ++ [n]))) = some (fieldType tn t a o) := by
      rw [← List.cons_append, path_snoc _ _ (by simp)]
      show (m.typeOf Γ (path (h :: xs))).bind _ = _
      rw [hty]
      exact hf.1
    have hbt := baseType_plain tn t
    show Passes m ret h Γ (writeField (h :: xs) ⟨n, tn, t, a, o⟩)
    rw [writeField_eq]
    cases a with
    | false =>
      cases o with
      | false => exact hp Γ h (xs ++ [n]) R hty'
      | true => exact write_optional hbt.2.2.2 hp (nprog_type tn t) R hty'
    | true =>
      have hp' : WPasses m ret (.array (baseType tn t)) (wArr fun st => writeType st tn t) :=
        write_array ⟨hbt.1, hbt.2.1, hbt.2.2.1⟩ hp (nprog_type tn t)
      cases o with
      | false => exact hp' Γ h (xs ++ [n]) R hty'
      | true => exact write_optional (T := .array (baseType tn t)) rfl hp' (nprog_body tn t true) R hty'
theorem write_type (tn : Str) : (t : RType) → FitsT m tn t → WPasses m ret (baseType tn t) (fun st => writeType st tn t)
  | .builtin b, hf => fun Γ h xs R hty => by
    have hf : tn = builtinName b := hf
    have hnum : ∀ s : Scalar, tn = s.name → m.typeOf Γ (path (h :: xs)) = some .number →
        Passes m ret h Γ [.expr (writeCall tn (path (h :: xs)))] := by
      intro s e ht
      rw [e]
      exact passes_keep (check_expr (typeOf_write R s ht))
    cases b
    case string =>
      show Passes m ret h Γ (.expr (writeCall Scalar.uint32.name (.prop (path (h :: xs)) "length".toList)) ::
        [.expr (writeCall "string".toList (path (h :: xs)))])
      refine passes_step (check_expr (typeOf_write R .uint32 (typeOf_length hty (Or.inl rfl)))) (passes_keep (check_expr (t := .void) ?_))
      show (m.varType Γ "writer".toList).bind _ = _
      rw [varType_of R.writer]
      show (m.typeOf Γ (path (h :: xs))).bind (fun u => m.callType1 .writer ("write_".toList ++ "string".toList) u) = _
      rw [hty]
      rfl
    case uint8 => exact hnum .uint8 hf hty
    case uint16 => exact hnum .uint16 hf hty
    case uint32 => exact hnum .uint32 hf hty
    case int8 => exact hnum .int8 hf hty
    case int16 => exact hnum .int16 hf hty
    case int32 => exact hnum .int32 hf hty
    case float => exact hnum .float hf hty
  | .enum e, hf => fun Γ h xs R hty => by
    have hf : m.isEnum (.named tn) = true := hf
    show Passes m ret h Γ [.expr (writeCall (reprName e.repr) (.asNumber (path (h :: xs))))]
    rw [reprName_scalar]
    refine passes_keep (check_expr (typeOf_write R _ ?_))
    show (m.typeOf Γ (path (h :: xs))).bind _ = _
    rw [hty]
    show (if (TsModule.isNumber (.named tn) || m.isEnum (.named tn)) = true then _ else _) = _
    rw [hf, if_pos (by simp)]
  | .struct fs, hf => write_fields fs (.named tn) hf
end

end

end Packetc.Js
