import Verif.Rust.Check
import Verif.Proof.RustExact
/-!
# Which emitted Rust functions are accepted
-/

namespace Packetc.Rs
open Ast Check WellFormed
open Js (Scalar scalarOf reprScalar SoundEnum builtinName)
open RustGen (fieldTypename reprType)

/-- The type of a field. -/
def rtField (f : FieldOf RType) : Ty := FieldTy.ty ⟨rustName f.tyName, f.array, f.optional⟩

section
variable (items : List Item)

mutual
/-- The definitions are those of the type and the types inside. -/
def KnowT (tn : Str) : RType → Prop
  | .builtin b => tn = builtinName b
  | .enum e => itemNamed items tn = some (enumItem tn e) ∧ rustName tn = tn
  | .struct fs => itemNamed items tn = some (structItem tn fs) ∧ rustName tn = tn ∧ (fs.map FieldOf.name).Nodup ∧ KnowFs fs
def KnowFs : List (FieldOf RType) → Prop
  | [] => True
  | f :: fs => KnowF f ∧ KnowFs fs
def KnowF : FieldOf RType → Prop
  | ⟨_, tn, ty, a, o⟩ => KnowT tn ty ∧ ¬ (a = true ∧ o = true)
end

/-- The types that Rust has itself are not hidden. -/
def Clear : Prop := ∀ n ∈ intNames ++ [floatName, stringName], itemNamed items n = none
end

mutual
/-- The statements writing a value are accepted; `direct`: its place is not a reference. -/
def wOkT (direct : Bool) : RType → Bool
  | .builtin .string => true
  | .builtin _ => direct
  | .enum _ => direct
  | .struct fs => wOkFs fs
def wOkFs : List (FieldOf RType) → Bool
  | [] => true
  | f :: fs => wOkF f && wOkFs fs
def wOkF : FieldOf RType → Bool
  | ⟨_, _, ty, array, optional⟩ =>
    if optional then (match ty with | .builtin .string => false | _ => wOkT true ty)
    else if array then wOkT false ty else wOkT true ty
end

section
variable {items : List Item}

theorem path_cons_snoc (x : Str) (l : List Str) (f : Str) : path (x :: l ++ [f]) = .field (path (x :: l)) f := by
  simp [path, List.foldl_append]

def isStruct : RType → Bool
  | .struct _ => true
  | _ => false

theorem writeField_opt (st : List Str) (name tn : Str) (ty : RType) : writeField st ⟨name, tn, ty, false, true⟩ =
    [.matchOpt (isStruct ty) (path (st ++ [name])) "uint8".toList (.u8 0) (Gen.bindname (st ++ [name]))
      (.write "uint8".toList (.u8 1) :: writeType [Gen.bindname (st ++ [name])] tn ty)] := by
  cases ty <;> rfl

theorem typeOf_path (Γ : Ctx) (x : Str) (l : List Str) :
    typeOf items Γ (path (x :: l)) = (placeOf items Γ (path (x :: l))).bind (valueOf items) := by
  rcases List.eq_nil_or_concat l with rfl | ⟨l', f, rfl⟩
  · rfl
  · rw [List.concat_eq_append, ← List.cons_append, path_cons_snoc]
    rfl

theorem checkAll_append (Γ : Ctx) (a b : List Stmt) : checkAll items Γ (a ++ b) = (checkAll items Γ a).bind fun Γ => checkAll items Γ b := by
  induction a generalizing Γ with
  | nil => rfl
  | cons s a ih =>
    show (check items Γ s).bind _ = ((check items Γ s).bind _).bind _
    cases check items Γ s with
    | none => rfl
    | some Γ' => exact ih Γ'

theorem checkAll_one (Γ : Ctx) (s : Stmt) : checkAll items Γ [s] = check items Γ s := by
  show (check items Γ s).bind _ = _
  cases check items Γ s <;> rfl

theorem isInt_of (hc : Clear items) {n : Str} (h : n ∈ intNames) : isInt items n = true := by
  unfold isInt
  rw [hc n (List.mem_append_left _ h), List.contains_iff_mem.2 h]
  rfl

theorem isNumber_of (hc : Clear items) {n : Str} (h : n ∈ intNames) : isNumber items n = true := by
  unfold isNumber
  rw [hc n (List.mem_append_left _ h), List.contains_iff_mem.2 h]
  rfl

theorem isString_of (hc : Clear items) : isString items stringName = true := by
  unfold isString
  rw [hc stringName (by decide)]
  rfl

theorem isNumber_string : isNumber items stringName = false := by
  unfold isNumber
  have : (intNames.contains stringName || decide (stringName = floatName)) = false := by decide
  rw [this, Bool.and_false]

theorem isNumber_rust (hc : Clear items) {b : Builtin} {sc : Scalar} (h : scalarOf b = some sc) :
    isNumber items (rustName (builtinName b)) = true := by
  unfold isNumber
  have h1 : rustName (builtinName b) ∈ intNames ++ [floatName, stringName] := by cases b <;> decide
  have h2 : (intNames.contains (rustName (builtinName b)) || decide (rustName (builtinName b) = floatName)) = true := by
    cases b <;> first | decide | cases h
  rw [hc _ h1, h2]
  rfl

theorem argOk_builtin {b : Builtin} {sc : Scalar} (h : scalarOf b = some sc) (ty : Ty) :
    argOk items (builtinName b) ty = decide (ty = .named (rustName (builtinName b))) := by
  unfold argOk
  have h1 : builtinName b ≠ "string".toList := by
    intro hb
    cases b <;> first | exact absurd hb (by decide) | cases h
  have h2 : sc.name = builtinName b := by cases b <;> cases h <;> rfl
  rw [if_neg h1, scalarNamed_builtin h, ← h2]

theorem argOk_repr (r : EnumRepr) (ty : Ty) : argOk items (Gen.reprName r) ty = decide (ty = .named (reprType r)) := by
  unfold argOk
  have h1 : Gen.reprName r ≠ "string".toList := by cases r <;> decide
  have h2 : rustName (reprScalar r).name = reprType r := by cases r <;> rfl
  rw [if_neg h1, scalarNamed_repr]
  show decide (ty = .named (rustName (reprScalar r).name)) = _
  rw [h2]

theorem argOk_uint8 (ty : Ty) : argOk items "uint8".toList ty = decide (ty = .named "u8".toList) := argOk_repr .u8 ty
theorem argOk_uint32 (ty : Ty) : argOk items "uint32".toList ty = decide (ty = .named "u32".toList) := argOk_repr .u32 ty

theorem reprType_int (r : EnumRepr) : reprType r ∈ intNames := by cases r <;> decide

/-- Fields of a struct. -/
theorem placeOf_field {Γ : Ctx} {x : Str} {l : List Str} {p : Place} {tn : Str} {fs : List (FieldOf RType)} {b w : Bool}
    (hp : placeOf items Γ (path (x :: l)) = some p) (hd : p.deref = ⟨.named tn, b, w⟩)
    (hi : itemNamed items tn = some (structItem tn fs)) (hn : (fs.map FieldOf.name).Nodup) {f : FieldOf RType} (hf : f ∈ fs)
    (hb : fieldTypename f.tyName f.ty = rustName f.tyName) :
    placeOf items Γ (path (x :: l ++ [f.name])) = some ⟨rtField f, b, w⟩ := by
  rw [path_cons_snoc]
  have hl : (fs.map fun f => (f.name, (⟨fieldTypename f.tyName f.ty, f.array, f.optional⟩ : FieldTy))).lookup f.name =
      some ⟨rustName f.tyName, f.array, f.optional⟩ := by
    rw [← hb]
    clear hi
    induction fs with
    | nil => cases hf
    | cons g fs ih =>
      rw [List.map_cons, List.lookup_cons]
      rcases List.mem_cons.1 hf with rfl | h
      · rw [beq_self_eq_true]
      · have hne : f.name ≠ g.name := by
          intro he
          exact (List.nodup_cons.1 hn).1 (List.mem_map.2 ⟨f, h, he⟩)
        have : (f.name == g.name) = false := beq_eq_false_iff_ne.2 hne
        rw [this]
        exact ih (List.nodup_cons.1 hn).2 h
  show (placeOf items Γ (path (x :: l))).bind _ = _
  rw [hp]
  show (match p.deref with | ⟨.named n, b, w⟩ => _ | _ => none) = _
  rw [hd]
  show (match itemNamed items tn with | some (.struct _ fs) => _ | _ => none) = _
  rw [hi]
  show (List.lookup f.name _).map _ = _
  rw [hl]
  rfl

theorem knowT_name {tn : Str} : (t : RType) → KnowT items tn t → fieldTypename tn t = rustName tn
  | .builtin b, h => by
    have h : tn = builtinName b := h
    rw [h]
    exact (rustName_builtin b).symm
  | .enum e, h => h.2.symm
  | .struct fs, h => h.2.1.symm

theorem knowFs_mem : (fs : List (FieldOf RType)) → KnowFs items fs → ∀ f ∈ fs, KnowF items f
  | [], _, f, hf => by cases hf
  | g :: fs, h, f, hf => by
    rcases List.mem_cons.1 hf with rfl | hf
    · exact h.1
    · exact knowFs_mem fs h.2 f hf

theorem knowF_name {f : FieldOf RType} (h : KnowF items f) : fieldTypename f.tyName f.ty = rustName f.tyName := by
  obtain ⟨_, tn, t, a, o⟩ := f
  exact knowT_name t h.1

/-! ### write -/

/-- The place of a value to be written: the value itself, or a reference to it. -/
inductive WPlace (base : Str) (t : RType) : Bool → Place → Prop
  | direct (b w : Bool) : (∀ fs, t = .struct fs → b = true) → WPlace base t true ⟨.named base, b, w⟩
  | ref (b w : Bool) : WPlace base t false ⟨.ref false (.named base), b, w⟩

theorem check_write (Γ : Ctx) (t : Str) (e : Expr) (ty : Ty) (h : typeOf items Γ e = some ty) :
    check items Γ (.write t e) = if argOk items t ty then some Γ else none := by
  show (typeOf items Γ e).bind _ = _
  rw [h]
  rfl

theorem check_len {Γ : Ctx} {x : Str} {l : List Str} (hc : Clear items) {p : Place} (hp : placeOf items Γ (path (x :: l)) = some p)
    (h : (∃ t, p.deref.ty = .vec t) ∨ p.deref.ty = .named stringName) :
    check items Γ (.write "uint32".toList (.cast (.len (path (x :: l))) "u32".toList)) = some Γ := by
  have h1 : typeOf items Γ (.len (path (x :: l))) = some (.named "usize".toList) := by
    show (placeOf items Γ (path (x :: l))).bind _ = _
    rw [hp]
    show (match p.deref.ty with | .vec _ => _ | .named n => if isString items n then _ else _ | _ => _) = _
    rcases h with ⟨t, h⟩ | h
    · rw [h]
    · rw [h]
      show (if isString items stringName then _ else _) = _
      rw [if_pos (isString_of hc)]
  have h2 : typeOf items Γ (.cast (.len (path (x :: l))) "u32".toList) = some (.named "u32".toList) := by
    show (typeOf items Γ (.len (path (x :: l)))).bind _ = _
    rw [h1]
    show (if isInt items "u32".toList && (isNumber items "usize".toList || isEnum items "usize".toList) then _ else _) = _
    rw [isInt_of hc (by decide), isNumber_of hc (by decide)]
    rfl
  rw [check_write _ _ _ _ h2, argOk_uint32]
  rfl

mutual
theorem writeT_check (hc : Clear items) (tn : Str) : (t : RType) → KnowT items tn t → ∀ (Γ : Ctx) (x : Str) (l : List Str) (d : Bool) (p : Place),
    placeOf items Γ (path (x :: l)) = some p → WPlace (rustName tn) t d p →
    checkAll items Γ (writeType (x :: l) tn t) = if wOkT d t then some Γ else none
  | .builtin b, hk, Γ, x, l, d, p, hp, hw => by
    have hk : tn = builtinName b := hk
    subst hk
    cases hs : scalarOf b with
    | some sc =>
      have h1 : writeType (x :: l) (builtinName b) (.builtin b) = [.write (builtinName b) (path (x :: l))] := by
        cases b <;> first | rfl | cases hs
      have h2 : wOkT d (.builtin b) = d := by cases b <;> first | rfl | cases hs
      have h3 : ∃ ty, typeOf items Γ (path (x :: l)) = some ty ∧ (decide (ty = .named (rustName (builtinName b)))) = d := by
        rw [typeOf_path, hp]
        cases hw with
        | direct b' w _ =>
          refine ⟨.named (rustName (builtinName b)), ?_, decide_eq_true rfl⟩
          show (if b' && !(isNumber items _ || isEnum items _) then none else _) = _
          rw [isNumber_rust hc hs]
          simp
        | ref b' w =>
          refine ⟨.ref false (.named (rustName (builtinName b))), ?_, decide_eq_false (by intro h; cases h)⟩
          show (if b' && !(!false) then none else _) = _
          simp
      obtain ⟨ty, h3, h4⟩ := h3
      rw [h1, h2, checkAll_one, check_write _ _ _ _ h3, argOk_builtin hs, h4]
    | none =>
      have hb : b = .string := by cases b <;> first | rfl | cases hs
      subst hb
      show checkAll items Γ [_, _] = some Γ
      have hd : p.deref.ty = .named stringName := by cases hw <;> rfl
      show (check items Γ _).bind _ = _
      rw [check_len hc hp (Or.inr hd)]
      show checkAll items Γ [_] = _
      rw [checkAll_one]
      have h1 : typeOf items Γ (.addr (path (x :: l))) = some (.ref false p.ty) := by
        show (placeOf items Γ (path (x :: l))).map _ = _
        rw [hp]
        rfl
      rw [check_write _ _ _ _ h1]
      have h2 : argOk items "string".toList (.ref false p.ty) = true := by
        have h3 : (derefs false false (.ref false p.ty)).ty = .named stringName := by cases hw <;> rfl
        show (match (derefs false false (.ref false p.ty)).ty with | .named n => isString items n | _ => false) = true
        rw [h3]
        exact isString_of hc
      rw [h2]
      rfl
  | .enum e, hk, Γ, x, l, d, p, hp, hw => by
    obtain ⟨hi, hr⟩ := hk
    have hE : isEnum items (rustName tn) = true := by
      rw [hr]
      unfold isEnum
      rw [hi]
      rfl
    show checkAll items Γ [.write (Gen.reprName e.repr) (.cast (path (x :: l)) (reprType e.repr))] = if d then some Γ else none
    rw [checkAll_one]
    cases hw with
    | direct b' w _ =>
      have h1 : typeOf items Γ (path (x :: l)) = some (.named (rustName tn)) := by
        rw [typeOf_path, hp]
        show (if b' && !(isNumber items _ || isEnum items _) then none else _) = _
        rw [hE]
        simp
      have h2 : typeOf items Γ (.cast (path (x :: l)) (reprType e.repr)) = some (.named (reprType e.repr)) := by
        show (typeOf items Γ (path (x :: l))).bind _ = _
        rw [h1]
        show (if isInt items _ && (isNumber items _ || isEnum items _) then _ else _) = _
        rw [isInt_of hc (reprType_int _), hE, Bool.or_true]
        rfl
      rw [check_write _ _ _ _ h2, argOk_repr]
      simp
    | ref b' w =>
      have h1 : typeOf items Γ (path (x :: l)) = some (.ref false (.named (rustName tn))) := by
        rw [typeOf_path, hp]
        show (if b' && !(!false) then none else _) = _
        simp
      have h2 : typeOf items Γ (.cast (path (x :: l)) (reprType e.repr)) = none := by
        show (typeOf items Γ (path (x :: l))).bind _ = _
        rw [h1]
        rfl
      show (typeOf items Γ _).bind _ = _
      rw [h2]
      rfl
  | .struct fs, hk, Γ, x, l, d, p, hp, hw => by
    obtain ⟨hi, hr, hn, hk⟩ := hk
    have hd : ∃ w, p.deref = ⟨.named tn, true, w⟩ := by
      rw [hr] at hw
      cases hw with
      | direct b w h => exact ⟨w, by rw [h fs rfl]; rfl⟩
      | ref b w => exact ⟨_, rfl⟩
    obtain ⟨w, hd⟩ := hd
    exact writeFs_check hc fs hk Γ x l w fun f hf => placeOf_field hp hd hi hn hf (knowF_name (knowFs_mem fs hk f hf))
theorem writeFs_check (hc : Clear items) : (fs : List (FieldOf RType)) → KnowFs items fs → ∀ (Γ : Ctx) (x : Str) (l : List Str) (w : Bool),
    (∀ f ∈ fs, placeOf items Γ (path (x :: l ++ [f.name])) = some ⟨rtField f, true, w⟩) →
    checkAll items Γ (writeStruct (x :: l) fs) = if wOkFs fs then some Γ else none
  | [], _, _, _, _, _, _ => rfl
  | f :: fs, hk, Γ, x, l, w, hp => by
    show checkAll items Γ (writeField (x :: l) f ++ writeStruct (x :: l) fs) = if wOkF f && wOkFs fs then some Γ else none
    rw [checkAll_append, writeF_check hc f hk.1 Γ x l w (hp f List.mem_cons_self)]
    have := writeFs_check hc fs hk.2 Γ x l w fun g hg => hp g (List.mem_cons_of_mem _ hg)
    cases wOkF f with
    | true => exact this
    | false => rfl
theorem writeF_check (hc : Clear items) : (f : FieldOf RType) → KnowF items f → ∀ (Γ : Ctx) (x : Str) (l : List Str) (w : Bool),
    placeOf items Γ (path (x :: l ++ [f.name])) = some ⟨rtField f, true, w⟩ →
    checkAll items Γ (writeField (x :: l) f) = if wOkF f then some Γ else none
  | ⟨name, tn, ty, array, optional⟩, ⟨hk, hn⟩, Γ, x, l, w, hp => by
    have ht := writeT_check hc tn ty hk
    cases optional with
    | true =>
      cases array with
      | true => exact absurd ⟨rfl, rfl⟩ hn
      | false =>
        have hp : placeOf items Γ (path (x :: l ++ [name])) = some ⟨.opt (.named (rustName tn)), true, w⟩ := hp
        have hu : typeOf items Γ (.u8 0) = some (.named "u8".toList) := rfl
        have ha : argOk items "uint8".toList (.named "u8".toList) = true := by
          rw [argOk_uint8]
          exact decide_eq_true rfl
        generalize hb : Gen.bindname (x :: l ++ [name]) = b
        have hbody : ∀ (ty' : Ty) d, WPlace (rustName tn) ty d ⟨ty', false, false⟩ →
            checkAll items (⟨b, false, ty'⟩ :: Γ) (.write "uint8".toList (.u8 1) :: writeType [b] tn ty) =
              if wOkT d ty then some (⟨b, false, ty'⟩ :: Γ) else none := by
          intro ty' d hw
          show (check items _ _).bind _ = _
          rw [check_write _ _ _ (.named "u8".toList) rfl, ha]
          show checkAll items _ (writeType [b] tn ty) = _
          refine ht _ b [] d ⟨ty', false, false⟩ ?_ hw
          show (List.find? _ (_ :: Γ)).map _ = _
          rw [List.find?_cons_of_pos (by simp)]
          rfl
        have hm : ∀ byRef (body : List Stmt), check items Γ (.matchOpt byRef (path (x :: l ++ [name])) "uint8".toList (.u8 0) b body) =
            (if byRef then some (.ref false (.named (rustName tn))) else valueOf items ⟨.named (rustName tn), true, w⟩).bind fun ty' =>
              (checkAll items (⟨b, false, ty'⟩ :: Γ) body).map fun _ => Γ := by
          intro byRef body
          unfold check
          rw [hp]
          dsimp only [Option.bind_some]
          rw [hu]
          dsimp only [Option.bind_some]
          rw [if_pos ha]
        rw [writeField_opt, hb, checkAll_one, hm]
        cases ty with
        | struct fs =>
          show (checkAll items (⟨b, false, .ref false (.named (rustName tn))⟩ :: Γ) _).map _ = if wOkFs fs then some Γ else none
          rw [hbody _ false (.ref _ _)]
          show (if wOkFs fs then _ else _ : Option Ctx).map _ = _
          cases wOkFs fs <;> rfl
        | enum e =>
          have hE : isEnum items (rustName tn) = true := by
            rw [hk.2]
            unfold isEnum
            rw [hk.1]
            rfl
          have hv : valueOf items ⟨.named (rustName tn), true, w⟩ = some (.named (rustName tn)) := by
            show (if true && !(isNumber items _ || isEnum items _) then none else _) = _
            rw [hE]
            simp
          show (valueOf items ⟨.named (rustName tn), true, w⟩).bind _ = some Γ
          rw [hv]
          show (checkAll items (⟨b, false, .named (rustName tn)⟩ :: Γ) _).map _ = some Γ
          rw [hbody _ true (.direct _ _ (by intro fs h; cases h))]
          rfl
        | builtin bt =>
          have hk : tn = builtinName bt := hk
          cases hs : scalarOf bt with
          | some sc =>
            have h2 : wOkF ⟨name, tn, .builtin bt, false, true⟩ = true := by cases bt <;> first | rfl | cases hs
            have h3 : wOkT true (.builtin bt) = true := by cases bt <;> rfl
            have hv : valueOf items ⟨.named (rustName tn), true, w⟩ = some (.named (rustName tn)) := by
              show (if true && !(isNumber items _ || isEnum items _) then none else _) = _
              rw [hk, isNumber_rust hc hs]
              simp
            show (valueOf items ⟨.named (rustName tn), true, w⟩).bind _ = _
            rw [hv]
            show (checkAll items (⟨b, false, .named (rustName tn)⟩ :: Γ) _).map _ = _
            rw [hbody _ true (.direct _ _ (by intro fs h; cases h)), h2, h3]
            rfl
          | none =>
            have hb : bt = .string := by cases bt <;> first | rfl | cases hs
            subst hb
            have hr : rustName tn = stringName := by rw [hk]; rfl
            have hv : valueOf items ⟨.named (rustName tn), true, w⟩ = none := by
              have hE : isEnum items stringName = false := by
                unfold isEnum
                rw [hc stringName (by decide)]
              show (if true && !(isNumber items _ || isEnum items _) then none else _) = _
              rw [hr, isNumber_string, hE]
              rfl
            show (valueOf items ⟨.named (rustName tn), true, w⟩).bind _ = none
            rw [hv]
            rfl
    | false =>
      cases array with
      | true =>
        have hp : placeOf items Γ (path (x :: (l ++ [name]))) = some ⟨.vec (.named (rustName tn)), true, w⟩ := hp
        generalize hb : Gen.varname (x :: l ++ [name]) "item".toList = b
        have hw : writeField (x :: l) ⟨name, tn, ty, true, false⟩ =
            [.write "uint32".toList (.cast (.len (path (x :: (l ++ [name])))) "u32".toList),
             .forIter b (path (x :: (l ++ [name]))) (writeType [b] tn ty)] := by
          rw [← hb]
          rfl
        rw [hw]
        show (check items Γ _).bind _ = _
        rw [check_len hc hp (Or.inl ⟨_, rfl⟩)]
        show checkAll items Γ [_] = _
        rw [checkAll_one]
        show (placeOf items Γ (path (x :: (l ++ [name])))).bind _ = _
        rw [hp]
        show (checkAll items (⟨b, false, .ref false (.named (rustName tn))⟩ :: Γ) _).map _ = if wOkT false ty then some Γ else none
        have := ht (⟨b, false, .ref false (.named (rustName tn))⟩ :: Γ) b [] false ⟨.ref false (.named (rustName tn)), false, false⟩ (by
          show (List.find? _ (_ :: Γ)).map _ = _
          rw [List.find?_cons_of_pos (by simp)]
          rfl) (.ref _ _)
        rw [this]
        cases wOkT false ty <;> rfl
      | false =>
        exact ht Γ x (l ++ [name]) true ⟨.named (rustName tn), true, w⟩ hp (.direct _ _ fun _ _ => rfl)
end

/-! ### read -/

/-- Variables whose names are longer than `x`. -/
def Longer (x : Str) (Δ : Ctx) : Prop := ∀ v ∈ Δ, x.length < v.name.length

theorem longer_append {x : Str} {Δ Δ' : Ctx} (h : Longer x Δ) (h' : Longer x Δ') : Longer x (Δ ++ Δ') := by
  intro v hv
  rcases List.mem_append.1 hv with hv | hv
  · exact h v hv
  · exact h' v hv

theorem longer_trans {x y : Str} {Δ : Ctx} (h : x.length ≤ y.length) (hy : Longer y Δ) : Longer x Δ := fun v hv =>
  Nat.lt_of_le_of_lt h (hy v hv)

theorem placeOf_skip {x : Str} {Δ : Ctx} (h : Longer x Δ) (Γ : Ctx) (l : List Str) :
    placeOf items (Δ ++ Γ) (path (x :: l)) = placeOf items Γ (path (x :: l)) := by
  induction l using List.reverseRecOn with
  | nil =>
    show (List.find? _ (Δ ++ Γ)).map _ = _
    have : Δ.find? (fun v => decide (v.name = x)) = none := by
      rw [List.find?_eq_none]
      intro v hv hx
      have := h v hv
      rw [of_decide_eq_true hx] at this
      exact Nat.lt_irrefl _ this
    rw [List.find?_append, this]
    rfl
  | append_singleton l f ih =>
    rw [← List.cons_append, path_cons_snoc]
    show (placeOf items (Δ ++ Γ) (path (x :: l))).bind _ = (placeOf items Γ (path (x :: l))).bind _
    rw [ih]

theorem placeOf_head (x : Str) (m : Bool) (ty : Ty) (Γ : Ctx) : placeOf items (⟨x, m, ty⟩ :: Γ) (path [x]) = some ⟨ty, false, m⟩ := by
  show (List.find? _ (_ :: Γ)).map _ = _
  rw [List.find?_cons_of_pos (by simp)]
  rfl

theorem typeOf_head (x : Str) (m : Bool) (ty : Ty) (Γ : Ctx) : typeOf items (⟨x, m, ty⟩ :: Γ) (.var x) = some ty := by
  show (placeOf items (⟨x, m, ty⟩ :: Γ) (path [x])).bind _ = _
  rw [placeOf_head]
  rfl

theorem typeOf_local {x : Str} {Δ : Ctx} (h : Longer x Δ) (m : Bool) (ty : Ty) (Γ : Ctx) :
    typeOf items (Δ ++ ⟨x, m, ty⟩ :: Γ) (.var x) = some ty := by
  show (placeOf items (Δ ++ ⟨x, m, ty⟩ :: Γ) (path [x])).bind _ = _
  rw [placeOf_skip h, placeOf_head]
  rfl

theorem known_rust (hc : Clear items) {tn : Str} : (t : RType) → KnowT items tn t → known items (rustName tn) = true
  | .builtin b, h => by
    have h : tn = builtinName b := h
    subst h
    unfold known
    cases hs : scalarOf b with
    | some sc => rw [isNumber_rust hc hs]; simp
    | none =>
      have hb : b = .string := by cases b <;> first | rfl | cases hs
      subst hb
      have : isString items (rustName (builtinName .string)) = true := isString_of hc
      rw [this]
      simp
  | .enum e, h => by
    unfold known
    rw [h.2, h.1]
    rfl
  | .struct fs, h => by
    unfold known
    rw [h.2.1, h.1]
    rfl

theorem check_assign {Γ : Ctx} {l r : Expr} {ty : Ty} {b : Bool} (h1 : typeOf items Γ r = some ty) (h2 : placeOf items Γ l = some ⟨ty, b, true⟩) :
    check items Γ (.assign l r) = some Γ := by
  show (typeOf items Γ r).bind _ = _
  rw [h1]
  show (placeOf items Γ l).bind _ = _
  rw [h2]
  show (if true && decide (ty = ty) then _ else _) = _
  simp

theorem check_let {Γ : Ctx} {x : Str} {m : Bool} {e : Expr} {ty : Ty} (h : typeOf items Γ e = some ty) :
    check items Γ (.letS m x e) = some (⟨x, m, ty⟩ :: Γ) := by
  show (typeOf items Γ e).map _ = _
  rw [h]
  rfl

theorem typeOf_len (hc : Clear items) (Γ : Ctx) : typeOf items Γ (.cast (.read "uint32".toList) "usize".toList) = some (.named "usize".toList) := by
  have h1 : typeOf items Γ (.read "uint32".toList) = some (.named "u32".toList) := rfl
  show (typeOf items Γ (.read "uint32".toList)).bind _ = _
  rw [h1]
  show (if isInt items "usize".toList && (isNumber items "u32".toList || isEnum items "u32".toList) then _ else _) = _
  rw [isInt_of hc (by decide), isNumber_of hc (by decide)]
  rfl

theorem checkAll_cons {Γ Γ' : Ctx} {s : Stmt} (h : check items Γ s = some Γ') (ss : List Stmt) :
    checkAll items Γ (s :: ss) = checkAll items Γ' ss := by
  show (check items Γ s).bind _ = _
  rw [h]
  rfl

mutual
theorem readT_check (hc : Clear items) (tn : Str) : (t : RType) → KnowT items tn t → ∀ (Γ : Ctx) (x : Str) (l : List Str) (p : Place),
    placeOf items Γ (path (x :: l)) = some p → (∃ b, p.deref = ⟨.named (rustName tn), b, true⟩) →
    (isStruct t = true ∨ ∃ b, p = ⟨.named (rustName tn), b, true⟩) →
    ∃ Δ, checkAll items Γ (readType (x :: l) tn t) = some (Δ ++ Γ) ∧ Longer x Δ
  | .builtin b, hk, Γ, x, l, p, hp, _, hd => by
    have hk : tn = builtinName b := hk
    subst hk
    obtain ⟨bw, rfl⟩ : ∃ b', p = ⟨.named (rustName (builtinName b)), b', true⟩ := by
      rcases hd with h | h
      · cases h
      · exact h
    cases hs : scalarOf b with
    | some sc =>
      have h1 : readType (x :: l) (builtinName b) (.builtin b) = [.assign (path (x :: l)) (.read (builtinName b))] := by
        cases b <;> first | rfl | cases hs
      have h2 : typeOf items Γ (.read (builtinName b)) = some (.named (rustName (builtinName b))) := by
        have h2 : sc.name = builtinName b := by cases b <;> cases hs <;> rfl
        show (scalarNamed (builtinName b)).map _ = _
        rw [scalarNamed_builtin hs, ← h2]
        rfl
      refine ⟨[], ?_, fun v hv => by cases hv⟩
      rw [h1, checkAll_one, check_assign h2 hp]
      rfl
    | none =>
      have hb : b = .string := by cases b <;> first | rfl | cases hs
      subst hb
      generalize hlen : Gen.varname (x :: l) "len".toList = len
      have h1 : readType (x :: l) (builtinName .string) (.builtin .string) =
          [.letS false len (.cast (.read "uint32".toList) "usize".toList), .assign (path (x :: l)) (.readString (.var len))] := by
        rw [← hlen]
        rfl
      have hl : Longer x [⟨len, false, .named "usize".toList⟩] := by
        intro v hv
        rw [List.mem_singleton.1 hv, ← hlen]
        exact varname_length x l _
      refine ⟨[⟨len, false, .named "usize".toList⟩], ?_, hl⟩
      have h2 : typeOf items (⟨len, false, .named "usize".toList⟩ :: Γ) (.readString (.var len)) = some (.named stringName) := by
        show (typeOf items _ (.var len)).bind _ = _
        rw [typeOf_head]
        rfl
      rw [h1, checkAll_cons (check_let (typeOf_len hc Γ)), checkAll_one,
        check_assign h2 ((placeOf_skip hl Γ l).trans hp)]
      rfl
  | .enum e, hk, Γ, x, l, p, hp, _, hd => by
    obtain ⟨bw, rfl⟩ : ∃ b', p = ⟨.named (rustName tn), b', true⟩ := by
      rcases hd with h | h
      · cases h
      · exact h
    have h2 : typeOf items Γ (.tryFrom tn (.read (Gen.reprName e.repr))) = some (.named (rustName tn)) := by
      have h3 : typeOf items Γ (.read (Gen.reprName e.repr)) = some (.named (reprType e.repr)) := by
        show (scalarNamed (Gen.reprName e.repr)).map _ = _
        rw [scalarNamed_repr]
        cases e.repr <;> rfl
      show (typeOf items Γ (.read (Gen.reprName e.repr))).bind _ = _
      rw [h3]
      show (match itemNamed items tn with | some (.enum _ r _ _ _) => if Ty.named (reprType e.repr) = Ty.named r then some (Ty.named tn) else none | _ => none) = _
      rw [hk.1, hk.2]
      show (if Ty.named (reprType e.repr) = .named (reprType e.repr) then _ else _) = _
      rw [if_pos rfl]
    refine ⟨[], ?_, fun v hv => by cases hv⟩
    show checkAll items Γ [.assign (path (x :: l)) (.tryFrom tn (.read (Gen.reprName e.repr)))] = _
    rw [checkAll_one, check_assign h2 hp]
    rfl
  | .struct fs, hk, Γ, x, l, p, hp, hd, _ => by
    obtain ⟨hi, hr, hn, hk⟩ := hk
    obtain ⟨b, hd⟩ := hd
    rw [hr] at hd
    exact readFs_check hc fs hk Γ x l b fun f hf => placeOf_field hp hd hi hn hf (knowF_name (knowFs_mem fs hk f hf))
theorem readFs_check (hc : Clear items) : (fs : List (FieldOf RType)) → KnowFs items fs → ∀ (Γ : Ctx) (x : Str) (l : List Str) (b : Bool),
    (∀ f ∈ fs, placeOf items Γ (path (x :: l ++ [f.name])) = some ⟨rtField f, b, true⟩) →
    ∃ Δ, checkAll items Γ (readStruct (x :: l) fs) = some (Δ ++ Γ) ∧ Longer x Δ
  | [], _, _, _, _, _, _ => ⟨[], rfl, fun v hv => by cases hv⟩
  | f :: fs, hk, Γ, x, l, b, hp => by
    obtain ⟨Δ, h1, h2⟩ := readF_check hc f hk.1 Γ x l b (hp f List.mem_cons_self)
    obtain ⟨Δ', h3, h4⟩ := readFs_check hc fs hk.2 (Δ ++ Γ) x l b fun g hg =>
      (placeOf_skip h2 Γ (l ++ [g.name])).trans (hp g (List.mem_cons_of_mem _ hg))
    refine ⟨Δ' ++ Δ, ?_, longer_append h4 h2⟩
    show checkAll items Γ (readField (x :: l) f ++ readStruct (x :: l) fs) = _
    rw [checkAll_append, h1, List.append_assoc]
    exact h3
theorem readF_check (hc : Clear items) : (f : FieldOf RType) → KnowF items f → ∀ (Γ : Ctx) (x : Str) (l : List Str) (b : Bool),
    placeOf items Γ (path (x :: l ++ [f.name])) = some ⟨rtField f, b, true⟩ →
    ∃ Δ, checkAll items Γ (readField (x :: l) f) = some (Δ ++ Γ) ∧ Longer x Δ
  | ⟨name, tn, ty, array, optional⟩, ⟨hk, hn⟩, Γ, x, l, b, hp => by
    have ht := readT_check hc tn ty hk
    have hdflt : ∀ Γ, typeOf items Γ (.dflt (rustName tn)) = some (.named (rustName tn)) := by
      intro Γ
      show (if known items (rustName tn) then _ else _) = _
      rw [known_rust hc ty hk]
      rfl
    cases optional with
    | true =>
      cases array with
      | true => exact absurd ⟨rfl, rfl⟩ hn
      | false =>
        have hp : placeOf items Γ (path (x :: (l ++ [name]))) = some ⟨.opt (.named (rustName tn)), b, true⟩ := hp
        generalize hb : Gen.bindname (x :: (l ++ [name])) = v
        have hxv : x.length < v.length := by
          rw [← hb]
          exact joinWith_length' x (by simp)
        have hr : readField (x :: l) ⟨name, tn, ty, false, true⟩ = [.ifGt (.read "uint8".toList) 0
            (.letS true v (.dflt (rustName tn)) :: (readType [v] tn ty ++ [.assign (path (x :: (l ++ [name]))) (.some (.var v))]))] := by
          rw [← hb]
          rfl
        refine ⟨[], ?_, fun v hv => by cases hv⟩
        obtain ⟨Δ, h1, h2⟩ := ht (⟨v, true, .named (rustName tn)⟩ :: Γ) v [] _ (placeOf_head _ _ _ _) ⟨_, rfl⟩ (Or.inr ⟨_, rfl⟩)
        have h3 : Longer x (Δ ++ [⟨v, true, .named (rustName tn)⟩]) :=
          longer_append (longer_trans (Nat.le_of_lt hxv) h2) (by intro u hu; rw [List.mem_singleton.1 hu]; exact hxv)
        have h4 : typeOf items (Δ ++ ⟨v, true, .named (rustName tn)⟩ :: Γ) (.some (.var v)) = some (.opt (.named (rustName tn))) := by
          show (typeOf items _ (.var v)).map _ = _
          rw [typeOf_local h2]
          rfl
        have h5 := placeOf_skip h3 Γ (l ++ [name]) (items := items)
        rw [List.append_assoc, List.singleton_append] at h5
        have hbody : checkAll items Γ (.letS true v (.dflt (rustName tn)) ::
            (readType [v] tn ty ++ [.assign (path (x :: (l ++ [name]))) (.some (.var v))])) =
            some (Δ ++ ⟨v, true, .named (rustName tn)⟩ :: Γ) := by
          rw [checkAll_cons (check_let (hdflt Γ)), checkAll_append, h1]
          show checkAll items _ [_] = _
          rw [checkAll_one, check_assign h4 (h5.trans hp)]
        have h6 : typeOf items Γ (.read "uint8".toList) = some (.named "u8".toList) := rfl
        rw [hr, checkAll_one]
        unfold check
        rw [h6, hbody]
        show (if isInt items "u8".toList && decide (0 < 128) then _ else _) = _
        rw [isInt_of hc (by decide)]
        rfl
    | false =>
      cases array with
      | true =>
        have hp : placeOf items Γ (path (x :: (l ++ [name]))) = some ⟨.vec (.named (rustName tn)), b, true⟩ := hp
        generalize hlen : Gen.varname (x :: (l ++ [name])) "len".toList = len
        generalize hitem : Gen.varname (x :: (l ++ [name])) "item".toList = item
        have hxl : x.length < len.length := by rw [← hlen]; exact varname_length _ _ _
        have hxi : x.length < item.length := by rw [← hitem]; exact varname_length _ _ _
        have hr : readField (x :: l) ⟨name, tn, ty, true, false⟩ = [.letS false len (.cast (.read "uint32".toList) "usize".toList),
            .reserve (path (x :: (l ++ [name]))) (.var len), .forRange (.var len)
              (.letS true item (.dflt (rustName tn)) :: (readType [item] tn ty ++ [.push (path (x :: (l ++ [name]))) (.var item)]))] := by
          rw [← hlen, ← hitem]
          rfl
        have hl : Longer x [⟨len, false, .named "usize".toList⟩] := by
          intro v hv
          rw [List.mem_singleton.1 hv]
          exact hxl
        refine ⟨[⟨len, false, .named "usize".toList⟩], ?_, hl⟩
        generalize hΓ : (⟨len, false, .named "usize".toList⟩ :: Γ : Ctx) = Γ'
        have hp' : placeOf items Γ' (path (x :: (l ++ [name]))) = some ⟨.vec (.named (rustName tn)), b, true⟩ := by
          rw [← hΓ]
          exact (placeOf_skip hl Γ (l ++ [name])).trans hp
        have hlt : typeOf items Γ' (.var len) = some (.named "usize".toList) := by
          rw [← hΓ]
          exact typeOf_head _ _ _ _
        obtain ⟨Δ, h1, h2⟩ := ht (⟨item, true, .named (rustName tn)⟩ :: Γ') item [] _ (placeOf_head _ _ _ _) ⟨_, rfl⟩ (Or.inr ⟨_, rfl⟩)
        have h3 : Longer x (Δ ++ [⟨item, true, .named (rustName tn)⟩]) :=
          longer_append (longer_trans (Nat.le_of_lt hxi) h2) (by intro u hu; rw [List.mem_singleton.1 hu]; exact hxi)
        have h5 := placeOf_skip h3 Γ' (l ++ [name]) (items := items)
        rw [List.append_assoc, List.singleton_append] at h5
        have h4 := typeOf_local (items := items) h2 true (.named (rustName tn)) Γ'
        have hpush : check items (Δ ++ ⟨item, true, .named (rustName tn)⟩ :: Γ') (.push (path (x :: (l ++ [name]))) (.var item)) =
            some (Δ ++ ⟨item, true, .named (rustName tn)⟩ :: Γ') := by
          show (placeOf items _ _).bind _ = _
          rw [h5.trans hp']
          show (typeOf items _ (.var item)).bind _ = _
          rw [h4]
          show (if Ty.named (rustName tn) = .named (rustName tn) then _ else _) = _
          rw [if_pos rfl]
        have hbody : checkAll items Γ' (.letS true item (.dflt (rustName tn)) ::
            (readType [item] tn ty ++ [.push (path (x :: (l ++ [name]))) (.var item)])) =
            some (Δ ++ ⟨item, true, .named (rustName tn)⟩ :: Γ') := by
          rw [checkAll_cons (check_let (hdflt Γ')), checkAll_append, h1]
          show checkAll items _ [_] = _
          rw [checkAll_one, hpush]
        have hres : check items Γ' (.reserve (path (x :: (l ++ [name]))) (.var len)) = some Γ' := by
          show (placeOf items _ _).bind _ = _
          rw [hp']
          show (typeOf items _ (.var len)).bind _ = _
          rw [hlt]
          rfl
        rw [hr, checkAll_cons (check_let (typeOf_len hc Γ)), hΓ, checkAll_cons hres, checkAll_one]
        show (typeOf items Γ' (.var len)).bind _ = _
        rw [hlt]
        show (if isInt items "usize".toList then (checkAll items Γ' _).map _ else _) = _
        rw [isInt_of hc (by decide), hbody, ← hΓ]
        rfl
      | false =>
        exact ht Γ x (l ++ [name]) ⟨.named (rustName tn), b, true⟩ hp ⟨_, rfl⟩ (Or.inr ⟨_, rfl⟩)
end

end

end Packetc.Rs
