import Verif.Proof.JsPlain
/-!
# The names that occur in the generated programs
-/

namespace Packetc.Js
open Ast Check Gen WellFormed

/-- Every name in an expression satisfies `P`. -/
def Expr.All (P : Str → Prop) : Expr → Prop
  | .var x => P x
  | .prop e p => e.All P ∧ P p
  | .index e i => e.All P ∧ i.All P
  | .num _ | .undef | .null | .tru | .obj => True
  | .new0 c => P c
  | .new1 c a => P c ∧ a.All P
  | .call0 o m => o.All P ∧ P m
  | .call1 o m a => o.All P ∧ P m ∧ a.All P
  | .asNumber e => e.All P
  | .lt a b | .le a b | .gt a b | .and a b => a.All P ∧ b.All P
  | .cond c t e => c.All P ∧ t.All P ∧ e.All P

mutual
/-- Every name in a statement satisfies `P`. -/
def Stmt.All (P : Str → Prop) : Stmt → Prop
  | .letS x _ e => P x ∧ e.All P
  | .assign l r => l.All P ∧ r.All P
  | .expr e => e.All P
  | .ifElse c t e => c.All P ∧ AllS P t ∧ AllS P e
  | .ifAssign c l r l' r' => c.All P ∧ l.All P ∧ r.All P ∧ l'.All P ∧ r'.All P
  | .ifRet c e => c.All P ∧ e.All P
  | .forS i b body => P i ∧ b.All P ∧ AllS P body
  | .switchNullish e n d => e.All P ∧ n.All P ∧ AllS P d
  | .ret e => e.All P
def AllS (P : Str → Prop) : List Stmt → Prop
  | [] => True
  | s :: ss => s.All P ∧ AllS P ss
end

theorem allS_append {P : Str → Prop} (a b : List Stmt) : AllS P (a ++ b) ↔ AllS P a ∧ AllS P b := by
  induction a with
  | nil => simp [AllS]
  | cons s ss ih => simp [AllS, ih, and_assoc]

/-- The fixed names. -/
def fixedNames : List Str :=
  ["reader".toList, "writer".toList, "output".toList, "this".toList, "data".toList, "buffer".toList,
   "Object".toList, "create".toList, "Array".toList, "Reader".toList, "Writer".toList, "length".toList,
   "failed".toList, "finish".toList, "item".toList, "index".toList, "len".toList, "temp".toList,
   "read_uint8".toList, "read_uint16".toList, "read_uint32".toList, "read_int8".toList, "read_int16".toList,
   "read_int32".toList, "read_float".toList, "read_string".toList,
   "write_uint8".toList, "write_uint16".toList, "write_uint32".toList, "write_int8".toList, "write_int16".toList,
   "write_int32".toList, "write_float".toList, "write_string".toList]

/-- `P` holds of the fixed names and is closed under joining with underscores. -/
structure NameLaw (P : Str → Prop) : Prop where
  fixed : ∀ x ∈ fixedNames, P x
  join : ∀ a b, P a → P b → P (a ++ "_".toList ++ b)

section
variable {P : Str → Prop} (law : NameLaw P)
include law

theorem bindname_law (st : List Str) (hne : st ≠ []) (h : ∀ x ∈ st, P x) : P (bindname st) := by
  induction st using List.reverseRecOn with
  | nil => exact absurd rfl hne
  | append_singleton xs x ih =>
    cases xs with
    | nil => exact h x (by simp)
    | cons y ys =>
      show P (joinWith _ _)
      rw [joinWith_snoc _ _ _ (by simp)]
      exact law.join _ _ (ih (by simp) fun z hz => h z (by simp at hz ⊢; tauto)) (h x (by simp))

theorem varname_law (st : List Str) (hne : st ≠ []) (h : ∀ x ∈ st, P x) {n : Str} (hn : n ∈ fixedNames) :
    P (varname st n) :=
  law.join _ _ (bindname_law law st hne h) (law.fixed n hn)

omit law in
theorem path_all (st : List Str) (hne : st ≠ []) (h : ∀ x ∈ st, P x) : (path st).All P := by
  induction st using List.reverseRecOn with
  | nil => exact absurd rfl hne
  | append_singleton xs x ih =>
    cases xs with
    | nil => exact h x (by simp)
    | cons y ys =>
      rw [path_snoc _ _ (by simp)]
      exact ⟨ih (by simp) fun z hz => h z (by simp at hz ⊢; tauto), h x (by simp)⟩

theorem readCall_all {t : Str} (h : ("read_".toList ++ t) ∈ fixedNames) : (readCall t).All P :=
  ⟨law.fixed _ (by decide), law.fixed _ h⟩

theorem writeCall_all {t : Str} {e : Expr} (h : ("write_".toList ++ t) ∈ fixedNames) (he : e.All P) :
    (writeCall t e).All P :=
  ⟨law.fixed _ (by decide), law.fixed _ h, he⟩

omit law in
theorem read_fixed (b : Builtin) : ("read_".toList ++ builtinName b) ∈ fixedNames := by cases b <;> decide
omit law in
theorem write_fixed (b : Builtin) : ("write_".toList ++ builtinName b) ∈ fixedNames := by cases b <;> decide
omit law in
theorem read_repr (r : EnumRepr) : ("read_".toList ++ reprName r) ∈ fixedNames := by cases r <;> decide
omit law in
theorem write_repr (r : EnumRepr) : ("write_".toList ++ reprName r) ∈ fixedNames := by cases r <;> decide

/-- A program maker whose names satisfy `P` when those of the stack do. -/
def Maker (P : Str → Prop) (prog : List Str → List Stmt) : Prop :=
  ∀ st, st ≠ [] → (∀ x ∈ st, P x) → AllS P (prog st)

theorem wOpt_all {prog} (h : Maker P prog) : Maker P (wOpt prog) := by
  intro st hne hst
  have hb := bindname_law law st hne hst
  refine ⟨⟨hb, path_all st hne hst⟩, ⟨hb, writeCall_all law (by decide) trivial,
    writeCall_all law (by decide) trivial, h _ (by simp) (by simpa)⟩, trivial⟩

theorem wArr_all {prog} (h : Maker P prog) : Maker P (wArr prog) := by
  intro st hne hst
  have hp := path_all st hne hst
  have hl := law.fixed "length".toList (by decide)
  have hi := varname_law law st hne hst (n := "index".toList) (by decide)
  have ht := varname_law law st hne hst (n := "item".toList) (by decide)
  exact ⟨writeCall_all law (by decide) ⟨hp, hl⟩, ⟨hi, ⟨hp, hl⟩, ⟨ht, hp, hi⟩, h _ (by simp) (by simpa)⟩, trivial⟩

theorem rOpt_all {prog} (h : Maker P prog) : Maker P (rOpt prog) := by
  intro st hne hst
  exact ⟨⟨⟨readCall_all law (by decide), trivial⟩, h st hne hst, ⟨path_all st hne hst, trivial⟩, trivial⟩, trivial⟩

theorem rArr_all {prog} {init : Expr} (hi : init.All P) (h : Maker P prog) : Maker P (rArr init prog) := by
  intro st hne hst
  have hp := path_all st hne hst
  have h1 := varname_law law st hne hst (n := "len".toList) (by decide)
  have h2 := varname_law law st hne hst (n := "index".toList) (by decide)
  have h3 := varname_law law st hne hst (n := "item".toList) (by decide)
  refine ⟨⟨h1, readCall_all law (by decide)⟩, ⟨hp, law.fixed _ (by decide), h1⟩, ⟨h2, h1, ?_⟩, trivial⟩
  rw [allS_append, allS_append]
  exact ⟨⟨⟨⟨h3, hi⟩, trivial⟩, h _ (by simp) (by simpa)⟩, ⟨⟨hp, h2⟩, h3⟩, trivial⟩

/-- All field names inside a type satisfy `P`. -/
abbrev NamesT (P : Str → Prop) : RType → Prop := DeepT (fun ns => ∀ n ∈ ns, P n) (fun _ => True)
abbrev NamesFs (P : Str → Prop) : List (FieldOf RType) → Prop := DeepFs (fun ns => ∀ n ∈ ns, P n) (fun _ => True)

mutual
theorem writeStruct_all : (fs : List (FieldOf RType)) → (∀ n ∈ fs.map FieldOf.name, P n) → NamesFs P fs → SoundFs fs →
    Maker P (fun st => writeStruct st fs)
  | [], _, _, _ => fun _ _ _ => trivial
  | f :: fs, hn, h, hs => fun st hne hst => by
    show AllS P (writeField st f ++ writeStruct st fs)
    rw [allS_append]
    refine ⟨?_, writeStruct_all fs (fun n hn' => hn n (List.mem_cons_of_mem _ hn')) h.2 hs.2 st hne hst⟩
    have ht := writeF_all f h.1 hs.1
    rw [writeField_eq]
    refine (show Maker P _ from ?_) (st ++ [f.name]) (by simp) ?_
    · cases f.optional <;> cases f.array <;> simp only [if_true, Bool.false_eq_true, if_false]
      · exact ht
      · exact wArr_all law ht
      · exact wOpt_all law ht
      · exact wOpt_all law (wArr_all law ht)
    · intro x hx
      rcases List.mem_append.1 hx with hx | hx
      · exact hst x hx
      · rw [List.mem_singleton.1 hx]; exact hn _ List.mem_cons_self
theorem writeF_all : (f : FieldOf RType) → DeepF (fun ns => ∀ n ∈ ns, P n) (fun _ => True) f → SoundF f →
    Maker P (fun st => writeType st f.tyName f.ty)
  | ⟨_, tn, t, _, _⟩, h, hs => writeType_all tn t h hs
theorem writeType_all (tn : Str) : (t : RType) → NamesT P t → ((∀ b, t = .builtin b → tn = builtinName b) ∧ SoundT t) →
    Maker P (fun st => writeType st tn t)
  | .builtin b, _, hs => fun st hne hst => by
    have hp := path_all st hne hst
    have hb := hs.1 b rfl
    have hl := law.fixed "length".toList (by decide)
    have hw := write_fixed b
    rw [← hb] at hw
    cases b with
    | string => exact ⟨writeCall_all law (by decide) ⟨hp, hl⟩, writeCall_all law (by decide) hp, trivial⟩
    | _ => exact ⟨writeCall_all law hw hp, trivial⟩
  | .enum e, _, _ => fun st hne hst => ⟨writeCall_all law (write_repr e.repr) (path_all st hne hst), trivial⟩
  | .struct fs, h, hs => writeStruct_all fs h.1 h.2 hs.2
end

mutual
theorem readFields_all : (fs : List (FieldOf RType)) → (∀ n ∈ fs.map FieldOf.name, P n) → NamesFs P fs → SoundFs fs →
    Maker P (fun st => readFields st fs)
  | [], _, _, _ => fun _ _ _ => trivial
  | f :: fs, hn, h, hs => fun st hne hst => by
    show AllS P (readField st f ++ readFields st fs)
    rw [allS_append]
    refine ⟨?_, readFields_all fs (fun n hn' => hn n (List.mem_cons_of_mem _ hn')) h.2 hs.2 st hne hst⟩
    have ht := readF_all f h.1 hs.1
    have hin : (itemInit f.ty).All P := by cases f.ty <;> trivial
    rw [readField_eq]
    refine (show Maker P _ from ?_) (st ++ [f.name]) (by simp) ?_
    · cases f.optional <;> cases f.array <;> simp only [if_true, Bool.false_eq_true, if_false]
      · exact ht _
      · exact rArr_all law hin (ht _)
      · exact rOpt_all law (ht _)
      · exact rOpt_all law (rArr_all law hin (ht _))
    · intro x hx
      rcases List.mem_append.1 hx with hx | hx
      · exact hst x hx
      · rw [List.mem_singleton.1 hx]; exact hn _ List.mem_cons_self
theorem readF_all : (f : FieldOf RType) → DeepF (fun ns => ∀ n ∈ ns, P n) (fun _ => True) f → SoundF f →
    ∀ init, Maker P (fun st => readType init st f.tyName f.ty)
  | ⟨_, tn, t, _, _⟩, h, hs => fun init => readType_all init tn t h hs
theorem readType_all (init : Bool) (tn : Str) : (t : RType) → NamesT P t →
    ((∀ b, t = .builtin b → tn = builtinName b) ∧ SoundT t) → Maker P (fun st => readType init st tn t)
  | .builtin b, _, hs => fun st hne hst => by
    have hp := path_all st hne hst
    have hb := hs.1 b rfl
    have h1 := varname_law law st hne hst (n := "len".toList) (by decide)
    have hw := read_fixed b
    rw [← hb] at hw
    cases b with
    | string => exact ⟨⟨h1, readCall_all law (by decide)⟩, ⟨hp, law.fixed _ (by decide), law.fixed _ (by decide), h1⟩, trivial⟩
    | _ => exact ⟨⟨hp, readCall_all law hw⟩, trivial⟩
  | .enum e, _, _ => fun st hne hst => by
    have hp := path_all st hne hst
    have h1 := varname_law law st hne hst (n := "temp".toList) (by decide)
    exact ⟨⟨h1, readCall_all law (read_repr e.repr)⟩, ⟨⟨⟨trivial, h1⟩, h1, trivial⟩, hp, h1,
      ⟨law.fixed _ (by decide), law.fixed _ (by decide)⟩, trivial⟩, trivial⟩
  | .struct fs, h, hs => fun st hne hst => by
    have hf := readFields_all fs h.1 h.2 hs.2
    cases init with
    | false => exact hf st hne hst
    | true =>
      have hb := bindname_law law st hne hst
      show AllS P ([.letS (bindname st) true .obj] ++ readFields [bindname st] fs ++ [.assign (path st) (.var (bindname st))])
      rw [allS_append, allS_append]
      exact ⟨⟨⟨⟨hb, trivial⟩, trivial⟩, hf _ (by simp) (by simpa)⟩, ⟨path_all st hne hst, hb⟩, trivial⟩
end

theorem readBody_all (e : Export) (hn : ∀ n ∈ e.fields.map FieldOf.name, P n) (h : NamesFs P e.fields)
    (hs : SoundFs e.fields) (he : P e.name) : AllS P (readBody e) := by
  delta readBody
  rw [allS_append, allS_append]
  have f := fun x hx => law.fixed x hx
  refine ⟨⟨⟨⟨f _ (by decide), f _ (by decide), f _ (by decide)⟩,
    ⟨f _ (by decide), f _ (by decide), f _ (by decide), he⟩, trivial⟩,
    readFields_all law e.fields hn h hs _ (by simp) (by simpa using f _ (by decide))⟩,
    ⟨⟨f _ (by decide), f _ (by decide)⟩, trivial⟩, f _ (by decide), trivial⟩

theorem writeBody_all (e : Export) (hn : ∀ n ∈ e.fields.map FieldOf.name, P n) (h : NamesFs P e.fields)
    (hs : SoundFs e.fields) : AllS P (writeBody e) := by
  delta writeBody
  rw [allS_append, allS_append]
  have f := fun x hx => law.fixed x hx
  refine ⟨⟨⟨⟨f _ (by decide), f _ (by decide), ⟨f _ (by decide), f _ (by decide)⟩, f _ (by decide)⟩, trivial⟩,
    writeStruct_all law e.fields hn h hs _ (by simp) (by simpa using f _ (by decide))⟩,
    ⟨f _ (by decide), f _ (by decide)⟩, trivial⟩

end

end Packetc.Js
