import Verif.Model.GenWork
import Verif.Proof.JsPrint
/-!
# The steps of the generator

First: the contexts of `Model/GenWork` are those of `Model/Ts`. Then: every step is paid for by the characters that are written.
-/

namespace Packetc.GenW
open Check Gen
open Js (BoundsOk BoundsOkFs BoundsOkF)

/-! ### The same contexts -/

/-- Without the counter, `g` is `h`. -/
def Same (g : Run → Run) (h : GenCtx → GenCtx) : Prop := ∀ w, (g w).ctx = h w.ctx

theorem same_writeOptional {g h} (hb : Same g h) : Same (writeOptional g) (genWriteOptional h) := by
  intro w
  simp only [writeOptional, genWriteOptional, Run.spend, Run.setStack, Run.pushFname, Run.cat, Run.pushIndent, Run.popIndent, hb _]

theorem same_writeArray {g h} (hb : Same g h) : Same (writeArray g) (genWriteArray h) := by
  intro w
  simp only [writeArray, genWriteArray, Run.spend, Run.setStack, Run.pushFname, Run.cat, Run.pushIndent, Run.popIndent, hb _]

theorem same_writeBuiltin (b : Builtin) (n : Str) : Same (writeBuiltin b n) (genWriteBuiltin b n) := by
  intro w
  cases b <;> rfl

theorem same_writeEnum (e : REnum) : Same (writeEnum e) (genWriteEnum e) := fun _ => rfl

mutual
theorem same_writeStruct : (fs : List (FieldOf RType)) → Same (writeStruct fs) (genWriteStruct fs)
  | [], w => by rw [writeStruct, genWriteStruct]; rfl
  | f :: fs, w => by rw [writeStruct, genWriteStruct, same_writeStruct fs, same_writeField f]
theorem same_writeField : (f : FieldOf RType) → Same (writeField f) (genWriteField f)
  | ⟨n, tn, t, a, o⟩, w => by
    have ht := same_writeType tn t
    have ha : Same (if a = true then writeArray (writeType tn t) else writeType tn t)
        (if a = true then genWriteArray (genWriteType tn t) else genWriteType tn t) := by
      cases a
      · exact ht
      · exact same_writeArray ht
    have ho : Same (if o = true then writeOptional (if a = true then writeArray (writeType tn t) else writeType tn t) else
          (if a = true then writeArray (writeType tn t) else writeType tn t))
        (if o = true then genWriteOptional (if a = true then genWriteArray (genWriteType tn t) else genWriteType tn t) else
          (if a = true then genWriteArray (genWriteType tn t) else genWriteType tn t)) := by
      cases o
      · exact ha
      · exact same_writeOptional ha
    rw [writeField, genWriteField]
    show GenCtx.popFname (Run.ctx _) = _
    rw [ho]
    rfl
theorem same_writeType (tn : Str) : (t : RType) → Same (writeType tn t) (genWriteType tn t)
  | .builtin b, w => by rw [writeType, genWriteType]; exact same_writeBuiltin b tn w
  | .enum e, w => by rw [writeType, genWriteType]; exact same_writeEnum e w
  | .struct fs, w => by rw [writeType, genWriteType]; exact same_writeStruct fs w
end

theorem same_readOptional {g h} (hb : Same g h) : Same (readOptional g) (genReadOptional h) := by
  intro w
  simp only [readOptional, genReadOptional, Run.spend, Run.cat, Run.pushIndent, Run.popIndent, hb _]

theorem same_readArray (i : Bool) {g h} (hb : Same g h) : Same (readArray i g) (genReadArray i h) := by
  intro w
  simp only [readArray, genReadArray, Run.spend, Run.setStack, Run.pushFname, Run.cat, Run.pushIndent, Run.popIndent, hb _]

theorem same_readBuiltin (b : Builtin) (n : Str) : Same (readBuiltin b n) (genReadBuiltin b n) := by
  intro w
  cases b <;> rfl

theorem same_readEnum (e : REnum) : Same (readEnum e) (genReadEnum e) := by
  intro w
  unfold readEnum genReadEnum
  cases enumBounds e.variants <;> rfl

theorem same_readStructWith (init : Bool) {g h} (hb : Same g h) : Same (readStructWith init g) (genReadStructWith init h) := by
  intro w
  cases init
  · simp only [readStructWith, genReadStructWith, Run.spend, hb _, Bool.false_eq_true, if_false]
  · simp only [readStructWith, genReadStructWith, Run.spend, Run.setStack, Run.pushFname, Run.cat, hb _, if_true]

mutual
theorem same_readFields : (fs : List (FieldOf RType)) → Same (readFields fs) (genReadFields fs)
  | [], w => by rw [readFields, genReadFields]; rfl
  | f :: fs, w => by rw [readFields, genReadFields, same_readFields fs, same_readField f]
theorem same_readField : (f : FieldOf RType) → Same (readField f) (genReadField f)
  | ⟨n, tn, t, a, o⟩, w => by
    have ht := same_readType (!a) tn t
    have ha : ∀ i, Same (if a = true then readArray i (readType (!a) tn t) else readType (!a) tn t)
        (if a = true then genReadArray i (genReadType (!a) tn t) else genReadType (!a) tn t) := by
      intro i
      cases a
      · exact ht
      · exact same_readArray i ht
    have ho : ∀ i, Same (if o = true then readOptional (if a = true then readArray i (readType (!a) tn t) else readType (!a) tn t) else
          (if a = true then readArray i (readType (!a) tn t) else readType (!a) tn t))
        (if o = true then genReadOptional (if a = true then genReadArray i (genReadType (!a) tn t) else genReadType (!a) tn t) else
          (if a = true then genReadArray i (genReadType (!a) tn t) else genReadType (!a) tn t)) := by
      intro i
      cases o
      · exact ha i
      · exact same_readOptional (ha i)
    unfold readField genReadField
    show GenCtx.popFname (Run.ctx _) = _
    rw [ho]
    rfl
theorem same_readType (init : Bool) (tn : Str) : (t : RType) → Same (readType init tn t) (genReadType init tn t)
  | .builtin b, w => by rw [readType, genReadType]; exact same_readBuiltin b tn w
  | .enum e, w => by rw [readType, genReadType]; exact same_readEnum e w
  | .struct fs, w => by rw [readType, genReadType]; exact same_readStructWith init (same_readFields fs) w
end

theorem same_ctorFields (exp : Str) : (fs : List RField) → Same (ctorFields exp fs) (genCtorFields exp fs)
  | [], w => rfl
  | f :: fs, w => by rw [ctorFields, genCtorFields, same_ctorFields exp fs]; rfl

theorem same_impl (e : Export) : Same (implRun e) (genImplCtx e) := by
  intro w
  simp only [implRun, genImplCtx, Run.pushFname, Run.popFname, Run.cat, Run.pushIndent, Run.popIndent, same_ctorFields _ _ _,
    readStruct, genReadStruct, same_readStructWith false (same_readFields e.fields) _, same_writeStruct _ _]

theorem same_structDeclFields : (fs : List RField) → Same (structDeclFields fs) (genStructDeclFields fs)
  | [], w => rfl
  | f :: fs, w => by rw [structDeclFields, genStructDeclFields, same_structDeclFields fs]; rfl

theorem same_structDecl (fs : List RField) (n : Str) : Same (structDecl fs n) (genStructDecl fs n) := by
  intro w
  simp only [structDecl, genStructDecl, Run.cat, Run.pushIndent, Run.popIndent, same_structDeclFields _ _]

theorem same_enumDeclVariants : (vs : List EnumVariant) → Same (enumDeclVariants vs) (genEnumDeclVariants vs)
  | [], w => rfl
  | v :: vs, w => by rw [enumDeclVariants, genEnumDeclVariants, same_enumDeclVariants vs]; rfl

theorem same_enumDecl (e : REnum) (n : Str) : Same (enumDecl e n) (genEnumDecl e n) := by
  intro w
  simp only [enumDecl, genEnumDecl, Run.cat, Run.pushIndent, Run.popIndent, same_enumDeclVariants _ _]

theorem same_declsLoop (exp : Str) : (ts : List (Str × (Str × RType))) → Same (declsLoop exp ts) (genDeclsLoop exp ts)
  | [], w => rfl
  | (n, m, t) :: ts, w => by
    rw [declsLoop, genDeclsLoop]
    by_cases h : n = exp
    · simp only [if_pos h, same_declsLoop exp ts _, Run.spend]
    · simp only [if_neg h]
      cases t with
      | builtin b => simp only [same_declsLoop exp ts _, Run.spend]
      | enum e => simp only [same_declsLoop exp ts _, same_enumDecl _ _ _, Run.spend]
      | struct fs => simp only [same_declsLoop exp ts _, same_structDecl _ _ _, Run.spend]

theorem same_decls (ts : List (Str × (Str × RType))) (exp : Str) : Same (declsRun ts exp) (genDeclsCtx ts exp) := by
  intro w
  simp only [declsRun, genDeclsCtx, Run.cat, Run.pushIndent, Run.popIndent, same_declsLoop _ _ _]

/-- The generator with the counter generates what the generator generates. -/
theorem same_generate (version now : Str) (ord : TypeMap → TypeMap) (r : Resolved) :
    (generateRun version now ord r).1 = generate version now ord r := by
  simp only [generateRun, generate, same_decls _ _ _, same_impl _ _]

/-! ### Lengths -/

/-- The length of the joined stack. -/
def J (stack : List Str) : Nat := (bindname stack).length

theorem join_length (a b : Str) (h : a.length = b.length) : (l : List Str) → (joinWith a l).length = (joinWith b l).length
  | [] => rfl
  | [x] => rfl
  | x :: y :: l => by
    have := join_length a b h (y :: l)
    simp only [joinWith, List.length_append] at this ⊢
    omega

theorem fname_length (stack : List Str) : (fname stack).length = J stack := join_length ".".toList "_".toList rfl stack

theorem bindname_length (stack : List Str) : (bindname stack).length = J stack := rfl

theorem varname_length (stack : List Str) (n : Str) : (varname stack n).length = J stack + 1 + n.length := by
  simp only [varname, J, bindname, List.length_append]
  rfl

theorem join_parts : (stack : List Str) → stack.length ≤ (bindname stack).length + 1
  | [] => by simp
  | [x] => by simp
  | x :: y :: l => by
    have := join_parts (y :: l)
    simp only [bindname, joinWith, List.length_append, List.length_cons] at this ⊢
    have h1 : ("_".toList).length = 1 := rfl
    omega

theorem joinSteps_le (stack : List Str) : joinSteps stack ≤ 2 * J stack + 2 := by
  have := join_parts stack
  unfold joinSteps J
  omega

theorem varSteps_le (stack : List Str) (n : Str) : varSteps stack n ≤ 3 * J stack + 3 + n.length := by
  have := joinSteps_le stack
  unfold varSteps
  rw [varname_length]
  omega

theorem J_single (x : Str) : J [x] = x.length := rfl

theorem J_snoc : (stack : List Str) → (n : Str) → n.length ≤ J (stack ++ [n])
  | [], n => Nat.le_refl _
  | [x], n => by
    simp only [J, bindname, List.cons_append, List.nil_append, joinWith, List.length_append]
    omega
  | x :: y :: l, n => by
    have := J_snoc (y :: l) n
    simp only [J, bindname, List.cons_append, joinWith, List.length_append] at this ⊢
    omega

/-! ### Every step is paid for -/

mutual
/-- What the writing of the fields costs besides the code: the names on the way. -/
def waysFs : List (FieldOf RType) → Nat
  | [] => 1
  | f :: fs => waysF f + waysFs fs
/-- For one field. -/
def waysF : FieldOf RType → Nat
  | ⟨n, _, t, _, _⟩ => 7 + n.length + waysT t
/-- For a type. -/
def waysT : RType → Nat
  | .builtin _ => 0
  | .enum _ => 0
  | .struct fs => waysFs fs
end

/-- The stack and the indentation are restored, and the steps, with `credit`, are at most eight for each new character, with `debt`. -/
def Pays (g : Run → Run) (credit debt : GenCtx → Nat) : Prop :=
  ∀ w, (g w).ctx.stack = w.ctx.stack ∧ (g w).ctx.indentation = w.ctx.indentation ∧
    (g w).steps + 8 * w.ctx.out.length + credit w.ctx ≤ w.steps + 8 * (g w).ctx.out.length + debt w.ctx

theorem pop_push (s : Str) : List.take (if (s ++ "    ".toList).length < 4 then 0 else (s ++ "    ".toList).length - 4) (s ++ "    ".toList) = s := by
  have : (s ++ "    ".toList).length = s.length + 4 := by rw [List.length_append]; rfl
  rw [this, if_neg (by omega)]
  simp

/-- The operations, and the lengths of what they make. -/
macro "lengths" : tactic => `(tactic| simp only [Run.spend, Run.setStack, Run.pushFname, Run.popFname, Run.cat, Run.pushIndent, Run.popIndent, GenCtx.setStack, GenCtx.pushFname,
  GenCtx.popFname, GenCtx.cat, GenCtx.pushIndent, GenCtx.popIndent, List.nil_append, List.length_append, fname_length, bindname_length, varname_length, J_single,
  String.reduceToList, List.length_cons, List.length_nil, Nat.reduceAdd, Nat.reduceMul])

theorem pays_writeOptional {g : Run → Run} {d : Nat} (hb : Pays g (fun _ => 0) (fun _ => d)) : Pays (writeOptional g) (fun _ => 0) (fun _ => d) := by
  intro w
  obtain ⟨X, hX, hs, hi, ho⟩ : ∃ X, writeOptional g w = (((g X).popIndent.cat "}\n".toList).popIndent.cat "}\n".toList).setStack w.ctx.stack ∧
      X.ctx.stack = [bindname w.ctx.stack] ∧ X.ctx.indentation = w.ctx.indentation ++ "    ".toList ++ "    ".toList ∧
      X.steps + 8 * w.ctx.out.length + 20 ≤ w.steps + 8 * X.ctx.out.length := by
    refine ⟨_, rfl, rfl, rfl, ?_⟩
    have := joinSteps_le w.ctx.stack
    lengths
    omega
  obtain ⟨h1, h2, h3⟩ := hb X
  rw [hX]
  refine ⟨rfl, ?_, ?_⟩
  · simp only [Run.setStack, GenCtx.setStack, Run.popIndent, Run.cat, GenCtx.cat, GenCtx.popIndent, h2, hi, pop_push]
  · simp only [Run.setStack, GenCtx.setStack, Run.popIndent, Run.cat, GenCtx.cat, GenCtx.popIndent, h2, hi, pop_push]
    lengths
    beta_reduce at h3
    omega

theorem pays_writeArray {g : Run → Run} {d : Nat} (hb : Pays g (fun _ => 0) (fun _ => d)) : Pays (writeArray g) (fun _ => 0) (fun _ => d) := by
  intro w
  obtain ⟨X, hX, hs, hi, ho⟩ : ∃ X, writeArray g w = ((g X).popIndent.cat "}\n".toList).setStack w.ctx.stack ∧
      X.ctx.stack = [varname w.ctx.stack "item".toList] ∧ X.ctx.indentation = w.ctx.indentation ++ "    ".toList ∧
      X.steps + 8 * w.ctx.out.length + 20 ≤ w.steps + 8 * X.ctx.out.length := by
    refine ⟨_, rfl, rfl, rfl, ?_⟩
    have := joinSteps_le w.ctx.stack
    have := varSteps_le w.ctx.stack "item".toList
    have := varSteps_le w.ctx.stack "index".toList
    simp only [String.reduceToList, List.length_cons, List.length_nil, Nat.reduceAdd] at *
    lengths
    omega
  obtain ⟨h1, h2, h3⟩ := hb X
  rw [hX]
  refine ⟨rfl, ?_, ?_⟩
  · simp only [Run.setStack, GenCtx.setStack, Run.popIndent, Run.cat, GenCtx.cat, GenCtx.popIndent, h2, hi, pop_push]
  · simp only [Run.setStack, GenCtx.setStack, Run.popIndent, Run.cat, GenCtx.cat, GenCtx.popIndent, h2, hi, pop_push]
    lengths
    beta_reduce at h3
    omega

theorem pays_writeBuiltin (b : Builtin) (n : Str) : Pays (writeBuiltin b n) (fun _ => 0) (fun _ => 0) := by
  intro w
  have := joinSteps_le w.ctx.stack
  cases b <;> refine ⟨rfl, rfl, ?_⟩ <;> simp only [writeBuiltin] <;> lengths <;> omega

theorem pays_writeEnum (e : REnum) : Pays (writeEnum e) (fun _ => 0) (fun _ => 0) := by
  intro w
  have := joinSteps_le w.ctx.stack
  refine ⟨rfl, rfl, ?_⟩
  simp only [writeEnum]
  lengths
  omega

mutual
theorem pays_writeStruct : (fs : List (FieldOf RType)) → Pays (writeStruct fs) (fun _ => 0) (fun _ => waysFs fs)
  | [], w => by
    rw [writeStruct, waysFs]
    refine ⟨rfl, rfl, ?_⟩
    lengths
    omega
  | f :: fs, w => by
    rw [writeStruct, waysFs]
    obtain ⟨h1, h2, h3⟩ := pays_writeField f w
    obtain ⟨k1, k2, k3⟩ := pays_writeStruct fs (writeField f w)
    refine ⟨k1.trans h1, k2.trans h2, ?_⟩
    beta_reduce at *
    omega
theorem pays_writeField : (f : FieldOf RType) → Pays (writeField f) (fun _ => 0) (fun _ => waysF f)
  | ⟨n, tn, t, a, o⟩, w => by
    have ht := pays_writeType tn t
    have ha : Pays (if a = true then writeArray (writeType tn t) else writeType tn t) (fun _ => 0) (fun _ => waysT t) := by
      cases a
      · exact ht
      · exact pays_writeArray ht
    have ho : Pays (if o = true then writeOptional (if a = true then writeArray (writeType tn t) else writeType tn t) else
          (if a = true then writeArray (writeType tn t) else writeType tn t)) (fun _ => 0) (fun _ => waysT t) := by
      cases o
      · exact ha
      · exact pays_writeOptional ha
    obtain ⟨X, hX, hs, hi, hout⟩ : ∃ X, writeField ⟨n, tn, t, a, o⟩ w = ((if o = true then writeOptional (if a = true then writeArray (writeType tn t) else writeType tn t) else
          (if a = true then writeArray (writeType tn t) else writeType tn t)) X).popFname ∧ X.ctx.stack = w.ctx.stack ++ [n] ∧
        X.ctx.indentation = w.ctx.indentation ∧ X.steps + 8 * w.ctx.out.length ≤ w.steps + 8 * X.ctx.out.length + 5 + n.length := by
      refine ⟨((w.spend 1).pushFname n).spend (1 + (if a = true then 1 else 0) + (if o = true then 1 else 0)), by rw [writeField], rfl, rfl, ?_⟩
      lengths
      split_ifs <;> omega
    obtain ⟨h1, h2, h3⟩ := ho X
    rw [hX, waysF]
    refine ⟨?_, ?_, ?_⟩
    · simp only [Run.popFname, GenCtx.popFname, h1, hs, List.dropLast_concat]
    · simp only [Run.popFname, GenCtx.popFname, h2, hi]
    · lengths
      beta_reduce at h3
      omega
theorem pays_writeType (tn : Str) : (t : RType) → Pays (writeType tn t) (fun _ => 0) (fun _ => waysT t)
  | .builtin b, w => by rw [writeType, waysT]; exact pays_writeBuiltin b tn w
  | .enum e, w => by rw [writeType, waysT]; exact pays_writeEnum e w
  | .struct fs, w => by rw [writeType, waysT]; exact pays_writeStruct fs w
end

theorem pays_readOptional {g : Run → Run} {d : Nat} (hb : Pays g (fun c => d + 2 * J c.stack + 16) (fun _ => 0)) :
    Pays (readOptional g) (fun c => d + 2 * J c.stack + 16) (fun _ => 0) := by
  intro w
  obtain ⟨X, hX, hs, hi, ho⟩ : ∃ X, readOptional g w =
      ((((g X).popIndent.cat "} else {\n".toList).pushIndent.cat (fname w.ctx.stack ++ " = undefined;\n".toList)).popIndent.cat "}\n".toList) ∧
      X.ctx.stack = w.ctx.stack ∧ X.ctx.indentation = w.ctx.indentation ++ "    ".toList ∧
      X.steps + 8 * w.ctx.out.length + 20 ≤ w.steps + 8 * X.ctx.out.length + 2 * J w.ctx.stack := by
    refine ⟨_, rfl, rfl, rfl, ?_⟩
    have := joinSteps_le w.ctx.stack
    lengths
    omega
  obtain ⟨h1, h2, h3⟩ := hb X
  rw [hX]
  refine ⟨?_, ?_, ?_⟩
  · exact h1.trans hs
  · simp only [Run.popIndent, Run.pushIndent, Run.cat, GenCtx.cat, GenCtx.pushIndent, GenCtx.popIndent, h2, hi, pop_push]
  · simp only [Run.popIndent, Run.pushIndent, Run.cat, GenCtx.cat, GenCtx.pushIndent, GenCtx.popIndent, h2, hi, pop_push]
    lengths
    beta_reduce at h3
    rw [hs] at h3
    omega

theorem pays_readArray (i : Bool) {g : Run → Run} {d : Nat} (hb : Pays g (fun _ => d) (fun c => 4 * J c.stack + 8)) :
    Pays (readArray i g) (fun c => d + 2 * J c.stack + 16) (fun _ => 0) := by
  intro w
  obtain ⟨X, hX, hs, hi, ho⟩ : ∃ X, readArray i g w =
      (((g X).cat (fname w.ctx.stack ++ "[".toList ++ varname w.ctx.stack "index".toList ++ "] = ".toList ++ varname w.ctx.stack "item".toList ++ ";\n".toList)).popIndent.cat
        "}\n".toList).setStack w.ctx.stack ∧
      X.ctx.stack = [varname w.ctx.stack "item".toList] ∧ X.ctx.indentation = w.ctx.indentation ++ "    ".toList ∧
      X.steps + 8 * w.ctx.out.length + 60 + 6 * J w.ctx.stack ≤ w.steps + 8 * X.ctx.out.length := by
    refine ⟨_, rfl, rfl, rfl, ?_⟩
    have v0 := joinSteps_le w.ctx.stack
    have v1 : varSteps w.ctx.stack "item".toList ≤ 3 * J w.ctx.stack + 7 := varSteps_le w.ctx.stack "item".toList
    have v2 : varSteps w.ctx.stack "index".toList ≤ 3 * J w.ctx.stack + 8 := varSteps_le w.ctx.stack "index".toList
    have v3 : varSteps w.ctx.stack "len".toList ≤ 3 * J w.ctx.stack + 6 := varSteps_le w.ctx.stack "len".toList
    generalize (if i = true then "{}".toList else "undefined".toList) = z
    generalize varSteps w.ctx.stack "item".toList = s1 at *
    generalize varSteps w.ctx.stack "index".toList = s2 at *
    generalize varSteps w.ctx.stack "len".toList = s3 at *
    lengths
    omega
  obtain ⟨h1, h2, h3⟩ := hb X
  rw [hX]
  refine ⟨rfl, ?_, ?_⟩
  · simp only [Run.setStack, GenCtx.setStack, Run.popIndent, Run.cat, GenCtx.cat, GenCtx.popIndent, h2, hi, pop_push]
  · simp only [Run.setStack, GenCtx.setStack, Run.popIndent, Run.cat, GenCtx.cat, GenCtx.popIndent, h2, hi, pop_push]
    lengths
    beta_reduce at h3
    rw [hs, J_single, varname_length] at h3
    simp only [String.reduceToList, List.length_cons, List.length_nil, Nat.reduceAdd] at h3
    omega

theorem pays_readBuiltin (b : Builtin) (n : Str) : Pays (readBuiltin b n) (fun c => 2 * J c.stack + 16) (fun _ => 0) := by
  intro w
  have := joinSteps_le w.ctx.stack
  have := varSteps_le w.ctx.stack "len".toList
  simp only [String.reduceToList, List.length_cons, List.length_nil, Nat.reduceAdd] at *
  cases b <;> refine ⟨rfl, rfl, ?_⟩ <;> simp only [readBuiltin] <;> lengths <;> omega

theorem pays_readEnum {e : REnum} (he : (enumBounds e.variants).isSome) : Pays (readEnum e) (fun c => 2 * J c.stack + 16) (fun _ => 0) := by
  intro w
  have := joinSteps_le w.ctx.stack
  have := varSteps_le w.ctx.stack "temp".toList
  simp only [String.reduceToList, List.length_cons, List.length_nil, Nat.reduceAdd] at *
  unfold readEnum
  cases hb : enumBounds e.variants with
  | none => rw [hb] at he; cases he
  | some p =>
    refine ⟨rfl, rfl, ?_⟩
    lengths
    omega

theorem pays_readStructWith (init : Bool) {g : Run → Run} {d : Nat} (hb : Pays g (fun _ => d) (fun _ => 2)) :
    Pays (readStructWith init g) (fun c => d + if init = true then 2 * J c.stack + 16 else 0) (fun c => if init = true then 0 else 4 * J c.stack + 8) := by
  intro w
  have hj := joinSteps_le w.ctx.stack
  cases init with
  | false =>
    obtain ⟨h1, h2, h3⟩ := hb (w.spend (2 * joinSteps w.ctx.stack))
    refine ⟨h1, h2, ?_⟩
    beta_reduce at h3
    have : readStructWith false g w = g (w.spend (2 * joinSteps w.ctx.stack)) := rfl
    rw [this]
    simp only [Bool.false_eq_true, if_false]
    have e : (w.spend (2 * joinSteps w.ctx.stack)).steps = w.steps + 2 * joinSteps w.ctx.stack := rfl
    have e' : (w.spend (2 * joinSteps w.ctx.stack)).ctx.out = w.ctx.out := rfl
    rw [e, e'] at h3
    omega
  | true =>
    obtain ⟨X, hX, hs, hi, ho⟩ : ∃ X, readStructWith true g w = ((g X).cat (fname w.ctx.stack ++ " = ".toList ++ bindname w.ctx.stack ++ ";\n".toList)).setStack w.ctx.stack ∧
        X.ctx.stack = [bindname w.ctx.stack] ∧ X.ctx.indentation = w.ctx.indentation ∧
        X.steps + 8 * w.ctx.out.length + 40 ≤ w.steps + 8 * X.ctx.out.length := by
      refine ⟨_, rfl, rfl, rfl, ?_⟩
      lengths
      omega
    obtain ⟨h1, h2, h3⟩ := hb X
    rw [hX]
    refine ⟨rfl, ?_, ?_⟩
    · exact h2.trans hi
    · simp only [Run.setStack, GenCtx.setStack, Run.cat, GenCtx.cat, h2, hi, if_true]
      lengths
      beta_reduce at h3
      omega

mutual
theorem pays_readFields : (fs : List (FieldOf RType)) → BoundsOkFs fs → Pays (readFields fs) (fun _ => waysFs fs) (fun _ => 2)
  | [], _, w => by
    rw [readFields, waysFs]
    refine ⟨rfl, rfl, ?_⟩
    lengths
    omega
  | f :: fs, h, w => by
    rw [readFields, waysFs]
    rw [BoundsOkFs] at h
    obtain ⟨h1, h2, h3⟩ := pays_readField f h.1 w
    obtain ⟨k1, k2, k3⟩ := pays_readFields fs h.2 (readField f w)
    refine ⟨k1.trans h1, k2.trans h2, ?_⟩
    beta_reduce at *
    omega
theorem pays_readField : (f : FieldOf RType) → BoundsOkF f → Pays (readField f) (fun _ => waysF f) (fun _ => 0)
  | ⟨n, tn, t, a, o⟩, h, w => by
    rw [BoundsOkF] at h
    have ht := pays_readType (!a) tn t h
    have ha : ∀ i, Pays (if a = true then readArray i (readType (!a) tn t) else readType (!a) tn t) (fun c => waysT t + 2 * J c.stack + 16) (fun _ => 0) := by
      intro i
      cases a
      · intro w
        have := ht w
        simpa only [Bool.not_false, if_true, Bool.false_eq_true, if_false, Nat.add_assoc] using this
      · refine pays_readArray i fun w => ?_
        have := ht w
        simpa only [Bool.not_true, if_true, Bool.false_eq_true, if_false, Nat.add_zero] using this
    have ho : ∀ i, Pays (if o = true then readOptional (if a = true then readArray i (readType (!a) tn t) else readType (!a) tn t) else
          (if a = true then readArray i (readType (!a) tn t) else readType (!a) tn t)) (fun c => waysT t + 2 * J c.stack + 16) (fun _ => 0) := by
      intro i
      cases o
      · exact ha i
      · exact pays_readOptional (ha i)
    obtain ⟨i, X, hX, hs, hi, hout⟩ : ∃ i X, readField ⟨n, tn, t, a, o⟩ w = ((if o = true then readOptional (if a = true then readArray i (readType (!a) tn t) else readType (!a) tn t) else
          (if a = true then readArray i (readType (!a) tn t) else readType (!a) tn t)) X).popFname ∧ X.ctx.stack = w.ctx.stack ++ [n] ∧
        X.ctx.indentation = w.ctx.indentation ∧ X.steps + 8 * w.ctx.out.length ≤ w.steps + 8 * X.ctx.out.length + 7 + n.length := by
      refine ⟨match (generalizing := false) t with | .struct _ => true | _ => false,
        ((w.spend 1).pushFname n).spend (1 + (if a = true then 2 else 0) + (if o = true then 2 else 0)), by unfold readField; rfl, rfl, rfl, ?_⟩
      lengths
      split_ifs <;> omega
    obtain ⟨h1, h2, h3⟩ := ho i X
    have hJ := J_snoc w.ctx.stack n
    rw [hX, waysF]
    refine ⟨?_, ?_, ?_⟩
    · simp only [Run.popFname, GenCtx.popFname, h1, hs, List.dropLast_concat]
    · simp only [Run.popFname, GenCtx.popFname, h2, hi]
    · lengths
      beta_reduce at h3
      rw [hs] at h3
      omega
theorem pays_readType (init : Bool) (tn : Str) : (t : RType) → BoundsOk t →
    Pays (readType init tn t) (fun c => waysT t + if init = true then 2 * J c.stack + 16 else 0) (fun c => if init = true then 0 else 4 * J c.stack + 8)
  | .builtin b, _, w => by
    rw [readType, waysT]
    obtain ⟨h1, h2, h3⟩ := pays_readBuiltin b tn w
    refine ⟨h1, h2, ?_⟩
    beta_reduce at *
    split_ifs <;> omega
  | .enum e, h, w => by
    rw [readType, waysT]
    obtain ⟨h1, h2, h3⟩ := pays_readEnum (e := e) (by rw [BoundsOk] at h; exact h) w
    refine ⟨h1, h2, ?_⟩
    beta_reduce at *
    split_ifs <;> omega
  | .struct fs, h, w => by
    rw [readType, waysT]
    rw [BoundsOk] at h
    exact pays_readStructWith init (pays_readFields fs h) w
end

theorem pays_ctorFields (exp : Str) : (fs : List RField) → Pays (ctorFields exp fs) (fun _ => 0) (fun _ => 1)
  | [], w => by
    rw [ctorFields]
    refine ⟨rfl, rfl, ?_⟩
    lengths
    omega
  | f :: fs, w => by
    obtain ⟨X, hX, hs, hi, ho⟩ : ∃ X, ((w.spend (2 + (fieldCtorType f.tyName f.ty exp f.array f.optional).length)).cat ("public ".toList ++ f.name ++ ": ".toList ++
        fieldCtorType f.tyName f.ty exp f.array f.optional ++ ",\n".toList)) = X ∧ X.ctx.stack = w.ctx.stack ∧ X.ctx.indentation = w.ctx.indentation ∧
        X.steps + 8 * w.ctx.out.length ≤ w.steps + 8 * X.ctx.out.length := by
      refine ⟨_, rfl, rfl, rfl, ?_⟩
      lengths
      omega
    have e : ctorFields exp (f :: fs) w = ctorFields exp fs X := by rw [← hX]; rfl
    rw [e]
    obtain ⟨h1, h2, h3⟩ := pays_ctorFields exp fs X
    refine ⟨h1.trans hs, h2.trans hi, ?_⟩
    beta_reduce at *
    omega

theorem pays_structDeclFields : (fs : List RField) → Pays (structDeclFields fs) (fun _ => 0) (fun _ => 1)
  | [], w => by
    rw [structDeclFields]
    refine ⟨rfl, rfl, ?_⟩
    lengths
    omega
  | f :: fs, w => by
    obtain ⟨X, hX, hs, hi, ho⟩ : ∃ X, ((w.spend 4).cat (f.name ++ (if f.optional then "?".toList else []) ++ ": ".toList ++
        declTypeName f.tyName f.ty ++ (if f.array then "[]".toList else []) ++ ",\n".toList)) = X ∧ X.ctx.stack = w.ctx.stack ∧ X.ctx.indentation = w.ctx.indentation ∧
        X.steps + 8 * w.ctx.out.length ≤ w.steps + 8 * X.ctx.out.length := by
      refine ⟨_, rfl, rfl, rfl, ?_⟩
      generalize (if f.optional then "?".toList else []) = z
      generalize (if f.array then "[]".toList else []) = z'
      lengths
      omega
    have e : structDeclFields (f :: fs) w = structDeclFields fs X := by rw [← hX]; rfl
    rw [e]
    obtain ⟨h1, h2, h3⟩ := pays_structDeclFields fs X
    refine ⟨h1.trans hs, h2.trans hi, ?_⟩
    beta_reduce at *
    omega

theorem pays_structDecl (fs : List RField) (n : Str) : Pays (structDecl fs n) (fun _ => 2 + n.length) (fun _ => 0) := by
  intro w
  obtain ⟨X, hX, hs, hi, ho⟩ : ∃ X, structDecl fs n w = ((structDeclFields fs X).popIndent.cat "}\n".toList) ∧
      X.ctx.stack = w.ctx.stack ∧ X.ctx.indentation = w.ctx.indentation ++ "    ".toList ∧
      X.steps + 8 * w.ctx.out.length + 20 + n.length ≤ w.steps + 8 * X.ctx.out.length := by
    refine ⟨_, rfl, rfl, rfl, ?_⟩
    lengths
    omega
  obtain ⟨h1, h2, h3⟩ := pays_structDeclFields fs X
  rw [hX]
  refine ⟨h1.trans hs, ?_, ?_⟩
  · simp only [Run.popIndent, Run.cat, GenCtx.cat, GenCtx.popIndent, h2, hi, pop_push]
  · simp only [Run.popIndent, Run.cat, GenCtx.cat, GenCtx.popIndent, h2, hi, pop_push]
    lengths
    beta_reduce at h3
    omega

theorem pays_enumDeclVariants : (vs : List EnumVariant) → Pays (enumDeclVariants vs) (fun _ => 0) (fun _ => 1)
  | [], w => by
    rw [enumDeclVariants]
    refine ⟨rfl, rfl, ?_⟩
    lengths
    omega
  | v :: vs, w => by
    obtain ⟨X, hX, hs, hi, ho⟩ : ∃ X, ((w.spend 1).cat (v.name ++ " = 1 << ".toList ++ (toString v.value).toList ++ ",\n".toList)) = X ∧ X.ctx.stack = w.ctx.stack ∧
        X.ctx.indentation = w.ctx.indentation ∧ X.steps + 8 * w.ctx.out.length ≤ w.steps + 8 * X.ctx.out.length := by
      refine ⟨_, rfl, rfl, rfl, ?_⟩
      lengths
      omega
    have e : enumDeclVariants (v :: vs) w = enumDeclVariants vs X := by rw [← hX]; rfl
    rw [e]
    obtain ⟨h1, h2, h3⟩ := pays_enumDeclVariants vs X
    refine ⟨h1.trans hs, h2.trans hi, ?_⟩
    beta_reduce at *
    omega

theorem pays_enumDecl (e : REnum) (n : Str) : Pays (enumDecl e n) (fun _ => 2 + n.length) (fun _ => 0) := by
  intro w
  obtain ⟨X, hX, hs, hi, ho⟩ : ∃ X, enumDecl e n w = ((enumDeclVariants e.variants X).popIndent.cat "}\n".toList) ∧
      X.ctx.stack = w.ctx.stack ∧ X.ctx.indentation = w.ctx.indentation ++ "    ".toList ∧
      X.steps + 8 * w.ctx.out.length + 20 + n.length ≤ w.steps + 8 * X.ctx.out.length := by
    refine ⟨_, rfl, rfl, rfl, ?_⟩
    lengths
    omega
  obtain ⟨h1, h2, h3⟩ := pays_enumDeclVariants e.variants X
  rw [hX]
  refine ⟨h1.trans hs, ?_, ?_⟩
  · simp only [Run.popIndent, Run.cat, GenCtx.cat, GenCtx.popIndent, h2, hi, pop_push]
  · simp only [Run.popIndent, Run.cat, GenCtx.cat, GenCtx.popIndent, h2, hi, pop_push]
    lengths
    beta_reduce at h3
    omega

/-- The entry is passed over: it is the exported struct or a builtin type. -/
def quiet (exp : Str) (e : Str × (Str × RType)) : Bool :=
  decide (e.1 = exp) || (match e.2.2 with | .builtin _ => true | _ => false)

theorem pays_declsLoop (exp : Str) : (ts : List (Str × (Str × RType))) →
    Pays (declsLoop exp ts) (fun _ => 0) (fun _ => 1 + (ts.filter (quiet exp)).length * (2 + exp.length))
  | [], w => by
    rw [declsLoop]
    refine ⟨rfl, rfl, ?_⟩
    lengths
    omega
  | (n, m, t) :: ts, w => by
    rw [declsLoop]
    have hmin : min n.length exp.length ≤ exp.length := Nat.min_le_right _ _
    have hmin' : min n.length exp.length ≤ n.length := Nat.min_le_left _ _
    have hsp : (w.spend (2 + min n.length exp.length)).steps = w.steps + (2 + min n.length exp.length) := rfl
    have hsc : (w.spend (2 + min n.length exp.length)).ctx = w.ctx := rfl
    by_cases h : n = exp
    · simp only [if_pos h]
      obtain ⟨h1, h2, h3⟩ := pays_declsLoop exp ts (w.spend (2 + min n.length exp.length))
      rw [List.filter_cons_of_pos (by simp [quiet, h]), List.length_cons]
      refine ⟨h1, h2, ?_⟩
      beta_reduce at *
      rw [hsp, hsc] at h3
      rw [Nat.add_mul]
      omega
    · simp only [if_neg h]
      cases t with
      | builtin b =>
        obtain ⟨h1, h2, h3⟩ := pays_declsLoop exp ts (w.spend (2 + min n.length exp.length))
        rw [List.filter_cons_of_pos (by simp [quiet]), List.length_cons]
        refine ⟨h1, h2, ?_⟩
        beta_reduce at *
        rw [hsp, hsc] at h3
        rw [Nat.add_mul]
        simp only at *
        omega
      | enum e =>
        obtain ⟨k1, k2, k3⟩ := pays_enumDecl e n (w.spend (2 + min n.length exp.length))
        obtain ⟨h1, h2, h3⟩ := pays_declsLoop exp ts (enumDecl e n (w.spend (2 + min n.length exp.length)))
        rw [List.filter_cons_of_neg (by simp [quiet, h])]
        refine ⟨h1.trans k1, h2.trans k2, ?_⟩
        beta_reduce at *
        rw [hsp, hsc] at k3
        simp only at *
        omega
      | struct fs =>
        obtain ⟨k1, k2, k3⟩ := pays_structDecl fs n (w.spend (2 + min n.length exp.length))
        obtain ⟨h1, h2, h3⟩ := pays_declsLoop exp ts (structDecl fs n (w.spend (2 + min n.length exp.length)))
        rw [List.filter_cons_of_neg (by simp [quiet, h])]
        refine ⟨h1.trans k1, h2.trans k2, ?_⟩
        beta_reduce at *
        rw [hsp, hsc] at k3
        simp only at *
        omega

theorem pays_decls {ts : List (Str × (Str × RType))} {exp : Str} (hq : (ts.filter (quiet exp)).length ≤ 9) :
    Pays (declsRun ts exp) (fun _ => 0) (fun _ => 3 * exp.length) := by
  intro w
  obtain ⟨X, hX, hs, hi, ho⟩ : ∃ X, declsRun ts exp w = ((declsLoop exp ts X).popIndent.cat "}\n".toList) ∧
      X.ctx.stack = w.ctx.stack ∧ X.ctx.indentation = w.ctx.indentation ++ "    ".toList ∧
      X.steps + 8 * w.ctx.out.length + 60 + 6 * exp.length ≤ w.steps + 8 * X.ctx.out.length := by
    refine ⟨_, rfl, rfl, rfl, ?_⟩
    lengths
    omega
  obtain ⟨h1, h2, h3⟩ := pays_declsLoop exp ts X
  have hm : (ts.filter (quiet exp)).length * (2 + exp.length) ≤ 9 * (2 + exp.length) := Nat.mul_le_mul_right _ hq
  rw [hX]
  refine ⟨h1.trans hs, ?_, ?_⟩
  · simp only [Run.popIndent, Run.cat, GenCtx.cat, GenCtx.popIndent, h2, hi, pop_push]
  · simp only [Run.popIndent, Run.cat, GenCtx.cat, GenCtx.popIndent, h2, hi, pop_push]
    lengths
    beta_reduce at h3
    omega

theorem pop_one : List.take (if ("    ".toList).length < 4 then 0 else ("    ".toList).length - 4) "    ".toList = [] := rfl

/-- Through the constructor, to the body of `read`. -/
theorem head_pays (name : Str) {w : Run} (hs : w.ctx.stack = []) (hi : w.ctx.indentation = "    ".toList ++ "    ".toList) {X : Run}
    (hX : ((((((w.popIndent.cat ") {}\n".toList).pushFname "output".toList).cat ("static read(data: ArrayBuffer): ".toList ++ name ++ " | null {\n".toList)).pushIndent.cat
      "let reader = new Reader(data);\n".toList).cat ("let output = Object.create(".toList ++ name ++ ");\n".toList))) = X) :
    X.ctx.stack = ["output".toList] ∧ X.ctx.indentation = "    ".toList ++ "    ".toList ∧
      X.steps + 8 * w.ctx.out.length + 60 + 8 * name.length ≤ w.steps + 8 * X.ctx.out.length := by
  subst hX
  simp only [Run.popIndent, Run.cat, Run.pushFname, Run.pushIndent, GenCtx.cat, GenCtx.popIndent, GenCtx.pushFname, GenCtx.pushIndent, hs, hi, pop_push]
  refine ⟨rfl, trivial, ?_⟩
  lengths
  omega

/-- From the body of `read` to the body of `write`. -/
theorem mid_pays {w : Run} (hs : w.ctx.stack = ["output".toList]) (hi : w.ctx.indentation = "    ".toList ++ "    ".toList) {X : Run}
    (hX : (((((((w.cat "if (reader.failed) return null;\n".toList).cat "return output;\n".toList).popIndent.cat "}\n".toList).popFname.pushFname "this".toList).cat
      "write(buffer?: ArrayBuffer): ArrayBuffer {\n".toList).pushIndent).cat "let writer = buffer ? new Writer(buffer) : new Writer();\n".toList) = X) :
    X.ctx.stack = ["this".toList] ∧ X.ctx.indentation = "    ".toList ++ "    ".toList ∧
      X.steps + 8 * w.ctx.out.length + 60 ≤ w.steps + 8 * X.ctx.out.length := by
  subst hX
  simp only [Run.popIndent, Run.cat, Run.pushFname, Run.popFname, Run.pushIndent, GenCtx.cat, GenCtx.popIndent, GenCtx.pushFname, GenCtx.popFname, GenCtx.pushIndent, hs, hi, pop_push]
  refine ⟨rfl, trivial, ?_⟩
  lengths
  omega

/-- After the body of `write`. -/
theorem tail_pays {w : Run} (hi : w.ctx.indentation = "    ".toList ++ "    ".toList) {X : Run}
    (hX : ((((w.cat "return writer.finish();\n".toList).popIndent.cat "}\n".toList).popFname.popIndent).cat "}\n".toList) = X) :
    X.steps + 8 * w.ctx.out.length ≤ w.steps + 8 * X.ctx.out.length := by
  subst hX
  simp only [Run.popIndent, Run.cat, Run.popFname, GenCtx.cat, GenCtx.popIndent, GenCtx.popFname, hi, pop_push, pop_one]
  lengths
  omega

theorem impl_pays {e : Export} (hb : BoundsOkFs e.fields) (out : Str) (n : Nat) :
    (implRun e ⟨GenCtx.new out, n⟩).steps + 8 * out.length + 20 + 8 * e.name.length ≤ n + 8 * (implRun e ⟨GenCtx.new out, n⟩).ctx.out.length := by
  obtain ⟨A, hA, hAs, hAi, hAo⟩ : ∃ A, (((Run.mk (GenCtx.new out) n).cat ("export class ".toList ++ e.name ++ " {\n".toList)).pushIndent.cat "constructor(\n".toList).pushIndent = A ∧
      A.ctx.stack = [] ∧ A.ctx.indentation = "    ".toList ++ "    ".toList ∧ A.steps + 8 * out.length + 20 ≤ n + 8 * A.ctx.out.length := by
    refine ⟨_, rfl, rfl, rfl, ?_⟩
    simp only [GenCtx.new]
    lengths
    omega
  obtain ⟨a1, a2, a3⟩ := pays_ctorFields e.name e.fields A
  obtain ⟨B, hB⟩ : ∃ B, _ = B := ⟨_, rfl⟩
  obtain ⟨hBs, hBi, hBo⟩ := head_pays e.name (a1.trans hAs) (a2.trans hAi) hB
  obtain ⟨b1, b2, b3⟩ := pays_readStructWith false (pays_readFields e.fields hb) B
  obtain ⟨C, hC⟩ : ∃ C, _ = C := ⟨_, rfl⟩
  obtain ⟨hCs, hCi, hCo⟩ := mid_pays (b1.trans hBs) (b2.trans hBi) hC
  obtain ⟨c1, c2, c3⟩ := pays_writeStruct e.fields C
  obtain ⟨D, hD⟩ : ∃ D, _ = D := ⟨_, rfl⟩
  have hDo := tail_pays (c2.trans hCi) hD
  have e : implRun e ⟨GenCtx.new out, n⟩ = D := by
    rw [← hD, ← hC, ← hB, ← hA]
    rfl
  rw [e]
  simp only [Bool.false_eq_true, if_false, hBs] at b3
  have hj : J ["output".toList] = 6 := rfl
  rw [hj] at b3
  beta_reduce at *
  omega

/-! ### Every character takes a step -/

/-- From `w` to `w'` there is at least one step for each new character. -/
def Le (w w' : Run) : Prop := w'.ctx.out.length + w.steps ≤ w'.steps + w.ctx.out.length

/-- `g` takes at least one step for each new character. -/
def Writes (g : Run → Run) : Prop := ∀ w w', Le w w' → Le w (g w')

theorem Le.refl (w : Run) : Le w w := by unfold Le; omega

theorem Le.spend {w w' : Run} (n : Nat) (h : Le w w') : Le w (w'.spend n) := by
  unfold Le at *; simp only [Run.spend]; omega
theorem Le.pushIndent {w w' : Run} (h : Le w w') : Le w w'.pushIndent := by
  unfold Le at *; simp only [Run.pushIndent, GenCtx.pushIndent]; omega
theorem Le.popIndent {w w' : Run} (h : Le w w') : Le w w'.popIndent := by
  unfold Le at *; simp only [Run.popIndent, GenCtx.popIndent]; omega
theorem Le.pushFname {w w' : Run} (n : Str) (h : Le w w') : Le w (w'.pushFname n) := by
  unfold Le at *; simp only [Run.pushFname, GenCtx.pushFname]; omega
theorem Le.popFname {w w' : Run} (h : Le w w') : Le w w'.popFname := by
  unfold Le at *; simp only [Run.popFname, GenCtx.popFname]; omega
theorem Le.setStack {w w' : Run} (n : List Str) (h : Le w w') : Le w (w'.setStack n) := by
  unfold Le at *; simp only [Run.setStack, GenCtx.setStack]; omega
theorem Le.cat {w w' : Run} (s : Str) (h : Le w w') : Le w (w'.cat s) := by
  unfold Le at *; simp only [Run.cat, GenCtx.cat, List.length_append]; omega
theorem Le.panic {w w' : Run} (h : Le w w') : Le w w'.panic := by
  unfold Le at *; simp only [Run.panic, GenCtx.panic]; omega

/-- Go back through the operations. -/
macro "peel" : tactic => `(tactic| with_reducible repeat (first | (assumption) | (exact Le.refl _) | (refine Le.cat _ ?_) | (refine Le.spend _ ?_) | (refine Le.pushIndent ?_) | (refine Le.popIndent ?_) | (refine Le.pushFname _ ?_) | (refine Le.popFname ?_) | (refine Le.setStack _ ?_)))

theorem writes_writeOptional {g} (hb : Writes g) : Writes (writeOptional g) := by
  intro w w' h
  simp only [writeOptional]
  peel
  refine hb _ _ ?_
  peel

theorem writes_writeArray {g} (hb : Writes g) : Writes (writeArray g) := by
  intro w w' h
  simp only [writeArray]
  peel
  refine hb _ _ ?_
  peel

mutual
theorem writes_writeStruct : (fs : List (FieldOf RType)) → Writes (writeStruct fs)
  | [], w, w', h => by
    rw [writeStruct]
    peel
  | f :: fs, w, w', h => by
    rw [writeStruct]
    exact writes_writeStruct fs _ _ (writes_writeField f _ _ h)
theorem writes_writeField : (f : FieldOf RType) → Writes (writeField f)
  | ⟨n, tn, t, a, o⟩, w, w', h => by
    have ht := writes_writeType tn t
    have ha : Writes (if a = true then writeArray (writeType tn t) else writeType tn t) := by
      cases a
      · exact ht
      · exact writes_writeArray ht
    have ho : Writes (if o = true then writeOptional (if a = true then writeArray (writeType tn t) else writeType tn t) else
          (if a = true then writeArray (writeType tn t) else writeType tn t)) := by
      cases o
      · exact ha
      · exact writes_writeOptional ha
    rw [writeField]
    refine Le.popFname (ho _ _ ?_)
    peel
theorem writes_writeType (tn : Str) : (t : RType) → Writes (writeType tn t)
  | .builtin b, w, w', h => by
    rw [writeType]
    cases b <;> simp only [writeBuiltin] <;> peel
  | .enum e, w, w', h => by
    rw [writeType]
    simp only [writeEnum]
    peel
  | .struct fs, w, w', h => by
    rw [writeType]
    exact writes_writeStruct fs _ _ h
end

theorem writes_readOptional {g} (hb : Writes g) : Writes (readOptional g) := by
  intro w w' h
  simp only [readOptional]
  peel
  refine hb _ _ ?_
  peel

theorem writes_readArray (i : Bool) {g} (hb : Writes g) : Writes (readArray i g) := by
  intro w w' h
  simp only [readArray]
  peel
  refine hb _ _ ?_
  peel

theorem writes_readStructWith (init : Bool) {g} (hb : Writes g) : Writes (readStructWith init g) := by
  intro w w' h
  cases init
  · exact hb _ _ (Le.spend _ h)
  · simp only [readStructWith, if_true]
    peel
    refine hb _ _ ?_
    peel

mutual
theorem writes_readFields : (fs : List (FieldOf RType)) → Writes (readFields fs)
  | [], w, w', h => by
    rw [readFields]
    peel
  | f :: fs, w, w', h => by
    rw [readFields]
    exact writes_readFields fs _ _ (writes_readField f _ _ h)
theorem writes_readField : (f : FieldOf RType) → Writes (readField f)
  | ⟨n, tn, t, a, o⟩, w, w', h => by
    have ht := writes_readType (!a) tn t
    have ha : ∀ i, Writes (if a = true then readArray i (readType (!a) tn t) else readType (!a) tn t) := by
      intro i
      cases a
      · exact ht
      · exact writes_readArray i ht
    have ho : ∀ i, Writes (if o = true then readOptional (if a = true then readArray i (readType (!a) tn t) else readType (!a) tn t) else
          (if a = true then readArray i (readType (!a) tn t) else readType (!a) tn t)) := by
      intro i
      cases o
      · exact ha i
      · exact writes_readOptional (ha i)
    unfold readField
    refine Le.popFname (ho _ _ _ ?_)
    peel
theorem writes_readType (init : Bool) (tn : Str) : (t : RType) → Writes (readType init tn t)
  | .builtin b, w, w', h => by
    rw [readType]
    cases b <;> simp only [readBuiltin] <;> peel
  | .enum e, w, w', h => by
    rw [readType]
    unfold readEnum
    cases enumBounds e.variants with
    | none => exact Le.panic h
    | some p =>
      simp only
      peel
  | .struct fs, w, w', h => by
    rw [readType]
    exact writes_readStructWith init (writes_readFields fs) _ _ h
end

theorem writes_ctorFields (exp : Str) : (fs : List RField) → Writes (ctorFields exp fs)
  | [], w, w', h => Le.spend _ h
  | f :: fs, w, w', h => writes_ctorFields exp fs _ _ (Le.cat _ (Le.spend _ h))

theorem writes_impl (e : Export) : Writes (implRun e) := by
  intro w w' h
  simp only [implRun]
  peel
  refine writes_writeStruct _ _ _ ?_
  peel
  simp only [readStruct]
  refine writes_readStructWith false (writes_readFields e.fields) _ _ ?_
  peel
  refine writes_ctorFields _ _ _ _ ?_
  peel

theorem writes_structDeclFields : (fs : List RField) → Writes (structDeclFields fs)
  | [], w, w', h => Le.spend _ h
  | f :: fs, w, w', h => writes_structDeclFields fs _ _ (Le.cat _ (Le.spend _ h))

theorem writes_enumDeclVariants : (vs : List EnumVariant) → Writes (enumDeclVariants vs)
  | [], w, w', h => Le.spend _ h
  | v :: vs, w, w', h => writes_enumDeclVariants vs _ _ (Le.cat _ (Le.spend _ h))

theorem writes_structDecl (fs : List RField) (n : Str) : Writes (structDecl fs n) := by
  intro w w' h
  simp only [structDecl]
  peel
  refine writes_structDeclFields _ _ _ ?_
  peel

theorem writes_enumDecl (e : REnum) (n : Str) : Writes (enumDecl e n) := by
  intro w w' h
  simp only [enumDecl]
  peel
  refine writes_enumDeclVariants _ _ _ ?_
  peel

theorem writes_declsLoop (exp : Str) : (ts : List (Str × (Str × RType))) → Writes (declsLoop exp ts)
  | [], w, w', h => Le.spend _ h
  | (n, m, t) :: ts, w, w', h => by
    rw [declsLoop]
    by_cases hn : n = exp
    · simp only [if_pos hn]
      exact writes_declsLoop exp ts _ _ (Le.spend _ h)
    · simp only [if_neg hn]
      cases t with
      | builtin b => exact writes_declsLoop exp ts _ _ (Le.spend _ h)
      | enum e => exact writes_declsLoop exp ts _ _ (writes_enumDecl e n _ _ (Le.spend _ h))
      | struct fs => exact writes_declsLoop exp ts _ _ (writes_structDecl fs n _ _ (Le.spend _ h))

theorem writes_decls (ts : List (Str × (Str × RType))) (exp : Str) : Writes (declsRun ts exp) := by
  intro w w' h
  simp only [declsRun]
  peel
  refine writes_declsLoop _ _ _ _ ?_
  peel

/-- The generator takes at least one step for each character. -/
theorem generate_writes {version now : Str} {ord : TypeMap → TypeMap} {r : Resolved} {code : Str} (h : generate version now ord r = some code) :
    code.length ≤ (generateRun version now ord r).2 := by
  rw [← same_generate] at h
  unfold generateRun at h ⊢
  simp only at h ⊢
  split at h
  · cases h
  · cases h
    have h1 := writes_decls (ord r.types) r.export.name _ _ (Le.refl ⟨GenCtx.new (genMeta version now ++ genCommon), 2 * (genMeta version now ++ genCommon).length⟩)
    have h2 := writes_impl r.export _ _ (Le.refl ⟨GenCtx.new (declsRun (ord r.types) r.export.name
      ⟨GenCtx.new (genMeta version now ++ genCommon), 2 * (genMeta version now ++ genCommon).length⟩).ctx.out, (declsRun (ord r.types) r.export.name
      ⟨GenCtx.new (genMeta version now ++ genCommon), 2 * (genMeta version now ++ genCommon).length⟩).steps⟩)
    unfold Le at h1 h2
    simp only [GenCtx.new] at h1 h2 ⊢
    omega

/-- The generator takes at most eight steps for each character. -/
theorem generate_pays {version now : Str} {ord : TypeMap → TypeMap} {r : Resolved} {code : Str} (hb : BoundsOkFs r.export.fields)
    (hq : ((ord r.types).filter (quiet r.export.name)).length ≤ 9) (h : generate version now ord r = some code) :
    (generateRun version now ord r).2 ≤ 8 * code.length := by
  rw [← same_generate] at h
  unfold generateRun at h ⊢
  simp only at h ⊢
  split at h
  · cases h
  · cases h
    obtain ⟨-, -, h1⟩ := pays_decls hq ⟨GenCtx.new (genMeta version now ++ genCommon), 2 * (genMeta version now ++ genCommon).length⟩
    have h2 := impl_pays hb (declsRun (ord r.types) r.export.name
      ⟨GenCtx.new (genMeta version now ++ genCommon), 2 * (genMeta version now ++ genCommon).length⟩).ctx.out (declsRun (ord r.types) r.export.name
      ⟨GenCtx.new (genMeta version now ++ genCommon), 2 * (genMeta version now ++ genCommon).length⟩).steps
    simp only [GenCtx.new] at h1 h2 ⊢
    omega

end Packetc.GenW
