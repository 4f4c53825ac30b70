import Verif.Model.RustGenWork
import Verif.Spec.Idle
import Verif.Proof.GenWork
/-!
# The steps of the Rust generator

First: the contexts of `Model/RustGenWork` are those of `Model/Rust`. Then: every step is paid for by the characters that are written, or by the name of a hollow field.
-/

namespace Packetc.RustGenW
open Check
open Gen (GenCtx varname fname bindname showInt i32Shl1 reprName)
open GenW (Run joinSteps varSteps Same J fname_length bindname_length varname_length joinSteps_le varSteps_le J_single pop_push Le Writes)
open RustGen (reprType resolveTypename structFieldTypename fieldTypename genWriteOptional genWriteArray genWriteBuiltin genWriteEnum genWriteStruct genWriteField genWriteType
  genWriteImpl genReadOptional genReadArray genReadBuiltin genReadEnum genReadStruct genReadField genReadType genReadImpl genDefFields genDefStruct genEnumDefault genArms
  genEnumTryFrom genDefVariants genDefEnum part defPart defParts rustFile)

/-! ### The same contexts -/

theorem same_writeOptional (b : Bool) {g h} (hb : Same g h) : Same (writeOptional b g) (genWriteOptional b h) := by
  intro w
  simp only [writeOptional, genWriteOptional, Run.spend, Run.setStack, Run.pushFname, Run.cat, Run.pushIndent, Run.popIndent, hb _]

theorem same_writeArray {g h} (hb : Same g h) : Same (writeArray g) (genWriteArray h) := by
  intro w
  simp only [writeArray, genWriteArray, Run.spend, Run.setStack, Run.pushFname, Run.cat, Run.pushIndent, Run.popIndent, hb _]

theorem same_writeBuiltin (b : Builtin) (n : Str) : Same (writeBuiltin b n) (genWriteBuiltin b n) := by
  intro w
  cases b <;> rfl

theorem same_writeEnum (e : REnum) : Same (writeEnum e) (genWriteEnum e) := fun _ => rfl

mutual
theorem same_writeStruct : (fs : List (FieldOf RType)) → Same (writeStruct fs) (genWriteStruct fs)
  | [], w => by rw [writeStruct, genWriteStruct]; rfl
  | f :: fs, w => by rw [writeStruct, genWriteStruct, same_writeStruct fs, same_writeField f]
theorem same_writeField : (f : FieldOf RType) → Same (writeField f) (genWriteField f)
  | ⟨n, tn, t, a, o⟩, w => by
    have ht := same_writeType tn t
    have ha : Same (if a = true then writeArray (writeType tn t) else writeType tn t)
        (if a = true then genWriteArray (genWriteType tn t) else genWriteType tn t) := by
      cases a
      · exact ht
      · exact same_writeArray ht
    have ho : ∀ b, Same (if o = true then writeOptional b (if a = true then writeArray (writeType tn t) else writeType tn t) else
          (if a = true then writeArray (writeType tn t) else writeType tn t))
        (if o = true then genWriteOptional b (if a = true then genWriteArray (genWriteType tn t) else genWriteType tn t) else
          (if a = true then genWriteArray (genWriteType tn t) else genWriteType tn t)) := by
      intro b
      cases o
      · exact ha
      · exact same_writeOptional b ha
    unfold writeField genWriteField
    show GenCtx.popFname (Run.ctx _) = _
    rw [ho]
    rfl
theorem same_writeType (tn : Str) : (t : RType) → Same (writeType tn t) (genWriteType tn t)
  | .builtin b, w => by rw [writeType, genWriteType]; exact same_writeBuiltin b tn w
  | .enum e, w => by rw [writeType, genWriteType]; exact same_writeEnum e w
  | .struct fs, w => by rw [writeType, genWriteType]; exact same_writeStruct fs w
end

theorem same_writeImpl (e : Export) (n : Str) : Same (writeImpl e n) (genWriteImpl e n) := by
  intro w
  simp only [writeImpl, genWriteImpl, Run.pushFname, Run.cat, Run.pushIndent, Run.popIndent, same_writeStruct _ _]

theorem same_readOptional (n : Str) {g h} (hb : Same g h) : Same (readOptional n g) (genReadOptional n h) := by
  intro w
  simp only [readOptional, genReadOptional, Run.spend, Run.setStack, Run.pushFname, Run.cat, Run.pushIndent, Run.popIndent, hb _]

theorem same_readArray (n : Str) {g h} (hb : Same g h) : Same (readArray n g) (genReadArray n h) := by
  intro w
  simp only [readArray, genReadArray, Run.spend, Run.setStack, Run.pushFname, Run.cat, Run.pushIndent, Run.popIndent, hb _]

theorem same_readBuiltin (b : Builtin) (n : Str) : Same (readBuiltin b n) (genReadBuiltin b n) := by
  intro w
  cases b <;> rfl

theorem same_readEnum (e : REnum) (n : Str) : Same (readEnum e n) (genReadEnum e n) := fun _ => rfl

mutual
theorem same_readStruct : (fs : List (FieldOf RType)) → Same (readStruct fs) (genReadStruct fs)
  | [], w => by rw [readStruct, genReadStruct]; rfl
  | f :: fs, w => by rw [readStruct, genReadStruct, same_readStruct fs, same_readField f]
theorem same_readField : (f : FieldOf RType) → Same (readField f) (genReadField f)
  | ⟨n, tn, t, a, o⟩, w => by
    have ht := same_readType tn t
    have ha : ∀ m, Same (if a = true then readArray m (readType tn t) else readType tn t)
        (if a = true then genReadArray m (genReadType tn t) else genReadType tn t) := by
      intro m
      cases a
      · exact ht
      · exact same_readArray m ht
    have ho : ∀ m, Same (if o = true then readOptional m (if a = true then readArray m (readType tn t) else readType tn t) else
          (if a = true then readArray m (readType tn t) else readType tn t))
        (if o = true then genReadOptional m (if a = true then genReadArray m (genReadType tn t) else genReadType tn t) else
          (if a = true then genReadArray m (genReadType tn t) else genReadType tn t)) := by
      intro m
      cases o
      · exact ha m
      · exact same_readOptional m (ha m)
    rw [readField, genReadField]
    show GenCtx.popFname (Run.ctx _) = _
    rw [ho]
    rfl
theorem same_readType (tn : Str) : (t : RType) → Same (readType tn t) (genReadType tn t)
  | .builtin b, w => by rw [readType, genReadType]; exact same_readBuiltin b tn w
  | .enum e, w => by rw [readType, genReadType]; exact same_readEnum e tn w
  | .struct fs, w => by rw [readType, genReadType]; exact same_readStruct fs w
end

theorem same_readImpl (e : Export) (n : Str) : Same (readImpl e n) (genReadImpl e n) := by
  intro w
  simp only [readImpl, genReadImpl, Run.pushFname, Run.cat, Run.pushIndent, Run.popIndent, same_readStruct _ _]

theorem same_defFields : (fs : List (FieldOf RType)) → Same (defFields fs) (genDefFields fs)
  | [], w => rfl
  | f :: fs, w => by rw [defFields, genDefFields, same_defFields fs]; rfl

theorem same_defStruct (fs : List (FieldOf RType)) (n : Str) : Same (defStruct fs n) (genDefStruct fs n) := by
  intro w
  simp only [defStruct, genDefStruct, Run.cat, Run.pushIndent, Run.popIndent, same_defFields _ _]

theorem same_enumDefault (n : Str) (e : REnum) : Same (enumDefault n e) (genEnumDefault n e) := by
  intro w
  unfold enumDefault genEnumDefault
  cases e.variants.head? <;> rfl

theorem same_arms (n : Str) : (vs : List EnumVariant) → Same (arms n vs) (genArms n vs)
  | [], w => rfl
  | v :: vs, w => by
    rw [arms, genArms]
    cases i32Shl1 v.value with
    | none => rfl
    | some x => simp only [same_arms n vs _]; rfl

theorem same_enumTryFrom (n : Str) (e : REnum) : Same (enumTryFrom n e) (genEnumTryFrom n e) := by
  intro w
  simp only [enumTryFrom, genEnumTryFrom, Run.cat, Run.pushIndent, Run.popIndent, same_arms _ _ _]

theorem same_defVariants : (vs : List EnumVariant) → Same (defVariants vs) (genDefVariants vs)
  | [], w => rfl
  | v :: vs, w => by rw [defVariants, genDefVariants, same_defVariants vs]; rfl

theorem same_defEnum (e : REnum) (n : Str) : Same (defEnum e n) (genDefEnum e n) := by
  intro w
  simp only [defEnum, genDefEnum, Run.cat, Run.pushIndent, Run.popIndent, same_defVariants _ _, same_enumDefault _ _ _, same_enumTryFrom _ _ _]

theorem same_part {g : Run → Run} {h : GenCtx → GenCtx} (hs : Same g h) : (partRun g).1 = part h := by
  simp only [partRun, part, hs _]

theorem same_def (d : Str × (Str × RType)) : (defRun d).1 = defPart d := by
  obtain ⟨n, m, t⟩ := d
  cases t with
  | builtin b => rfl
  | enum e => exact same_part (same_defEnum e n)
  | struct fs => exact same_part (same_defStruct fs n)

theorem same_defs : (ds : TypeMap) → (defsRun ds).1 = defParts ds
  | [] => rfl
  | d :: ds => by rw [defsRun, defParts, same_def, same_defs ds]

/-- The generator with the counter emits what the generator emits. -/
theorem same_file (r : Resolved) : (fileRun r).1 = rustFile r := by
  unfold fileRun rustFile
  rw [same_defs, same_part (same_writeImpl _ _), same_part (same_readImpl _ _)]

/-! ### Every step is paid for -/

theorem J_push : (stack : List Str) → stack ≠ [] → (n : Str) → J (stack ++ [n]) = J stack + 1 + n.length
  | [], h, n => absurd rfl h
  | [x], _, n => by
    show (x ++ "_".toList ++ n).length = x.length + 1 + n.length
    simp only [List.length_append]
    rfl
  | x :: y :: l, _, n => by
    have := J_push (y :: l) (by simp) n
    simp only [J, bindname, List.cons_append, joinWith, List.length_append] at this ⊢
    omega

/-- The stack and the indentation are restored, and the steps, with `c` for each character of the joined stack, are at most 24 for each new character, with `d`. -/
def Pays (g : Run → Run) (c d : Nat) : Prop :=
  ∀ w, w.ctx.stack ≠ [] → (g w).ctx.stack = w.ctx.stack ∧ (g w).ctx.indentation = w.ctx.indentation ∧
    (g w).steps + 24 * w.ctx.out.length + c * J w.ctx.stack ≤ w.steps + 24 * (g w).ctx.out.length + d

theorem pays_writeOptional (b : Bool) {g : Run → Run} {c d : Nat} (hb : Pays g c d) : Pays (writeOptional b g) 16 d := by
  intro w _
  obtain ⟨X, hX, hs, hi, ho⟩ : ∃ X, writeOptional b g w = (((g X).popIndent.cat "}\n".toList).popIndent.cat "}\n".toList).setStack w.ctx.stack ∧
      X.ctx.stack = [bindname w.ctx.stack] ∧ X.ctx.indentation = w.ctx.indentation ++ "    ".toList ++ "    ".toList ∧
      X.steps + 24 * w.ctx.out.length + 16 * J w.ctx.stack + 20 ≤ w.steps + 24 * X.ctx.out.length := by
    refine ⟨_, rfl, rfl, rfl, ?_⟩
    have := joinSteps_le w.ctx.stack
    generalize (if b = true then "&".toList else []) = z
    lengths
    omega
  obtain ⟨h1, h2, h3⟩ := hb X (by rw [hs]; simp)
  rw [hX]
  refine ⟨rfl, ?_, ?_⟩
  · simp only [Run.setStack, GenCtx.setStack, Run.popIndent, Run.cat, GenCtx.cat, GenCtx.popIndent, h2, hi, pop_push]
  · simp only [Run.setStack, GenCtx.setStack, Run.popIndent, Run.cat, GenCtx.cat, GenCtx.popIndent, h2, hi, pop_push]
    lengths
    omega

theorem pays_writeArray {g : Run → Run} {c d : Nat} (hb : Pays g c d) : Pays (writeArray g) 16 d := by
  intro w _
  obtain ⟨X, hX, hs, hi, ho⟩ : ∃ X, writeArray g w = ((g X).popIndent.cat "}\n".toList).setStack w.ctx.stack ∧
      X.ctx.stack = [varname w.ctx.stack "item".toList] ∧ X.ctx.indentation = w.ctx.indentation ++ "    ".toList ∧
      X.steps + 24 * w.ctx.out.length + 16 * J w.ctx.stack + 20 ≤ w.steps + 24 * X.ctx.out.length := by
    refine ⟨_, rfl, rfl, rfl, ?_⟩
    have := joinSteps_le w.ctx.stack
    have : varSteps w.ctx.stack "item".toList ≤ 3 * J w.ctx.stack + 7 := varSteps_le w.ctx.stack "item".toList
    generalize varSteps w.ctx.stack "item".toList = s1 at *
    lengths
    omega
  obtain ⟨h1, h2, h3⟩ := hb X (by rw [hs]; simp)
  rw [hX]
  refine ⟨rfl, ?_, ?_⟩
  · simp only [Run.setStack, GenCtx.setStack, Run.popIndent, Run.cat, GenCtx.cat, GenCtx.popIndent, h2, hi, pop_push]
  · simp only [Run.setStack, GenCtx.setStack, Run.popIndent, Run.cat, GenCtx.cat, GenCtx.popIndent, h2, hi, pop_push]
    lengths
    omega

theorem pays_writeBuiltin (b : Builtin) (n : Str) : Pays (writeBuiltin b n) 16 0 := by
  intro w _
  have := joinSteps_le w.ctx.stack
  cases b <;> refine ⟨rfl, rfl, ?_⟩ <;> simp only [writeBuiltin] <;> lengths <;> omega

theorem pays_writeEnum (e : REnum) : Pays (writeEnum e) 16 0 := by
  intro w _
  have := joinSteps_le w.ctx.stack
  refine ⟨rfl, rfl, ?_⟩
  simp only [writeEnum]
  lengths
  omega

/-- What is paid for each character of the joined stack. -/
def rate (h : Bool) : Nat := if h = true then 0 else 16

theorem rate_le (h : Bool) : rate h ≤ 16 := by cases h <;> decide

/-- A field around a type: what the functions for `write` and `read` have in common. -/
theorem pays_field {g : Run → Run} {n : Str} {t : RType} {a o : Bool} {w X Y : Run}
    (hs0 : w.ctx.stack ≠ []) (hg : Pays g (rate (!a && !o && hollowT t)) (16 * idleT t + 1)) (hY : Y = (g X).popFname)
    (hs : X.ctx.stack = w.ctx.stack ++ [n]) (hi : X.ctx.indentation = w.ctx.indentation) (ho : X.ctx.out = w.ctx.out) (hn : X.steps ≤ w.steps + 13 + n.length) :
    Y.ctx.stack = w.ctx.stack ∧ Y.ctx.indentation = w.ctx.indentation ∧
      Y.steps + 24 * w.ctx.out.length + rate (!a && !o && hollowT t) * J w.ctx.stack ≤ w.steps + 24 * Y.ctx.out.length +
        16 * ((if (!a && !o && hollowT t) = true then n.length + 1 else 0) + idleT t) := by
  obtain ⟨h1, h2, h3⟩ := hg X (by rw [hs]; simp)
  subst hY
  refine ⟨?_, ?_, ?_⟩
  · simp only [Run.popFname, GenCtx.popFname, h1, hs, List.dropLast_concat]
  · simp only [Run.popFname, GenCtx.popFname, h2, hi]
  · rw [hs, ho, J_push _ hs0] at h3
    have e1 : (g X).popFname.steps = (g X).steps + 1 := rfl
    have e2 : (g X).popFname.ctx.out = (g X).ctx.out := rfl
    rw [e1, e2]
    generalize (!a && !o && hollowT t) = hol at *
    cases hol with
    | true =>
      simp only [rate, if_true, Nat.zero_mul] at *
      omega
    | false =>
      simp only [rate, Bool.false_eq_true, if_false] at *
      omega

theorem pays_weaken {g : Run → Run} {c d c' d' : Nat} (h : Pays g c d) (hc : c' ≤ c) (hd : d ≤ d') : Pays g c' d' := by
  intro w hw
  obtain ⟨h1, h2, h3⟩ := h w hw
  refine ⟨h1, h2, ?_⟩
  have := Nat.mul_le_mul_right (J w.ctx.stack) hc
  omega

/-- A struct without fields. -/
theorem pays_nil {w Y : Run} (h : Y = w.spend 1) : Y.ctx.stack = w.ctx.stack ∧ Y.ctx.indentation = w.ctx.indentation ∧
    Y.steps + 24 * w.ctx.out.length + 0 * J w.ctx.stack ≤ w.steps + 24 * Y.ctx.out.length + 1 := by
  subst h
  refine ⟨rfl, rfl, ?_⟩
  simp only [Run.spend]
  omega

/-- One field, and then the others. -/
theorem pays_cons {h h' : Bool} {d d' : Nat} {g g' : Run → Run} (k : Pays g (rate h) (16 * d)) (k' : Pays g' (rate h') (16 * d' + 1)) :
    Pays (fun w => g' (g w)) (rate (h && h')) (16 * (d + d') + 1) := by
  intro w hw
  obtain ⟨h1, h2, h3⟩ := k w hw
  obtain ⟨k1, k2, k3⟩ := k' (g w) (by rw [h1]; exact hw)
  refine ⟨k1.trans h1, k2.trans h2, ?_⟩
  rw [h1] at k3
  beta_reduce at *
  cases h <;> cases h' <;> simp only [rate, Bool.and_true, Bool.and_false, Bool.true_and, Bool.false_and, if_true, Bool.false_eq_true, if_false, Nat.zero_mul] at * <;> omega

mutual
theorem pays_writeStruct : (fs : List (FieldOf RType)) → Pays (writeStruct fs) (rate (hollowFs fs)) (16 * idleFs fs + 1)
  | [], w, _ => by
    rw [idleFs, hollowFs]
    exact pays_nil (by rw [writeStruct])
  | f :: fs, w, hw => by
    rw [writeStruct, idleFs, hollowFs]
    exact pays_cons (pays_writeField f) (pays_writeStruct fs) w hw
theorem pays_writeField : (f : FieldOf RType) → Pays (writeField f) (rate (hollowF f)) (16 * idleF f)
  | ⟨n, tn, t, a, o⟩, w, hw => by
    have ht := pays_writeType tn t
    have ha : Pays (if a = true then writeArray (writeType tn t) else writeType tn t) (rate (!a && hollowT t)) (16 * idleT t + 1) := by
      cases a
      · exact ht
      · exact pays_writeArray ht
    have ho : ∀ b, Pays (if o = true then writeOptional b (if a = true then writeArray (writeType tn t) else writeType tn t) else
          (if a = true then writeArray (writeType tn t) else writeType tn t)) (rate (!a && !o && hollowT t)) (16 * idleT t + 1) := by
      intro b
      cases o
      · simpa only [Bool.not_false, Bool.and_true, Bool.false_eq_true, if_false] using ha
      · refine pays_weaken (pays_writeOptional b ha) ?_ (Nat.le_refl _)
        exact rate_le _
    rw [idleF, hollowF]
    refine pays_field (X := ((w.spend 1).pushFname n).spend (1 + (if a = true then 1 else 0) + (if o = true then 1 else 0))) hw (ho _) (by unfold writeField; rfl) rfl rfl rfl ?_
    lengths
    split_ifs <;> omega
theorem pays_writeType (tn : Str) : (t : RType) → Pays (writeType tn t) (rate (hollowT t)) (16 * idleT t + 1)
  | .builtin b, w, hw => by rw [writeType, idleT, hollowT]; exact pays_weaken (pays_writeBuiltin b tn) (rate_le _) (by omega) w hw
  | .enum e, w, hw => by rw [writeType, idleT, hollowT]; exact pays_weaken (pays_writeEnum e) (rate_le _) (by omega) w hw
  | .struct fs, w, hw => by rw [writeType, idleT, hollowT]; exact pays_writeStruct fs w hw
end

theorem pays_readOptional (m : Str) {g : Run → Run} {c d : Nat} (hb : Pays g c d) : Pays (readOptional m g) 16 d := by
  intro w _
  obtain ⟨X, hX, hs, hi, ho⟩ : ∃ X, readOptional m g w =
      (((g X).cat (fname w.ctx.stack ++ " = Some(".toList ++ bindname w.ctx.stack ++ ");\n".toList)).popIndent.cat "}\n".toList).setStack w.ctx.stack ∧
      X.ctx.stack = [bindname w.ctx.stack] ∧ X.ctx.indentation = w.ctx.indentation ++ "    ".toList ∧
      X.steps + 24 * w.ctx.out.length + 16 * J w.ctx.stack + 20 ≤ w.steps + 24 * X.ctx.out.length := by
    refine ⟨_, rfl, rfl, rfl, ?_⟩
    have := joinSteps_le w.ctx.stack
    lengths
    omega
  obtain ⟨h1, h2, h3⟩ := hb X (by rw [hs]; simp)
  rw [hX]
  refine ⟨rfl, ?_, ?_⟩
  · simp only [Run.setStack, GenCtx.setStack, Run.popIndent, Run.cat, GenCtx.cat, GenCtx.popIndent, h2, hi, pop_push]
  · simp only [Run.setStack, GenCtx.setStack, Run.popIndent, Run.cat, GenCtx.cat, GenCtx.popIndent, h2, hi, pop_push]
    lengths
    omega

theorem pays_readArray (m : Str) {g : Run → Run} {c d : Nat} (hb : Pays g c d) : Pays (readArray m g) 16 d := by
  intro w _
  obtain ⟨X, hX, hs, hi, ho⟩ : ∃ X, readArray m g w =
      (((g X).cat (fname w.ctx.stack ++ ".push(".toList ++ varname w.ctx.stack "item".toList ++ ");\n".toList)).popIndent.cat "}\n".toList).setStack w.ctx.stack ∧
      X.ctx.stack = [varname w.ctx.stack "item".toList] ∧ X.ctx.indentation = w.ctx.indentation ++ "    ".toList ∧
      X.steps + 24 * w.ctx.out.length + 16 * J w.ctx.stack + 20 ≤ w.steps + 24 * X.ctx.out.length := by
    refine ⟨_, rfl, rfl, rfl, ?_⟩
    have v0 := joinSteps_le w.ctx.stack
    have v1 : varSteps w.ctx.stack "item".toList ≤ 3 * J w.ctx.stack + 7 := varSteps_le w.ctx.stack "item".toList
    have v3 : varSteps w.ctx.stack "len".toList ≤ 3 * J w.ctx.stack + 6 := varSteps_le w.ctx.stack "len".toList
    generalize varSteps w.ctx.stack "item".toList = s1 at *
    generalize varSteps w.ctx.stack "len".toList = s3 at *
    lengths
    omega
  obtain ⟨h1, h2, h3⟩ := hb X (by rw [hs]; simp)
  rw [hX]
  refine ⟨rfl, ?_, ?_⟩
  · simp only [Run.setStack, GenCtx.setStack, Run.popIndent, Run.cat, GenCtx.cat, GenCtx.popIndent, h2, hi, pop_push]
  · simp only [Run.setStack, GenCtx.setStack, Run.popIndent, Run.cat, GenCtx.cat, GenCtx.popIndent, h2, hi, pop_push]
    lengths
    omega

theorem pays_readBuiltin (b : Builtin) (n : Str) : Pays (readBuiltin b n) 16 0 := by
  intro w _
  have := joinSteps_le w.ctx.stack
  have : varSteps w.ctx.stack "len".toList ≤ 3 * J w.ctx.stack + 6 := varSteps_le w.ctx.stack "len".toList
  simp only [String.reduceToList] at this
  cases b <;> refine ⟨rfl, rfl, ?_⟩ <;> simp only [readBuiltin] <;> lengths <;> omega

theorem pays_readEnum (e : REnum) (n : Str) : Pays (readEnum e n) 16 0 := by
  intro w _
  have := joinSteps_le w.ctx.stack
  refine ⟨rfl, rfl, ?_⟩
  simp only [readEnum]
  lengths
  omega

mutual
theorem pays_readStruct : (fs : List (FieldOf RType)) → Pays (readStruct fs) (rate (hollowFs fs)) (16 * idleFs fs + 1)
  | [], w, _ => by
    rw [idleFs, hollowFs]
    exact pays_nil (by rw [readStruct])
  | f :: fs, w, hw => by
    rw [readStruct, idleFs, hollowFs]
    exact pays_cons (pays_readField f) (pays_readStruct fs) w hw
theorem pays_readField : (f : FieldOf RType) → Pays (readField f) (rate (hollowF f)) (16 * idleF f)
  | ⟨n, tn, t, a, o⟩, w, hw => by
    have ht := pays_readType tn t
    have ha : ∀ m, Pays (if a = true then readArray m (readType tn t) else readType tn t) (rate (!a && hollowT t)) (16 * idleT t + 1) := by
      intro m
      cases a
      · exact ht
      · exact pays_readArray m ht
    have ho : ∀ m, Pays (if o = true then readOptional m (if a = true then readArray m (readType tn t) else readType tn t) else
          (if a = true then readArray m (readType tn t) else readType tn t)) (rate (!a && !o && hollowT t)) (16 * idleT t + 1) := by
      intro m
      cases o
      · simpa only [Bool.not_false, Bool.and_true, Bool.false_eq_true, if_false] using ha m
      · refine pays_weaken (pays_readOptional m (ha m)) ?_ (Nat.le_refl _)
        exact rate_le _
    rw [idleF, hollowF]
    refine pays_field (X := ((w.spend 1).pushFname n).spend (9 + (if a = true then 1 else 0) + (if o = true then 1 else 0))) hw (ho ((resolveTypename tn).getD tn))
      (by rw [readField]) rfl rfl rfl ?_
    lengths
    split_ifs <;> omega
theorem pays_readType (tn : Str) : (t : RType) → Pays (readType tn t) (rate (hollowT t)) (16 * idleT t + 1)
  | .builtin b, w, hw => by rw [readType, idleT, hollowT]; exact pays_weaken (pays_readBuiltin b tn) (rate_le _) (by omega) w hw
  | .enum e, w, hw => by rw [readType, idleT, hollowT]; exact pays_weaken (pays_readEnum e tn) (rate_le _) (by omega) w hw
  | .struct fs, w, hw => by rw [readType, idleT, hollowT]; exact pays_readStruct fs w hw
end

theorem pop_one : List.take (if ([] ++ "    ".toList : Str).length < 4 then 0 else ([] ++ "    ".toList : Str).length - 4) ([] ++ "    ".toList) = ([] : Str) := rfl

theorem writeImpl_pays (e : Export) : (partRun (writeImpl e e.name)).2 ≤ 24 * (writeImpl e e.name ⟨GenCtx.new [], 0⟩).ctx.out.length + 16 * idleFs e.fields := by
  obtain ⟨X, hX, hs, hi, ho⟩ : ∃ X, writeImpl e e.name ⟨GenCtx.new [], 0⟩ = ((writeStruct e.fields X).popIndent.cat "}\n".toList) ∧
      X.ctx.stack = ["input".toList] ∧ X.ctx.indentation = [] ++ "    ".toList ∧ X.steps + 20 ≤ 24 * X.ctx.out.length := by
    refine ⟨_, rfl, rfl, rfl, ?_⟩
    simp only [GenCtx.new]
    lengths
    omega
  obtain ⟨h1, h2, h3⟩ := pays_writeStruct e.fields X (by rw [hs]; simp)
  unfold partRun
  rw [hX]
  simp only [Run.popIndent, Run.cat, GenCtx.cat, GenCtx.popIndent, h2, hi, pop_one]
  lengths
  omega

theorem readImpl_pays (e : Export) : (partRun (readImpl e e.name)).2 ≤ 24 * (readImpl e e.name ⟨GenCtx.new [], 0⟩).ctx.out.length + 16 * idleFs e.fields := by
  obtain ⟨X, hX, hs, hi, ho⟩ : ∃ X, readImpl e e.name ⟨GenCtx.new [], 0⟩ = (((readStruct e.fields X).cat "Ok(())\n".toList).popIndent.cat "}\n".toList) ∧
      X.ctx.stack = ["output".toList] ∧ X.ctx.indentation = [] ++ "    ".toList ∧ X.steps + 20 ≤ 24 * X.ctx.out.length := by
    refine ⟨_, rfl, rfl, rfl, ?_⟩
    simp only [GenCtx.new]
    lengths
    omega
  obtain ⟨h1, h2, h3⟩ := pays_readStruct e.fields X (by rw [hs]; simp)
  unfold partRun
  rw [hX]
  simp only [Run.popIndent, Run.cat, GenCtx.cat, GenCtx.popIndent, h2, hi, pop_one]
  lengths
  omega

/-! ### Definitions -/

/-- The indentation is restored, and the steps are at most 24 for each new character, with `d`. -/
def Cheap (g : Run → Run) (d : Nat) : Prop :=
  ∀ w, (g w).ctx.indentation = w.ctx.indentation ∧ (g w).steps + 24 * w.ctx.out.length ≤ w.steps + 24 * (g w).ctx.out.length + d

/-- The steps are less than 24 for each new character. -/
def Gains (g : Run → Run) : Prop := ∀ w, (g w).steps + 24 * w.ctx.out.length + 2 ≤ w.steps + 24 * (g w).ctx.out.length

theorem cheap_defFields : (fs : List (FieldOf RType)) → Cheap (defFields fs) 1
  | [], w => by
    rw [defFields]
    refine ⟨rfl, ?_⟩
    lengths
    omega
  | f :: fs, w => by
    obtain ⟨X, hX, hi, ho⟩ : ∃ X, ((w.spend (3 + (structFieldTypename (fieldTypename f.tyName f.ty) f.array f.optional).length)).cat ("pub ".toList ++ f.name ++ ": ".toList ++
        structFieldTypename (fieldTypename f.tyName f.ty) f.array f.optional ++ ",\n".toList)) = X ∧ X.ctx.indentation = w.ctx.indentation ∧
        X.steps + 24 * w.ctx.out.length ≤ w.steps + 24 * X.ctx.out.length := by
      refine ⟨_, rfl, rfl, ?_⟩
      generalize structFieldTypename (fieldTypename f.tyName f.ty) f.array f.optional = z
      lengths
      omega
    have e : defFields (f :: fs) w = defFields fs X := by rw [← hX]; rfl
    rw [e]
    obtain ⟨h2, h3⟩ := cheap_defFields fs X
    refine ⟨h2.trans hi, ?_⟩
    omega

theorem gains_defStruct (fs : List (FieldOf RType)) (n : Str) : Gains (defStruct fs n) := by
  intro w
  obtain ⟨X, hX, hi, ho⟩ : ∃ X, defStruct fs n w = ((defFields fs X).popIndent.cat "}\n".toList) ∧ X.ctx.indentation = w.ctx.indentation ++ "    ".toList ∧
      X.steps + 24 * w.ctx.out.length + 20 ≤ w.steps + 24 * X.ctx.out.length := by
    refine ⟨_, rfl, rfl, ?_⟩
    lengths
    omega
  obtain ⟨h2, h3⟩ := cheap_defFields fs X
  rw [hX]
  simp only [Run.popIndent, Run.cat, GenCtx.cat, GenCtx.popIndent, h2, hi, pop_push]
  lengths
  omega

theorem cheap_enumDefault (n : Str) (e : REnum) : Cheap (enumDefault n e) 1 := by
  intro w
  unfold enumDefault
  cases e.variants.head? with
  | none =>
    refine ⟨rfl, ?_⟩
    simp only [Run.panic, GenCtx.panic]
    omega
  | some v =>
    simp only
    obtain ⟨X, hX, hi, ho⟩ : ∃ X, ((((w.cat ("impl Default for ".toList ++ n ++ " {\n".toList)).pushIndent.cat "fn default() -> Self {\n".toList).pushIndent).cat
        (n ++ "::".toList ++ v.name ++ "\n".toList)) = X ∧ X.ctx.indentation = w.ctx.indentation ++ "    ".toList ++ "    ".toList ∧
        X.steps + 24 * w.ctx.out.length ≤ w.steps + 24 * X.ctx.out.length := by
      refine ⟨_, rfl, rfl, ?_⟩
      lengths
      omega
    rw [hX]
    refine ⟨?_, ?_⟩
    · simp only [Run.popIndent, Run.cat, GenCtx.cat, GenCtx.popIndent, hi, pop_push]
    · simp only [Run.popIndent, Run.cat, GenCtx.cat, GenCtx.popIndent, hi, pop_push]
      lengths
      omega

theorem cheap_arms (n : Str) : (vs : List EnumVariant) → Cheap (arms n vs) 1
  | [], w => by
    rw [arms]
    refine ⟨rfl, ?_⟩
    lengths
    omega
  | v :: vs, w => by
    rw [arms]
    cases i32Shl1 v.value with
    | none =>
      refine ⟨rfl, ?_⟩
      simp only [Run.panic, GenCtx.panic]
      omega
    | some x =>
      obtain ⟨X, hX, hi, ho⟩ : ∃ X, ((w.spend 2).cat (showInt x ++ " => Ok(".toList ++ n ++ "::".toList ++ v.name ++ "),\n".toList)) = X ∧
          X.ctx.indentation = w.ctx.indentation ∧ X.steps + 24 * w.ctx.out.length ≤ w.steps + 24 * X.ctx.out.length := by
        refine ⟨_, rfl, rfl, ?_⟩
        lengths
        omega
      simp only [hX]
      obtain ⟨h2, h3⟩ := cheap_arms n vs X
      refine ⟨h2.trans hi, ?_⟩
      omega

theorem cheap_enumTryFrom (n : Str) (e : REnum) : Cheap (enumTryFrom n e) 0 := by
  intro w
  obtain ⟨X, hX, hi, ho⟩ : ∃ X, enumTryFrom n e w = (((((((arms n e.variants X).cat ("_ => Err(packet::Error::InvalidEnumValue(value as usize, \"".toList ++ n ++
      "\"))\n".toList)).popIndent).cat "}\n".toList).popIndent.cat "}\n".toList).popIndent).cat "}\n".toList) ∧
      X.ctx.indentation = w.ctx.indentation ++ "    ".toList ++ "    ".toList ++ "    ".toList ∧
      X.steps + 24 * w.ctx.out.length + 20 ≤ w.steps + 24 * X.ctx.out.length := by
    refine ⟨_, rfl, rfl, ?_⟩
    lengths
    omega
  obtain ⟨h2, h3⟩ := cheap_arms n e.variants X
  rw [hX]
  refine ⟨?_, ?_⟩
  · simp only [Run.popIndent, Run.cat, GenCtx.cat, GenCtx.popIndent, h2, hi, pop_push]
  · simp only [Run.popIndent, Run.cat, GenCtx.cat, GenCtx.popIndent, h2, hi, pop_push]
    lengths
    omega

theorem cheap_defVariants : (vs : List EnumVariant) → Cheap (defVariants vs) 1
  | [], w => by
    rw [defVariants]
    refine ⟨rfl, ?_⟩
    lengths
    omega
  | v :: vs, w => by
    obtain ⟨X, hX, hi, ho⟩ : ∃ X, ((w.spend 1).cat (v.name ++ " = 1 << ".toList ++ (toString v.value).toList ++ ",\n".toList)) = X ∧
        X.ctx.indentation = w.ctx.indentation ∧ X.steps + 24 * w.ctx.out.length ≤ w.steps + 24 * X.ctx.out.length := by
      refine ⟨_, rfl, rfl, ?_⟩
      lengths
      omega
    have e : defVariants (v :: vs) w = defVariants vs X := by rw [← hX]; rfl
    rw [e]
    obtain ⟨h2, h3⟩ := cheap_defVariants vs X
    refine ⟨h2.trans hi, ?_⟩
    omega

theorem gains_defEnum (e : REnum) (n : Str) : Gains (defEnum e n) := by
  intro w
  obtain ⟨X, hX, hi, ho⟩ : ∃ X, defEnum e n w = enumTryFrom n e (enumDefault n e ((defVariants e.variants X).popIndent.cat "}\n".toList)) ∧
      X.ctx.indentation = w.ctx.indentation ++ "    ".toList ∧
      X.steps + 24 * w.ctx.out.length + 20 ≤ w.steps + 24 * X.ctx.out.length := by
    refine ⟨_, rfl, rfl, ?_⟩
    lengths
    omega
  obtain ⟨h2, h3⟩ := cheap_defVariants e.variants X
  obtain ⟨Y, hY, hYi, hYo⟩ : ∃ Y, (defVariants e.variants X).popIndent.cat "}\n".toList = Y ∧ Y.ctx.indentation = w.ctx.indentation ∧
      Y.steps + 24 * (defVariants e.variants X).ctx.out.length ≤ (defVariants e.variants X).steps + 24 * Y.ctx.out.length := by
    refine ⟨_, rfl, ?_, ?_⟩
    · simp only [Run.popIndent, Run.cat, GenCtx.cat, GenCtx.popIndent, h2, hi, pop_push]
    · simp only [Run.popIndent, Run.cat, GenCtx.cat, GenCtx.popIndent, h2, hi, pop_push]
      lengths
      omega
  rw [hX, hY]
  obtain ⟨k2, k3⟩ := cheap_enumDefault n e Y
  obtain ⟨j2, j3⟩ := cheap_enumTryFrom n e (enumDefault n e Y)
  omega

theorem part_out {g : Run → Run} {text : Str} (h : (partRun g).1 = some text) : (g ⟨GenCtx.new [], 0⟩).ctx.out = text := by
  unfold partRun at h
  simp only at h
  split at h
  · cases h
  · exact Option.some.inj h

theorem gains_part {g : Run → Run} {text : Str} (hg : Gains g) (h : (partRun g).1 = some text) : (partRun g).2 + 2 ≤ 24 * text.length := by
  have h2 := hg ⟨GenCtx.new [], 0⟩
  rw [part_out h] at h2
  have e : (partRun g).2 = (g ⟨GenCtx.new [], 0⟩).steps := rfl
  rw [e]
  simp only [GenCtx.new, List.length_nil] at *
  omega

/-- The entry is a builtin type. -/
def silent (e : Str × (Str × RType)) : Bool := match e.2.2 with | .builtin _ => true | _ => false

theorem defs_pay : (ds : TypeMap) → (text : Str) → (defsRun ds).1 = some text → (defsRun ds).2 ≤ 24 * text.length + 1 + 2 * (ds.filter silent).length
  | [], text, h => by
    show 1 ≤ _
    omega
  | d :: ds, text, h => by
    rw [defsRun] at h
    simp only at h
    obtain ⟨a, ha, h⟩ := Option.bind_eq_some_iff.1 h
    obtain ⟨b, hb, rfl⟩ := Option.map_eq_some_iff.1 h
    have ih := defs_pay ds b hb
    have e : (defsRun (d :: ds)).2 = 2 + (defRun d).2 + (defsRun ds).2 := rfl
    rw [e, List.length_append]
    obtain ⟨n, m, t⟩ := d
    cases t with
    | builtin b' =>
      rw [List.filter_cons_of_pos (by rfl), List.length_cons]
      have : (defRun (n, m, .builtin b')).2 = 0 := rfl
      omega
    | enum en =>
      rw [List.filter_cons_of_neg (by simp [silent])]
      have := gains_part (gains_defEnum en n) ha
      have e' : (defRun (n, m, .enum en)).2 = (partRun (defEnum en n)).2 := rfl
      omega
    | struct fs =>
      rw [List.filter_cons_of_neg (by simp [silent])]
      have := gains_part (gains_defStruct fs n) ha
      have e' : (defRun (n, m, .struct fs)).2 = (partRun (defStruct fs n)).2 := rfl
      omega

/-- At most 24 steps for each character, and 32 for the hollow fields. -/
theorem file_pays {r : Resolved} {text : Str} (hq : (r.types.filter silent).length ≤ 9) (h : rustFile r = some text) :
    (fileRun r).2 ≤ 24 * text.length + 32 * idleFs r.export.fields := by
  rw [← same_file] at h
  unfold fileRun at h
  simp only at h
  obtain ⟨a, ha, h⟩ := Option.bind_eq_some_iff.1 h
  obtain ⟨b, hb, h⟩ := Option.bind_eq_some_iff.1 h
  obtain ⟨c, hc, rfl⟩ := Option.map_eq_some_iff.1 h
  have h1 := defs_pay _ _ ha
  have h2 := writeImpl_pays r.export
  have h3 := readImpl_pays r.export
  rw [part_out hb] at h2
  rw [part_out hc] at h3
  have hcm : 100 ≤ RustGen.genCommon.length := by decide +kernel
  have e : (fileRun r).2 = RustGen.genCommon.length + (defsRun r.types).2 + (partRun (writeImpl r.export r.export.name)).2 + (partRun (readImpl r.export r.export.name)).2 := rfl
  rw [e]
  simp only [List.length_append]
  generalize RustGen.genCommon.length = k at *
  omega

/-! ### Every character takes a step -/

theorem writes_writeOptional (b : Bool) {g} (hb : Writes g) : Writes (writeOptional b g) := by
  intro w w' h
  simp only [writeOptional]
  peel
  refine hb _ _ ?_
  peel

theorem writes_writeArray {g} (hb : Writes g) : Writes (writeArray g) := by
  intro w w' h
  simp only [writeArray]
  peel
  refine hb _ _ ?_
  peel

mutual
theorem writes_writeStruct : (fs : List (FieldOf RType)) → Writes (writeStruct fs)
  | [], w, w', h => by
    rw [writeStruct]
    peel
  | f :: fs, w, w', h => by
    rw [writeStruct]
    exact writes_writeStruct fs _ _ (writes_writeField f _ _ h)
theorem writes_writeField : (f : FieldOf RType) → Writes (writeField f)
  | ⟨n, tn, t, a, o⟩, w, w', h => by
    have ht := writes_writeType tn t
    have ha : Writes (if a = true then writeArray (writeType tn t) else writeType tn t) := by
      cases a
      · exact ht
      · exact writes_writeArray ht
    have ho : ∀ b, Writes (if o = true then writeOptional b (if a = true then writeArray (writeType tn t) else writeType tn t) else
          (if a = true then writeArray (writeType tn t) else writeType tn t)) := by
      intro b
      cases o
      · exact ha
      · exact writes_writeOptional b ha
    unfold writeField
    refine Le.popFname (ho _ _ _ ?_)
    peel
theorem writes_writeType (tn : Str) : (t : RType) → Writes (writeType tn t)
  | .builtin b, w, w', h => by
    rw [writeType]
    cases b <;> simp only [writeBuiltin] <;> peel
  | .enum e, w, w', h => by
    rw [writeType]
    simp only [writeEnum]
    peel
  | .struct fs, w, w', h => by
    rw [writeType]
    exact writes_writeStruct fs _ _ h
end

theorem writes_writeImpl (e : Export) (n : Str) : Writes (writeImpl e n) := by
  intro w w' h
  simp only [writeImpl]
  peel
  refine writes_writeStruct _ _ _ ?_
  peel

theorem writes_readOptional (m : Str) {g} (hb : Writes g) : Writes (readOptional m g) := by
  intro w w' h
  simp only [readOptional]
  peel
  refine hb _ _ ?_
  peel

theorem writes_readArray (m : Str) {g} (hb : Writes g) : Writes (readArray m g) := by
  intro w w' h
  simp only [readArray]
  peel
  refine hb _ _ ?_
  peel

mutual
theorem writes_readStruct : (fs : List (FieldOf RType)) → Writes (readStruct fs)
  | [], w, w', h => by
    rw [readStruct]
    peel
  | f :: fs, w, w', h => by
    rw [readStruct]
    exact writes_readStruct fs _ _ (writes_readField f _ _ h)
theorem writes_readField : (f : FieldOf RType) → Writes (readField f)
  | ⟨n, tn, t, a, o⟩, w, w', h => by
    have ht := writes_readType tn t
    have ha : ∀ m, Writes (if a = true then readArray m (readType tn t) else readType tn t) := by
      intro m
      cases a
      · exact ht
      · exact writes_readArray m ht
    have ho : ∀ m, Writes (if o = true then readOptional m (if a = true then readArray m (readType tn t) else readType tn t) else
          (if a = true then readArray m (readType tn t) else readType tn t)) := by
      intro m
      cases o
      · exact ha m
      · exact writes_readOptional m (ha m)
    rw [readField]
    refine Le.popFname (ho _ _ _ ?_)
    peel
theorem writes_readType (tn : Str) : (t : RType) → Writes (readType tn t)
  | .builtin b, w, w', h => by
    rw [readType]
    cases b <;> simp only [readBuiltin] <;> peel
  | .enum e, w, w', h => by
    rw [readType]
    simp only [readEnum]
    peel
  | .struct fs, w, w', h => by
    rw [readType]
    exact writes_readStruct fs _ _ h
end

theorem writes_readImpl (e : Export) (n : Str) : Writes (readImpl e n) := by
  intro w w' h
  simp only [readImpl]
  peel
  refine writes_readStruct _ _ _ ?_
  peel

theorem writes_defFields : (fs : List (FieldOf RType)) → Writes (defFields fs)
  | [], w, w', h => Le.spend _ h
  | f :: fs, w, w', h => writes_defFields fs _ _ (Le.cat _ (Le.spend _ h))

theorem writes_defStruct (fs : List (FieldOf RType)) (n : Str) : Writes (defStruct fs n) := by
  intro w w' h
  simp only [defStruct]
  peel
  refine writes_defFields _ _ _ ?_
  peel

theorem writes_defVariants : (vs : List EnumVariant) → Writes (defVariants vs)
  | [], w, w', h => Le.spend _ h
  | v :: vs, w, w', h => writes_defVariants vs _ _ (Le.cat _ (Le.spend _ h))

theorem writes_arms (n : Str) : (vs : List EnumVariant) → Writes (arms n vs)
  | [], w, w', h => Le.spend _ h
  | v :: vs, w, w', h => by
    rw [arms]
    cases i32Shl1 v.value with
    | none => exact Le.panic h
    | some x => exact writes_arms n vs _ _ (Le.cat _ (Le.spend _ h))

theorem writes_enumDefault (n : Str) (e : REnum) : Writes (enumDefault n e) := by
  intro w w' h
  unfold enumDefault
  cases e.variants.head? with
  | none => exact Le.panic h
  | some v =>
    simp only
    peel

theorem writes_enumTryFrom (n : Str) (e : REnum) : Writes (enumTryFrom n e) := by
  intro w w' h
  simp only [enumTryFrom]
  peel
  refine writes_arms _ _ _ _ ?_
  peel

theorem writes_defEnum (e : REnum) (n : Str) : Writes (defEnum e n) := by
  intro w w' h
  simp only [defEnum]
  refine writes_enumTryFrom _ _ _ _ (writes_enumDefault _ _ _ _ ?_)
  peel
  refine writes_defVariants _ _ _ ?_
  peel

theorem writes_part {g : Run → Run} (hg : Writes g) {text : Str} (h : (partRun g).1 = some text) : text.length ≤ (partRun g).2 := by
  have := hg _ _ (Le.refl ⟨GenCtx.new [], 0⟩)
  unfold Le at this
  rw [part_out h] at this
  have e : (partRun g).2 = (g ⟨GenCtx.new [], 0⟩).steps := rfl
  rw [e]
  simp only [GenCtx.new, List.length_nil] at *
  omega

theorem writes_defs : (ds : TypeMap) → (text : Str) → (defsRun ds).1 = some text → text.length ≤ (defsRun ds).2
  | [], text, h => by
    cases h
    exact Nat.zero_le _
  | d :: ds, text, h => by
    rw [defsRun] at h
    simp only at h
    obtain ⟨a, ha, h⟩ := Option.bind_eq_some_iff.1 h
    obtain ⟨b, hb, rfl⟩ := Option.map_eq_some_iff.1 h
    have ih := writes_defs ds b hb
    have e : (defsRun (d :: ds)).2 = 2 + (defRun d).2 + (defsRun ds).2 := rfl
    rw [e, List.length_append]
    have : a.length ≤ (defRun d).2 := by
      obtain ⟨n, m, t⟩ := d
      cases t with
      | builtin b' => cases ha; exact Nat.zero_le _
      | enum en => exact writes_part (writes_defEnum en n) ha
      | struct fs => exact writes_part (writes_defStruct fs n) ha
    omega

/-- At least one step for each character. -/
theorem file_writes {r : Resolved} {text : Str} (h : rustFile r = some text) : text.length ≤ (fileRun r).2 := by
  rw [← same_file] at h
  unfold fileRun at h
  simp only at h
  obtain ⟨a, ha, h⟩ := Option.bind_eq_some_iff.1 h
  obtain ⟨b, hb, h⟩ := Option.bind_eq_some_iff.1 h
  obtain ⟨c, hc, rfl⟩ := Option.map_eq_some_iff.1 h
  have h1 := writes_defs _ _ ha
  have h2 := writes_part (writes_writeImpl r.export r.export.name) hb
  have h3 := writes_part (writes_readImpl r.export r.export.name) hc
  have e : (fileRun r).2 = RustGen.genCommon.length + (defsRun r.types).2 + (partRun (writeImpl r.export r.export.name)).2 + (partRun (readImpl r.export r.export.name)).2 := rfl
  rw [e]
  simp only [List.length_append]
  omega

/-! ### Every hollow field takes steps -/

/-- `g` takes at least `d` steps. -/
def Takes (d : Nat) (g : Run → Run) : Prop := ∀ n w, n ≤ Run.steps w → n + d ≤ (g w).steps

/-- At least `n` steps have been taken. -/
def At (n : Nat) (w : Run) : Prop := n ≤ w.steps

theorem At.spend {n : Nat} {w : Run} (k : Nat) (h : At n w) : At n (w.spend k) := Nat.le_trans h (Nat.le_add_right _ _)
theorem At.pushIndent {n : Nat} {w : Run} (h : At n w) : At n w.pushIndent := Nat.le_trans h (Nat.le_add_right _ _)
theorem At.popIndent {n : Nat} {w : Run} (h : At n w) : At n w.popIndent := Nat.le_trans h (Nat.le_add_right _ _)
theorem At.setStack {n : Nat} {w : Run} (s : List Str) (h : At n w) : At n (w.setStack s) := Nat.le_trans h (Nat.le_add_right _ _)
theorem At.pushFname {n : Nat} {w : Run} (s : Str) (h : At n w) : At n (w.pushFname s) := Nat.le_trans h (Nat.le_add_right _ _)
theorem At.cat {n : Nat} {w : Run} (s : Str) (h : At n w) : At n (w.cat s) := Nat.le_trans h (Nat.le_add_right _ _)

/-- Go back through the operations. -/
macro "back" : tactic => `(tactic| with_reducible repeat (first | (assumption) | (refine At.cat _ ?_) | (refine At.spend _ ?_) | (refine At.pushIndent ?_) | (refine At.popIndent ?_) | (refine At.pushFname _ ?_) | (refine At.setStack _ ?_)))

theorem takes_writeOptional (b : Bool) {g} {d : Nat} (hb : Takes d g) : Takes d (writeOptional b g) := by
  intro n w h
  have h : At n w := h
  show At _ _
  simp only [writeOptional]
  back
  refine hb n _ ?_
  show At _ _
  back

theorem takes_writeArray {g} {d : Nat} (hb : Takes d g) : Takes d (writeArray g) := by
  intro n w h
  have h : At n w := h
  show At _ _
  simp only [writeArray]
  back
  refine hb n _ ?_
  show At _ _
  back

mutual
theorem takes_writeStruct : (fs : List (FieldOf RType)) → Takes (idleFs fs) (writeStruct fs)
  | [], n, w, h => by
    rw [writeStruct, idleFs]
    exact Nat.le_trans h (Nat.le_add_right _ _)
  | f :: fs, n, w, h => by
    rw [writeStruct, idleFs, ← Nat.add_assoc]
    exact takes_writeStruct fs _ _ (takes_writeField f n w h)
theorem takes_writeField : (f : FieldOf RType) → Takes (idleF f) (writeField f)
  | ⟨n, tn, t, a, o⟩, k, w, h => by
    have ht := takes_writeType tn t
    have ha : Takes (idleT t) (if a = true then writeArray (writeType tn t) else writeType tn t) := by
      cases a
      · exact ht
      · exact takes_writeArray ht
    have ho : ∀ b, Takes (idleT t) (if o = true then writeOptional b (if a = true then writeArray (writeType tn t) else writeType tn t) else
          (if a = true then writeArray (writeType tn t) else writeType tn t)) := by
      intro b
      cases o
      · exact ha
      · exact takes_writeOptional b ha
    unfold writeField
    rw [idleF, ← Nat.add_assoc]
    refine Nat.le_trans (ho _ (k + (if (!a && !o && hollowT t) = true then n.length + 1 else 0)) (((w.spend 1).pushFname n).spend (1 + (if a = true then 1 else 0) + (if o = true then 1 else 0))) ?_)
      (Nat.le_add_right _ _)
    have : (if (!a && !o && hollowT t) = true then n.length + 1 else 0) ≤ n.length + 1 := by split_ifs <;> omega
    simp only [Run.spend, Run.pushFname]
    omega
theorem takes_writeType (tn : Str) : (t : RType) → Takes (idleT t) (writeType tn t)
  | .builtin b, n, w, h => by
    rw [writeType, idleT]
    have h : At n w := h
    show At _ _
    cases b <;> simp only [writeBuiltin, Nat.add_zero] <;> back
  | .enum e, n, w, h => by
    rw [writeType, idleT]
    have h : At n w := h
    show At _ _
    simp only [writeEnum, Nat.add_zero]
    back
  | .struct fs, n, w, h => by
    rw [writeType, idleT]
    exact takes_writeStruct fs n w h
end

/-- At least one step for each character of the name of a hollow field. -/
theorem file_takes (r : Resolved) : idleFs r.export.fields ≤ (fileRun r).2 := by
  have h : At (0 + idleFs r.export.fields) (writeImpl r.export r.export.name ⟨GenCtx.new [], 0⟩) := by
    simp only [writeImpl]
    back
    exact takes_writeStruct _ _ _ (Nat.zero_le _)
  have e : (fileRun r).2 = RustGen.genCommon.length + (defsRun r.types).2 + (writeImpl r.export r.export.name ⟨GenCtx.new [], 0⟩).steps + (partRun (readImpl r.export r.export.name)).2 := rfl
  unfold At at h
  rw [e]
  omega

end Packetc.RustGenW
