import Verif.Proof.RustSteps
import Verif.Proof.RustExact
import Verif.Proof.Evolution
/-!
# Running time of the emitted `read` and `write`

Loops over items that take space are calm; loops over items that take none can be made to run 2^32 - 1 times by four bytes.
-/

namespace Packetc.Rs
open Check
open Js (Num Scalar utf8Enc scalarOf reprScalar SoundEnum EnumsT EnumsFs EnumsF slotsT slotsFs slotsF AllT AllFs AllF)
open Gen (varname bindname reprName)

theorem someEats_append (a b : List Stmt) : someEats (a ++ b) = (someEats a || someEats b) := by
  induction a with
  | nil => rfl
  | cons s ss ih =>
    show (s.eats || someEats (ss ++ b)) = (s.eats || someEats ss || someEats b)
    rw [ih, Bool.or_assoc]

theorem calmAll_append (a b : List Stmt) : calmAll (a ++ b) = (calmAll a && calmAll b) := by
  induction a with
  | nil => rfl
  | cons s ss ih =>
    show (s.calm && calmAll (ss ++ b)) = (s.calm && calmAll ss && calmAll b)
    rw [ih, Bool.and_assoc]

theorem readers_append (a b : List Stmt) : readers (a ++ b) = (readers a && readers b) := by
  induction a with
  | nil => rfl
  | cons s ss ih =>
    show (s.reader && readers (ss ++ b)) = (s.reader && readers ss && readers b)
    rw [ih, Bool.and_assoc]

theorem sizes_append (a b : List Stmt) : sizes (a ++ b) = sizes a + sizes b := by
  induction a with
  | nil => simp [sizes]
  | cons s ss ih =>
    show s.size + sizes (ss ++ b) = s.size + sizes ss + sizes b
    omega

/-- Items of arrays take space. -/
abbrev Fed (fs : List (FieldOf RType)) : Prop := ∀ f ∈ fs, f.array = true → slotsT f.ty ≠ 0

/-! ### Reading -/

mutual
theorem readType_eats (tn : Str) : (t : RType) → slotsT t ≠ 0 → ∀ st, someEats (readType st tn t) = true
  | .builtin b, _, st => by cases b <;> rfl
  | .enum _, _, _ => rfl
  | .struct fs, h, st => readStruct_eats fs h st
theorem readStruct_eats : (fs : List (FieldOf RType)) → slotsFs fs ≠ 0 → ∀ st, someEats (readStruct st fs) = true
  | [], h, _ => absurd rfl h
  | f :: fs, h, st => by
    show someEats (readField st f ++ readStruct st fs) = true
    rw [someEats_append]
    have h : slotsF f + slotsFs fs ≠ 0 := h
    by_cases hf : slotsF f = 0
    · rw [readStruct_eats fs (by omega) st, Bool.or_true]
    · rw [readField_eats f hf st, Bool.true_or]
theorem readField_eats : (f : FieldOf RType) → slotsF f ≠ 0 → ∀ st, someEats (readField st f) = true
  | ⟨n, tn, t, a, o⟩, h, st => by
    cases o with
    | true => rfl
    | false =>
      cases a with
      | true => rfl
      | false =>
        have h : 0 + 0 + slotsT t ≠ 0 := h
        exact readType_eats tn t (by omega) _
end

mutual
theorem readType_calm (tn : Str) : (t : RType) → AllT Fed t → ∀ st, calmAll (readType st tn t) = true
  | .builtin b, _, st => by cases b <;> rfl
  | .enum _, _, _ => rfl
  | .struct fs, h, st => readStruct_calm fs h.1 h.2 st
theorem readStruct_calm : (fs : List (FieldOf RType)) → Fed fs → AllFs Fed fs → ∀ st, calmAll (readStruct st fs) = true
  | [], _, _, _ => rfl
  | f :: fs, h1, h2, st => by
    show calmAll (readField st f ++ readStruct st fs) = true
    rw [calmAll_append, readField_calm f (h1 f (by simp)) h2.1 st, readStruct_calm fs (fun g hg => h1 g (by simp [hg])) h2.2 st]
    rfl
theorem readField_calm : (f : FieldOf RType) → (f.array = true → slotsT f.ty ≠ 0) → AllF Fed f → ∀ st, calmAll (readField st f) = true
  | ⟨n, tn, t, a, o⟩, h1, h2, st => by
    have ht : ∀ st, calmAll (readType st tn t) = true := readType_calm tn t h2
    have harr : ∀ st, calmAll ((if a then rArr (rustName tn) (fun st => readType st tn t) else fun st => readType st tn t) st) = true := by
      intro st
      cases a with
      | false => exact ht st
      | true =>
        show ((someEats ([_] ++ readType _ tn t ++ [_]) && calmAll ([_] ++ readType _ tn t ++ [_])) && true) = true
        rw [someEats_append, someEats_append, calmAll_append, calmAll_append, readType_eats tn t (h1 rfl), ht, Bool.or_true]
        rfl
    rw [readField_eq]
    cases o with
    | false => exact harr _
    | true =>
      show (calmAll ([_] ++ _ ++ [_]) && true) = true
      rw [calmAll_append, calmAll_append, harr]
      rfl
end

mutual
theorem readType_readers (tn : Str) : (t : RType) → ∀ st, readers (readType st tn t) = true
  | .builtin b, st => by cases b <;> rfl
  | .enum _, _ => rfl
  | .struct fs, st => readStruct_readers fs st
theorem readStruct_readers : (fs : List (FieldOf RType)) → ∀ st, readers (readStruct st fs) = true
  | [], _ => rfl
  | f :: fs, st => by
    show readers (readField st f ++ readStruct st fs) = true
    rw [readers_append, readField_readers f st, readStruct_readers fs st]
    rfl
theorem readField_readers : (f : FieldOf RType) → ∀ st, readers (readField st f) = true
  | ⟨n, tn, t, a, o⟩, st => by
    have ht : ∀ st, readers (readType st tn t) = true := readType_readers tn t
    have harr : ∀ st, readers ((if a then rArr (rustName tn) (fun st => readType st tn t) else fun st => readType st tn t) st) = true := by
      intro st
      cases a with
      | false => exact ht st
      | true =>
        show (readers ([_] ++ readType _ tn t ++ [_]) && true) = true
        rw [readers_append, readers_append, ht]
        rfl
    rw [readField_eq]
    cases o with
    | false => exact harr _
    | true =>
      show (readers ([_] ++ _ ++ [_]) && true) = true
      rw [readers_append, readers_append, harr]
      rfl
end

/-! ### Writing -/

variable (P : Prog)

theorem builtin_plain (b : Builtin) (h : b ≠ .string) : textual (Js.builtinName b) = false := by cases b <;> first | decide | exact absurd rfl h

theorem repr_plain (r : EnumRepr) : textual (reprName r) = false := by cases r <;> decide

theorem plain_eats {t : Str} (h : textual t = false) (e : Expr) : someEats [.write t e] = true := by
  show (!textual t || e.eats || false) = true
  rw [h]
  rfl

theorem wOpt_eats (r : Bool) (prog : List Str → List Stmt) (st : List Str) : someEats (wOpt r prog st) = true := by
  show ((path st).eats || (!textual "uint8".toList && (!textual "uint8".toList || false || _)) || false) = true
  rw [show textual "uint8".toList = false by decide, Bool.or_false, Bool.not_false, Bool.true_and, Bool.true_or, Bool.true_or, Bool.or_true]

mutual
theorem writeType_eats (tn : Str) : (t : RType) → FitsT P tn t → slotsT t ≠ 0 → ∀ st, someEats (writeType st tn t) = true
  | .builtin b, hf, _, st => by
    have hf : tn = Js.builtinName b := hf
    cases b
    case string => rfl
    all_goals exact plain_eats (by rw [hf]; exact builtin_plain _ (by simp)) _
  | .enum e, _, _, _ => plain_eats (repr_plain e.repr) _
  | .struct fs, hf, h, st => writeStruct_eats fs hf.2 h st
theorem writeStruct_eats : (fs : List (FieldOf RType)) → FitsFs P fs → slotsFs fs ≠ 0 → ∀ st, someEats (writeStruct st fs) = true
  | [], _, h, _ => absurd rfl h
  | f :: fs, hf, h, st => by
    show someEats (writeField st f ++ writeStruct st fs) = true
    rw [someEats_append]
    have h : slotsF f + slotsFs fs ≠ 0 := h
    by_cases hf' : slotsF f = 0
    · rw [writeStruct_eats fs hf.2 (by omega) st, Bool.or_true]
    · rw [writeField_eats f hf.1 hf' st, Bool.true_or]
theorem writeField_eats : (f : FieldOf RType) → FitsF P f → slotsF f ≠ 0 → ∀ st, someEats (writeField st f) = true
  | ⟨n, tn, t, a, o⟩, hf, h, st => by
    rw [writeField_eq]
    cases o with
    | true => exact wOpt_eats _ _ _
    | false =>
      cases a with
      | true => rfl
      | false =>
        have h : 0 + 0 + slotsT t ≠ 0 := h
        exact writeType_eats tn t hf (by omega) _
end

mutual
theorem writeType_calm (tn : Str) : (t : RType) → FitsT P tn t → AllT Fed t → ∀ st, calmAll (writeType st tn t) = true
  | .builtin b, _, _, st => by cases b <;> rfl
  | .enum _, _, _, _ => rfl
  | .struct fs, hf, h, st => writeStruct_calm fs hf.2 h.1 h.2 st
theorem writeStruct_calm : (fs : List (FieldOf RType)) → FitsFs P fs → Fed fs → AllFs Fed fs → ∀ st, calmAll (writeStruct st fs) = true
  | [], _, _, _, _ => rfl
  | f :: fs, hf, h1, h2, st => by
    show calmAll (writeField st f ++ writeStruct st fs) = true
    rw [calmAll_append, writeField_calm f hf.1 (h1 f (by simp)) h2.1 st, writeStruct_calm fs hf.2 (fun g hg => h1 g (by simp [hg])) h2.2 st]
    rfl
theorem writeField_calm : (f : FieldOf RType) → FitsF P f → (f.array = true → slotsT f.ty ≠ 0) → AllF Fed f → ∀ st, calmAll (writeField st f) = true
  | ⟨n, tn, t, a, o⟩, hf, h1, h2, st => by
    have ht : ∀ st, calmAll (writeType st tn t) = true := writeType_calm tn t hf h2
    have harr : ∀ st, calmAll ((if a then wArr (fun st => writeType st tn t) else fun st => writeType st tn t) st) = true := by
      intro st
      cases a with
      | false => exact ht st
      | true =>
        show ((someEats (writeType _ tn t) && calmAll (writeType _ tn t)) && true) = true
        rw [writeType_eats P tn t hf (h1 rfl), ht]
        rfl
    rw [writeField_eq]
    cases o with
    | false => exact harr _
    | true =>
      exact (Bool.and_true _).trans (harr _)
end

/-! ### Size of the text -/

mutual
theorem readType_size (tn : Str) : (t : RType) → ∀ st, slotsT t ≤ sizes (readType st tn t)
  | .builtin b, st => by cases b <;> exact Nat.le_refl _
  | .enum _, _ => Nat.le_refl _
  | .struct fs, st => readStruct_size fs st
theorem readStruct_size : (fs : List (FieldOf RType)) → ∀ st, slotsFs fs ≤ sizes (readStruct st fs)
  | [], _ => Nat.le_refl _
  | f :: fs, st => by
    show slotsF f + slotsFs fs ≤ sizes (readField st f ++ readStruct st fs)
    rw [sizes_append]
    exact Nat.add_le_add (readField_size f st) (readStruct_size fs st)
theorem readField_size : (f : FieldOf RType) → ∀ st, slotsF f ≤ sizes (readField st f)
  | ⟨n, tn, t, a, o⟩, st => by
    have ht : ∀ st, slotsT t ≤ sizes (readType st tn t) := readType_size tn t
    have harr : ∀ st, (if a then 1 else 0) + slotsT t ≤
        sizes ((if a then rArr (rustName tn) (fun st => readType st tn t) else fun st => readType st tn t) st) := by
      intro st
      cases a with
      | false => 
        have := ht st
        show 0 + slotsT t ≤ sizes (readType st tn t)
        omega
      | true =>
        show 1 + slotsT t ≤ 1 + (1 + ((1 + sizes ([_] ++ readType _ tn t ++ [_])) + 0))
        rw [sizes_append, sizes_append]
        have := ht [varname st "item".toList]
        omega
    rw [readField_eq]
    cases o with
    | false =>
      have := harr (st ++ [n])
      show 0 + (if a then 1 else 0) + slotsT t ≤ _
      rw [Nat.zero_add]
      exact this
    | true =>
      have := harr [bindname (st ++ [n])]
      show 1 + (if a then 1 else 0) + slotsT t ≤ 1 + sizes ([_] ++ _ ++ [_]) + 0
      rw [sizes_append, sizes_append]
      show 1 + (if a then 1 else 0) + slotsT t ≤ 1 + (1 + sizes ((if a then rArr (rustName tn) (fun st => readType st tn t)
        else fun st => readType st tn t) [bindname (st ++ [n])]) + 1) + 0
      omega
end

/-! ### Default values are short -/

section
variable (lib : Lib)

theorem width_le (sc : Scalar) : sc.width ≤ 4 := by cases sc <;> decide

mutual
theorem dflt_short (tn : Str) : (t : RType) → EnumsT SoundEnum t → (encT lib t (dfltT tn t)).length ≤ 4 * slotsT t
  | .builtin b, _ => by
    cases b
    case string =>
      show (lib.enc .uint32 _ ++ utf8Enc []).length ≤ 8
      rw [List.length_append, lib.enc_len]
      decide
    all_goals
      show (lib.enc _ _).length ≤ 4
      rw [lib.enc_len]
      decide
  | .enum e, _ => by
    show List.length (match e.variants.find? _ with | some w => _ | none => _) ≤ 4
    split
    · rw [lib.enc_len]
      exact width_le _
    · exact Nat.zero_le _
  | .struct fs, he => dfltFs_short fs he
theorem dfltFs_short : (fs : List (FieldOf RType)) → EnumsFs SoundEnum fs → (encFs lib fs (dfltFs fs)).length ≤ 4 * slotsFs fs
  | [], _ => Nat.zero_le _
  | f :: fs, he => by
    show (encF lib f (dfltF f) ++ encFs lib fs (dfltFs fs)).length ≤ 4 * (slotsF f + slotsFs fs)
    rw [List.length_append]
    have := dfltF_short f he.1
    have := dfltFs_short fs he.2
    omega
theorem dfltF_short : (f : FieldOf RType) → EnumsF SoundEnum f → (encF lib f (dfltF f)).length ≤ 4 * slotsF f
  | ⟨n, tn, t, a, o⟩, he => by
    cases o with
    | true =>
      show (lib.enc .uint8 _).length ≤ 4 * (1 + _ + _)
      rw [lib.enc_len]
      have : Scalar.width .uint8 = 1 := rfl
      omega
    | false =>
      cases a with
      | true =>
        show (lib.enc .uint32 _ ++ []).length ≤ 4 * (0 + 1 + _)
        rw [List.append_nil, lib.enc_len]
        have : Scalar.width .uint32 = 4 := rfl
        omega
      | false =>
        show (encT lib t (dfltT tn t)).length ≤ 4 * (0 + 0 + slotsT t)
        have := dflt_short tn t he
        omega
end

/-! ### Data that take long -/

theorem stepsAll_append (a b : List Stmt) (s : St) :
    stepsAll lib P (a ++ b) s = stepsAll lib P a s + (execAll lib P a s).count fun _ s' => stepsAll lib P b s' := by
  induction a generalizing s with
  | nil => exact (Nat.zero_add _).symm
  | cons t ts ih =>
    show steps lib P t s + (exec lib P t s).count (fun _ s' => stepsAll lib P (ts ++ b) s') =
      steps lib P t s + (exec lib P t s).count (fun _ s' => stepsAll lib P ts s') + (execAll lib P (t :: ts) s).count _
    rw [execAll_cons, bind_apply]
    cases exec lib P t s with
    | ok a s1 =>
      show _ + stepsAll lib P (ts ++ b) s1 = _ + stepsAll lib P ts s1 + _
      rw [ih s1, Nat.add_assoc]
    | _ => rfl

theorem stepsAll_le (a b : List Stmt) (s : St) : stepsAll lib P a s ≤ stepsAll lib P (a ++ b) s := by
  rw [stepsAll_append]
  exact Nat.le_add_right _ _

theorem stepsAll_ok {a b : List Stmt} {s s' : St} (h : execAll lib P a s = .ok () s') :
    stepsAll lib P (a ++ b) s = stepsAll lib P a s + stepsAll lib P b s' := by
  rw [stepsAll_append, h]
  rfl

/-- Some data of at most `4 * k` bytes keep the statements busy for `n` steps. -/
def Floods (n k : Nat) (ok : List Str → Prop) (prog : List Str → List Stmt) (d : Val) : Prop :=
  ∃ data : List UInt8, data.length ≤ 4 * k ∧ ∀ env x fs r out, ok fs → get env x = some r → getV r fs = some d →
    n ≤ stepsAll lib P (prog (x :: fs)) ⟨env, out, data⟩

/-- The statements of a block with its variable. -/
theorem steps_let {tn x : Str} {d : Val} (hd : P.dflt tn = d) (body last : List Stmt) (env out rest) :
    stepsAll lib P ([.letS true x (.dflt tn)] ++ body ++ last) ⟨env, out, rest⟩ = 1 + stepsAll lib P (body ++ last) ⟨(x, d) :: env, out, rest⟩ := by
  have hlet : exec lib P (.letS true x (.dflt tn)) ⟨env, out, rest⟩ = .ok () ⟨(x, d) :: env, out, rest⟩ := by
    show Res.ok () ⟨(x, P.dflt tn) :: env, out, rest⟩ = _
    rw [hd]
  rw [List.append_assoc]
  show 1 + (exec lib P (.letS true x (.dflt tn)) ⟨env, out, rest⟩).count _ = _
  rw [hlet]
  rfl

/-- The statements of an array: up to the loop. -/
theorem steps_arr {tn : Str} {prog : List Str → List Stmt} {env : List (Str × Val)} {x : Str} {fs : List Str} {r : Val} (h1 : get env x = some r)
    (h2 : getV r fs = some (.vec [])) (out rest : List UInt8) {n : Nat} (hn : n < 2 ^ 32) (hm : n ≤ lib.maxItems) :
    stepsRounds (fun s => stepsAll lib P ([.letS true (varname (x :: fs) "item".toList) (.dflt tn)] ++ prog [varname (x :: fs) "item".toList] ++
        [.push (path (x :: fs)) (.var (varname (x :: fs) "item".toList))]) s)
      (block (execAll lib P ([.letS true (varname (x :: fs) "item".toList) (.dflt tn)] ++ prog [varname (x :: fs) "item".toList] ++
        [.push (path (x :: fs)) (.var (varname (x :: fs) "item".toList))]))) n
      ⟨(varname (x :: fs) "len".toList, .num (.int n)) :: env, out, rest⟩ ≤
    stepsAll lib P (rArr tn prog (x :: fs)) ⟨env, out, lib.enc .uint32 (.int n) ++ rest⟩ := by
  have hl := exec_readLen lib P (varname (x :: fs) "len".toList) env out (lib.enc .uint32 (.int n) ++ rest)
  have hlen := varname_length x fs "len".toList
  unfold rArr
  generalize varname (x :: fs) "len".toList = len at *
  generalize varname (x :: fs) "item".toList = item at *
  have hok : NumOk .uint32 (.int (n : Int)) := ⟨by omega, by omega⟩
  rw [rdNum_enc lib .uint32 (n := .int n) hok] at hl
  have hl : exec lib P (.letS false len (.cast (.read "uint32".toList) "usize".toList)) ⟨env, out, lib.enc .uint32 (.int n) ++ rest⟩ =
    .ok () ⟨(len, .num (.int n)) :: env, out, rest⟩ := hl
  have hne : x ≠ len := by
    intro e
    rw [← e] at hlen
    omega
  have h1' : get ((len, .num (.int n)) :: env) x = some r := (if_neg hne).trans h1
  have hres : exec lib P (.reserve (path (x :: fs)) (.var len)) ⟨(len, .num (.int n)) :: env, out, rest⟩ =
      .ok () ⟨(len, .num (.int n)) :: env, out, rest⟩ := by
    show (load (path (x :: fs)) >>= _) _ = _
    rw [bind_ok (At.load ⟨x, fs, r, rfl, h1', h2⟩ out rest)]
    show (eval lib P (path [len]) >>= _) _ = _
    rw [bind_ok ((At.head _ _ env).eval lib P out rest)]
    show (ite (0 + (n : Int).toNat ≤ lib.maxItems) (pure () : M Unit) (fun _ => Res.abort : M Unit) : M Unit) _ = _
    exact congrFun (if_pos (by omega)) _
  show _ ≤ 1 + (exec lib P (.letS false len (.cast (.read "uint32".toList) "usize".toList)) _).count fun _ s' =>
    1 + (exec lib P (.reserve (path (x :: fs)) (.var len)) s').count fun _ s' => steps lib P (.forRange (.var len) _) s' + _
  rw [hl]
  show _ ≤ 1 + (1 + (exec lib P (.reserve (path (x :: fs)) (.var len)) ⟨(len, .num (.int n)) :: env, out, rest⟩).count fun _ s' =>
    steps lib P (.forRange (.var len) _) s' + _)
  rw [hres]
  show _ ≤ 1 + (1 + (1 + (eval lib P (path [len]) _).count _ + _))
  rw [(At.head _ _ env).eval lib P out rest]
  show _ ≤ 1 + (1 + (1 + stepsRounds _ _ n _ + _))
  omega

theorem flood_arr_item {n k : Nat} {tn : Str} {prog : List Str → List Stmt} {d : Val} (hm : 1 ≤ lib.maxItems) (hd : P.dflt tn = d)
    (h : Floods P lib n k (fun _ => True) prog d) : Floods P lib n (1 + k) (fun _ => True) (rArr tn prog) (.vec []) := by
  obtain ⟨data, hlen, h⟩ := h
  refine ⟨lib.enc .uint32 (.int (1 : Nat)) ++ data, ?_, fun env x fs r out _ h1 h2 => ?_⟩
  · rw [List.length_append, lib.enc_len]
    have : Scalar.width .uint32 = 4 := rfl
    omega
  · refine Nat.le_trans ?_ (steps_arr P lib (tn := tn) (prog := prog) h1 h2 out data (n := 1) (by decide) hm)
    refine Nat.le_trans ?_ (Nat.le_add_right _ _)
    dsimp only
    rw [steps_let P lib hd]
    refine Nat.le_trans (Nat.le_trans ?_ (stepsAll_le P lib _ _ _)) (Nat.le_add_left _ _)
    exact h _ _ [] d out True.intro (get_head _ d _) (getV_nil d)

theorem flood_arr {tn : Str} {prog : List Str → List Stmt} {shape : Val → Prop} {f : Val → List UInt8 → Got Val} {d : Val}
    (hp : ReadsAt lib P (fun _ => True) prog shape f) (hd : P.dflt tn = d) (hs : shape d) (hf : f d [] = .ok d [])
    {n : Nat} (hn : n < 2 ^ 32) (hm : n ≤ lib.maxItems) : Floods P lib (2 * n) 1 (fun _ => True) (rArr tn prog) (.vec []) := by
  refine ⟨lib.enc .uint32 (.int n) ++ [], ?_, fun env x fs r out _ h1 h2 => ?_⟩
  · rw [List.length_append, lib.enc_len]
    exact Nat.le_refl 4
  · refine Nat.le_trans ?_ (steps_arr P lib (tn := tn) (prog := prog) h1 h2 out [] hn hm)
    have hitem := varname_length x fs "item".toList
    have hlen := varname_length x fs "len".toList
    generalize varname (x :: fs) "len".toList = len at *
    generalize varname (x :: fs) "item".toList = item at *
    have hne : x ≠ len := by
      intro e
      rw [← e] at hlen
      omega
    have key : ∀ (n : Nat) (env : List (Str × Val)) (r : Val) (l : List Val), get env x = some r → getV r fs = some (.vec l) →
        2 * n ≤ stepsRounds (fun s => stepsAll lib P ([.letS true item (.dflt tn)] ++ prog [item] ++ [.push (path (x :: fs)) (.var item)]) s)
          (block (execAll lib P ([.letS true item (.dflt tn)] ++ prog [item] ++ [.push (path (x :: fs)) (.var item)]))) n ⟨env, out, []⟩ := by
      intro n
      induction n with
      | zero => exact fun _ _ _ _ _ => Nat.zero_le _
      | succ n ih =>
        intro env r l h1 h2
        have h := round_item lib P hp hd hs hitem h1 h2 out []
        rw [hf] at h
        obtain ⟨r1, env1, g1, g2, g3⟩ := h
        obtain ⟨r1', k1, k2, -⟩ := setV_some h2 (.vec (l ++ [d]))
        rw [k1] at g1
        cases g1
        obtain ⟨env1', m1, m2, -⟩ := set_some h1 r1
        rw [m1] at g2
        cases g2
        have hb := hp ((item, d) :: env) item [] d d out [] True.intro (get_head item d env) (getV_nil d) hs
        rw [hf] at hb
        obtain ⟨pre, r2, env2, -, -, -, g4⟩ := hb
        show 2 * (n + 1) ≤ stepsAll lib P _ _ + (block _ _).count fun _ s' => stepsRounds _ _ n s'
        rw [g3, steps_let P lib hd, stepsAll_ok P lib g4]
        show 2 * (n + 1) ≤ 1 + (_ + (1 + _)) + stepsRounds _ _ n ⟨env1, out, []⟩
        have := ih env1 r1 (l ++ [d]) m2 k2
        omega
    exact key n _ r [] ((if_neg hne).trans h1) h2

theorem flood_opt {n k : Nat} {tn : Str} {prog : List Str → List Stmt} {d : Val} (hd : P.dflt tn = d)
    (h : Floods P lib n k (fun _ => True) prog d) : Floods P lib n (1 + k) (fun fs => fs ≠ []) (rOpt tn prog) .none := by
  obtain ⟨data, hlen, h⟩ := h
  refine ⟨lib.enc .uint8 (.int 1) ++ data, ?_, fun env x fs r out _ h1 h2 => ?_⟩
  · rw [List.length_append, lib.enc_len]
    have : Scalar.width .uint8 = 1 := rfl
    omega
  · have he := eval_read lib P u8_named ⟨env, out, lib.enc .uint8 (.int 1) ++ data⟩
    rw [rdNum_enc lib .uint8 (n := .int 1) ⟨by decide, by decide⟩] at he
    unfold rOpt
    generalize bindname (x :: fs) = b
    show n ≤ 1 + (eval lib P (.read "uint8".toList) _).count _ + _
    rw [he]
    show n ≤ 1 + stepsAll lib P _ ⟨env, out, data⟩ + _
    rw [steps_let P lib hd]
    have h3 := h ((b, d) :: env) b [] d out True.intro (get_head _ d _) (getV_nil d)
    have h4 := stepsAll_le P lib (prog [b]) [.assign (path (x :: fs)) (.some (.var b))] ⟨(b, d) :: env, out, data⟩
    omega

theorem dfltFs_mem {fs : List (FieldOf RType)} {f : FieldOf RType} (h : f ∈ fs) : (f.name, dfltF f) ∈ dfltFs fs := by
  induction fs with
  | nil => cases h
  | cons g fs ih =>
    show _ ∈ (g.name, dfltF g) :: dfltFs fs
    rcases List.mem_cons.1 h with rfl | h
    · exact List.mem_cons_self
    · exact List.mem_cons_of_mem _ (ih h)

mutual
theorem floodT {n : Nat} (hn : n < 2 ^ 32) (hm : n ≤ lib.maxItems) (h0 : 1 ≤ n) (tn : Str) : (t : RType) → EnumsT SoundEnum t → FitsT P tn t →
    DefT P tn t → ¬ AllT Fed t → Floods P lib (2 * n) (slotsT t) (fun _ => True) (fun st => readType st tn t) (dfltT tn t)
  | .builtin _, _, _, _, h => absurd True.intro h
  | .enum _, _, _, _, h => absurd True.intro h
  | .struct fs, he, hf, hd, h => by
    obtain ⟨data, hlen, hfl⟩ := floodFs hn hm h0 fs he hf.2 hd.2 h
    refine ⟨data, hlen, fun env x gs r out _ h1 h2 => hfl env x gs r out h1 fun f hm => ?_⟩
    have hnd : ((dfltFs fs).map Prod.fst).Nodup := by
      rw [shapeFs_names (dfltFs_shape fs)]
      exact hf.1
    have h2 : getV r gs = some (.struct (dfltFs fs)) := h2
    have hg : get (dfltFs fs) f.name = some (dfltF f) := get_of_nodup hnd (dfltFs_mem hm)
    rw [getV_append, h2, Option.bind_some, getV_struct, hg, Option.bind_some, getV_nil]
theorem floodFs {n : Nat} (hn : n < 2 ^ 32) (hm : n ≤ lib.maxItems) (h0 : 1 ≤ n) : (fs : List (FieldOf RType)) → EnumsFs SoundEnum fs →
    FitsFs P fs → DefFs P fs → ¬ (Fed fs ∧ AllFs Fed fs) → ∃ data : List UInt8, data.length ≤ 4 * slotsFs fs ∧ ∀ env x gs r out,
      get env x = some r → (∀ f ∈ fs, getV r (gs ++ [f.name]) = some (dfltF f)) →
      2 * n ≤ stepsAll lib P (readStruct (x :: gs) fs) ⟨env, out, data⟩
  | [], _, _, _, h => absurd ⟨fun f hf => (by cases hf), True.intro⟩ h
  | f :: fs, he, hf, hd, h => by
    by_cases hF : (f.array = true → slotsT f.ty ≠ 0) ∧ AllF Fed f
    · obtain ⟨data, hlen, hfl⟩ := floodFs hn hm h0 fs he.2 hf.2 hd.2 fun hfs => h
        ⟨List.forall_mem_cons.2 ⟨hF.1, hfs.1⟩, hF.2, hfs.2⟩
      refine ⟨encF lib f (dfltF f) ++ data, ?_, fun env x gs r out h1 h2 => ?_⟩
      · rw [List.length_append]
        show _ ≤ 4 * (slotsF f + slotsFs fs)
        have := dfltF_short lib f he.1
        omega
      · have hr := rd_dfltF lib false (by omega) f he.1 data
        rw [fillF_false] at hr
        have h := read_field lib P f hf.1 hd.1 env x gs r (dfltF f) out (encF lib f (dfltF f) ++ data) h1 (h2 f (by simp)) (dfltF_shape f)
        rw [hr] at h
        obtain ⟨pre, r1, env1, g1, g2, g3, g4⟩ := h
        rw [setV_same (h2 f (by simp))] at g1
        cases g1
        rw [set_same h1] at g2
        cases g2
        show _ ≤ stepsAll lib P (readField (x :: gs) f ++ readStruct (x :: gs) fs) _
        rw [stepsAll_ok P lib g4]
        refine Nat.le_trans ?_ (Nat.le_add_left _ _)
        refine hfl (pre ++ env) x gs r out ?_ fun g hg => h2 g (by simp [hg])
        rw [get_skip (longer g3), h1]
    · obtain ⟨data, hlen, hfl⟩ := floodF hn hm h0 f he.1 hf.1 hd.1 hF
      refine ⟨data, ?_, fun env x gs r out h1 h2 => ?_⟩
      · show _ ≤ 4 * (slotsF f + slotsFs fs)
        omega
      · show _ ≤ stepsAll lib P (readField (x :: gs) f ++ readStruct (x :: gs) fs) _
        refine Nat.le_trans ?_ (stepsAll_le P lib _ _ _)
        rw [readField_eq]
        exact hfl env x (gs ++ [f.name]) r out (by simp) h1 (h2 f (by simp))
theorem floodF {n : Nat} (hn : n < 2 ^ 32) (hm : n ≤ lib.maxItems) (h0 : 1 ≤ n) : (f : FieldOf RType) → EnumsF SoundEnum f → FitsF P f → DefF P f →
    ¬ ((f.array = true → slotsT f.ty ≠ 0) ∧ AllF Fed f) → Floods P lib (2 * n) (slotsF f) (fun fs => fs ≠ [])
      (if f.optional then rOpt (rustName f.tyName) (if f.array then rArr (rustName f.tyName) (fun st => readType st f.tyName f.ty)
          else fun st => readType st f.tyName f.ty)
        else (if f.array then rArr (rustName f.tyName) (fun st => readType st f.tyName f.ty)
          else fun st => readType st f.tyName f.ty)) (dfltF f)
  | ⟨m, tn, t, a, o⟩, he, hf, hd, h => by
    cases a with
    | true =>
      cases o with
      | true => exact absurd ⟨rfl, rfl⟩ hd.2
      | false =>
        by_cases hs : slotsT t = 0
        · have hp := read_type lib P tn t hf hd.1
          have hr := rd_dflt lib false (by omega) tn t he []
          have hz : encT lib t (dfltT tn t) = [] := by
            have := dflt_short lib tn t he
            rw [hs] at this
            exact List.length_eq_zero_iff.1 (by omega)
          rw [fillT_false, hz] at hr
          obtain ⟨data, hlen, hfl⟩ := flood_arr P lib (tn := rustName tn) hp hd.1.dflt (dflt_shape tn t) hr hn hm
          refine ⟨data, ?_, fun env x fs r out _ => hfl env x fs r out True.intro⟩
          show _ ≤ 4 * (0 + 1 + slotsT t)
          omega
        · have ht : ¬ AllT Fed t := fun h' => h ⟨fun _ => hs, h'⟩
          obtain ⟨data, hlen, hfl⟩ := flood_arr_item P lib (by omega) hd.1.dflt (floodT hn hm h0 tn t he hf hd.1 ht)
          refine ⟨data, ?_, fun env x fs r out _ => hfl env x fs r out True.intro⟩
          show _ ≤ 4 * (0 + 1 + slotsT t)
          omega
    | false =>
      have ht : ¬ AllT Fed t := fun h' => h ⟨(by intro h; cases h), h'⟩
      have hft := floodT hn hm h0 tn t he hf hd.1 ht
      cases o with
      | true =>
        obtain ⟨data, hlen, hfl⟩ := flood_opt P lib hd.1.dflt hft
        refine ⟨data, ?_, hfl⟩
        show _ ≤ 4 * (1 + 0 + slotsT t)
        omega
      | false =>
        obtain ⟨data, hlen, hfl⟩ := hft
        refine ⟨data, ?_, fun env x fs r out _ => hfl env x fs r out True.intro⟩
        show _ ≤ 4 * (0 + 0 + slotsT t)
        omega
end

end

/-! ### Which types take space -/

section
open Ast WellFormed Evolution
open Js (mem_decls final_all final_entry final_struct)

variable {ast : AST}

theorem slotsF_zero {f : FieldOf RType} : slotsF f = 0 ↔ f.optional = false ∧ f.array = false ∧ slotsT f.ty = 0 := by
  obtain ⟨n, tn, t, a, o⟩ := f
  show (if o then 1 else 0) + (if a then 1 else 0) + slotsT t = 0 ↔ o = false ∧ a = false ∧ slotsT t = 0
  cases o <;> cases a <;> simp

theorem slotsFs_zero {fs : List (FieldOf RType)} : slotsFs fs = 0 ↔ ∀ f ∈ fs, slotsF f = 0 := by
  induction fs with
  | nil => exact ⟨fun _ f hf => (by cases hf), fun _ => rfl⟩
  | cons f fs ih =>
    show slotsF f + slotsFs fs = 0 ↔ _
    rw [List.forall_mem_cons, ← ih]
    omega

theorem space_slots {c : TypeMap} (F : Final ast c) {u : Unresolved} (h : TakesSpace ast u) (n : Str) (rf : RField)
    (hf : FieldOk c (n, u) rf) : slotsF rf ≠ 0 := by
  induction h generalizing n rf with
  | array => intro h; have := (slotsF_zero.1 h).2.1; rw [hf.array] at this; cases this
  | optional => intro h; have := (slotsF_zero.1 h).1; rw [hf.optional] at this; cases this
  | builtin hb =>
    intro h
    have := hf.ty
    rw [F.builtin _ hb] at this
    obtain ⟨b, h1⟩ := builtins_not_struct this
    have h1 : rf.ty = .builtin b := by simpa using h1
    have h2 := (slotsF_zero.1 h).2.2
    rw [h1] at h2
    cases b <;> cases h2
  | enum hd =>
    intro h
    have := hf.ty
    rw [(F.enum _ _ hd).2] at this
    obtain ⟨e, this⟩ : ∃ e, rf.ty = .enum e := ⟨_, (Prod.mk.inj (Option.some.inj this)).2.symm⟩
    have h2 := (slotsF_zero.1 h).2.2
    rw [this] at h2
    cases h2
  | struct hd hf' _ ih =>
    intro h
    obtain ⟨rfs, g, h1, h2, h3⟩ := F.field hd hf'
    have := hf.ty
    rw [h1] at this
    have this : rf.ty = .struct rfs := by simpa using this.symm
    have h4 := (slotsF_zero.1 h).2.2
    rw [this] at h4
    exact ih _ g h3 (slotsFs_zero.1 h4 g h2)

theorem slots_space {c : TypeMap} (F : Final ast c) (k : Nat) : ∀ (n : Str) (u : Unresolved) (rf : RField), FieldOk c (n, u) rf →
    ¬ TakesSpace ast u → sizeOf (Check.typeOf c u.name) ≤ k → slotsF rf = 0 := by
  induction k with
  | zero =>
    intro n u rf _ _ h
    have : 0 < sizeOf (Check.typeOf c u.name) := by cases Check.typeOf c u.name <;> simp
    omega
  | succ k ih =>
    intro n ⟨m, a, o⟩ rf hf hs hk
    have ha : a = false := by cases a with | false => rfl | true => exact absurd .array hs
    have ho : o = false := by cases o with | false => rfl | true => exact absurd .optional hs
    subst ha
    subst ho
    have h3 : c.get m = some (m, rf.ty) := hf.ty
    refine slotsF_zero.2 ⟨hf.optional, hf.array, ?_⟩
    by_cases hb : m ∈ builtinNames
    · exact absurd (.builtin hb) hs
    · by_cases hd : Declared ast m
      · obtain ⟨t, hd⟩ := hd
        cases t with
        | enum vs => exact absurd (.enum hd) hs
        | struct fs =>
          obtain ⟨-, rfs, p, h4, -, -, h5⟩ := F.struct m fs hd
          rw [h3] at h4
          have h6 : rf.ty = .struct rfs := by simpa using h4
          rw [h6]
          refine slotsFs_zero.2 (fun g hg => ?_)
          obtain ⟨f, hf', hR⟩ := Forall₂.exists_left h5 hg
          have hf' := (mem_partition (fun f : Str × Unresolved => p f.2.name) fs f).1 hf'
          refine ih f.1 f.2 g hR (fun h => hs (.struct hd hf' h)) ?_
          have := F.refers_lt (n := m) (m := f.2.name) ⟨fs, hd, f, hf', rfl⟩
          simp only at hk
          omega
      · rw [F.other m hb hd] at h3
        cases h3

/-- A field of a type takes space without `[]` and `?` if and only if there is something to read. -/
theorem slots_iff {c : TypeMap} (F : Final ast c) {n : Str} {u : Unresolved} {rf : RField} (hf : FieldOk c (n, u) rf) :
    slotsT rf.ty ≠ 0 ↔ TakesSpace ast ⟨u.name, false, false⟩ := by
  have hf' : FieldOk c (n, ⟨u.name, false, false⟩) ⟨n, u.name, rf.ty, false, false⟩ := ⟨rfl, rfl, rfl, rfl, by simp, hf.ty⟩
  constructor
  · intro h
    by_contra hs
    have := slots_space F _ _ _ _ hf' hs (Nat.le_refl _)
    exact h (slotsF_zero.1 this).2.2
  · intro h h0
    exact space_slots F h _ _ hf' (slotsF_zero.2 ⟨rfl, rfl, h0⟩)

variable {r : Resolved}

/-- A property of all resolved fields, said of the schema. -/
theorem checked_resolved (hc : Checked ast r) (Q' : FieldOf RType → Prop) (Q : Str × Unresolved → Prop)
    (hQ : ∀ c, Final ast c → ∀ a b, FieldOk c a b → (Q' b ↔ Q a)) :
    AllT (fun fs => ∀ f ∈ fs, Q' f) (.struct r.export.fields) ↔
      ∀ n fs, Used ast n → .decl n (.struct fs) ∈ ast → ∀ f ∈ fs, Q f := by
  obtain ⟨ord, text, ho, hp, ht⟩ := hc
  have hnb := Props.parsed_noBuiltinDecl hp
  obtain ⟨c, hf, hex, hg, -, -, -⟩ := Props.typeCheck_final ho hnb ht
  refine (final_all hf hnb _ _ _ _ _ (Nat.le_refl _) hg).trans ?_
  have hiff : ∀ {fs' : List (Str × Unresolved)} {rfs : List (FieldOf RType)}, List.Forall₂ (FieldOk c) fs' rfs →
      ((∀ f ∈ rfs, Q' f) ↔ ∀ f ∈ fs', Q f) := by
    intro fs' rfs h
    induction h with
    | nil => simp
    | @cons a b l l' hab _ ih => simp only [List.forall_mem_cons, ih, hQ c hf a b hab]
  constructor
  · rintro h n fs ⟨x, hx, hr⟩ hd
    rw [hex] at hx
    cases hx
    obtain ⟨_, rfs, p, h2, -⟩ := hf.struct n fs (mem_decls.2 hd)
    obtain ⟨fs', rfs', h3, h4, h5⟩ := final_struct hf hnb h2 hd
    cases h4
    exact fun f hfm => (hiff h5).1 (h n rfs n hr h2) f (h3.mem_iff.2 hfm)
  · intro h n rfs i hr hj
    rcases final_entry hf hj with ⟨-, b, h2, -⟩ | ⟨vs, e, -, h2⟩ | ⟨fs, fs', rfs', hd, h3, h2, h4⟩
    · cases h2
    · cases h2
    · cases h2
      exact (hiff h4).2 fun f hfm => h n fs ⟨_, hex, hr⟩ hd f (h3.mem_iff.1 hfm)

theorem checked_fed (hc : Checked ast r) : (Fed r.export.fields ∧ AllFs Fed r.export.fields) ↔
    ∀ n fs, Used ast n → .decl n (.struct fs) ∈ ast → ∀ f ∈ fs, f.2.array = true → TakesSpace ast ⟨f.2.name, false, false⟩ := by
  refine checked_resolved hc (fun f => f.array = true → slotsT f.ty ≠ 0) _ ?_
  intro c hF ⟨n, u⟩ b hab
  rw [slots_iff hF hab, hab.array]

end

end Packetc.Rs
