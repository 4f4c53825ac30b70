import Verif.Spec.Wire
import Verif.Proof.JsPrint
import Verif.Proof.CheckMap
/-!
# Basic facts about the interpreter: scopes, statement lists, loops
-/

namespace Packetc.Js
open Check Gen

@[simp] theorem ok_bind {ε α β : Type} (a : α) (f : α → Except ε β) : (Except.ok a).bind f = f a := rfl
@[simp] theorem error_bind {ε α β : Type} (e : ε) (f : α → Except ε β) : (Except.error e).bind f = .error e := rfl
@[simp] theorem lift_ok {α : Type} (a : α) : lift (.ok a) = .ok a := rfl
@[simp] theorem lift_error {α : Type} (t : Throw) : lift (.error t : Except Throw α) = .error (.throw t) := rfl

section exec
variable (rt : Runtime) (cls : Str) (fuel : Nat)

theorem execs_nil (st : State) : execs rt cls fuel [] st = .ok st := rfl
theorem execs_cons (s : Stmt) (ss : List Stmt) (st : State) :
    execs rt cls fuel (s :: ss) st = (exec rt cls fuel s st).bind fun st => execs rt cls fuel ss st := rfl

theorem execs_append (a b : List Stmt) (st : State) :
    execs rt cls fuel (a ++ b) st = (execs rt cls fuel a st).bind fun st => execs rt cls fuel b st := by
  induction a generalizing st with
  | nil => rfl
  | cons s ss ih =>
    rw [List.cons_append, execs_cons, execs_cons]
    cases h : exec rt cls fuel s st with
    | error e => rfl
    | ok st' => simp only [ok_bind]; exact ih st'

theorem exec_let (x : Str) (any : Bool) (e : Expr) (st : State) :
    exec rt cls fuel (.letS x any e) st =
      (lift (eval rt cls e st)).bind fun r => .ok { r.2 with scopes := initLet r.2.scopes x r.1 } := rfl
theorem exec_assign (l r : Expr) (st : State) :
    exec rt cls fuel (.assign l r) st = lift (evalAssign rt cls l r st) := rfl
theorem exec_expr (e : Expr) (st : State) :
    exec rt cls fuel (.expr e) st = (lift (eval rt cls e st)).bind fun r => .ok r.2 := rfl
theorem exec_ifElse (c : Expr) (t e : List Stmt) (st : State) :
    exec rt cls fuel (.ifElse c t e) st =
      (lift (eval rt cls c st)).bind fun r =>
        if r.1.truthy then inScope (hoist t) (execs rt cls fuel t) r.2
        else inScope (hoist e) (execs rt cls fuel e) r.2 := rfl
theorem exec_ifAssign (c l r l' r' : Expr) (st : State) :
    exec rt cls fuel (.ifAssign c l r l' r') st =
      (lift (eval rt cls c st)).bind fun v =>
        if v.1.truthy then lift (evalAssign rt cls l r v.2) else lift (evalAssign rt cls l' r' v.2) := rfl
theorem exec_ifRet (c e : Expr) (st : State) :
    exec rt cls fuel (.ifRet c e) st =
      (lift (eval rt cls c st)).bind fun v =>
        if v.1.truthy then (lift (eval rt cls e v.2)).bind fun r => .error (.ret r.1 r.2) else .ok v.2 := rfl
theorem exec_for (i : Str) (b : Expr) (body : List Stmt) (st : State) :
    exec rt cls fuel (.forS i b body) st =
      inScope [(i, some (.num (.int 0)))]
        (forLoop (fun st => lift (eval rt cls (.lt (.var i) b) st))
          (inScope (hoist body) (execs rt cls fuel body))
          (fun st => lift (increment cls i st)) fuel) st := rfl
theorem exec_switch (e n : Expr) (d : List Stmt) (st : State) :
    exec rt cls fuel (.switchNullish e n d) st =
      (lift (eval rt cls e st)).bind fun v =>
        match v.1 with
        | .undef | .null => (lift (eval rt cls n v.2)).bind fun r => .ok r.2
        | _ => inScope (hoist d) (execs rt cls fuel d) v.2 := rfl
theorem exec_ret (e : Expr) (st : State) :
    exec rt cls fuel (.ret e) st = (lift (eval rt cls e st)).bind fun r => .error (.ret r.1 r.2) := rfl

end exec

theorem letNames_append (a b : List Stmt) : letNames (a ++ b) = letNames a ++ letNames b := by
  induction a with
  | nil => rfl
  | cons s ss ih => cases s <;> simp [letNames, ih]

theorem stmtsOk_append (a b : List Stmt) : stmtsOk (a ++ b) = (stmtsOk a && stmtsOk b) := by
  induction a with
  | nil => simp [stmtsOk]
  | cons s ss ih => simp [stmtsOk, ih, Bool.and_assoc]

theorem hoist_get (ss : List Stmt) (x : Str) :
    (hoist ss).get x = if x ∈ letNames ss then some none else none := by
  unfold hoist
  induction letNames ss with
  | nil => simp
  | cons y ys ih =>
    simp only [List.map_cons, Map.get, ih, List.mem_cons]
    by_cases h : y = x
    · simp [h]
    · simp only [h, if_false]
      have : ¬ x = y := fun e => h e.symm
      simp [this]

theorem lookup_cons (sc : Scope) (scs : List Scope) (x : Str) :
    lookup (sc :: scs) x = match sc.get x with | some b => some b | none => lookup scs x := rfl

theorem lookup_cons_none {sc : Scope} {scs : List Scope} {x : Str} (h : sc.get x = none) :
    lookup (sc :: scs) x = lookup scs x := by rw [lookup_cons, h]

theorem lookup_cons_some {sc : Scope} {scs : List Scope} {x : Str} {b} (h : sc.get x = some b) :
    lookup (sc :: scs) x = some b := by rw [lookup_cons, h]

theorem lookup_congr {sc sc' : Scope} {scs : List Scope} {x : Str} (h : sc'.get x = sc.get x) :
    lookup (sc' :: scs) x = lookup (sc :: scs) x := by rw [lookup_cons, lookup_cons, h]

theorem getVar_congr {cls : Str} {s s' : List Scope} {x : Str} (h : lookup s' x = lookup s x) :
    getVar cls s' x = getVar cls s x := by unfold getVar; rw [h]

theorem getVar_of_lookup {cls : Str} {s : List Scope} {x : Str} {v : Val} (h : lookup s x = some (some v)) :
    getVar cls s x = .ok v := by unfold getVar; rw [h]

theorem inScope_ok {sc : Scope} {f : State → Except Stop State} {st st' : State}
    (h : f { st with scopes := sc :: st.scopes } = .ok st') :
    inScope sc f st = .ok { st' with scopes := st'.scopes.tail } := by
  unfold inScope; rw [h]; rfl

/-- Induction rule for loops. -/
theorem forLoop_inv {cond : State → Except Stop (Val × State)} {body inc : State → Except Stop State}
    (I : Nat → State → Prop) (N : Nat)
    (hcond : ∀ k st, k < N → I k st → cond st = .ok (.bool true, st))
    (hend : ∀ st, I N st → cond st = .ok (.bool false, st))
    (hbody : ∀ k st, k < N → I k st → ∃ st1 st2, body st = .ok st1 ∧ inc st1 = .ok st2 ∧ I (k + 1) st2) :
    ∀ fuel st k, k ≤ N → N - k < fuel → I k st →
      ∃ st', forLoop cond body inc fuel st = .ok st' ∧ I N st' := by
  intro fuel
  induction fuel with
  | zero => intro st k _ h; omega
  | succ n ih =>
    intro st k hk hf hI
    unfold forLoop
    by_cases hkN : k = N
    · subst hkN
      rw [hend st hI]
      exact ⟨st, rfl, hI⟩
    · have hlt : k < N := by omega
      obtain ⟨st1, st2, h1, h2, h3⟩ := hbody k st hlt hI
      obtain ⟨st', h4, h5⟩ := ih st2 (k + 1) (by omega) (by omega) h3
      refine ⟨st', ?_, h5⟩
      rw [hcond k st hlt hI]
      simp only [ok_bind, Val.truthy, if_true, h1, h2, h4]

/-- A single-variable scope after `++i`. -/
theorem insert_single (x : Str) (a b : Option Val) : Map.insert [(x, a)] x b = [(x, b)] := by
  simp [Map.insert, Map.erase]

theorem methodScalar_read (s : Scalar) : methodScalar "read_".toList ("read_".toList ++ s.name) = some s := by
  cases s <;> decide

theorem methodScalar_write (s : Scalar) : methodScalar "write_".toList ("write_".toList ++ s.name) = some s := by
  cases s <;> decide

theorem eval_var {rt : Runtime} {cls : Str} {st : State} {x : Str} {v : Val}
    (h : getVar cls st.scopes x = .ok v) : eval rt cls (.var x) st = .ok (v, st) := by
  unfold eval; rw [h]; rfl

/-- `reader.read_T()` -/
theorem eval_readCall {rt : Runtime} {cls : Str} {st : State} (s : Scalar)
    (h : lookup st.scopes "reader".toList = some (some .reader)) :
    eval rt cls (readCall s.name) st =
      .ok (.num (rt.readNum s st.rd).1, { st with rd := (rt.readNum s st.rd).2 }) := by
  show (eval rt cls reader st).bind (fun r => callMethod0 rt r.1 ("read_".toList ++ s.name) r.2) = _
  rw [eval_var (getVar_of_lookup h)]
  show callMethod0 rt .reader ("read_".toList ++ s.name) st = _
  unfold callMethod0
  simp only [methodScalar_read]

/-- `writer.write_T(e)` -/
theorem eval_writeCall {rt : Runtime} {cls : Str} {st st' : State} {e : Expr} {n : Num} (s : Scalar)
    (h : lookup st.scopes "writer".toList = some (some .writer))
    (he : eval rt cls e st = .ok (.num n, st')) :
    eval rt cls (writeCall s.name e) st = .ok (.undef, { st' with wr := st'.wr ++ rt.enc s n }) := by
  show (eval rt cls writer st).bind (fun r => (eval rt cls e r.2).bind fun k =>
    callMethod1 rt r.1 ("write_".toList ++ s.name) k.1 k.2) = _
  rw [eval_var (getVar_of_lookup h)]
  simp only [ok_bind, he]
  unfold callMethod1
  simp only [methodScalar_write]

/-! ### Heap access -/

theorem deref_ref {st : State} {i : Nat} {o : Obj} (h : st.heap[i]? = some o) : st.deref (.ref i) = .ok o := by
  show (match st.heap[i]? with | some o => Except.ok o | none => Except.error Throw.unsupported) = _
  rw [h]

theorem getProp_ref {st : State} {i : Nat} {o : Obj} (h : st.heap[i]? = some o) (p : Str) :
    st.getProp (.ref i) p = o.get p := by
  show (st.deref (.ref i)).bind _ = _
  rw [deref_ref h]
  rfl

theorem getIndex_ref {st : State} {i : Nat} {items : List Val} (h : st.heap[i]? = some (.arr items)) (k : Nat) :
    st.getIndex (.ref i) (.num (.int k)) = .ok ((items[k]?).getD .undef) := by
  show (st.deref (.ref i)).bind _ = _
  rw [deref_ref h]
  simp [Obj.getIndex]

/-! ### Representation -/

theorem repItems_iff (h : List Obj) (lo : Nat) (js : List JVal) (vs : List Val) :
    RepItems h lo js vs ↔ List.Forall₂ (RepFrom h lo) js vs := by
  induction js generalizing vs with
  | nil => simp [RepItems]
  | cons j js ih =>
    simp only [RepItems]
    constructor
    · rintro ⟨w, ws, rfl, h1, h2⟩
      exact List.Forall₂.cons h1 ((ih ws).1 h2)
    · intro h
      cases h with
      | cons h1 h2 => exact ⟨_, _, rfl, h1, (ih _).2 h2⟩

theorem repProp_iff (h : List Obj) (lo : Nat) (p : PropOf JVal) (o : Obj) :
    RepProp h lo p o ↔ ∃ w, o.get p.name = .ok w ∧ RepFrom h lo p.value w := by
  obtain ⟨n, j⟩ := p
  rfl

theorem repProps_iff (h : List Obj) (lo : Nat) (ps : List (PropOf JVal)) (o : Obj) :
    RepProps h lo ps o ↔ ∀ p ∈ ps, ∃ w, o.get p.name = .ok w ∧ RepFrom h lo p.value w := by
  induction ps with
  | nil => simp [RepProps]
  | cons p ps ih => simp only [RepProps, ih, repProp_iff, List.mem_cons, forall_eq_or_imp]

end Packetc.Js
