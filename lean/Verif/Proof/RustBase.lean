import Verif.Spec.Rust
/-!
# Lemmas about the Rust semantics
-/

namespace Packetc.Rs
open Check
open Js (Num Scalar utf8Enc scalarOf reprScalar)

theorem bind_apply {α β} (x : M α) (f : α → M β) (s : St) : (x >>= f) s =
    match x s with | .ok a s' => f a s' | .err => .err | .abort => .abort | .stuck => .stuck := rfl

theorem bind_ok {α β} {x : M α} {f : α → M β} {s s' : St} {a : α} (h : x s = .ok a s') : (x >>= f) s = f a s' := by
  rw [bind_apply, h]

theorem bind_err {α β} {x : M α} {f : α → M β} {s : St} (h : x s = .err) : (x >>= f) s = .err := by
  rw [bind_apply, h]

theorem bind_abort {α β} {x : M α} {f : α → M β} {s : St} (h : x s = .abort) : (x >>= f) s = .abort := by
  rw [bind_apply, h]

theorem pure_apply {α} (a : α) (s : St) : (pure a : M α) s = .ok a s := rfl

theorem place_fold (fs : List Str) (e : Expr) (x : Str) (gs : List Str) (h : place e = some (x, gs)) :
    place (fs.foldl Expr.field e) = some (x, gs ++ fs) := by
  induction fs generalizing e gs with
  | nil => simpa using h
  | cons f fs ih =>
    rw [List.foldl_cons, ih (.field e f) (gs ++ [f]) (by simp [place, h])]
    simp

theorem place_path (x : Str) (fs : List Str) : place (path (x :: fs)) = some (x, fs) := by
  have := place_fold fs (.var x) x [] rfl
  simpa [path] using this

theorem eval_fold (lib : Lib) (P : Prog) (fs : List Str) (e : Expr) (h : eval lib P e = load e) :
    eval lib P (fs.foldl Expr.field e) = load (fs.foldl Expr.field e) := by
  induction fs generalizing e with
  | nil => exact h
  | cons f fs ih => exact ih (.field e f) rfl

theorem eval_path (lib : Lib) (P : Prog) (x : Str) (fs : List Str) : eval lib P (path (x :: fs)) = load (path (x :: fs)) :=
  eval_fold lib P fs (.var x) rfl

theorem getV_nil (v : Val) : getV v [] = some v := by cases v <;> rfl

theorem getV_struct (l : List (Str × Val)) (f : Str) (fs : List Str) :
    getV (.struct l) (f :: fs) = (get l f).bind fun w => getV w fs := rfl

theorem getV_append (fs gs : List Str) (v : Val) : getV v (fs ++ gs) = (getV v fs).bind fun w => getV w gs := by
  induction fs generalizing v with
  | nil => rw [getV_nil]; rfl
  | cons f fs ih =>
    cases v with
    | struct l =>
      rw [List.cons_append, getV_struct, getV_struct]
      cases get l f with
      | none => rfl
      | some w => exact ih w
    | _ => rfl

/-- The place named by a stack holds a value. -/
def At (env : List (Str × Val)) (st : List Str) (v : Val) : Prop :=
  ∃ x fs r, st = x :: fs ∧ get env x = some r ∧ getV r fs = some v

theorem At.load {env st v} (h : At env st v) (out rest : List UInt8) :
    load (path st) ⟨env, out, rest⟩ = .ok v ⟨env, out, rest⟩ := by
  obtain ⟨x, fs, r, rfl, h1, h2⟩ := h
  unfold Rs.load
  rw [place_path]
  simp only [Option.bind_some, h1, h2]

theorem At.eval (lib : Lib) (P : Prog) {env st v} (h : At env st v) (out rest : List UInt8) :
    eval lib P (path st) ⟨env, out, rest⟩ = .ok v ⟨env, out, rest⟩ := by
  have h' := h.load out rest
  obtain ⟨x, fs, r, rfl, h1, h2⟩ := h
  rw [eval_path]
  exact h'

theorem At.field {env st l f v} (h : At env st (.struct l)) (hf : get l f = some v) : At env (st ++ [f]) v := by
  obtain ⟨x, fs, r, rfl, h1, h2⟩ := h
  refine ⟨x, fs ++ [f], r, rfl, h1, ?_⟩
  rw [getV_append, h2, Option.bind_some, getV_struct, hf, Option.bind_some, getV_nil]

theorem get_head (x : Str) (v : Val) (env) : get ((x, v) :: env) x = some v := if_pos rfl

theorem At.head (x : Str) (v : Val) (env) : At ((x, v) :: env) [x] v := ⟨x, [], v, rfl, get_head x v env, getV_nil v⟩

section
variable (lib : Lib) (P : Prog)

theorem execAll_nil (s : St) : execAll lib P [] s = .ok () s := rfl

theorem execAll_cons (a : Stmt) (b : List Stmt) : execAll lib P (a :: b) = (exec lib P a >>= fun _ => execAll lib P b) := rfl

theorem execAll_append (a b : List Stmt) (s : St) :
    execAll lib P (a ++ b) s = (execAll lib P a >>= fun _ => execAll lib P b) s := by
  induction a generalizing s with
  | nil => rfl
  | cons c a ih =>
    rw [List.cons_append, execAll_cons, execAll_cons]
    cases h : exec lib P c s with
    | ok u s' =>
      have h' : (exec lib P c >>= fun _ => execAll lib P a) s = execAll lib P a s' := bind_ok h
      rw [bind_ok h, ih, bind_apply, bind_apply, h']
    | err => rw [bind_err h, bind_apply, bind_err h]
    | abort => rw [bind_abort h, bind_apply, bind_abort h]
    | stuck =>
      rw [bind_apply, h, bind_apply]
      have : (exec lib P c >>= fun _ => execAll lib P a) s = .stuck := by rw [bind_apply, h]
      rw [this]

theorem execAll_one (a : Stmt) (s : St) : execAll lib P [a] s = exec lib P a s := by
  rw [execAll_cons, bind_apply]
  cases exec lib P a s <;> rfl

theorem execAll_two {a b : Stmt} {s s' : St} (h : exec lib P a s = .ok () s') : execAll lib P [a, b] s = exec lib P b s' := by
  rw [execAll_cons, bind_ok h, execAll_one]

theorem exec_write (t : Str) (e : Expr) : exec lib P (.write t e) = (eval lib P e >>= fun v => emit lib t v) := rfl

theorem exec_match (r : Bool) (e : Expr) (t : Str) (n : Expr) (x : Str) (body : List Stmt) (s s' : St) (v : Val)
    (h : eval lib P e s = .ok v s') : exec lib P (.matchOpt r e t n x body) s =
      match v with
      | .none => (eval lib P n >>= fun w => emit lib t w) s'
      | .some w => block (do declare x w; execAll lib P body) s'
      | _ => .stuck := by
  show (eval lib P e >>= _) s = _
  rw [bind_ok h]
  cases v <;> rfl

theorem exec_forIter (x : Str) (e : Expr) (body : List Stmt) (s s' : St) (l : List Val)
    (h : eval lib P e s = .ok (.vec l) s') : exec lib P (.forIter x e body) s =
      forEach (fun v => block do declare x v; execAll lib P body) l s' := by
  show (eval lib P e >>= _) s = _
  rw [bind_ok h]

end

theorem block_ok {m : M Unit} {s : St} {pre env : List (Str × Val)} {out rest : List UInt8} (h : m s = .ok () ⟨pre ++ env, out, rest⟩)
    (hl : env.length = s.env.length) : block m s = .ok () ⟨env, out, rest⟩ := by
  unfold block
  rw [h]
  simp [hl]

end Packetc.Rs
