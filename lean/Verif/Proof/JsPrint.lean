import Verif.Js.Program
import Mathlib.Data.List.Induction
/-!
# The emitted text is the print of the structured programs
-/

namespace Packetc.Js
open Check Gen


section
variable (e i a b c t o : Expr) (x p m : Str) (n : Int)
theorem pr_var : (Expr.var x).print = x := rfl
theorem pr_prop : (Expr.prop e p).print = e.print ++ ".".toList ++ p := rfl
theorem pr_index : (Expr.index e i).print = e.print ++ "[".toList ++ i.print ++ "]".toList := rfl
theorem pr_num : (Expr.num n).print = showInt n := rfl
theorem pr_undef : Expr.undef.print = "undefined".toList := rfl
theorem pr_null : Expr.null.print = "null".toList := rfl
theorem pr_tru : Expr.tru.print = "true".toList := rfl
theorem pr_obj : Expr.obj.print = "{}".toList := rfl
theorem pr_new0 : (Expr.new0 x).print = "new ".toList ++ x ++ "()".toList := rfl
theorem pr_new1 : (Expr.new1 x a).print = "new ".toList ++ x ++ "(".toList ++ a.print ++ ")".toList := rfl
theorem pr_call0 : (Expr.call0 o m).print = o.print ++ ".".toList ++ m ++ "()".toList := rfl
theorem pr_call1 : (Expr.call1 o m a).print =
    o.print ++ ".".toList ++ m ++ "(".toList ++ a.print ++ ")".toList := rfl
theorem pr_as : (Expr.asNumber e).print = e.print ++ " as number".toList := rfl
theorem pr_lt : (Expr.lt a b).print = a.print ++ " < ".toList ++ b.print := rfl
theorem pr_le : (Expr.le a b).print = a.print ++ " <= ".toList ++ b.print := rfl
theorem pr_gt : (Expr.gt a b).print = a.print ++ " > ".toList ++ b.print := rfl
theorem pr_and : (Expr.and a b).print = a.print ++ " && ".toList ++ b.print := rfl
theorem pr_cond : (Expr.cond c t e).print =
    c.print ++ " ? ".toList ++ t.print ++ " : ".toList ++ e.print := rfl
theorem pr_readCall : (readCall x).print = "reader.read_".toList ++ x ++ "()".toList := rfl
theorem pr_writeCall : (writeCall x e).print =
    "writer.write_".toList ++ x ++ "(".toList ++ e.print ++ ")".toList := rfl
end

section
variable (ind x i : Str) (e l r l' r' c b n : Expr) (t d : List Stmt) (s : Stmt)
theorem ps_nil : printStmts ind [] = [] := rfl
theorem ps_cons : printStmts ind (s :: t) = s.print ind ++ printStmts ind t := rfl
theorem ps_let : (Stmt.letS x false e).print ind =
    ind ++ ("let ".toList ++ x ++ " = ".toList ++ e.print ++ ";\n".toList) := by
  show ind ++ ("let ".toList ++ x ++ [] ++ " = ".toList ++ e.print ++ ";\n".toList) = _
  rw [List.append_nil]
theorem ps_letAny : (Stmt.letS x true e).print ind =
    ind ++ ("let ".toList ++ x ++ ": any".toList ++ " = ".toList ++ e.print ++ ";\n".toList) := rfl
theorem ps_assign : (Stmt.assign l r).print ind = ind ++ (l.print ++ " = ".toList ++ r.print ++ ";\n".toList) := rfl
theorem ps_expr : (Stmt.expr e).print ind = ind ++ (e.print ++ ";\n".toList) := rfl
theorem ps_ifElse : (Stmt.ifElse c t d).print ind =
    ind ++ ("if (".toList ++ c.print ++ ") {\n".toList) ++ printStmts (deeper ind) t ++
      (ind ++ "} else {\n".toList) ++ printStmts (deeper ind) d ++ (ind ++ "}\n".toList) := rfl
theorem ps_ifAssign : (Stmt.ifAssign c l r l' r').print ind =
    ind ++ ("if (".toList ++ c.print ++ ") ".toList ++ l.print ++ " = ".toList ++ r.print ++ ";\n".toList) ++
      (ind ++ ("else ".toList ++ l'.print ++ " = ".toList ++ r'.print ++ ";\n".toList)) := rfl
theorem ps_ifRet : (Stmt.ifRet c e).print ind =
    ind ++ ("if (".toList ++ c.print ++ ") return ".toList ++ e.print ++ ";\n".toList) := rfl
theorem ps_for : (Stmt.forS i b t).print ind =
    ind ++ ("for (let ".toList ++ i ++ " = 0; ".toList ++ i ++ " < ".toList ++ b.print ++ "; ++".toList ++ i ++
      ") {\n".toList) ++ printStmts (deeper ind) t ++ (ind ++ "}\n".toList) := rfl
theorem ps_switch : (Stmt.switchNullish e n t).print ind =
    ind ++ ("switch (".toList ++ e.print ++ ") {\n".toList) ++
      (deeper ind ++ ("case undefined: case null: ".toList ++ n.print ++ "; break;\n".toList)) ++
      (deeper ind ++ "default: {\n".toList) ++ printStmts (deeper (deeper ind)) t ++
      (deeper ind ++ "}\n".toList) ++ (ind ++ "}\n".toList) := rfl
theorem ps_ret : (Stmt.ret e).print ind = ind ++ ("return ".toList ++ e.print ++ ";\n".toList) := rfl
end

/-- Append text to the output. -/
def emit (c : GenCtx) (s : Str) : GenCtx := { c with out := c.out ++ s }

theorem cat_eq (c : GenCtx) (s : Str) : c.cat s = emit c (c.indentation ++ s) := rfl

@[simp] theorem emit_ind (c : GenCtx) (s : Str) : (emit c s).indentation = c.indentation := rfl
@[simp] theorem emit_out (c : GenCtx) (s : Str) : (emit c s).out = c.out ++ s := rfl
@[simp] theorem emit_stack (c : GenCtx) (s : Str) : (emit c s).stack = c.stack := rfl
@[simp] theorem emit_panicked (c : GenCtx) (s : Str) : (emit c s).panicked = c.panicked := rfl

/-- A generator step that emits the print of `prog stack` and restores everything else. -/
def Emits (g : GenCtx → GenCtx) (prog : List Str → List Stmt) : Prop :=
  ∀ c : GenCtx, g c = emit c (printStmts c.indentation (prog c.stack))

theorem printStmts_append (ind : Str) (a b : List Stmt) :
    printStmts ind (a ++ b) = printStmts ind a ++ printStmts ind b := by
  induction a with
  | nil => rfl
  | cons s ss ih => rw [List.cons_append, ps_cons, ps_cons, ih, List.append_assoc]

theorem popIndent_pushed (c : GenCtx) (ind : Str) (h : c.indentation = deeper ind) :
    c.popIndent = { c with indentation := ind } := by
  unfold GenCtx.popIndent
  rw [h]
  have : (deeper ind).length = ind.length + 4 := by simp [deeper]
  rw [this, if_neg (by omega)]
  simp [deeper]

theorem path_snoc (st : List Str) (n : Str) (h : st ≠ []) : path (st ++ [n]) = .prop (path st) n := by
  cases st with
  | nil => exact absurd rfl h
  | cons x xs => simp [path]

theorem joinWith_snoc (sep : Str) (xs : List Str) (x : Str) (h : xs ≠ []) :
    joinWith sep (xs ++ [x]) = joinWith sep xs ++ sep ++ x := by
  induction xs with
  | nil => exact absurd rfl h
  | cons a as ih =>
    cases as with
    | nil => simp [joinWith]
    | cons b bs =>
      have := ih (by simp)
      simp only [List.cons_append] at this ⊢
      rw [joinWith, this, joinWith]
      simp

theorem print_path (st : List Str) : (path st).print = fname st := by
  induction st using List.reverseRecOn with
  | nil => rfl
  | append_singleton xs x ih =>
    cases xs with
    | nil => rfl
    | cons y ys =>
      rw [path_snoc _ _ (by simp), pr_prop, ih]
      unfold fname
      rw [joinWith_snoc _ _ _ (by simp)]

theorem emit_emit (c : GenCtx) (a b : Str) : emit (emit c a) b = emit c (a ++ b) := by
  simp [emit]

theorem emit_congr (c : GenCtx) {a b : Str} (h : a = b) : emit c a = emit c b := by rw [h]

@[simp] theorem pushIndent_emit (c : GenCtx) (s : Str) : (emit c s).pushIndent = emit c.pushIndent s := rfl
@[simp] theorem setStack_emit (c : GenCtx) (s : Str) (st) : (emit c s).setStack st = emit (c.setStack st) s := rfl
@[simp] theorem pushFname_emit (c : GenCtx) (s n : Str) : (emit c s).pushFname n = emit (c.pushFname n) s := rfl
@[simp] theorem popFname_emit (c : GenCtx) (s : Str) : (emit c s).popFname = emit c.popFname s := rfl
@[simp] theorem popIndent_emit (c : GenCtx) (s : Str) : (emit c s).popIndent = emit c.popIndent s := rfl
@[simp] theorem pushIndent_ind (c : GenCtx) : c.pushIndent.indentation = deeper c.indentation := rfl
@[simp] theorem pushIndent_stack (c : GenCtx) : c.pushIndent.stack = c.stack := rfl
@[simp] theorem setStack_ind (c : GenCtx) (st) : (c.setStack st).indentation = c.indentation := rfl
@[simp] theorem setStack_stack (c : GenCtx) (st) : (c.setStack st).stack = st := rfl
@[simp] theorem pushFname_ind (c : GenCtx) (n) : (c.pushFname n).indentation = c.indentation := rfl
@[simp] theorem pushFname_stack (c : GenCtx) (n) : (c.pushFname n).stack = c.stack ++ [n] := rfl
@[simp] theorem popIndent_pushIndent (c : GenCtx) : c.pushIndent.popIndent = c := by
  rw [popIndent_pushed _ c.indentation rfl]; rfl
@[simp] theorem popFname_pushFname (c : GenCtx) (n) : (c.pushFname n).popFname = c := by
  simp [GenCtx.popFname, GenCtx.pushFname]
theorem setStack_pushIndent (c : GenCtx) (st) : (c.setStack st).pushIndent = (c.pushIndent).setStack st := rfl
theorem setStack_popIndent (c : GenCtx) (st) : (c.setStack st).popIndent = (c.popIndent).setStack st := rfl
@[simp] theorem setStack_pushFname (c : GenCtx) (n) : (c.setStack []).pushFname n = c.setStack [n] := rfl
@[simp] theorem setStack_setStack (c : GenCtx) (a b) : (c.setStack a).setStack b = c.setStack b := rfl
@[simp] theorem setStack_self (c : GenCtx) : c.setStack c.stack = c := rfl

/-- The program of an optional write. -/
def wOpt (prog : List Str → List Stmt) (st : List Str) : List Stmt :=
  [.letS (bindname st) false (path st),
   .switchNullish (.var (bindname st)) (writeCall "uint8".toList (.num 0))
     (.expr (writeCall "uint8".toList (.num 1)) :: prog [bindname st])]

/-- The program of an array write. -/
def wArr (prog : List Str → List Stmt) (st : List Str) : List Stmt :=
  [.expr (writeCall "uint32".toList (.prop (path st) "length".toList)),
   .forS (varname st "index".toList) (.prop (path st) "length".toList)
     (.letS (varname st "item".toList) false (.index (path st) (.var (varname st "index".toList))) ::
       prog [varname st "item".toList])]

theorem emits_writeOptional {body prog} (hb : Emits body prog) : Emits (genWriteOptional body) (wOpt prog) := by
  intro c
  unfold genWriteOptional
  simp only [cat_eq, setStack_pushFname, setStack_ind, setStack_stack, pushIndent_emit, emit_ind, pushIndent_ind,
    setStack_pushIndent, hb _, popIndent_emit, emit_stack, setStack_popIndent,
    popIndent_pushIndent, setStack_emit, setStack_setStack, emit_emit]
  apply emit_congr
  simp only [wOpt, ps_cons, ps_nil, ps_let, ps_switch, ps_expr, print_path, pr_var, pr_writeCall]
  have h1 : "case undefined: case null: writer.write_uint8(0); break;\n".toList =
    "case undefined: case null: ".toList ++ (("writer.write_".toList ++ "uint8".toList ++ "(".toList ++ (Expr.num 0).print ++ ")".toList) ++
      "; break;\n".toList) := by decide
  have h2 : "writer.write_uint8(1);\n".toList =
    ("writer.write_".toList ++ "uint8".toList ++ "(".toList ++ (Expr.num 1).print ++ ")".toList) ++ ";\n".toList := by decide
  rw [h1, h2]
  simp only [List.append_assoc, List.append_nil]

theorem emits_writeArray {body prog} (hb : Emits body prog) : Emits (genWriteArray body) (wArr prog) := by
  intro c
  unfold genWriteArray
  simp only [cat_eq, setStack_pushFname, setStack_ind, setStack_stack, pushIndent_emit, emit_ind, pushIndent_ind,
    setStack_pushIndent, hb _, popIndent_emit, emit_stack, setStack_popIndent,
    popIndent_pushIndent, setStack_emit, setStack_setStack, emit_emit]
  apply emit_congr
  simp only [wArr, ps_cons, ps_nil, ps_let, ps_for, ps_expr, print_path, pr_var, pr_writeCall, pr_prop, pr_index]
  have h1 : "writer.write_uint32(".toList = "writer.write_".toList ++ ("uint32".toList ++ "(".toList) := by decide
  have h2 : ".length);\n".toList = ".".toList ++ ("length".toList ++ (")".toList ++ ";\n".toList)) := by decide
  have h3 : ".length; ++".toList = ".".toList ++ ("length".toList ++ "; ++".toList) := by decide
  have h4 : "];\n".toList = "]".toList ++ ";\n".toList := by decide
  rw [h1, h2, h3, h4]
  simp only [List.append_assoc, List.append_nil]

theorem emits_writeBuiltin (b : Builtin) (name : Str) :
    Emits (genWriteBuiltin b name) (fun st => writeType st name (.builtin b)) := by
  intro c
  have other : emit c (c.indentation ++ ("writer.write_".toList ++ name ++ "(".toList ++ fname c.stack ++ ");\n".toList))
      = emit c (printStmts c.indentation [.expr (writeCall name (path c.stack))]) := by
    apply emit_congr
    simp only [ps_cons, ps_nil, ps_expr, print_path, pr_writeCall]
    have h1 : ");\n".toList = ")".toList ++ ";\n".toList := by decide
    rw [h1]
    simp only [List.append_assoc, List.append_nil]
  cases b
  case string =>
    show (c.cat _).cat _ = _
    rw [cat_eq, cat_eq, emit_emit, emit_ind]
    show _ = emit c (printStmts c.indentation
      [.expr (writeCall "uint32".toList (.prop (path c.stack) "length".toList)),
       .expr (writeCall "string".toList (path c.stack))])
    apply emit_congr
    simp only [ps_cons, ps_nil, ps_expr, print_path, pr_writeCall, pr_prop]
    have h1 : "writer.write_uint32(".toList = "writer.write_".toList ++ ("uint32".toList ++ "(".toList) := by decide
    have h2 : ".length);\n".toList = ".".toList ++ ("length".toList ++ (")".toList ++ ";\n".toList)) := by decide
    have h3 : "writer.write_string(".toList = "writer.write_".toList ++ ("string".toList ++ "(".toList) := by decide
    have h4 : ");\n".toList = ")".toList ++ ";\n".toList := by decide
    rw [h1, h2, h3, h4]
    simp only [List.append_assoc, List.append_nil]
  all_goals exact other

theorem emits_writeEnum (e : REnum) (name : Str) :
    Emits (genWriteEnum e) (fun st => writeType st name (.enum e)) := by
  intro c
  show emit c (c.indentation ++ ("writer.write_".toList ++ reprName e.repr ++ "(".toList ++ fname c.stack ++
    " as number);\n".toList)) = emit c (printStmts c.indentation [.expr (writeCall (reprName e.repr) (.asNumber (path c.stack)))])
  apply emit_congr
  simp only [ps_cons, ps_nil, ps_expr, print_path, pr_writeCall, pr_as]
  have h1 : " as number);\n".toList = " as number".toList ++ (")".toList ++ ";\n".toList) := by decide
  rw [h1]
  simp only [List.append_assoc, List.append_nil]

theorem writeField_eq (stack : List Str) (f : FieldOf RType) :
    writeField stack f =
      (if f.optional then wOpt (if f.array then wArr (fun st => writeType st f.tyName f.ty)
          else fun st => writeType st f.tyName f.ty)
        else (if f.array then wArr (fun st => writeType st f.tyName f.ty)
          else fun st => writeType st f.tyName f.ty)) (stack ++ [f.name]) := by
  obtain ⟨n, tn, t, a, o⟩ := f
  cases a <;> cases o <;> rfl

theorem emits_writeField {f : FieldOf RType}
    (h : Emits (genWriteType f.tyName f.ty) (fun st => writeType st f.tyName f.ty)) :
    Emits (genWriteField f) (fun st => writeField st f) := by
  have key : Emits (if f.optional then genWriteOptional (if f.array then genWriteArray (genWriteType f.tyName f.ty)
          else genWriteType f.tyName f.ty)
        else (if f.array then genWriteArray (genWriteType f.tyName f.ty) else genWriteType f.tyName f.ty))
      (if f.optional then wOpt (if f.array then wArr (fun st => writeType st f.tyName f.ty)
          else fun st => writeType st f.tyName f.ty)
        else (if f.array then wArr (fun st => writeType st f.tyName f.ty)
          else fun st => writeType st f.tyName f.ty)) := by
    cases f.optional <;> cases f.array <;> simp only [if_true, Bool.false_eq_true, if_false]
    · exact h
    · exact emits_writeArray h
    · exact emits_writeOptional h
    · exact emits_writeOptional (emits_writeArray h)
  intro c
  have : genWriteField f c = ((if f.optional then genWriteOptional (if f.array then genWriteArray (genWriteType f.tyName f.ty)
          else genWriteType f.tyName f.ty)
        else (if f.array then genWriteArray (genWriteType f.tyName f.ty) else genWriteType f.tyName f.ty))
          (c.pushFname f.name)).popFname := by
    obtain ⟨n, tn, t, a, o⟩ := f
    cases a <;> cases o <;> rfl
  rw [this, key, popFname_emit, popFname_pushFname, pushFname_ind, pushFname_stack]
  exact emit_congr _ (by rw [← writeField_eq])

mutual
theorem emits_writeStruct : (fs : List (FieldOf RType)) → Emits (genWriteStruct fs) (fun st => writeStruct st fs)
  | [] => fun c => by
    show c = emit c []
    simp [emit]
  | f :: fs => fun c => by
    show genWriteStruct fs (genWriteField f c) = emit c (printStmts c.indentation (writeField c.stack f ++ writeStruct c.stack fs))
    rw [emits_writeField (emits_writeF f), emits_writeStruct fs, emit_emit, printStmts_append]
    rfl
theorem emits_writeF : (f : FieldOf RType) →
    Emits (genWriteType f.tyName f.ty) (fun st => writeType st f.tyName f.ty)
  | ⟨_, tn, t, _, _⟩ => emits_writeType tn t
theorem emits_writeType (tn : Str) : (t : RType) → Emits (genWriteType tn t) (fun st => writeType st tn t)
  | .builtin b => emits_writeBuiltin b tn
  | .enum e => emits_writeEnum e tn
  | .struct fs => emits_writeStruct fs
end

/-! ### Read side -/

/-- Every enum inside has printable bounds (so that ts.rs:177-180 does not panic). -/
def BoundsE (e : REnum) : Prop := (enumBounds e.variants).isSome

mutual
def BoundsOk : RType → Prop
  | .builtin _ => True
  | .enum e => BoundsE e
  | .struct fs => BoundsOkFs fs
def BoundsOkFs : List (FieldOf RType) → Prop
  | [] => True
  | f :: fs => BoundsOkF f ∧ BoundsOkFs fs
def BoundsOkF : FieldOf RType → Prop
  | ⟨_, _, t, _, _⟩ => BoundsOk t
end

/-- The program of an optional read. -/
def rOpt (prog : List Str → List Stmt) (st : List Str) : List Stmt :=
  [.ifElse (.gt (readCall "uint8".toList) (.num 0)) (prog st) [.assign (path st) .undef]]

/-- The program of an array read. -/
def rArr (init : Expr) (prog : List Str → List Stmt) (st : List Str) : List Stmt :=
  [.letS (varname st "len".toList) false (readCall "uint32".toList),
   .assign (path st) (.new1 "Array".toList (.var (varname st "len".toList))),
   .forS (varname st "index".toList) (.var (varname st "len".toList))
     ([.letS (varname st "item".toList) true init] ++ prog [varname st "item".toList] ++
      [.assign (.index (path st) (.var (varname st "index".toList))) (.var (varname st "item".toList))])]

/-- What an array item is initialised to. -/
def itemInit : RType → Expr
  | .struct _ => .obj
  | _ => .undef

theorem emits_readOptional {body prog} (hb : Emits body prog) : Emits (genReadOptional body) (rOpt prog) := by
  intro c
  unfold genReadOptional
  simp only [cat_eq, pushIndent_emit, emit_ind, pushIndent_ind,
    hb _, popIndent_emit, emit_stack, pushIndent_stack, popIndent_pushIndent, emit_emit]
  apply emit_congr
  simp only [rOpt, ps_cons, ps_nil, ps_ifElse, ps_assign, print_path, pr_undef, pr_gt, pr_readCall, pr_num]
  have h1 : "if (reader.read_uint8() > 0) {\n".toList =
    "if (".toList ++ (("reader.read_".toList ++ "uint8".toList ++ "()".toList) ++ " > ".toList ++ showInt 0 ++ ") {\n".toList) := by
    decide
  have h2 : " = undefined;\n".toList = " = ".toList ++ ("undefined".toList ++ ";\n".toList) := by decide
  rw [h1, h2]
  simp only [List.append_assoc, List.append_nil]

theorem emits_readArray {body prog} (init : Bool) (hb : Emits body prog) :
    Emits (genReadArray init body) (rArr (if init then .obj else .undef) prog) := by
  intro c
  unfold genReadArray
  simp only [cat_eq, setStack_pushFname, setStack_ind, setStack_stack, pushIndent_emit, emit_ind, pushIndent_ind,
    setStack_pushIndent, hb _, popIndent_emit, emit_stack, setStack_popIndent,
    popIndent_pushIndent, setStack_emit, setStack_setStack, emit_emit]
  apply emit_congr
  have hi : (if init then "{}".toList else "undefined".toList) = (if init then Expr.obj else .undef).print := by
    cases init <;> rfl
  rw [hi]
  simp only [rArr, ps_cons, ps_nil, ps_let, ps_letAny, ps_for, ps_assign, print_path, pr_var, pr_new1, pr_index,
    pr_readCall, printStmts_append]
  have h1 : " = reader.read_uint32();\n".toList =
    " = ".toList ++ ("reader.read_".toList ++ ("uint32".toList ++ ("()".toList ++ ";\n".toList))) := by decide
  have h2 : " = new Array(".toList = " = ".toList ++ ("new ".toList ++ ("Array".toList ++ "(".toList)) := by decide
  have h3 : ");\n".toList = ")".toList ++ ";\n".toList := by decide
  have h4 : "] = ".toList = "]".toList ++ " = ".toList := by decide
  have h5 : ": any = ".toList = ": any".toList ++ " = ".toList := by decide
  rw [h1, h2, h3, h4, h5]
  simp only [List.append_assoc, List.append_nil]

theorem emits_readBuiltin (init : Bool) (b : Builtin) (name : Str) :
    Emits (genReadBuiltin b name) (fun st => readType init st name (.builtin b)) := by
  intro c
  have other : emit c (c.indentation ++ (fname c.stack ++ " = reader.read_".toList ++ name ++ "();\n".toList))
      = emit c (printStmts c.indentation [.assign (path c.stack) (readCall name)]) := by
    apply emit_congr
    simp only [ps_cons, ps_nil, ps_assign, print_path, pr_readCall]
    have h1 : " = reader.read_".toList = " = ".toList ++ "reader.read_".toList := by decide
    have h2 : "();\n".toList = "()".toList ++ ";\n".toList := by decide
    rw [h1, h2]
    simp only [List.append_assoc, List.append_nil]
  cases b
  case string =>
    show (c.cat _).cat _ = _
    rw [cat_eq, cat_eq, emit_emit, emit_ind]
    show _ = emit c (printStmts c.indentation
      [.letS (Gen.varname c.stack "len".toList) false (readCall "uint32".toList),
       .assign (path c.stack) (.call1 reader "read_string".toList (.var (Gen.varname c.stack "len".toList)))])
    apply emit_congr
    simp only [ps_cons, ps_nil, ps_let, ps_assign, print_path, pr_readCall, pr_call1, pr_var]
    have h1 : " = reader.read_uint32();\n".toList =
      " = ".toList ++ ("reader.read_".toList ++ ("uint32".toList ++ ("()".toList ++ ";\n".toList))) := by decide
    have h2 : " = reader.read_string(".toList =
      " = ".toList ++ ("reader".toList ++ (".".toList ++ ("read_string".toList ++ "(".toList))) := by decide
    have h3 : ");\n".toList = ")".toList ++ ";\n".toList := by decide
    rw [h1, h2, h3]
    simp only [List.append_assoc, List.append_nil]
  all_goals exact other

theorem emits_readEnum (init : Bool) (e : REnum) (name : Str) (h : BoundsE e) :
    Emits (genReadEnum e) (fun st => readType init st name (.enum e)) := by
  intro c
  unfold BoundsE at h
  obtain ⟨⟨lo, hi⟩, hb⟩ := Option.isSome_iff_exists.1 h
  have : genReadEnum e c = ((c.cat ("let ".toList ++ varname c.stack "temp".toList ++ " = reader.read_".toList ++ reprName e.repr ++
      "();\n".toList)).cat ("if (".toList ++ showInt lo ++ " <= ".toList ++ varname c.stack "temp".toList ++ " && ".toList ++
      varname c.stack "temp".toList ++ " <= ".toList ++ showInt hi ++ ") ".toList ++ fname c.stack ++ " = ".toList ++
      varname c.stack "temp".toList ++ ";\n".toList)).cat "else reader.failed = true;\n".toList := by
    unfold genReadEnum
    rw [hb]
  rw [this]
  have hp : readType init c.stack name (.enum e) =
    [.letS (varname c.stack "temp".toList) false (readCall (Gen.reprName e.repr)),
     .ifAssign (.and (.le (.num lo) (.var (varname c.stack "temp".toList))) (.le (.var (varname c.stack "temp".toList)) (.num hi)))
       (path c.stack) (.var (varname c.stack "temp".toList)) (.prop reader "failed".toList) .tru] := by
    unfold readType
    rw [hb]
    rfl
  show _ = emit c (printStmts c.indentation (readType init c.stack name (.enum e)))
  rw [hp]
  simp only [cat_eq, emit_ind, emit_emit]
  apply emit_congr
  simp only [ps_cons, ps_nil, ps_let, ps_ifAssign, print_path, pr_readCall, pr_and, pr_le, pr_var, pr_num, pr_prop, pr_tru]
  have h1 : " = reader.read_".toList = " = ".toList ++ "reader.read_".toList := by decide
  have h2 : "();\n".toList = "()".toList ++ ";\n".toList := by decide
  have h3 : "else reader.failed = true;\n".toList =
    "else ".toList ++ ("reader".toList ++ (".".toList ++ ("failed".toList ++ (" = ".toList ++ ("true".toList ++ ";\n".toList))))) := by
    decide
  rw [h1, h2, h3]
  simp only [List.append_assoc, List.append_nil]

theorem readField_eq (stack : List Str) (f : FieldOf RType) :
    readField stack f =
      (if f.optional then rOpt (if f.array then rArr (itemInit f.ty) (fun st => readType false st f.tyName f.ty)
          else fun st => readType true st f.tyName f.ty)
        else (if f.array then rArr (itemInit f.ty) (fun st => readType false st f.tyName f.ty)
          else fun st => readType true st f.tyName f.ty)) (stack ++ [f.name]) := by
  obtain ⟨n, tn, t, a, o⟩ := f
  cases a <;> cases o <;> cases t <;> rfl

theorem emits_readField {f : FieldOf RType}
    (h : ∀ init, Emits (genReadType init f.tyName f.ty) (fun st => readType init st f.tyName f.ty)) :
    Emits (genReadField f) (fun st => readField st f) := by
  have hin : itemInit f.ty = if (match f.ty with | .struct _ => true | _ => false) then .obj else .undef := by
    cases f.ty <;> rfl
  have key : Emits (if f.optional then genReadOptional (if f.array then
            genReadArray (match f.ty with | .struct _ => true | _ => false) (genReadType false f.tyName f.ty)
          else genReadType true f.tyName f.ty)
        else (if f.array then genReadArray (match f.ty with | .struct _ => true | _ => false) (genReadType false f.tyName f.ty)
          else genReadType true f.tyName f.ty))
      (if f.optional then rOpt (if f.array then rArr (itemInit f.ty) (fun st => readType false st f.tyName f.ty)
          else fun st => readType true st f.tyName f.ty)
        else (if f.array then rArr (itemInit f.ty) (fun st => readType false st f.tyName f.ty)
          else fun st => readType true st f.tyName f.ty)) := by
    rw [hin]
    cases f.optional <;> cases f.array <;> simp only [if_true, Bool.false_eq_true, if_false]
    · exact h _
    · exact emits_readArray _ (h _)
    · exact emits_readOptional (h _)
    · exact emits_readOptional (emits_readArray _ (h _))
  intro c
  have : genReadField f c = ((if f.optional then genReadOptional (if f.array then
            genReadArray (match f.ty with | .struct _ => true | _ => false) (genReadType false f.tyName f.ty)
          else genReadType true f.tyName f.ty)
        else (if f.array then genReadArray (match f.ty with | .struct _ => true | _ => false) (genReadType false f.tyName f.ty)
          else genReadType true f.tyName f.ty))
          (c.pushFname f.name)).popFname := by
    obtain ⟨n, tn, t, a, o⟩ := f
    cases a <;> cases o <;> rfl
  rw [this, key, popFname_emit, popFname_pushFname, pushFname_ind, pushFname_stack]
  exact emit_congr _ (by rw [← readField_eq])

theorem emits_readStruct (init : Bool) (fs : List (FieldOf RType)) (name : Str)
    (h : Emits (genReadFields fs) (fun st => readFields st fs)) :
    Emits (genReadStruct init fs) (fun st => readType init st name (.struct fs)) := by
  cases init with
  | false =>
    intro c
    exact h c
  | true =>
    intro c
    show ((genReadFields fs (((c.setStack []).pushFname (bindname c.stack)).cat
      ("let ".toList ++ bindname c.stack ++ ": any = {};\n".toList))).cat
        (fname c.stack ++ " = ".toList ++ bindname c.stack ++ ";\n".toList)).setStack c.stack =
      emit c (printStmts c.indentation ([.letS (bindname c.stack) true .obj] ++ readFields [bindname c.stack] fs ++
        [.assign (path c.stack) (.var (bindname c.stack))]))
    simp only [cat_eq, setStack_pushFname, setStack_ind, setStack_stack, emit_ind,
      h _, emit_stack, setStack_emit, setStack_setStack, emit_emit]
    apply emit_congr
    simp only [ps_cons, ps_nil, ps_letAny, ps_assign, print_path, pr_var, pr_obj, printStmts_append]
    have h1 : ": any = {};\n".toList = ": any".toList ++ (" = ".toList ++ ("{}".toList ++ ";\n".toList)) := by decide
    rw [h1]
    simp only [List.append_assoc, List.append_nil]

mutual
theorem emits_readFields : (fs : List (FieldOf RType)) → BoundsOkFs fs →
    Emits (genReadFields fs) (fun st => readFields st fs)
  | [], _ => fun c => by
    show c = emit c []
    simp [emit]
  | f :: fs, h => fun c => by
    show genReadFields fs (genReadField f c) = emit c (printStmts c.indentation (readField c.stack f ++ readFields c.stack fs))
    rw [emits_readField (emits_readF f h.1), emits_readFields fs h.2, emit_emit, printStmts_append]
    rfl
theorem emits_readF : (f : FieldOf RType) → BoundsOkF f → ∀ init,
    Emits (genReadType init f.tyName f.ty) (fun st => readType init st f.tyName f.ty)
  | ⟨_, tn, t, _, _⟩, h => fun init => emits_readType init tn t h
theorem emits_readType (init : Bool) (tn : Str) : (t : RType) → BoundsOk t →
    Emits (genReadType init tn t) (fun st => readType init st tn t)
  | .builtin b, _ => emits_readBuiltin init b tn
  | .enum e, h => emits_readEnum init e tn h
  | .struct fs, h => emits_readStruct init fs tn (emits_readFields fs h)
end

theorem emits_ctorFields (exp : Str) (fs : List RField) (c : GenCtx) :
    genCtorFields exp fs c = emit c (printCtorFields c.indentation exp fs) := by
  induction fs generalizing c with
  | nil => simp [genCtorFields, printCtorFields, emit]
  | cons f fs ih =>
    show genCtorFields exp fs (c.cat _) = emit c (_ ++ printCtorFields c.indentation exp fs)
    rw [cat_eq, ih, emit_emit, emit_ind]

/-- The class text, printed from the programs. -/
theorem genImpl_eq (e : Export) (h : BoundsOkFs e.fields) (out : Str) :
    genImplCtx e (GenCtx.new out) = emit (GenCtx.new out) (printClass e) := by
  unfold genImplCtx
  have h0 : (GenCtx.new out).indentation = [] := rfl
  have h1 : (GenCtx.new out).stack = [] := rfl
  have hr : ∀ c, genReadStruct false e.fields c = emit c (printStmts c.indentation (readFields c.stack e.fields)) :=
    emits_readFields e.fields h
  simp only [cat_eq, emits_ctorFields, emits_writeStruct _ _, hr,
    pushIndent_emit, emit_ind, pushIndent_ind, popIndent_emit, emit_stack, pushIndent_stack,
    pushFname_emit, pushFname_ind, pushFname_stack, popFname_emit,
    popIndent_pushIndent, popFname_pushFname, emit_emit, h0, h1]
  apply emit_congr
  delta printClass readBody writeBody
  simp only [printStmts_append, ps_cons, ps_nil, ps_let, ps_ifRet, ps_ret,
    pr_new1, pr_new0, pr_var, pr_call1, pr_call0, pr_prop, pr_null, pr_cond, List.nil_append]
  have e1 : "let reader = new Reader(data);\n".toList =
    "let ".toList ++ ("reader".toList ++ (" = ".toList ++ ("new ".toList ++ ("Reader".toList ++ ("(".toList ++
      ("data".toList ++ (")".toList ++ ";\n".toList))))))) := by decide
  have e2 : "let output = Object.create(".toList =
    "let ".toList ++ ("output".toList ++ (" = ".toList ++ ("Object".toList ++ (".".toList ++ ("create".toList ++
      "(".toList))))) := by decide
  have e3 : ");\n".toList = ")".toList ++ ";\n".toList := by decide
  have e4 : "if (reader.failed) return null;\n".toList =
    "if (".toList ++ ("reader".toList ++ (".".toList ++ ("failed".toList ++ (") return ".toList ++ ("null".toList ++
      ";\n".toList))))) := by decide
  have e5 : "return output;\n".toList = "return ".toList ++ ("output".toList ++ ";\n".toList) := by decide
  have e6 : "let writer = buffer ? new Writer(buffer) : new Writer();\n".toList =
    "let ".toList ++ ("writer".toList ++ (" = ".toList ++ ("buffer".toList ++ (" ? ".toList ++ ("new ".toList ++
      ("Writer".toList ++ ("(".toList ++ ("buffer".toList ++ (")".toList ++ (" : ".toList ++ ("new ".toList ++
      ("Writer".toList ++ ("()".toList ++ ";\n".toList))))))))))))) := by decide
  have e7 : "return writer.finish();\n".toList =
    "return ".toList ++ ("writer".toList ++ (".".toList ++ ("finish".toList ++ ("()".toList ++ ";\n".toList)))) := by
    decide
  rw [e1, e2, e3, e4, e5, e6, e7]
  simp only [List.append_assoc, List.append_nil]

end Packetc.Js
