import Verif.Rust.Program
import Verif.Proof.JsPrint
/-!
# The text emitted by rust.rs is the print of the structured programs
-/

namespace Packetc.Rs
open Check RustGen
open Gen (GenCtx varname bindname fname reprName i32Shl1 showInt)
open Js (deeper emit cat_eq emit_ind emit_out emit_stack emit_emit emit_congr pushIndent_emit setStack_emit popFname_emit popIndent_emit
  pushIndent_ind pushIndent_stack setStack_ind setStack_stack pushFname_ind pushFname_stack popIndent_pushIndent
  popFname_pushFname setStack_pushIndent setStack_popIndent setStack_pushFname setStack_setStack setStack_self joinWith_snoc)

section
variable (e a b : Expr) (x t : Str) (n : Nat)
theorem pr_var : (Expr.var x).print = x := rfl
theorem pr_field : (Expr.field e x).print = e.print ++ ".".toList ++ x := rfl
theorem pr_u8 : (Expr.u8 n).print = (toString n).toList ++ "u8".toList := rfl
theorem pr_len : (Expr.len e).print = e.print ++ ".len()".toList := rfl
theorem pr_cast : (Expr.cast e t).print = e.print ++ " as ".toList ++ t := rfl
theorem pr_addr : (Expr.addr e).print = "&".toList ++ e.print := rfl
theorem pr_read : (Expr.read t).print = "reader.read_".toList ++ t ++ "()?".toList := rfl
theorem pr_readString : (Expr.readString e).print = "reader.read_string(".toList ++ e.print ++ ")?".toList := rfl
theorem pr_dflt : (Expr.dflt t).print = t ++ "::default()".toList := rfl
theorem pr_some : (Expr.some e).print = "Some(".toList ++ e.print ++ ")".toList := rfl
theorem pr_tryFrom : (Expr.tryFrom t e).print = t ++ "::try_from(".toList ++ e.print ++ ")?".toList := rfl
end

section
variable (ind x t : Str) (e l r n v : Expr) (k : Nat) (d : List Stmt) (s : Stmt) (y : Bool)
theorem ps_nil : printStmts ind [] = [] := rfl
theorem ps_cons : printStmts ind (s :: d) = s.print ind ++ printStmts ind d := rfl
theorem ps_write : (Stmt.write t e).print ind = ind ++ ("writer.write_".toList ++ t ++ "(".toList ++ e.print ++ ");\n".toList) := rfl
theorem ps_match : (Stmt.matchOpt y e t n x d).print ind =
    ind ++ ("match ".toList ++ (if y then "&".toList else []) ++ e.print ++ " {\n".toList) ++
      (deeper ind ++ ("None => writer.write_".toList ++ t ++ "(".toList ++ n.print ++ "),\n".toList)) ++
      (deeper ind ++ ("Some(".toList ++ x ++ ") => {\n".toList)) ++ printStmts (deeper (deeper ind)) d ++
      (deeper ind ++ "}\n".toList) ++ (ind ++ "}\n".toList) := rfl
theorem ps_forIter : (Stmt.forIter x e d).print ind =
    ind ++ ("for ".toList ++ x ++ " in ".toList ++ e.print ++ ".iter() {\n".toList) ++ printStmts (deeper ind) d ++
      (ind ++ "}\n".toList) := rfl
theorem ps_let : (Stmt.letS false x e).print ind =
    ind ++ ("let ".toList ++ x ++ " = ".toList ++ e.print ++ ";\n".toList) := by
  show ind ++ ("let ".toList ++ [] ++ x ++ " = ".toList ++ e.print ++ ";\n".toList) = _
  rw [List.append_nil]
theorem ps_letMut : (Stmt.letS true x e).print ind =
    ind ++ ("let ".toList ++ "mut ".toList ++ x ++ " = ".toList ++ e.print ++ ";\n".toList) := rfl
theorem ps_assign : (Stmt.assign l r).print ind = ind ++ (l.print ++ " = ".toList ++ r.print ++ ";\n".toList) := rfl
theorem ps_if : (Stmt.ifGt e k d).print ind =
    ind ++ ("if ".toList ++ e.print ++ " > ".toList ++ (toString k).toList ++ " {\n".toList) ++
      printStmts (deeper ind) d ++ (ind ++ "}\n".toList) := rfl
theorem ps_reserve : (Stmt.reserve e n).print ind = ind ++ (e.print ++ ".reserve(".toList ++ n.print ++ ");\n".toList) := rfl
theorem ps_push : (Stmt.push e v).print ind = ind ++ (e.print ++ ".push(".toList ++ v.print ++ ");\n".toList) := rfl
theorem ps_range : (Stmt.forRange n d).print ind =
    ind ++ ("for _ in 0..".toList ++ n.print ++ " {\n".toList) ++ printStmts (deeper ind) d ++ (ind ++ "}\n".toList) := rfl
end

/-- A generator step that emits the print of `prog stack` and restores everything else. -/
def Emits (g : GenCtx → GenCtx) (prog : List Str → List Stmt) : Prop :=
  ∀ c : GenCtx, g c = emit c (printStmts c.indentation (prog c.stack))

theorem printStmts_append (ind : Str) (a b : List Stmt) :
    printStmts ind (a ++ b) = printStmts ind a ++ printStmts ind b := by
  induction a with
  | nil => rfl
  | cons s ss ih => rw [List.cons_append, ps_cons, ps_cons, ih, List.append_assoc]

theorem path_snoc (st : List Str) (n : Str) (h : st ≠ []) : path (st ++ [n]) = .field (path st) n := by
  cases st with
  | nil => exact absurd rfl h
  | cons x xs => simp [path]

theorem print_path (st : List Str) : (path st).print = fname st := by
  induction st using List.reverseRecOn with
  | nil => rfl
  | append_singleton xs x ih =>
    cases xs with
    | nil => rfl
    | cons y ys =>
      rw [path_snoc _ _ (by simp), pr_field, ih]
      unfold fname
      rw [joinWith_snoc _ _ _ (by simp)]

/-- The program of an optional write. -/
def wOpt (byRef : Bool) (prog : List Str → List Stmt) (st : List Str) : List Stmt :=
  [.matchOpt byRef (path st) "uint8".toList (.u8 0) (bindname st) (.write "uint8".toList (.u8 1) :: prog [bindname st])]

/-- The program of an array write. -/
def wArr (prog : List Str → List Stmt) (st : List Str) : List Stmt :=
  [.write "uint32".toList (.cast (.len (path st)) "u32".toList),
   .forIter (varname st "item".toList) (path st) (prog [varname st "item".toList])]

theorem emits_writeOptional {r body prog} (hb : Emits body prog) : Emits (genWriteOptional r body) (wOpt r prog) := by
  intro c
  unfold genWriteOptional
  simp only [cat_eq, setStack_pushFname, setStack_ind, setStack_stack, pushIndent_emit, emit_ind, pushIndent_ind,
    setStack_pushIndent, hb _, popIndent_emit, emit_stack, setStack_popIndent,
    popIndent_pushIndent, setStack_emit, setStack_setStack, emit_emit]
  apply emit_congr
  simp only [wOpt, ps_cons, ps_nil, ps_match, ps_write, print_path]
  have h1 : "None => writer.write_uint8(0u8),\n".toList =
    "None => writer.write_".toList ++ ("uint8".toList ++ ("(".toList ++ ((Expr.u8 0).print ++ "),\n".toList))) := by decide
  have h2 : "writer.write_uint8(1u8);\n".toList =
    "writer.write_".toList ++ ("uint8".toList ++ ("(".toList ++ ((Expr.u8 1).print ++ ");\n".toList))) := by decide
  rw [h1, h2]
  simp only [List.append_assoc, List.append_nil]

theorem u32_text : ".len() as u32);\n".toList = ".len()".toList ++ (" as ".toList ++ ("u32".toList ++ ");\n".toList)) := by decide
theorem write_u32_text : "writer.write_uint32(".toList = "writer.write_".toList ++ ("uint32".toList ++ "(".toList) := by decide

theorem emits_writeArray {body prog} (hb : Emits body prog) : Emits (genWriteArray body) (wArr prog) := by
  intro c
  unfold genWriteArray
  simp only [cat_eq, setStack_pushFname, setStack_ind, setStack_stack, pushIndent_emit, emit_ind, pushIndent_ind,
    setStack_pushIndent, hb _, popIndent_emit, emit_stack, setStack_popIndent,
    popIndent_pushIndent, setStack_emit, setStack_setStack, emit_emit]
  apply emit_congr
  simp only [wArr, ps_cons, ps_nil, ps_forIter, ps_write, print_path, pr_cast, pr_len]
  rw [u32_text, write_u32_text]
  simp only [List.append_assoc, List.append_nil]

theorem emits_writeBuiltin (b : Builtin) (name : Str) :
    Emits (genWriteBuiltin b name) (fun st => writeType st name (.builtin b)) := by
  intro c
  have other : emit c (c.indentation ++ ("writer.write_".toList ++ name ++ "(".toList ++ fname c.stack ++ ");\n".toList))
      = emit c (printStmts c.indentation [.write name (path c.stack)]) := by
    apply emit_congr
    simp only [ps_cons, ps_nil, ps_write, print_path, List.append_nil]
  cases b
  case string =>
    show (c.cat _).cat _ = _
    rw [cat_eq, cat_eq, emit_emit, emit_ind]
    show _ = emit c (printStmts c.indentation
      [.write "uint32".toList (.cast (.len (path c.stack)) "u32".toList), .write "string".toList (.addr (path c.stack))])
    apply emit_congr
    simp only [ps_cons, ps_nil, ps_write, print_path, pr_cast, pr_len, pr_addr]
    have h3 : "writer.write_string(&".toList = "writer.write_".toList ++ ("string".toList ++ ("(".toList ++ "&".toList)) := by decide
    rw [u32_text, write_u32_text, h3]
    simp only [List.append_assoc, List.append_nil]
  all_goals exact other

theorem emits_writeEnum (e : REnum) (name : Str) :
    Emits (genWriteEnum e) (fun st => writeType st name (.enum e)) := by
  intro c
  show emit c (c.indentation ++ ("writer.write_".toList ++ reprName e.repr ++ "(".toList ++ fname c.stack ++
    " as ".toList ++ reprType e.repr ++ ");\n".toList)) =
    emit c (printStmts c.indentation [.write (reprName e.repr) (.cast (path c.stack) (reprType e.repr))])
  apply emit_congr
  simp only [ps_cons, ps_nil, ps_write, print_path, pr_cast, List.append_assoc, List.append_nil]

/-- Optional fields of these types are matched by reference. -/
def byRef : RType → Bool
  | .struct _ => true
  | _ => false

theorem writeField_eq (stack : List Str) (f : FieldOf RType) :
    writeField stack f =
      (if f.optional then wOpt (byRef f.ty) (if f.array then wArr (fun st => writeType st f.tyName f.ty)
          else fun st => writeType st f.tyName f.ty)
        else (if f.array then wArr (fun st => writeType st f.tyName f.ty)
          else fun st => writeType st f.tyName f.ty)) (stack ++ [f.name]) := by
  obtain ⟨n, tn, t, a, o⟩ := f
  cases a <;> cases o <;> cases t <;> rfl

theorem emits_writeField {f : FieldOf RType}
    (h : Emits (genWriteType f.tyName f.ty) (fun st => writeType st f.tyName f.ty)) :
    Emits (genWriteField f) (fun st => writeField st f) := by
  have key : Emits (if f.optional then genWriteOptional (byRef f.ty) (if f.array then genWriteArray (genWriteType f.tyName f.ty)
          else genWriteType f.tyName f.ty)
        else (if f.array then genWriteArray (genWriteType f.tyName f.ty) else genWriteType f.tyName f.ty))
      (if f.optional then wOpt (byRef f.ty) (if f.array then wArr (fun st => writeType st f.tyName f.ty)
          else fun st => writeType st f.tyName f.ty)
        else (if f.array then wArr (fun st => writeType st f.tyName f.ty)
          else fun st => writeType st f.tyName f.ty)) := by
    cases f.optional <;> cases f.array <;> simp only [if_true, Bool.false_eq_true, if_false]
    · exact h
    · exact emits_writeArray h
    · exact emits_writeOptional h
    · exact emits_writeOptional (emits_writeArray h)
  intro c
  have : genWriteField f c = ((if f.optional then genWriteOptional (byRef f.ty) (if f.array then genWriteArray (genWriteType f.tyName f.ty)
          else genWriteType f.tyName f.ty)
        else (if f.array then genWriteArray (genWriteType f.tyName f.ty) else genWriteType f.tyName f.ty))
          (c.pushFname f.name)).popFname := by
    obtain ⟨n, tn, t, a, o⟩ := f
    cases a <;> cases o <;> cases t <;> rfl
  rw [this, key, popFname_emit, popFname_pushFname, pushFname_ind, pushFname_stack]
  exact emit_congr _ (by rw [← writeField_eq])

mutual
theorem emits_writeStruct : (fs : List (FieldOf RType)) → Emits (genWriteStruct fs) (fun st => writeStruct st fs)
  | [] => fun c => by
    show c = emit c []
    simp [emit]
  | f :: fs => fun c => by
    show genWriteStruct fs (genWriteField f c) = emit c (printStmts c.indentation (writeField c.stack f ++ writeStruct c.stack fs))
    rw [emits_writeField (emits_writeF f), emits_writeStruct fs, emit_emit, printStmts_append]
    rfl
theorem emits_writeF : (f : FieldOf RType) →
    Emits (genWriteType f.tyName f.ty) (fun st => writeType st f.tyName f.ty)
  | ⟨_, tn, t, _, _⟩ => emits_writeType tn t
theorem emits_writeType (tn : Str) : (t : RType) → Emits (genWriteType tn t) (fun st => writeType st tn t)
  | .builtin b => emits_writeBuiltin b tn
  | .enum e => emits_writeEnum e tn
  | .struct fs => emits_writeStruct fs
end

/-! ### Read side -/

/-- The program of an optional read. -/
def rOpt (ty : Str) (prog : List Str → List Stmt) (st : List Str) : List Stmt :=
  [.ifGt (.read "uint8".toList) 0
    ([.letS true (bindname st) (.dflt ty)] ++ prog [bindname st] ++ [.assign (path st) (.some (.var (bindname st)))])]

/-- The program of an array read. -/
def rArr (ty : Str) (prog : List Str → List Stmt) (st : List Str) : List Stmt :=
  [.letS false (varname st "len".toList) (.cast (.read "uint32".toList) "usize".toList),
   .reserve (path st) (.var (varname st "len".toList)),
   .forRange (.var (varname st "len".toList))
    ([.letS true (varname st "item".toList) (.dflt ty)] ++ prog [varname st "item".toList] ++
      [.push (path st) (.var (varname st "item".toList))])]

theorem let_mut_text : "let mut ".toList = "let ".toList ++ "mut ".toList := by decide
theorem default_text : "::default();\n".toList = "::default()".toList ++ ";\n".toList := by decide
theorem read_len_text : " = reader.read_uint32()? as usize;\n".toList =
    " = ".toList ++ ("reader.read_".toList ++ ("uint32".toList ++ ("()?".toList ++ (" as ".toList ++ ("usize".toList ++ ";\n".toList))))) := by
  decide

theorem emits_readOptional {ty body prog} (hb : Emits body prog) : Emits (genReadOptional ty body) (rOpt ty prog) := by
  intro c
  unfold genReadOptional
  simp only [cat_eq, setStack_pushFname, setStack_ind, setStack_stack, pushIndent_emit, emit_ind, pushIndent_ind,
    setStack_pushIndent, hb _, popIndent_emit, emit_stack, setStack_popIndent,
    popIndent_pushIndent, setStack_emit, setStack_setStack, emit_emit]
  apply emit_congr
  simp only [rOpt, printStmts_append, ps_cons, ps_nil, ps_if, ps_letMut, ps_assign, print_path, pr_var, pr_dflt, pr_some, pr_read]
  have h1 : "if reader.read_uint8()? > 0 {\n".toList =
    "if ".toList ++ ("reader.read_".toList ++ ("uint8".toList ++ ("()?".toList ++ (" > ".toList ++ ((toString 0).toList ++ " {\n".toList))))) := by
    decide
  have h2 : " = Some(".toList = " = ".toList ++ "Some(".toList := by decide
  have h3 : ");\n".toList = ")".toList ++ ";\n".toList := by decide
  rw [h1, h2, h3, let_mut_text, default_text]
  simp only [List.append_assoc, List.append_nil]

theorem emits_readArray {ty body prog} (hb : Emits body prog) : Emits (genReadArray ty body) (rArr ty prog) := by
  intro c
  unfold genReadArray
  simp only [cat_eq, setStack_pushFname, setStack_ind, setStack_stack, pushIndent_emit, emit_ind, pushIndent_ind,
    setStack_pushIndent, hb _, popIndent_emit, emit_stack, setStack_popIndent,
    popIndent_pushIndent, setStack_emit, setStack_setStack, emit_emit]
  apply emit_congr
  simp only [rArr, printStmts_append, ps_cons, ps_nil, ps_let, ps_letMut, ps_reserve, ps_push, ps_range, print_path, pr_var, pr_dflt, pr_cast, pr_read]
  rw [let_mut_text, default_text, read_len_text]
  simp only [List.append_assoc, List.append_nil]

theorem emits_readBuiltin (b : Builtin) (name : Str) :
    Emits (genReadBuiltin b name) (fun st => readType st name (.builtin b)) := by
  intro c
  have other : emit c (c.indentation ++ (fname c.stack ++ " = reader.read_".toList ++ name ++ "()?;\n".toList))
      = emit c (printStmts c.indentation [.assign (path c.stack) (.read name)]) := by
    apply emit_congr
    simp only [ps_cons, ps_nil, ps_assign, print_path, pr_read]
    have h1 : " = reader.read_".toList = " = ".toList ++ "reader.read_".toList := by decide
    have h2 : "()?;\n".toList = "()?".toList ++ ";\n".toList := by decide
    rw [h1, h2]
    simp only [List.append_assoc, List.append_nil]
  cases b
  case string =>
    show (c.cat _).cat _ = _
    rw [cat_eq, cat_eq, emit_emit, emit_ind]
    show _ = emit c (printStmts c.indentation
      [.letS false (varname c.stack "len".toList) (.cast (.read "uint32".toList) "usize".toList),
       .assign (path c.stack) (.readString (.var (varname c.stack "len".toList)))])
    apply emit_congr
    simp only [ps_cons, ps_nil, ps_let, ps_assign, print_path, pr_cast, pr_read, pr_var, pr_readString]
    have h1 : " = reader.read_string(".toList = " = ".toList ++ "reader.read_string(".toList := by decide
    have h2 : ")?;\n".toList = ")?".toList ++ ";\n".toList := by decide
    rw [read_len_text, h1, h2]
    simp only [List.append_assoc, List.append_nil]
  all_goals exact other

theorem emits_readEnum (e : REnum) (name : Str) :
    Emits (genReadEnum e name) (fun st => readType st name (.enum e)) := by
  intro c
  show emit c (c.indentation ++ (fname c.stack ++ " = ".toList ++ name ++ "::try_from(reader.read_".toList ++ reprName e.repr ++
    "()?)?;\n".toList)) =
    emit c (printStmts c.indentation [.assign (path c.stack) (.tryFrom name (.read (reprName e.repr)))])
  apply emit_congr
  simp only [ps_cons, ps_nil, ps_assign, print_path, pr_tryFrom, pr_read]
  have h1 : "::try_from(reader.read_".toList = "::try_from(".toList ++ "reader.read_".toList := by decide
  have h2 : "()?)?;\n".toList = "()?".toList ++ (")?".toList ++ ";\n".toList) := by decide
  rw [h1, h2]
  simp only [List.append_assoc, List.append_nil]

theorem readField_eq (stack : List Str) (f : FieldOf RType) :
    readField stack f =
      (if f.optional then rOpt (rustName f.tyName) (if f.array then rArr (rustName f.tyName) (fun st => readType st f.tyName f.ty)
          else fun st => readType st f.tyName f.ty)
        else (if f.array then rArr (rustName f.tyName) (fun st => readType st f.tyName f.ty)
          else fun st => readType st f.tyName f.ty)) (stack ++ [f.name]) := by
  obtain ⟨n, tn, t, a, o⟩ := f
  cases a <;> cases o <;> rfl

theorem emits_readField {f : FieldOf RType}
    (h : Emits (genReadType f.tyName f.ty) (fun st => readType st f.tyName f.ty)) :
    Emits (genReadField f) (fun st => readField st f) := by
  have key : Emits (if f.optional then genReadOptional (rustName f.tyName) (if f.array then genReadArray (rustName f.tyName) (genReadType f.tyName f.ty)
          else genReadType f.tyName f.ty)
        else (if f.array then genReadArray (rustName f.tyName) (genReadType f.tyName f.ty) else genReadType f.tyName f.ty))
      (if f.optional then rOpt (rustName f.tyName) (if f.array then rArr (rustName f.tyName) (fun st => readType st f.tyName f.ty)
          else fun st => readType st f.tyName f.ty)
        else (if f.array then rArr (rustName f.tyName) (fun st => readType st f.tyName f.ty)
          else fun st => readType st f.tyName f.ty)) := by
    cases f.optional <;> cases f.array <;> simp only [if_true, Bool.false_eq_true, if_false]
    · exact h
    · exact emits_readArray h
    · exact emits_readOptional h
    · exact emits_readOptional (emits_readArray h)
  intro c
  have : genReadField f c = ((if f.optional then genReadOptional (rustName f.tyName) (if f.array then genReadArray (rustName f.tyName) (genReadType f.tyName f.ty)
          else genReadType f.tyName f.ty)
        else (if f.array then genReadArray (rustName f.tyName) (genReadType f.tyName f.ty) else genReadType f.tyName f.ty))
          (c.pushFname f.name)).popFname := by
    obtain ⟨n, tn, t, a, o⟩ := f
    cases a <;> cases o <;> rfl
  rw [this, key, popFname_emit, popFname_pushFname, pushFname_ind, pushFname_stack]
  exact emit_congr _ (by rw [← readField_eq])

mutual
theorem emits_readStruct : (fs : List (FieldOf RType)) → Emits (genReadStruct fs) (fun st => readStruct st fs)
  | [] => fun c => by
    show c = emit c []
    simp [emit]
  | f :: fs => fun c => by
    show genReadStruct fs (genReadField f c) = emit c (printStmts c.indentation (readField c.stack f ++ readStruct c.stack fs))
    rw [emits_readField (emits_readF f), emits_readStruct fs, emit_emit, printStmts_append]
    rfl
theorem emits_readF : (f : FieldOf RType) →
    Emits (genReadType f.tyName f.ty) (fun st => readType st f.tyName f.ty)
  | ⟨_, tn, t, _, _⟩ => emits_readType tn t
theorem emits_readType (tn : Str) : (t : RType) → Emits (genReadType tn t) (fun st => readType st tn t)
  | .builtin b => emits_readBuiltin b tn
  | .enum e => emits_readEnum e tn
  | .struct fs => emits_readStruct fs
end

/-! ### Functions and definitions -/

theorem genWriteImpl_eq (e : Export) (name out : Str) :
    (genWriteImpl e name (GenCtx.new out)).out = out ++ printWrite name (writeBody e) ∧
    (genWriteImpl e name (GenCtx.new out)).panicked = false := by
  have hw : ∀ c, genWriteStruct e.fields c = emit c (printStmts c.indentation (writeStruct c.stack e.fields)) :=
    emits_writeStruct e.fields
  unfold genWriteImpl
  simp only [cat_eq, pushIndent_emit, hw, emit_ind, pushIndent_ind, emit_stack, pushIndent_stack,
    popIndent_emit, popIndent_pushIndent, emit_emit, pushFname_ind, pushFname_stack]
  refine ⟨?_, rfl⟩
  rw [emit_out]
  show out ++ _ = out ++ _
  congr 1

theorem genReadImpl_eq (e : Export) (name out : Str) :
    (genReadImpl e name (GenCtx.new out)).out = out ++ printRead name (readBody e) ∧
    (genReadImpl e name (GenCtx.new out)).panicked = false := by
  have hw : ∀ c, genReadStruct e.fields c = emit c (printStmts c.indentation (readStruct c.stack e.fields)) :=
    emits_readStruct e.fields
  unfold genReadImpl
  simp only [cat_eq, pushIndent_emit, hw, emit_ind, pushIndent_ind, emit_stack, pushIndent_stack,
    popIndent_emit, popIndent_pushIndent, emit_emit, pushFname_ind, pushFname_stack]
  refine ⟨?_, rfl⟩
  rw [emit_out]
  show out ++ _ = out ++ _
  congr 1

theorem genDefFields_eq (fs : List (FieldOf RType)) (c : GenCtx) :
    genDefFields fs c = emit c (printFields c.indentation (fs.map fun f => (f.name, ⟨fieldTypename f.tyName f.ty, f.array, f.optional⟩))) := by
  induction fs generalizing c with
  | nil => simp [genDefFields, printFields, emit]
  | cons f fs ih =>
    rw [genDefFields, ih, cat_eq, emit_emit, emit_ind]
    rfl

theorem genDefStruct_eq (fs : List (FieldOf RType)) (name out : Str) :
    genDefStruct fs name (GenCtx.new out) = emit (GenCtx.new out) (structItem name fs).print := by
  unfold genDefStruct
  simp only [cat_eq, pushIndent_emit, genDefFields_eq, emit_ind, pushIndent_ind, popIndent_emit, popIndent_pushIndent, emit_emit]
  apply emit_congr
  show ([] ++ _) ++ ([] ++ _) ++ printFields (deeper []) _ ++ ([] ++ _) = _
  simp only [List.nil_append]
  rfl

theorem genDefVariants_eq (vs : List EnumVariant) (c : GenCtx) :
    genDefVariants vs c = emit c (printVariants c.indentation (vs.map fun v => (v.name, v.value))) := by
  induction vs generalizing c with
  | nil => simp [genDefVariants, printVariants, emit]
  | cons f fs ih =>
    rw [genDefVariants, ih, cat_eq, emit_emit, emit_ind]
    rfl

theorem genArms_eq (name : Str) (vs : List EnumVariant) (h : ∀ v ∈ vs, v.value < 32) (c : GenCtx) :
    genArms name vs c = emit c (printArms c.indentation name (vs.map fun v => ((i32Shl1 v.value).getD 0, v.name))) := by
  induction vs generalizing c with
  | nil => simp [genArms, printArms, emit]
  | cons f fs ih =>
    have hv : i32Shl1 f.value = some ((1#32 <<< f.value).toInt) := if_pos (h f (by simp))
    rw [genArms, hv]
    dsimp only
    rw [ih (fun v hv => h v (by simp [hv])), cat_eq, emit_emit, emit_ind, List.map_cons, hv]
    rfl

theorem genEnumDefault_eq (name : Str) (e : REnum) (h : e.variants ≠ []) (c : GenCtx) (hi : c.indentation = []) :
    genEnumDefault name e c = emit c (
    ("impl Default for ".toList ++ name ++ " {\n".toList) ++
    (deeper [] ++ "fn default() -> Self {\n".toList) ++
    (deeper (deeper []) ++ (name ++ "::".toList ++ ((e.variants.head?.map EnumVariant.name).getD []) ++ "\n".toList)) ++
    (deeper [] ++ "}\n".toList) ++ "}\n".toList) := by
  unfold genEnumDefault
  obtain ⟨v, vs, hv⟩ := List.exists_cons_of_ne_nil h
  rw [hv]
  simp only [List.head?_cons, cat_eq, pushIndent_emit, emit_ind, pushIndent_ind, popIndent_emit, popIndent_pushIndent, emit_emit, hi]
  apply emit_congr
  simp only [List.nil_append]
  rfl

theorem genEnumTryFrom_eq (name : Str) (e : REnum) (h : ∀ v ∈ e.variants, v.value < 32) (c : GenCtx) (hi : c.indentation = []) :
    genEnumTryFrom name e c = emit c (
    ("impl std::convert::TryFrom<".toList ++ reprType e.repr ++ "> for ".toList ++ name ++ " {\n".toList) ++
    (deeper [] ++ "type Error = packet::Error;\n".toList) ++
    (deeper [] ++ ("fn try_from(value: ".toList ++ reprType e.repr ++ ") -> Result<Self, Self::Error> {\n".toList)) ++
    (deeper (deeper []) ++ "match value {\n".toList) ++
    printArms (deeper (deeper (deeper []))) name (e.variants.map fun v => ((i32Shl1 v.value).getD 0, v.name)) ++
    (deeper (deeper (deeper [])) ++ ("_ => Err(packet::Error::InvalidEnumValue(value as usize, \"".toList ++ name ++ "\"))\n".toList)) ++
    (deeper (deeper []) ++ "}\n".toList) ++ (deeper [] ++ "}\n".toList) ++ "}\n".toList) := by
  unfold genEnumTryFrom
  simp only [cat_eq, pushIndent_emit, emit_ind, pushIndent_ind, popIndent_emit, popIndent_pushIndent, emit_emit, genArms_eq _ _ h, hi]
  apply emit_congr
  simp only [List.nil_append]

theorem genDefEnum_eq (e : REnum) (name out : Str) (h : e.variants ≠ []) (h' : ∀ v ∈ e.variants, v.value < 32) :
    genDefEnum e name (GenCtx.new out) = emit (GenCtx.new out) (enumItem name e).print := by
  unfold genDefEnum
  simp only [cat_eq, pushIndent_emit, genDefVariants_eq, emit_ind, pushIndent_ind, popIndent_emit, popIndent_pushIndent, emit_emit]
  rw [genEnumDefault_eq _ _ h _ rfl, emit_emit, genEnumTryFrom_eq _ _ h' _ rfl, emit_emit]
  apply emit_congr
  show ([] ++ _) ++ ([] ++ _) ++ ([] ++ _) ++ printVariants (deeper []) _ ++ ([] ++ _) ++ _ ++ _ = _
  simp only [List.nil_append, List.append_assoc]
  show _ = ((((((((((((((((((_ ++ _) ++ _) ++ _) ++ _) ++ _) ++ _) ++ _) ++ _) ++ _) ++ _) ++ _) ++ _) ++ _) ++ _) ++ _) ++ _) ++ _) ++ _)
  simp only [List.append_assoc]

end Packetc.Rs
