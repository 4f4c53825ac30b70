import Verif.Proof.JsLex
/-!
# The tokens of printed programs
-/

namespace Packetc.Js

/-- The first character cannot continue a word or a number. -/
def delimB : Str → Bool
  | [] => false
  | c :: _ => !(isIdPart c) && !(c = '.')
/-- The first character cannot continue a word. -/
def delimW : Str → Bool
  | [] => false
  | c :: _ => !(isIdPart c)

theorem Lx.lit {a ta} (h : Lx a ta) {s : Str} {ts} (hl : Cl s ts) (hd : delimB s = true) : Cl (a ++ s) (ta ++ ts) := by
  cases s with
  | nil => cases hd
  | cons c s =>
    simp only [delimB, Bool.and_eq_true, Bool.not_eq_true', decide_eq_false_iff_not] at hd
    exact h.close hd hl
theorem LxW.lit {a ta} (h : LxW a ta) {s : Str} {ts} (hl : Cl s ts) (hd : delimW s = true) : Cl (a ++ s) (ta ++ ts) := by
  cases s with
  | nil => cases hd
  | cons c s =>
    simp only [delimW, Bool.not_eq_true'] at hd
    exact h.close hd hl
theorem Lx.litLx {a ta} (h : Lx a ta) {s : Str} {ts} (hl : Lx s ts) (hd : delimB s = true) : Lx (a ++ s) (ta ++ ts) := by
  cases s with
  | nil => cases hd
  | cons c s =>
    simp only [delimB, Bool.and_eq_true, Bool.not_eq_true', decide_eq_false_iff_not] at hd
    exact h.append hd hl
theorem LxW.litW {a ta} (h : LxW a ta) {s : Str} {ts} (hl : LxW s ts) (hd : delimW s = true) : LxW (a ++ s) (ta ++ ts) := by
  cases s with
  | nil => cases hd
  | cons c s =>
    simp only [delimW, Bool.not_eq_true'] at hd
    exact h.appendW hd hl

/-! ### expressions -/

/-- The tokens of an expression. -/
def Expr.toks : Expr → List Tok
  | .var x => [.word x]
  | .prop e p => e.toks ++ [op "."] ++ [.word p]
  | .index e i => e.toks ++ [op "["] ++ i.toks ++ [op "]"]
  | .num i => intToks i
  | .undef => [kw "undefined"]
  | .null => [kw "null"]
  | .tru => [kw "true"]
  | .obj => [op "{", op "}"]
  | .new0 c => [kw "new"] ++ [.word c] ++ [op "(", op ")"]
  | .new1 c a => [kw "new"] ++ [.word c] ++ [op "("] ++ a.toks ++ [op ")"]
  | .call0 o m => o.toks ++ [op "."] ++ [.word m] ++ [op "(", op ")"]
  | .call1 o m a => o.toks ++ [op "."] ++ [.word m] ++ [op "("] ++ a.toks ++ [op ")"]
  | .asNumber e => e.toks ++ [kw "as", kw "number"]
  | .lt a b => a.toks ++ [op "<"] ++ b.toks
  | .le a b => a.toks ++ [op "<="] ++ b.toks
  | .gt a b => a.toks ++ [op ">"] ++ b.toks
  | .and a b => a.toks ++ [op "&&"] ++ b.toks
  | .cond c t e => c.toks ++ [op "?"] ++ t.toks ++ [op ":"] ++ e.toks

/-- The expression can be written without parentheses where an expression of precedence level `k` is expected (0:
something to which a member access can be attached, 1: operand of a comparison, 2: operand of `&&`, 3: condition of
`?:`, 4: anything), and all its names can be written. -/
def Good (k : Nat) : Expr → Prop
  | .var x => isIdent x = true ∧ (bindable x = true ∨ x = "this".toList)
  | .prop e p => Good 0 e ∧ isIdent p = true
  | .index e i => Good 0 e ∧ Good 4 i
  | .num _ => 1 ≤ k
  | .undef => 1 ≤ k
  | .null => 1 ≤ k
  | .tru => 1 ≤ k
  | .obj => 1 ≤ k
  | .new0 c => isIdent c = true ∧ bindable c = true
  | .new1 c a => isIdent c = true ∧ bindable c = true ∧ Good 4 a
  | .call0 o m => Good 0 o ∧ isIdent m = true
  | .call1 o m a => Good 0 o ∧ isIdent m = true ∧ Good 4 a
  | .asNumber e => 2 ≤ k ∧ Good 2 e
  | .lt a b => 2 ≤ k ∧ Good 2 a ∧ Good 1 b
  | .le a b => 2 ≤ k ∧ Good 2 a ∧ Good 1 b
  | .gt a b => 2 ≤ k ∧ Good 2 a ∧ Good 1 b
  | .and a b => 3 ≤ k ∧ Good 3 a ∧ Good 2 b
  | .cond c t e => 4 ≤ k ∧ Good 3 c ∧ Good 4 t ∧ Good 4 e

theorem Good.mono {k l : Nat} (h : k ≤ l) {e : Expr} (hg : Good k e) : Good l e := by
  cases e <;> simp only [Good] at hg ⊢
  all_goals first
    | exact hg
    | exact Nat.le_trans hg h
    | exact ⟨Nat.le_trans hg.1 h, hg.2⟩

theorem lex_expr (e : Expr) : (∀ k, Good k e → Lx e.print e.toks) ∧ (Good 0 e → LxW e.print e.toks) := by
  induction e with
  | var x =>
    have h : isIdent x = true → LxW (Expr.var x).print (Expr.var x).toks := fun h => lxw_word h
    exact ⟨fun k hg => (h hg.1).lx, fun hg => h hg.1⟩
  | prop e p ih =>
    have h : Good 0 e → isIdent p = true → LxW (Expr.prop e p).print (Expr.prop e p).toks := fun h1 h2 =>
      Cl.thenW ((ih.2 h1).lit (s := ".".toList) (ts := [op "."]) rfl rfl) (lxw_word h2)
    exact ⟨fun k hg => (h hg.1 hg.2).lx, fun hg => h hg.1 hg.2⟩
  | index e i ihe ihi =>
    have h : Good 0 e → Good 4 i → Cl (Expr.index e i).print (Expr.index e i).toks := fun h1 h2 =>
      (Cl.then ((ihe.2 h1).lit (s := "[".toList) (ts := [op "["]) rfl rfl) (ihi.1 4 h2)).lit (s := "]".toList)
        (ts := [op "]"]) rfl rfl
    exact ⟨fun k hg => (h hg.1 hg.2).lx, fun hg => (h hg.1 hg.2).lxw⟩
  | num i => exact ⟨fun k _ => lx_int i, fun h => absurd h (by simp [Good])⟩
  | undef =>
    have h : LxW (Expr.undef).print (Expr.undef).toks := lxw_word (x := "undefined".toList) (by decide)
    exact ⟨fun k _ => h.lx, fun _ => h⟩
  | null =>
    have h : LxW (Expr.null).print (Expr.null).toks := lxw_word (x := "null".toList) (by decide)
    exact ⟨fun k _ => h.lx, fun _ => h⟩
  | tru =>
    have h : LxW (Expr.tru).print (Expr.tru).toks := lxw_word (x := "true".toList) (by decide)
    exact ⟨fun k _ => h.lx, fun _ => h⟩
  | obj =>
    have h : Cl (Expr.obj).print (Expr.obj).toks := rfl
    exact ⟨fun k _ => h.lx, fun _ => h.lxw⟩
  | new0 c =>
    have h : isIdent c = true → Cl (Expr.new0 c).print (Expr.new0 c).toks := fun h1 =>
      (Cl.thenW (a := "new ".toList) (ta := [kw "new"]) rfl (lxw_word h1)).lit (s := "()".toList) (ts := [op "(", op ")"]) rfl rfl
    exact ⟨fun k hg => (h hg.1).lx, fun hg => (h hg.1).lxw⟩
  | new1 c a ih =>
    have h : isIdent c = true → Good 4 a → Cl (Expr.new1 c a).print (Expr.new1 c a).toks := fun h1 h2 =>
      (Cl.then ((Cl.thenW (a := "new ".toList) (ta := [kw "new"]) rfl (lxw_word h1)).lit (s := "(".toList) (ts := [op "("])
        rfl rfl) (ih.1 4 h2)).lit (s := ")".toList) (ts := [op ")"]) rfl rfl
    exact ⟨fun k hg => (h hg.1 hg.2.2).lx, fun hg => (h hg.1 hg.2.2).lxw⟩
  | call0 o m ih =>
    have h : Good 0 o → isIdent m = true → Cl (Expr.call0 o m).print (Expr.call0 o m).toks := fun h1 h2 =>
      (Cl.thenW ((ih.2 h1).lit (s := ".".toList) (ts := [op "."]) rfl rfl) (lxw_word h2)).lit (s := "()".toList)
        (ts := [op "(", op ")"]) rfl rfl
    exact ⟨fun k hg => (h hg.1 hg.2).lx, fun hg => (h hg.1 hg.2).lxw⟩
  | call1 o m a iho iha =>
    have h : Good 0 o → isIdent m = true → Good 4 a → Cl (Expr.call1 o m a).print (Expr.call1 o m a).toks := fun h1 h2 h3 =>
      (Cl.then ((Cl.thenW ((iho.2 h1).lit (s := ".".toList) (ts := [op "."]) rfl rfl) (lxw_word h2)).lit (s := "(".toList)
        (ts := [op "("]) rfl rfl) (iha.1 4 h3)).lit (s := ")".toList) (ts := [op ")"]) rfl rfl
    exact ⟨fun k hg => (h hg.1 hg.2.1 hg.2.2).lx, fun hg => (h hg.1 hg.2.1 hg.2.2).lxw⟩
  | asNumber e ih =>
    refine ⟨fun k hg => ?_, fun hg => absurd hg.1 (by omega)⟩
    exact (ih.1 2 hg.2).litLx (s := " as number".toList) (ts := [kw "as", kw "number"]) ⟨[kw "as"], .word "number".toList, rfl, .word _, rfl⟩ rfl
  | lt a b iha ihb =>
    refine ⟨fun k hg => ?_, fun hg => absurd hg.1 (by omega)⟩
    exact Cl.then ((iha.1 2 hg.2.1).lit (s := " < ".toList) (ts := [op "<"]) rfl rfl) (ihb.1 1 hg.2.2)
  | le a b iha ihb =>
    refine ⟨fun k hg => ?_, fun hg => absurd hg.1 (by omega)⟩
    exact Cl.then ((iha.1 2 hg.2.1).lit (s := " <= ".toList) (ts := [op "<="]) rfl rfl) (ihb.1 1 hg.2.2)
  | gt a b iha ihb =>
    refine ⟨fun k hg => ?_, fun hg => absurd hg.1 (by omega)⟩
    exact Cl.then ((iha.1 2 hg.2.1).lit (s := " > ".toList) (ts := [op ">"]) rfl rfl) (ihb.1 1 hg.2.2)
  | and a b iha ihb =>
    refine ⟨fun k hg => ?_, fun hg => absurd hg.1 (by omega)⟩
    exact Cl.then ((iha.1 3 hg.2.1).lit (s := " && ".toList) (ts := [op "&&"]) rfl rfl) (ihb.1 2 hg.2.2)
  | cond c t e ihc iht ihe =>
    refine ⟨fun k hg => ?_, fun hg => absurd hg.1 (by omega)⟩
    exact Cl.then ((Cl.then ((ihc.1 3 hg.2.1).lit (s := " ? ".toList) (ts := [op "?"]) rfl rfl) (iht.1 4 hg.2.2.1)).lit
      (s := " : ".toList) (ts := [op ":"]) rfl rfl) (ihe.1 4 hg.2.2.2)

theorem lx_expr {k e} (h : Good k e) : Lx e.print e.toks := (lex_expr e).1 k h

/-! ### statements -/

mutual
/-- The tokens of a statement. -/
def Stmt.toks : Stmt → List Tok
  | .letS x any e =>
    [kw "let"] ++ [.word x] ++ (if any then [op ":", kw "any"] else []) ++ [op "="] ++ e.toks ++ [op ";", .nl]
  | .assign l r => l.toks ++ [op "="] ++ r.toks ++ [op ";", .nl]
  | .expr e => e.toks ++ [op ";", .nl]
  | .ifElse c t e =>
    [kw "if", op "("] ++ c.toks ++ [op ")", op "{", .nl] ++ stmtsToks t ++ [op "}", kw "else", op "{", .nl] ++
      stmtsToks e ++ [op "}", .nl]
  | .ifAssign c l r l' r' =>
    ([kw "if", op "("] ++ c.toks ++ [op ")"] ++ l.toks ++ [op "="] ++ r.toks ++ [op ";", .nl]) ++
      ([kw "else"] ++ l'.toks ++ [op "="] ++ r'.toks ++ [op ";", .nl])
  | .ifRet c e => [kw "if", op "("] ++ c.toks ++ [op ")", kw "return"] ++ e.toks ++ [op ";", .nl]
  | .forS i b body =>
    ([kw "for", op "(", kw "let"] ++ [.word i] ++ [op "=", .num 0, op ";"] ++ [.word i] ++ [op "<"] ++ b.toks ++
      [op ";", op "++"] ++ [.word i] ++ [op ")", op "{", .nl]) ++ stmtsToks body ++ [op "}", .nl]
  | .switchNullish e n dflt =>
    ([kw "switch", op "("] ++ e.toks ++ [op ")", op "{", .nl]) ++
      ([kw "case", kw "undefined", op ":", kw "case", kw "null", op ":"] ++ n.toks ++ [op ";", kw "break", op ";", .nl]) ++
      [kw "default", op ":", op "{", .nl] ++ stmtsToks dflt ++ [op "}", .nl] ++ [op "}", .nl]
  | .ret e => [kw "return"] ++ e.toks ++ [op ";", .nl]
/-- The tokens of a statement list. -/
def stmtsToks : List Stmt → List Tok
  | [] => []
  | s :: ss => s.toks ++ stmtsToks ss
end

/-- A variable name. -/
def GoodName (x : Str) : Prop := isIdent x = true ∧ bindable x = true

mutual
/-- The statement can be written without parentheses. -/
def GoodS : Stmt → Prop
  | .letS x _ e => GoodName x ∧ Good 4 e
  | .assign l r => (isTarget l = true ∧ Good 0 l) ∧ Good 4 r
  | .expr e => Good 0 e
  | .ifElse c t e => Good 4 c ∧ GoodSs t ∧ GoodSs e
  | .ifAssign c l r l' r' => Good 4 c ∧ ((isTarget l = true ∧ Good 0 l) ∧ Good 4 r) ∧ (isTarget l' = true ∧ Good 0 l') ∧ Good 4 r'
  | .ifRet c e => Good 4 c ∧ Good 4 e
  | .forS i b body => GoodName i ∧ Good 1 b ∧ GoodSs body
  | .switchNullish e n d => Good 4 e ∧ Good 4 n ∧ GoodSs d
  | .ret e => Good 4 e
def GoodSs : List Stmt → Prop
  | [] => True
  | s :: ss => GoodS s ∧ GoodSs ss
end

/-- Only blanks. -/
def Blank (ind : Str) : Prop := ∀ c ∈ ind, c = ' '

theorem blank_cl {ind : Str} (h : Blank ind) : Cl ind [] := by
  induction ind with
  | nil => rfl
  | cons c cs ih =>
    obtain rfl := h c List.mem_cons_self
    have := ih (fun d hd => h d (List.mem_cons_of_mem _ hd))
    unfold Cl at this ⊢
    show (step .start ' ').bind _ = _
    have hs : step .start ' ' = some ([], .start) := by decide
    rw [hs, Option.bind_some, this]
    rfl

theorem blank_deeper {ind : Str} (h : Blank ind) : Blank (deeper ind) := by
  intro c hc
  unfold deeper at hc
  rcases List.mem_append.1 hc with hc | hc
  · exact h c hc
  · have : ∀ c ∈ "    ".toList, c = ' ' := by decide
    exact this c hc

/-- An indented line. -/
theorem Cl.indent {ind s ts} (h : Blank ind) (hs : Cl s ts) : Cl (ind ++ s) ts := (blank_cl h).append hs

/-- `++` before a word. -/
theorem lxw_incr {x : Str} (h : isIdent x = true) : LxW ("; ++".toList ++ x) ([op ";", op "++"] ++ [.word x]) := by
  obtain ⟨out, st, h1, h2, h3⟩ := lxw_word h
  refine ⟨[op ";", op "++"] ++ out, st, ?_, h2, by rw [h3]; simp⟩
  rw [lexFrom_append]
  have : lexFrom .start "; ++".toList = some ([op ";"], .op "++".toList) := rfl
  rw [this, Option.bind_some]
  cases x with
  | nil => cases h
  | cons c cs =>
    unfold isIdent at h
    simp only [Bool.and_eq_true] at h
    have hc : isIdStart c = true := h.1
    have ho : isOpChar c = false := by
      cases ho : isOpChar c with
      | false => rfl
      | true =>
        unfold isOpChar at ho
        rw [List.contains_eq_mem, decide_eq_true_eq] at ho
        have : ∀ c ∈ "<>=&+-|?/!*%^~".toList, isIdStart c = false := by decide
        rw [this c ho] at hc
        cases hc
    have hq : step (.op "++".toList) c = stepAfter (op "++") c := by
      simp only [step, ho]
      rfl
    have h3 : lexFrom (.op "++".toList) (c :: cs) = (lexFrom .start (c :: cs)).map fun q => (op "++" :: q.1, q.2) := by
      show (step (.op "++".toList) c).bind _ = ((stepStart c).bind _).map _
      rw [hq]
      unfold stepAfter
      cases stepStart c with
      | none => rfl
      | some r => cases h : lexFrom r.2 cs <;> simp [h]
    show (lexFrom (.op "++".toList) (c :: cs)).map _ = _
    rw [h3, h1]
    rfl

theorem cl_assign {l r : Expr} (hl : Good 0 l) (hr : Good 4 r) {pre tp} (hp : Cl pre tp) :
    Cl (pre ++ l.print ++ " = ".toList ++ r.print ++ ";\n".toList) (tp ++ l.toks ++ [op "="] ++ r.toks ++ [op ";", .nl]) :=
  (Cl.then ((Cl.then hp (lx_expr hl)).lit (s := " = ".toList) (ts := [op "="]) rfl rfl) (lx_expr hr)).lit (s := ";\n".toList)
    (ts := [op ";", .nl]) rfl rfl

set_option maxRecDepth 2000 in
mutual
theorem cl_stmt : (s : Stmt) → GoodS s → (ind : Str) → Blank ind → Cl (s.print ind) s.toks
  | .letS x any e, hg, ind, hi => by
    refine Cl.indent hi ?_
    have h1 : LxW ("let ".toList ++ x) ([kw "let"] ++ [.word x]) := Cl.thenW rfl (lxw_word hg.1.1)
    have h2 : LxW ("let ".toList ++ x ++ (if any then ": any".toList else []))
        ([kw "let"] ++ [.word x] ++ (if any then [op ":", kw "any"] else [])) := by
      cases any with
      | false =>
        simp only [Bool.false_eq_true, if_false, List.append_nil]
        exact h1
      | true => exact h1.litW (s := ": any".toList) (ts := [op ":", kw "any"]) ⟨[op ":"], .word "any".toList, rfl, .word _, rfl⟩ rfl
    exact (Cl.then (h2.lit (s := " = ".toList) (ts := [op "="]) rfl rfl) (lx_expr hg.2)).lit (s := ";\n".toList)
      (ts := [op ";", .nl]) rfl rfl
  | .assign l r, hg, ind, hi => Cl.indent hi (cl_assign hg.1.2 hg.2 (pre := []) (tp := []) rfl)
  | .expr e, hg, ind, hi => Cl.indent hi ((lx_expr hg).lit (s := ";\n".toList) (ts := [op ";", .nl]) rfl rfl)
  | .ifElse c t e, hg, ind, hi => by
    have h1 : Cl (ind ++ ("if (".toList ++ c.print ++ ") {\n".toList)) ([kw "if", op "("] ++ c.toks ++ [op ")", op "{", .nl]) :=
      Cl.indent hi ((Cl.then (a := "if (".toList) (ta := [kw "if", op "("]) rfl (lx_expr hg.1)).lit (s := ") {\n".toList)
        (ts := [op ")", op "{", .nl]) rfl rfl)
    have h2 : Cl (ind ++ "} else {\n".toList) [op "}", kw "else", op "{", .nl] := Cl.indent hi rfl
    have h3 : Cl (ind ++ "}\n".toList) [op "}", .nl] := Cl.indent hi rfl
    exact (((h1.append (cl_stmts t hg.2.1 _ (blank_deeper hi))).append h2).append (cl_stmts e hg.2.2 _ (blank_deeper hi))).append h3
  | .ifAssign c l r l' r', hg, ind, hi => by
    have h1 : Cl ("if (".toList ++ c.print ++ ") ".toList) ([kw "if", op "("] ++ c.toks ++ [op ")"]) :=
      (Cl.then (a := "if (".toList) (ta := [kw "if", op "("]) rfl (lx_expr hg.1)).lit (s := ") ".toList) (ts := [op ")"]) rfl rfl
    exact (Cl.indent hi (cl_assign hg.2.1.1.2 hg.2.1.2 h1)).append
      (Cl.indent hi (cl_assign hg.2.2.1.2 hg.2.2.2 (pre := "else ".toList) (tp := [kw "else"]) rfl))
  | .ifRet c e, hg, ind, hi =>
    Cl.indent hi ((Cl.then ((Cl.then (a := "if (".toList) (ta := [kw "if", op "("]) rfl (lx_expr hg.1)).lit
      (s := ") return ".toList) (ts := [op ")", kw "return"]) rfl rfl) (lx_expr hg.2)).lit (s := ";\n".toList)
      (ts := [op ";", .nl]) rfl rfl)
  | .forS i b body, hg, ind, hi => by
    have h1 : Cl ("for (let ".toList ++ i ++ " = 0; ".toList) ([kw "for", op "(", kw "let"] ++ [.word i] ++ [op "=", .num 0, op ";"]) :=
      (Cl.thenW (a := "for (let ".toList) (ta := [kw "for", op "(", kw "let"]) rfl (lxw_word hg.1.1)).lit (s := " = 0; ".toList)
        (ts := [op "=", .num 0, op ";"]) rfl rfl
    have h2 := (Cl.then ((h1.thenW (lxw_word hg.1.1)).lit (s := " < ".toList) (ts := [op "<"]) rfl rfl) (lx_expr hg.2.1)).lit
      (s := "; ++".toList ++ i ++ ") {\n".toList) (ts := [op ";", op "++"] ++ [.word i] ++ [op ")", op "{", .nl]) ?_ rfl
    · have h3 : Cl (ind ++ "}\n".toList) [op "}", .nl] := Cl.indent hi rfl
      have h4 := ((Cl.indent hi h2).append (cl_stmts body hg.2.2 _ (blank_deeper hi))).append h3
      simp only [List.append_assoc] at h4
      show Cl (ind ++ ("for (let ".toList ++ i ++ " = 0; ".toList ++ i ++ " < ".toList ++ b.print ++ "; ++".toList ++ i ++
      ") {\n".toList) ++ printStmts (deeper ind) body ++ (ind ++ "}\n".toList)) (([kw "for", op "(", kw "let"] ++ [.word i] ++ [op "=", .num 0, op ";"] ++ [.word i] ++ [op "<"] ++ b.toks ++
      [op ";", op "++"] ++ [.word i] ++ [op ")", op "{", .nl]) ++ stmtsToks body ++ [op "}", .nl])
      simp only [List.append_assoc]
      exact h4
    · exact (lxw_incr hg.1.1).lit (s := ") {\n".toList)
        (ts := [op ")", op "{", .nl]) rfl rfl
  | .switchNullish e n d, hg, ind, hi => by
    have h1 : Cl (ind ++ ("switch (".toList ++ e.print ++ ") {\n".toList)) ([kw "switch", op "("] ++ e.toks ++ [op ")", op "{", .nl]) :=
      Cl.indent hi ((Cl.then (a := "switch (".toList) (ta := [kw "switch", op "("]) rfl (lx_expr hg.1)).lit (s := ") {\n".toList)
        (ts := [op ")", op "{", .nl]) rfl rfl)
    have h2 : Cl (deeper ind ++ ("case undefined: case null: ".toList ++ n.print ++ "; break;\n".toList))
        ([kw "case", kw "undefined", op ":", kw "case", kw "null", op ":"] ++ n.toks ++ [op ";", kw "break", op ";", .nl]) :=
      Cl.indent (blank_deeper hi) ((Cl.then (a := "case undefined: case null: ".toList)
        (ta := [kw "case", kw "undefined", op ":", kw "case", kw "null", op ":"]) rfl (lx_expr hg.2.1)).lit
        (s := "; break;\n".toList) (ts := [op ";", kw "break", op ";", .nl]) rfl rfl)
    have h3 : Cl (deeper ind ++ "default: {\n".toList) [kw "default", op ":", op "{", .nl] := Cl.indent (blank_deeper hi) rfl
    have h4 : Cl (deeper ind ++ "}\n".toList) [op "}", .nl] := Cl.indent (blank_deeper hi) rfl
    have h5 : Cl (ind ++ "}\n".toList) [op "}", .nl] := Cl.indent hi rfl
    exact ((((h1.append h2).append h3).append (cl_stmts d hg.2.2 _ (blank_deeper (blank_deeper hi)))).append h4).append h5
  | .ret e, hg, ind, hi =>
    Cl.indent hi ((Cl.then (a := "return ".toList) (ta := [kw "return"]) rfl (lx_expr hg)).lit (s := ";\n".toList)
      (ts := [op ";", .nl]) rfl rfl)
theorem cl_stmts : (ss : List Stmt) → GoodSs ss → (ind : Str) → Blank ind → Cl (printStmts ind ss) (stmtsToks ss)
  | [], _, _, _ => rfl
  | s :: ss, hg, ind, hi => (cl_stmt s hg.1 ind hi).append (cl_stmts ss hg.2 ind hi)
end

end Packetc.Js
