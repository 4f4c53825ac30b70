import Verif.Model.Basic
/-!
# The TypeScript subset that the generator emits: syntax and printer

Printing fixes the concrete text; no parentheses are printed (the emitted expressions need none).
-/

namespace Packetc.Js

inductive Expr where
  /-- `x` (also `this` and global names) -/
  | var (x : Str)
  /-- `e.p` -/
  | prop (e : Expr) (p : Str)
  /-- `e[i]` -/
  | index (e i : Expr)
  | num (i : Int)
  | undef
  | null
  | tru
  /-- `{}` -/
  | obj
  /-- `new C()` -/
  | new0 (c : Str)
  /-- `new C(a)` -/
  | new1 (c : Str) (a : Expr)
  /-- `o.m()` -/
  | call0 (o : Expr) (m : Str)
  /-- `o.m(a)` -/
  | call1 (o : Expr) (m : Str) (a : Expr)
  /-- `e as number` (erased at run time) -/
  | asNumber (e : Expr)
  | lt (a b : Expr)
  | le (a b : Expr)
  | gt (a b : Expr)
  | and (a b : Expr)
  /-- `c ? t : e` -/
  | cond (c t e : Expr)
deriving DecidableEq, Repr

inductive Stmt where
  /-- `let x = e;` or `let x: any = e;` -/
  | letS (x : Str) (any : Bool) (e : Expr)
  /-- `l = r;` -/
  | assign (l r : Expr)
  /-- `e;` -/
  | expr (e : Expr)
  /-- `if (c) { .. } else { .. }` -/
  | ifElse (c : Expr) (t e : List Stmt)
  /-- `if (c) l = r;` newline `else l' = r';` -/
  | ifAssign (c l r l' r' : Expr)
  /-- `if (c) return e;` -/
  | ifRet (c e : Expr)
  /-- `for (let i = 0; i < b; ++i) { .. }` -/
  | forS (i : Str) (b : Expr) (body : List Stmt)
  /-- `switch (e) { case undefined: case null: n; break; default: { .. } }` -/
  | switchNullish (e n : Expr) (dflt : List Stmt)
  /-- `return e;` -/
  | ret (e : Expr)

namespace Expr

/-- Concrete syntax of an expression. -/
def print : Expr → Str
  | var x => x
  | prop e p => e.print ++ ".".toList ++ p
  | index e i => e.print ++ "[".toList ++ i.print ++ "]".toList
  | num i => (toString i).toList
  | undef => "undefined".toList
  | null => "null".toList
  | tru => "true".toList
  | obj => "{}".toList
  | new0 c => "new ".toList ++ c ++ "()".toList
  | new1 c a => "new ".toList ++ c ++ "(".toList ++ a.print ++ ")".toList
  | call0 o m => o.print ++ ".".toList ++ m ++ "()".toList
  | call1 o m a => o.print ++ ".".toList ++ m ++ "(".toList ++ a.print ++ ")".toList
  | asNumber e => e.print ++ " as number".toList
  | lt a b => a.print ++ " < ".toList ++ b.print
  | le a b => a.print ++ " <= ".toList ++ b.print
  | gt a b => a.print ++ " > ".toList ++ b.print
  | and a b => a.print ++ " && ".toList ++ b.print
  | cond c t e => c.print ++ " ? ".toList ++ t.print ++ " : ".toList ++ e.print

end Expr

/-- One more level of indentation. -/
def deeper (ind : Str) : Str := ind ++ "    ".toList

mutual
/-- Concrete syntax of a statement, at an indentation. -/
def Stmt.print (ind : Str) : Stmt → Str
  | .letS x any e =>
    ind ++ ("let ".toList ++ x ++ (if any then ": any".toList else []) ++ " = ".toList ++ e.print ++ ";\n".toList)
  | .assign l r => ind ++ (l.print ++ " = ".toList ++ r.print ++ ";\n".toList)
  | .expr e => ind ++ (e.print ++ ";\n".toList)
  | .ifElse c t e =>
    ind ++ ("if (".toList ++ c.print ++ ") {\n".toList) ++ printStmts (deeper ind) t ++
      (ind ++ "} else {\n".toList) ++ printStmts (deeper ind) e ++ (ind ++ "}\n".toList)
  | .ifAssign c l r l' r' =>
    ind ++ ("if (".toList ++ c.print ++ ") ".toList ++ l.print ++ " = ".toList ++ r.print ++ ";\n".toList) ++
      (ind ++ ("else ".toList ++ l'.print ++ " = ".toList ++ r'.print ++ ";\n".toList))
  | .ifRet c e => ind ++ ("if (".toList ++ c.print ++ ") return ".toList ++ e.print ++ ";\n".toList)
  | .forS i b body =>
    ind ++ ("for (let ".toList ++ i ++ " = 0; ".toList ++ i ++ " < ".toList ++ b.print ++ "; ++".toList ++ i ++
      ") {\n".toList) ++ printStmts (deeper ind) body ++ (ind ++ "}\n".toList)
  | .switchNullish e n dflt =>
    ind ++ ("switch (".toList ++ e.print ++ ") {\n".toList) ++
      (deeper ind ++ ("case undefined: case null: ".toList ++ n.print ++ "; break;\n".toList)) ++
      (deeper ind ++ "default: {\n".toList) ++ printStmts (deeper (deeper ind)) dflt ++
      (deeper ind ++ "}\n".toList) ++ (ind ++ "}\n".toList)
  | .ret e => ind ++ ("return ".toList ++ e.print ++ ";\n".toList)
/-- Concrete syntax of a statement list. -/
def printStmts (ind : Str) : List Stmt → Str
  | [] => []
  | s :: ss => s.print ind ++ printStmts ind ss
end

end Packetc.Js
