import Verif.Js.Syntax
/-!
# The Rust subset that rust.rs emits: syntax and printer
-/

namespace Packetc.Rs
open Js (deeper)

inductive Expr where
  /-- `x` -/
  | var (x : Str)
  /-- `e.f` -/
  | field (e : Expr) (f : Str)
  /-- `nu8` -/
  | u8 (n : Nat)
  /-- `e.len()` -/
  | len (e : Expr)
  /-- `e as t` -/
  | cast (e : Expr) (t : Str)
  /-- `&e` -/
  | addr (e : Expr)
  /-- `reader.read_t()?` -/
  | read (t : Str)
  /-- `reader.read_string(e)?` -/
  | readString (e : Expr)
  /-- `T::default()` -/
  | dflt (t : Str)
  /-- `Some(e)` -/
  | some (e : Expr)
  /-- `T::try_from(e)?` -/
  | tryFrom (t : Str) (e : Expr)
deriving DecidableEq, Repr

inductive Stmt where
  /-- `writer.write_t(e);` -/
  | write (t : Str) (e : Expr)
  /-- `match e { None => writer.write_t(n), Some(x) => { .. } }`, or with `&e` if `byRef` -/
  | matchOpt (byRef : Bool) (e : Expr) (t : Str) (n : Expr) (x : Str) (body : List Stmt)
  /-- `for x in e.iter() { .. }` -/
  | forIter (x : Str) (e : Expr) (body : List Stmt)
  /-- `let x = e;` or `let mut x = e;` -/
  | letS (isMut : Bool) (x : Str) (e : Expr)
  /-- `l = r;` -/
  | assign (l r : Expr)
  /-- `if e > n { .. }` -/
  | ifGt (e : Expr) (n : Nat) (body : List Stmt)
  /-- `e.reserve(n);` -/
  | reserve (e n : Expr)
  /-- `e.push(v);` -/
  | push (e v : Expr)
  /-- `for _ in 0..n { .. }` -/
  | forRange (n : Expr) (body : List Stmt)

/-- Concrete syntax of an expression. -/
def Expr.print : Expr → Str
  | var x => x
  | field e f => e.print ++ ".".toList ++ f
  | u8 n => (toString n).toList ++ "u8".toList
  | len e => e.print ++ ".len()".toList
  | cast e t => e.print ++ " as ".toList ++ t
  | addr e => "&".toList ++ e.print
  | read t => "reader.read_".toList ++ t ++ "()?".toList
  | readString e => "reader.read_string(".toList ++ e.print ++ ")?".toList
  | dflt t => t ++ "::default()".toList
  | some e => "Some(".toList ++ e.print ++ ")".toList
  | tryFrom t e => t ++ "::try_from(".toList ++ e.print ++ ")?".toList

mutual
/-- Concrete syntax of a statement, at an indentation. -/
def Stmt.print (ind : Str) : Stmt → Str
  | .write t e => ind ++ ("writer.write_".toList ++ t ++ "(".toList ++ e.print ++ ");\n".toList)
  | .matchOpt byRef e t n x body =>
    ind ++ ("match ".toList ++ (if byRef then "&".toList else []) ++ e.print ++ " {\n".toList) ++
      (deeper ind ++ ("None => writer.write_".toList ++ t ++ "(".toList ++ n.print ++ "),\n".toList)) ++
      (deeper ind ++ ("Some(".toList ++ x ++ ") => {\n".toList)) ++ printStmts (deeper (deeper ind)) body ++
      (deeper ind ++ "}\n".toList) ++ (ind ++ "}\n".toList)
  | .forIter x e body =>
    ind ++ ("for ".toList ++ x ++ " in ".toList ++ e.print ++ ".iter() {\n".toList) ++ printStmts (deeper ind) body ++
      (ind ++ "}\n".toList)
  | .letS isMut x e =>
    ind ++ ("let ".toList ++ (if isMut then "mut ".toList else []) ++ x ++ " = ".toList ++ e.print ++ ";\n".toList)
  | .assign l r => ind ++ (l.print ++ " = ".toList ++ r.print ++ ";\n".toList)
  | .ifGt e n body =>
    ind ++ ("if ".toList ++ e.print ++ " > ".toList ++ (toString n).toList ++ " {\n".toList) ++
      printStmts (deeper ind) body ++ (ind ++ "}\n".toList)
  | .reserve e n => ind ++ (e.print ++ ".reserve(".toList ++ n.print ++ ");\n".toList)
  | .push e v => ind ++ (e.print ++ ".push(".toList ++ v.print ++ ");\n".toList)
  | .forRange n body =>
    ind ++ ("for _ in 0..".toList ++ n.print ++ " {\n".toList) ++ printStmts (deeper ind) body ++ (ind ++ "}\n".toList)
/-- Concrete syntax of a statement list. -/
def printStmts (ind : Str) : List Stmt → Str
  | [] => []
  | s :: ss => s.print ind ++ printStmts ind ss
end

/-- The type of a field: `base`, `Vec<base>`, `Option<base>` or `Option<Vec<base>>`. -/
structure FieldTy where
  base : Str
  vec : Bool
  opt : Bool
deriving DecidableEq, Repr

def FieldTy.print (t : FieldTy) : Str :=
  (if t.opt then "Option<".toList else []) ++ (if t.vec then "Vec<".toList else []) ++ t.base ++
    (if t.vec then ">".toList else []) ++ (if t.opt then ">".toList else [])

/-- A definition: a struct with derived `Default`; or an enum with its discriminants, default and `TryFrom`. -/
inductive Item where
  | struct (name : Str) (fields : List (Str × FieldTy))
  /-- `variants`: names with the exponent `k` of `1 << k`; `arms`: numbers that `try_from` accepts, with the variant. -/
  | enum (name repr : Str) (variants : List (Str × Nat)) (dflt : Str) (arms : List (Int × Str))
deriving DecidableEq, Repr

/-- A file: definitions, and functions `write` and `read` with the name of the type of their second parameter. -/
structure Source where
  items : List Item
  write : Str × List Stmt
  read : Str × List Stmt

def printFields (ind : Str) : List (Str × FieldTy) → Str
  | [] => []
  | (f, t) :: fs => ind ++ ("pub ".toList ++ f ++ ": ".toList ++ t.print ++ ",\n".toList) ++ printFields ind fs

def printVariants (ind : Str) : List (Str × Nat) → Str
  | [] => []
  | (v, k) :: vs => ind ++ (v ++ " = 1 << ".toList ++ (toString k).toList ++ ",\n".toList) ++ printVariants ind vs

def printArms (ind name : Str) : List (Int × Str) → Str
  | [] => []
  | (i, v) :: vs => ind ++ ((toString i).toList ++ " => Ok(".toList ++ name ++ "::".toList ++ v ++ "),\n".toList) ++ printArms ind name vs

/-- Concrete syntax of a definition. -/
def Item.print : Item → Str
  | .struct name fs =>
    "#[derive(Clone, PartialEq, Debug, Default)]\n".toList ++
    ("pub struct ".toList ++ name ++ " {\n".toList) ++ printFields (deeper []) fs ++ "}\n".toList
  | .enum name repr vs d arms =>
    "#[derive(Clone, Copy, PartialEq, Debug)]\n".toList ++ ("#[repr(".toList ++ repr ++ ")]\n".toList) ++
    ("pub enum ".toList ++ name ++ " {\n".toList) ++ printVariants (deeper []) vs ++ "}\n".toList ++
    ("impl Default for ".toList ++ name ++ " {\n".toList) ++
    (deeper [] ++ "fn default() -> Self {\n".toList) ++
    (deeper (deeper []) ++ (name ++ "::".toList ++ d ++ "\n".toList)) ++
    (deeper [] ++ "}\n".toList) ++ "}\n".toList ++
    ("impl std::convert::TryFrom<".toList ++ repr ++ "> for ".toList ++ name ++ " {\n".toList) ++
    (deeper [] ++ "type Error = packet::Error;\n".toList) ++
    (deeper [] ++ ("fn try_from(value: ".toList ++ repr ++ ") -> Result<Self, Self::Error> {\n".toList)) ++
    (deeper (deeper []) ++ "match value {\n".toList) ++
    printArms (deeper (deeper (deeper []))) name arms ++
    (deeper (deeper (deeper [])) ++ ("_ => Err(packet::Error::InvalidEnumValue(value as usize, \"".toList ++ name ++ "\"))\n".toList)) ++
    (deeper (deeper []) ++ "}\n".toList) ++ (deeper [] ++ "}\n".toList) ++ "}\n".toList

/-- `pub fn write(..) { .. }` -/
def printWrite (name : Str) (body : List Stmt) : Str :=
  "pub fn write(writer: &mut packet::writer::Writer, input: &".toList ++ name ++ ") {\n".toList ++
    printStmts (deeper []) body ++ "}\n".toList

/-- `pub fn read(..) { .. Ok(()) }` -/
def printRead (name : Str) (body : List Stmt) : Str :=
  "pub fn read(reader: &mut packet::reader::Reader, output: &mut ".toList ++ name ++
    ") -> Result<(), packet::Error> {\n".toList ++
    printStmts (deeper []) body ++ (deeper [] ++ "Ok(())\n".toList) ++ "}\n".toList

end Packetc.Rs
