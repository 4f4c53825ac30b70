import Verif.Spec.Rust
/-!
# What the Rust compiler checks in the emitted text

Types of expressions, moves out of borrowed places, assignments to places that may be changed, uses of moved variables, and names.
Simplified: a variable may be moved only by the last statement of the block that declares it, and
names that the emitted text can mention (`Option`, `usize`, ..) are taken even if it does not.
-/

namespace Packetc.Rs
open Js (Scalar)

/-- `n`, `Vec<t>`, `Option<t>`, `&t` or `&mut t`. -/
inductive Ty where
  | named (n : Str)
  | vec (t : Ty)
  | opt (t : Ty)
  | ref (isMut : Bool) (t : Ty)
deriving DecidableEq, Repr

def FieldTy.ty (t : FieldTy) : Ty :=
  let v := if t.vec then Ty.vec (.named t.base) else .named t.base
  if t.opt then .opt v else v

/-- A local variable or parameter. -/
structure Var where
  name : Str
  isMut : Bool
  ty : Ty
deriving DecidableEq, Repr

/-- Innermost first. -/
abbrev Ctx := List Var

def intNames : List Str :=
  ["u8".toList, "u16".toList, "u32".toList, "i8".toList, "i16".toList, "i32".toList, "usize".toList]
def floatName : Str := "f32".toList
def stringName : Str := "String".toList

section
variable (items : List Item)

/-- The definition that a name refers to. It hides the types that Rust itself has. -/
def itemNamed (n : Str) : Option Item := items.find? fun i => i.name = n

def isInt (n : Str) : Bool := (itemNamed items n).isNone && intNames.contains n
def isNumber (n : Str) : Bool := (itemNamed items n).isNone && (intNames.contains n || n = floatName)
def isString (n : Str) : Bool := (itemNamed items n).isNone && n = stringName
def isEnum (n : Str) : Bool := match itemNamed items n with | some (.enum _ _ _ _ _) => true | _ => false
/-- The name of a type. -/
def known (n : Str) : Bool := (itemNamed items n).isSome || isNumber items n || isString items n

/-- `Copy`: numbers, enums (they derive it), shared references. -/
def isCopy : Ty → Bool
  | .named n => isNumber items n || isEnum items n
  | .vec _ => false
  | .opt t => isCopy t
  | .ref m _ => !m

/-- A place: its type, whether it is reached through a reference, whether it may be assigned to. -/
structure Place where
  ty : Ty
  borrowed : Bool
  writable : Bool
deriving DecidableEq, Repr

/-- References are followed. -/
def derefs (borrowed writable : Bool) : Ty → Place
  | .ref m t => derefs true (m && (!borrowed || writable)) t
  | t => ⟨t, borrowed, writable⟩

def Place.deref (p : Place) : Place := derefs p.borrowed p.writable p.ty

/-- `x.f.g` -/
def placeOf (Γ : Ctx) : Expr → Option Place
  | .var x => (Γ.find? fun v => v.name = x).map fun v => ⟨v.ty, false, v.isMut⟩
  | .field e f =>
    (placeOf Γ e).bind fun p =>
      match p.deref with
      | ⟨.named n, b, w⟩ =>
        match itemNamed items n with
        | some (.struct _ fs) => (fs.lookup f).map fun t => ⟨t.ty, b, w⟩
        | _ => none
      | _ => none
  | _ => none

/-- The value of a place: it must not be moved out of something borrowed (E0507). -/
def valueOf (p : Place) : Option Ty := if p.borrowed && !isCopy items p.ty then none else some p.ty

/-- The type of an expression. -/
def typeOf (Γ : Ctx) : Expr → Option Ty
  | .var x => (placeOf items Γ (.var x)).bind (valueOf items)
  | .field e f => (placeOf items Γ (.field e f)).bind (valueOf items)
  | .u8 n => if n < 256 then some (.named "u8".toList) else none
  | .len e =>
    (placeOf items Γ e).bind fun p =>
      match p.deref.ty with
      | .vec _ => some (.named "usize".toList)
      | .named n => if isString items n then some (.named "usize".toList) else none
      | _ => none
  | .cast e t =>
    (typeOf Γ e).bind fun ty =>
      match ty with
      | .named n => if isInt items t && (isNumber items n || isEnum items n) then some (.named t) else none
      | _ => none
  | .addr e => (placeOf items Γ e).map fun p => .ref false p.ty
  | .read t => (scalarNamed t).map fun s => .named (rustName s.name)
  | .readString e => (typeOf Γ e).bind fun ty => if ty = .named "usize".toList then some (.named stringName) else none
  | .dflt t => if known items t then some (.named t) else none
  | .some e => (typeOf Γ e).map .opt
  | .tryFrom t e =>
    (typeOf Γ e).bind fun ty =>
      match itemNamed items t with
      | some (.enum _ r _ _ _) => if ty = .named r then some (.named t) else none
      | _ => none

/-- `writer.write_t(..)` takes a `&str`, which a reference to a `String` is coerced to, or a number. -/
def argOk (t : Str) (ty : Ty) : Bool :=
  if t = "string".toList then
    match ty with
    | .ref _ _ => (match (derefs false false ty).ty with | .named n => isString items n | _ => false)
    | _ => false
  else
    match scalarNamed t with
    | some s => ty = .named (rustName s.name)
    | none => false

mutual
/-- The variables known after the statement, if it is accepted. -/
def check (Γ : Ctx) : Stmt → Option Ctx
  | .write t e => (typeOf items Γ e).bind fun ty => if argOk items t ty then some Γ else none
  | .matchOpt byRef e t n x body =>
    (placeOf items Γ e).bind fun p =>
      match p.ty with
      | .opt ty =>
        let bound : Option Ty := if byRef then some (.ref false ty) else valueOf items ⟨ty, p.borrowed, p.writable⟩
        (typeOf items Γ n).bind fun tn =>
          if argOk items t tn then
            bound.bind fun ty => (checkAll (⟨x, false, ty⟩ :: Γ) body).map fun _ => Γ
          else none
      | _ => none
  | .forIter x e body =>
    (placeOf items Γ e).bind fun p =>
      match p.deref.ty with
      | .vec ty => (checkAll (⟨x, false, .ref false ty⟩ :: Γ) body).map fun _ => Γ
      | _ => none
  | .letS m x e => (typeOf items Γ e).map fun ty => ⟨x, m, ty⟩ :: Γ
  | .assign l r =>
    (typeOf items Γ r).bind fun ty => (placeOf items Γ l).bind fun p => if p.writable && p.ty = ty then some Γ else none
  | .ifGt e n body =>
    (typeOf items Γ e).bind fun ty =>
      match ty with
      | .named t => if isInt items t && n < 128 then (checkAll Γ body).map fun _ => Γ else none
      | _ => none
  | .reserve e n =>
    (placeOf items Γ e).bind fun p => (typeOf items Γ n).bind fun tn =>
      match p.deref with
      | ⟨.vec _, _, true⟩ => if tn = .named "usize".toList then some Γ else none
      | _ => none
  | .push e v =>
    (placeOf items Γ e).bind fun p => (typeOf items Γ v).bind fun tv =>
      match p.deref with
      | ⟨.vec t, _, true⟩ => if tv = t then some Γ else none
      | _ => none
  | .forRange n body =>
    (typeOf items Γ n).bind fun ty =>
      match ty with
      | .named t => if isInt items t then (checkAll Γ body).map fun _ => Γ else none
      | _ => none
def checkAll (Γ : Ctx) : List Stmt → Option Ctx
  | [] => some Γ
  | s :: ss => (check Γ s).bind fun Γ => checkAll Γ ss
end

/-- `fn write(.., input: &name)` is accepted. -/
def WriteAccepted (name : Str) (body : List Stmt) : Prop :=
  (checkAll items [⟨"input".toList, false, .ref false (.named name)⟩] body).isSome = true
/-- `fn read(.., output: &mut name)` is accepted. -/
def ReadAccepted (name : Str) (body : List Stmt) : Prop :=
  (checkAll items [⟨"output".toList, false, .ref true (.named name)⟩] body).isSome = true
end

/-- Types, traits and crates that the emitted text mentions. -/
def taken : List Str :=
  intNames ++ [floatName, stringName, "Vec".toList, "Option".toList, "Result".toList, "Default".toList, "TryFrom".toList,
   "std".toList, "packet".toList]

/-- A definition is accepted: names, the types of fields, the numbers of variants, and the literals in `try_from` (a negative one is
refused for an unsigned number, E0600). An enum that has a variant `Error` is refused as `Self::Error` is then ambiguous. -/
def ItemAccepted (items : List Item) : Item → Prop
  | .struct n fs => n ∉ keywords ∧ n ∉ taken ∧ (fs.map Prod.fst).Nodup ∧ ∀ f ∈ fs, f.1 ∉ keywords ∧ known items f.2.base = true
  | .enum n r vs d arms => n ∉ keywords ∧ n ∉ taken ∧ (vs.map Prod.fst).Nodup ∧ (vs.map Prod.snd).Nodup ∧
    (∃ b, bits r = some b ∧ (∀ v ∈ vs, v.2 < b) ∧ ∀ a ∈ arms, 0 ≤ a.1 ∧ a.1 < 2 ^ b) ∧
    (∀ v ∈ vs, v.1 ∉ keywords ∧ v.1 ≠ "Error".toList) ∧ d ∈ vs.map Prod.fst ∧ ∀ a ∈ arms, a.2 ∈ vs.map Prod.fst

mutual
/-- The variables that a statement declares. -/
def Stmt.locals : Stmt → List Str
  | .matchOpt _ _ _ _ x body => x :: localsOf body
  | .forIter x _ body => x :: localsOf body
  | .letS _ x _ => [x]
  | .ifGt _ _ body => localsOf body
  | .forRange _ body => localsOf body
  | .write _ _ => []
  | .assign _ _ => []
  | .reserve _ _ => []
  | .push _ _ => []
def localsOf : List Stmt → List Str
  | [] => []
  | s :: ss => s.locals ++ localsOf ss
end

/-- Variables that are moved when the expression is evaluated (or copied, if their type is `Copy`). -/
def Expr.moved : Expr → List Str
  | .var x => [x]
  | .some e => e.moved
  | .tryFrom _ e => e.moved
  | _ => []

/-- Variables that are moved by the statement itself. The arguments of `write_T` and `reserve` and the bounds of loops are numbers or
references, and numbers are `Copy`. -/
def Stmt.moved : Stmt → List Str
  | .letS _ _ e => e.moved
  | .assign _ r => r.moved
  | .push _ v => v.moved
  | _ => []

/-- Variables declared by the statement for the rest of the block. -/
def Stmt.declared : Stmt → List Str
  | .letS _ x _ => [x]
  | _ => []

mutual
/-- Nothing is used after it was moved, in the blocks of the statement. -/
def Stmt.MovesOk : Stmt → Prop
  | .matchOpt _ _ _ _ _ body => MovesLast [] body
  | .forIter _ _ body => MovesLast [] body
  | .ifGt _ _ body => MovesLast [] body
  | .forRange _ body => MovesLast [] body
  | .write _ _ => True
  | .letS _ _ _ => True
  | .assign _ _ => True
  | .reserve _ _ => True
  | .push _ _ => True
/-- In the block only the last statement moves variables, and only such that the block declares (`xs` by earlier statements). -/
def MovesLast (xs : List Str) : List Stmt → Prop
  | [] => True
  | s :: ss => s.MovesOk ∧ (s.moved = [] ∨ ss = [] ∧ ∀ x ∈ s.moved, x ∈ xs) ∧ MovesLast (xs ++ s.declared) ss
end

/-- A file is accepted. -/
structure Accepted (s : Source) : Prop where
  names : (s.items.map Item.name).Nodup
  defs : ∀ i ∈ s.items, ItemAccepted s.items i
  locals : ∀ x ∈ localsOf s.write.2 ++ localsOf s.read.2, x ∉ keywords ∧ x ≠ "writer".toList ∧ x ≠ "reader".toList
  moves : MovesLast [] s.write.2 ∧ MovesLast [] s.read.2
  write : WriteAccepted s.items s.write.1 s.write.2
  read : ReadAccepted s.items s.read.1 s.read.2

/-- The compiler accepts the text: it is a file of this subset of Rust, and that file is accepted. -/
def Compiles (text : Str) : Prop := ∃ s, parseText text = some s ∧ Accepted s

end Packetc.Rs
