import Verif.Rust.Syntax
import Verif.Js.Runtime
/-!
# Meaning of the Rust subset

What the emitted functions do when they are compiled and run. References are transparent (nothing is aliased in these programs), `usize`
has 64 bits. `?` leaves the function with an error. The `packet` crate is not part of the repository: `Lib` says what is assumed of it.
Programs that the Rust compiler would not accept may have a meaning here too; which ones it accepts is the subject of C97.
-/

namespace Packetc.Rs
open Js (Num Scalar utf8Enc)

inductive Val where
  | num (n : Num)
  | str (s : Str)
  /-- `ty::v` -/
  | variant (ty v : Str)
  | none
  | some (v : Val)
  | vec (items : List Val)
  | struct (fields : List (Str × Val))

/-- The numbers of each type; all bit patterns of floats are values. -/
def NumOk : Scalar → Num → Prop
  | .float, .f32 _ => True
  | .float, .int _ => False
  | s, n => s.Ok n

/-- The text with the given UTF-8, if there is one. -/
def utf8Dec? (bs : List UInt8) : Option Str := (bs.toByteArray.utf8Decode?).map Array.toList

/-- What is assumed about the `packet` crate: fixed-width encodings, and how many items a `Vec` can be made to hold before the
process runs out of memory and is stopped. Simplified: the limit is on the number of items, whatever their size (items of no size, structs
without fields, need no memory in Rust). -/
structure Lib where
  enc : Scalar → Num → List UInt8
  dec : Scalar → List UInt8 → Num
  enc_len : ∀ s n, (enc s n).length = s.width
  dec_enc : ∀ (s : Scalar) (n : Num), NumOk s n → dec s (enc s n) = n
  dec_ok : ∀ (s : Scalar) (bs : List UInt8), NumOk s (dec s bs)
  maxItems : Nat

/-- The definitions that the functions refer to, and `T::default()` for each type name. -/
structure Prog where
  items : List Item
  dflt : Str → Val

/-- Local variables (innermost first), bytes written, bytes not yet read. -/
structure St where
  env : List (Str × Val)
  out : List UInt8
  rest : List UInt8

/-- `err`: the function returns `Err`; `abort`: the process is stopped (out of memory); `stuck`: the program has no meaning. -/
inductive Res (α : Type) where
  | ok (a : α) (s : St)
  | err
  | abort
  | stuck

def M (α : Type) := St → Res α

def M.bind {α β} (x : M α) (f : α → M β) : M β := fun s =>
  match x s with
  | .ok a s' => f a s'
  | .err => .err
  | .abort => .abort
  | .stuck => .stuck

instance : Monad M where
  pure a := fun s => .ok a s
  bind := M.bind

def get : List (Str × Val) → Str → Option Val
  | [], _ => .none
  | (y, v) :: r, x => if x = y then some v else get r x

/-- Replaces the first binding of `x`. -/
def set : List (Str × Val) → Str → Val → Option (List (Str × Val))
  | [], _, _ => .none
  | (y, v) :: r, x, w => if x = y then some ((y, w) :: r) else (set r x w).map ((y, v) :: ·)

/-- The component at a path of field names. -/
def getV : Val → List Str → Option Val
  | v, [] => some v
  | .struct l, f :: fs => (get l f).bind fun w => getV w fs
  | _, _ :: _ => .none

/-- Replaces the component at a path of field names. -/
def setV : Val → List Str → Val → Option Val
  | _, [], w => some w
  | .struct l, f :: fs, w => (get l f).bind fun o => (setV o fs w).bind fun n => (set l f n).map Val.struct
  | _, _ :: _, _ => .none

/-- The variable and field names of `x.f.g`. -/
def place : Expr → Option (Str × List Str)
  | .var x => some (x, [])
  | .field e f => (place e).map fun p => (p.1, p.2 ++ [f])
  | _ => .none

def stuck {α} : M α := fun _ => .stuck

/-- Value of a place. -/
def load (e : Expr) : M Val := fun s =>
  match (place e).bind fun p => (get s.env p.1).bind fun r => getV r p.2 with
  | some v => .ok v s
  | .none => .stuck

/-- Assignment to a place. -/
def store (e : Expr) (v : Val) : M Unit := fun s =>
  match (place e).bind fun p => (get s.env p.1).bind fun r => (setV r p.2 v).bind fun r' => set s.env p.1 r' with
  | some env => .ok () { s with env := env }
  | .none => .stuck

/-- The new variable hides older ones of the same name. -/
def declare (x : Str) (v : Val) : M Unit := fun s => .ok () { s with env := (x, v) :: s.env }

/-- A block: its variables disappear at its end. -/
def block (m : M Unit) : M Unit := fun s =>
  match m s with
  | .ok _ s' => .ok () { s' with env := s'.env.drop (s'.env.length - s.env.length) }
  | r => r

section
variable (lib : Lib) (P : Prog)

/-- Number of bits of an unsigned integer type. -/
def bits (t : Str) : Option Nat :=
  if t = "u8".toList then some 8 else if t = "u16".toList then some 16 else if t = "u32".toList then some 32
  else if t = "usize".toList then some 64 else .none

/-- The enum of this name. -/
def Prog.enum? (P : Prog) (t : Str) : Option (List (Str × Nat) × List (Int × Str)) :=
  P.items.findSome? fun | .enum n _ vs _ arms => if n = t then some (vs, arms) else .none | .struct _ _ => .none

/-- `v as t` -/
def castTo (t : Str) : Val → M Val
  | .num (.int i) => match bits t with | some b => pure (.num (.int (i % 2 ^ b))) | .none => stuck
  | .variant ty n =>
    match bits t, (P.enum? ty).bind fun d => d.1.lookup n with
    | some b, some k => pure (.num (.int (2 ^ k % 2 ^ b)))
    | _, _ => stuck
  | _ => stuck

/-- `ty::try_from(i)?` -/
def convert (ty : Str) (i : Int) : M Val :=
  match P.enum? ty with
  | some d => match d.2.lookup i with | some v => pure (.variant ty v) | .none => fun _ => .err
  | .none => stuck

def scalarNamed (t : Str) : Option Scalar := Scalar.all.find? fun s => s.name = t

/-- `reader.read_t()?` -/
def readNum (t : Str) : M Val := fun s =>
  match scalarNamed t with
  | some sc =>
    if sc.width ≤ s.rest.length then .ok (.num (lib.dec sc (s.rest.take sc.width))) { s with rest := s.rest.drop sc.width }
    else .err
  | .none => .stuck

/-- `reader.read_string(n)?` -/
def readText (n : Nat) : M Val := fun s =>
  if n ≤ s.rest.length then
    match utf8Dec? (s.rest.take n) with
    | some t => .ok (.str t) { s with rest := s.rest.drop n }
    | .none => .err
  else .err

/-- `writer.write_t(v)` -/
def emit (t : Str) (v : Val) : M Unit := fun s =>
  match v with
  | .num n => match scalarNamed t with | some sc => .ok () { s with out := s.out ++ lib.enc sc n } | .none => .stuck
  | .str x => if t = "string".toList then .ok () { s with out := s.out ++ utf8Enc x } else .stuck
  | _ => .stuck

def eval : Expr → M Val
  | .var x => load (.var x)
  | .field e f => load (.field e f)
  | .u8 n => pure (.num (.int n))
  | .len e => do
    match ← eval e with
    | .vec l => pure (.num (.int l.length))
    | .str s => pure (.num (.int (utf8Enc s).length))
    | _ => stuck
  | .cast e t => do castTo P t (← eval e)
  | .addr e => eval e
  | .read t => readNum lib t
  | .readString e => do
    match ← eval e with
    | .num (.int n) => readText n.toNat
    | _ => stuck
  | .dflt t => pure (P.dflt t)
  | .some e => do pure (.some (← eval e))
  | .tryFrom t e => do
    match ← eval e with
    | .num (.int i) => convert P t i
    | _ => stuck

/-- One round per item. -/
def forEach (body : Val → M Unit) : List Val → M Unit
  | [] => pure ()
  | v :: vs => do body v; forEach body vs

/-- `n` rounds. -/
def rounds (body : M Unit) : Nat → M Unit
  | 0 => pure ()
  | n + 1 => do body; rounds body n

mutual
def exec : Stmt → M Unit
  | .write t e => do emit lib t (← eval lib P e)
  | .matchOpt _ e t n x body => do
    match ← eval lib P e with
    | .none => do emit lib t (← eval lib P n)
    | .some v => block do declare x v; execAll body
    | _ => stuck
  | .forIter x e body => do
    match ← eval lib P e with
    | .vec l => forEach (fun v => block do declare x v; execAll body) l
    | _ => stuck
  | .letS _ x e => do declare x (← eval lib P e)
  | .assign l r => do store l (← eval lib P r)
  | .ifGt e n body => do
    match ← eval lib P e with
    | .num (.int i) => if (n : Int) < i then block (execAll body) else pure ()
    | _ => stuck
  | .reserve e n => do
    match ← load e, ← eval lib P n with
    | .vec l, .num (.int k) => if l.length + k.toNat ≤ lib.maxItems then pure () else fun _ => .abort
    | _, _ => stuck
  | .push e v => do
    let w ← eval lib P v
    match ← load e with
    | .vec l => store e (.vec (l ++ [w]))
    | _ => stuck
  | .forRange n body => do
    match ← eval lib P n with
    | .num (.int k) => rounds (block (execAll body)) k.toNat
    | _ => stuck
def execAll : List Stmt → M Unit
  | [] => pure ()
  | s :: ss => do exec s; execAll ss
end

/-- `write(&mut writer, &input)`: the bytes written. -/
def runWrite (body : List Stmt) (input : Val) : Option (List UInt8) :=
  match execAll lib P body ⟨[("input".toList, input)], [], []⟩ with
  | .ok _ s => some s.out
  | _ => .none

inductive ReadResult where
  /-- `Ok(())`, with what `output` is then, and the bytes not read -/
  | ok (output : Val) (rest : List UInt8)
  | err
  | abort
  | stuck

/-- `read(&mut reader, &mut output)` on the given data. -/
def runRead (body : List Stmt) (output : Val) (data : List UInt8) : ReadResult :=
  match execAll lib P body ⟨[("output".toList, output)], [], data⟩ with
  | .ok _ s => match get s.env "output".toList with | some v => .ok v s.rest | .none => .stuck
  | .err => .err
  | .abort => .abort
  | .stuck => .stuck
end

end Packetc.Rs
