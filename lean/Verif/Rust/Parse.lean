import Verif.Rust.Lexer
import Verif.Rust.Syntax
/-!
# Parsing the Rust subset

From tokens to the syntax of `Rust/Syntax.lean`, by recursive descent. Only the forms that this syntax has are parsed, everything else is
rejected. Any word is taken for a name; which words cannot be names is checked in `Rust/Check.lean`.
-/

namespace Packetc.Rs

abbrev op (s : String) : Tok := .op s.toList
abbrev kw (s : String) : Tok := .word s.toList

/-- These tokens, in this order. -/
def eat : List Tok → List Tok → Option (List Tok)
  | [], ts => some ts
  | p :: ps, t :: ts => if t = p then eat ps ts else none
  | _ :: _, [] => none

def anyWord : List Tok → Option (Str × List Tok)
  | .word x :: ts => some (x, ts)
  | _ => none

/-- A method whose name begins like this: the rest of the name. -/
def afterPrefix : Str → Str → Option Str
  | [], m => some m
  | p :: ps, c :: m => if c = p then afterPrefix ps m else none
  | _ :: _, [] => none

/-- An opening parenthesis follows: the word before is the name of a method. -/
def isCall : List Tok → Bool
  | .op o :: _ => o = "(".toList
  | _ => false

/-- `.f.g`, up to a method call -/
def parseFields (e : Expr) : List Tok → Expr × List Tok
  | .op o :: .word f :: ts =>
    if o = ".".toList ∧ isCall ts = false then parseFields (.field e f) ts else (e, .op o :: .word f :: ts)
  | ts => (e, ts)

/-- `x.f.g` -/
def parsePlace (ts : List Tok) : Option (Expr × List Tok) :=
  (anyWord ts) >>= fun x => some (parseFields (.var x.1) x.2)

mutual
/-- An expression, with a cast or without. -/
def parseExpr (ts : List Tok) : Option (Expr × List Tok) :=
  (parsePrim ts) >>= fun a =>
    match eat [kw "as"] a.2 with
    | some ts => (anyWord ts) >>= fun t => some (.cast a.1 t.1, t.2)
    | none => some a
partial_fixpoint
/-- An expression without a cast. -/
def parsePrim (ts : List Tok) : Option (Expr × List Tok) :=
  match ts with
  | .op o :: ts => if o = "&".toList then (parsePlace ts) >>= fun p => some (.addr p.1, p.2) else none
  | .num n s :: ts => if s = "u8".toList then some (.u8 n, ts) else none
  | .word x :: ts =>
    match eat [op "::"] ts with
    | some ts =>
      match eat [kw "default", op "(", op ")"] ts with
      | some ts => some (.dflt x, ts)
      | none =>
        (eat [kw "try_from", op "("] ts) >>= fun ts => (parseExpr ts) >>= fun e => (eat [op ")", op "?"] e.2) >>= fun ts =>
          some (.tryFrom x e.1, ts)
    | none =>
      if x = "Some".toList then
        (eat [op "("] ts) >>= fun ts => (parseExpr ts) >>= fun e => (eat [op ")"] e.2) >>= fun ts => some (.some e.1, ts)
      else if x = "reader".toList then
        (eat [op "."] ts) >>= fun ts => (anyWord ts) >>= fun m => (eat [op "("] m.2) >>= fun ts =>
          if m.1 = "read_string".toList then
            (parseExpr ts) >>= fun e => (eat [op ")", op "?"] e.2) >>= fun ts => some (.readString e.1, ts)
          else
            (afterPrefix "read_".toList m.1) >>= fun t => (eat [op ")", op "?"] ts) >>= fun ts => some (.read t, ts)
      else
        let p := parseFields (.var x) ts
        match eat [op ".", kw "len", op "(", op ")"] p.2 with
        | some ts => some (.len p.1, ts)
        | none => some p
  | _ => none
partial_fixpoint
end

/-- `writer.write_t(e)` after the first word -/
def parseWrite (ts : List Tok) : Option ((Str × Expr) × List Tok) :=
  (eat [op "."] ts) >>= fun ts => (anyWord ts) >>= fun m => (afterPrefix "write_".toList m.1) >>= fun t =>
    (eat [op "("] m.2) >>= fun ts => (parseExpr ts) >>= fun e => (eat [op ")"] e.2) >>= fun ts => some ((t, e.1), ts)

/-- `l = r;`, `e.reserve(n);` or `e.push(v);` -/
def parseSimple (ts : List Tok) : Option (Stmt × List Tok) :=
  (parsePlace ts) >>= fun p =>
    match eat [op "="] p.2 with
    | some ts => (parseExpr ts) >>= fun r => (eat [op ";"] r.2) >>= fun ts => some (.assign p.1 r.1, ts)
    | none =>
      match eat [op ".", kw "reserve", op "("] p.2 with
      | some ts => (parseExpr ts) >>= fun n => (eat [op ")", op ";"] n.2) >>= fun ts => some (.reserve p.1 n.1, ts)
      | none =>
        (eat [op ".", kw "push", op "("] p.2) >>= fun ts => (parseExpr ts) >>= fun v => (eat [op ")", op ";"] v.2) >>= fun ts =>
          some (.push p.1 v.1, ts)

/-- `let x = e;` after the first word -/
def parseLet (ts : List Tok) : Option (Stmt × List Tok) :=
  let m := eat [kw "mut"] ts
  (anyWord (m.getD ts)) >>= fun x => (eat [op "="] x.2) >>= fun ts => (parseExpr ts) >>= fun e => (eat [op ";"] e.2) >>= fun ts =>
    some (.letS m.isSome x.1 e.1, ts)

mutual
/-- A statement. -/
def parseStmt (ts : List Tok) : Option (Stmt × List Tok) :=
  match ts with
  | .word x :: ts =>
    if x = "writer".toList then
      (parseWrite ts) >>= fun w => (eat [op ";"] w.2) >>= fun ts => some (.write w.1.1 w.1.2, ts)
    else if x = "let".toList then parseLet ts
    else if x = "match".toList then
      let r := eat [op "&"] ts
      (parsePlace (r.getD ts)) >>= fun e => (eat [op "{", kw "None", op "=>", kw "writer"] e.2) >>= fun ts => (parseWrite ts) >>= fun w =>
        (eat [op ",", kw "Some", op "("] w.2) >>= fun ts => (anyWord ts) >>= fun x => (eat [op ")", op "=>", op "{"] x.2) >>= fun ts =>
          (parseStmts ts) >>= fun b => (eat [op "}", op "}"] b.2) >>= fun ts =>
            some (.matchOpt r.isSome e.1 w.1.1 w.1.2 x.1 b.1, ts)
    else if x = "for".toList then
      match eat [kw "_", kw "in", .num 0 [], op ".."] ts with
      | some ts =>
        (parsePlace ts) >>= fun n => (eat [op "{"] n.2) >>= fun ts => (parseStmts ts) >>= fun b => (eat [op "}"] b.2) >>= fun ts =>
          some (.forRange n.1 b.1, ts)
      | none =>
        (anyWord ts) >>= fun x => (eat [kw "in"] x.2) >>= fun ts => (parsePlace ts) >>= fun e =>
          (eat [op ".", kw "iter", op "(", op ")", op "{"] e.2) >>= fun ts => (parseStmts ts) >>= fun b =>
            (eat [op "}"] b.2) >>= fun ts => some (.forIter x.1 e.1 b.1, ts)
    else if x = "if".toList then
      (parseExpr ts) >>= fun e => (eat [op ">"] e.2) >>= fun ts =>
        match ts with
        | .num n [] :: ts =>
          (eat [op "{"] ts) >>= fun ts => (parseStmts ts) >>= fun b => (eat [op "}"] b.2) >>= fun ts => some (.ifGt e.1 n b.1, ts)
        | _ => none
    else parseSimple (.word x :: ts)
  | _ => none
partial_fixpoint
/-- Statements, up to a closing brace or `Ok`. -/
def parseStmts (ts : List Tok) : Option (List Stmt × List Tok) :=
  match ts with
  | .op _ :: _ => some ([], ts)
  | .word x :: _ =>
    if x = "Ok".toList then some ([], ts)
    else (parseStmt ts) >>= fun s => (parseStmts s.2) >>= fun ss => some (s.1 :: ss.1, ss.2)
  | _ => none
partial_fixpoint
end

/-! ### Definitions -/

/-- `base`, `Vec<base>`, `Option<base>` or `Option<Vec<base>>` (the parser of Rust takes `>>` apart). -/
def parseTy (ts : List Tok) : Option (FieldTy × List Tok) :=
  match eat [kw "Option", op "<"] ts with
  | some ts =>
    match eat [kw "Vec", op "<"] ts with
    | some ts => (anyWord ts) >>= fun b => (eat [op ">>"] b.2) >>= fun ts => some (⟨b.1, true, true⟩, ts)
    | none => (anyWord ts) >>= fun b => (eat [op ">"] b.2) >>= fun ts => some (⟨b.1, false, true⟩, ts)
  | none =>
    match eat [kw "Vec", op "<"] ts with
    | some ts => (anyWord ts) >>= fun b => (eat [op ">"] b.2) >>= fun ts => some (⟨b.1, true, false⟩, ts)
    | none => (anyWord ts) >>= fun b => some (⟨b.1, false, false⟩, b.2)

/-- Fields `pub f: t,`, up to the closing brace. -/
def parseFieldDefs (ts : List Tok) : Option (List (Str × FieldTy) × List Tok) :=
  match eat [op "}"] ts with
  | some ts => some ([], ts)
  | none =>
    (eat [kw "pub"] ts) >>= fun ts => (anyWord ts) >>= fun f => (eat [op ":"] f.2) >>= fun ts => (parseTy ts) >>= fun t =>
      (eat [op ","] t.2) >>= fun ts => (parseFieldDefs ts) >>= fun fs => some ((f.1, t.1) :: fs.1, fs.2)
partial_fixpoint

/-- Variants `V = 1 << k,`, up to the closing brace. -/
def parseVariants (ts : List Tok) : Option (List (Str × Nat) × List Tok) :=
  match eat [op "}"] ts with
  | some ts => some ([], ts)
  | none =>
    (anyWord ts) >>= fun v => (eat [op "=", .num 1 [], op "<<"] v.2) >>= fun ts =>
      match ts with
      | .num k [] :: ts => (eat [op ","] ts) >>= fun ts => (parseVariants ts) >>= fun vs => some ((v.1, k) :: vs.1, vs.2)
      | _ => none
partial_fixpoint

/-- `n` or `-n` -/
def parseInt : List Tok → Option (Int × List Tok)
  | .num n [] :: ts => some (n, ts)
  | .op o :: .num n [] :: ts => if o = "-".toList then some (-(n : Int), ts) else none
  | _ => none

/-- Arms `i => Ok(name::V),`, up to the one with the pattern `_`. -/
def parseArms (name : Str) (ts : List Tok) : Option (List (Int × Str) × List Tok) :=
  match eat [kw "_"] ts with
  | some ts => some ([], ts)
  | none =>
    (parseInt ts) >>= fun i => (eat [op "=>", kw "Ok", op "(", .word name, op "::"] i.2) >>= fun ts => (anyWord ts) >>= fun v =>
      (eat [op ")", op ","] v.2) >>= fun ts => (parseArms name ts) >>= fun as => some ((i.1, v.1) :: as.1, as.2)
partial_fixpoint

/-- `derive(..)] pub struct` -/
def structHead : List Tok :=
  [kw "derive", op "(", kw "Clone", op ",", kw "PartialEq", op ",", kw "Debug", op ",", kw "Default", op ")", op "]", kw "pub", kw "struct"]

/-- `#[derive(..)] pub struct name { .. }` after the first two tokens -/
def parseStruct (ts : List Tok) : Option (Item × List Tok) :=
  (eat structHead ts) >>= fun ts => (anyWord ts) >>= fun n => (eat [op "{"] n.2) >>= fun ts =>
    (parseFieldDefs ts) >>= fun fs => some (.struct n.1 fs.1, fs.2)

/-- `derive(..)] #[repr(` -/
def enumHead : List Tok :=
  [kw "derive", op "(", kw "Clone", op ",", kw "Copy", op ",", kw "PartialEq", op ",", kw "Debug", op ")", op "]",
   op "#", op "[", kw "repr", op "("]
/-- `impl Default for name { fn default() -> Self { name::` -/
def implDefault (name : Str) : List Tok :=
  [kw "impl", kw "Default", kw "for", .word name, op "{", kw "fn", kw "default", op "(", op ")", op "->", kw "Self", op "{",
   .word name, op "::"]
/-- `} } impl std::convert::TryFrom<r> for name { type Error = ..; fn try_from(value: r) -> .. { match value {` -/
def implTryFrom (name r : Str) : List Tok :=
  [op "}", op "}", kw "impl", kw "std", op "::", kw "convert", op "::", kw "TryFrom", op "<", .word r, op ">", kw "for", .word name, op "{",
   kw "type", kw "Error", op "=", kw "packet", op "::", kw "Error", op ";",
   kw "fn", kw "try_from", op "(", kw "value", op ":", .word r, op ")", op "->", kw "Result", op "<", kw "Self", op ",", kw "Self", op "::",
   kw "Error", op ">", op "{", kw "match", kw "value", op "{"]
/-- The rest of the arm `_ => Err(..)`, and three closing braces. -/
def implEnd (name : Str) : List Tok :=
  [op "=>", kw "Err", op "(", kw "packet", op "::", kw "Error", op "::", kw "InvalidEnumValue", op "(", kw "value", kw "as", kw "usize",
   op ",", .str name, op ")", op ")", op "}", op "}", op "}"]

/-- `#[derive(..)] #[repr(r)] pub enum name { .. }`, `impl Default` and `impl TryFrom<r>`, after the first two tokens -/
def parseEnum (ts : List Tok) : Option (Item × List Tok) :=
  (eat enumHead ts) >>= fun ts => (anyWord ts) >>= fun r => (eat [op ")", op "]", kw "pub", kw "enum"] r.2) >>= fun ts =>
    (anyWord ts) >>= fun n => (eat [op "{"] n.2) >>= fun ts => (parseVariants ts) >>= fun vs =>
      (eat (implDefault n.1) vs.2) >>= fun ts => (anyWord ts) >>= fun d =>
        (eat (implTryFrom n.1 r.1) d.2) >>= fun ts => (parseArms n.1 ts) >>= fun as =>
          (eat (implEnd n.1) as.2) >>= fun ts => some (.enum n.1 r.1 vs.1 d.1 as.1, ts)

/-- Definitions, as long as there are attributes. -/
def parseItems (ts : List Tok) : Option (List Item × List Tok) :=
  match eat [op "#", op "["] ts with
  | none => some ([], ts)
  | some ts =>
    match parseStruct ts with
    | some i => (parseItems i.2) >>= fun is => some (i.1 :: is.1, is.2)
    | none => (parseEnum ts) >>= fun i => (parseItems i.2) >>= fun is => some (i.1 :: is.1, is.2)
partial_fixpoint

/-- `pub fn write(writer: &mut packet::writer::Writer, input: &` -/
def writeHead : List Tok :=
  [kw "pub", kw "fn", kw "write", op "(", kw "writer", op ":", op "&", kw "mut", kw "packet", op "::", kw "writer", op "::", kw "Writer",
   op ",", kw "input", op ":", op "&"]
/-- `pub fn read(reader: &mut packet::reader::Reader, output: &mut` -/
def readHead : List Tok :=
  [kw "pub", kw "fn", kw "read", op "(", kw "reader", op ":", op "&", kw "mut", kw "packet", op "::", kw "reader", op "::", kw "Reader",
   op ",", kw "output", op ":", op "&", kw "mut"]
/-- `) -> Result<(), packet::Error> {` -/
def readResult : List Tok :=
  [op ")", op "->", kw "Result", op "<", op "(", op ")", op ",", kw "packet", op "::", kw "Error", op ">", op "{"]

/-- `pub fn write(..) { .. }` -/
def parseWriteFn (ts : List Tok) : Option ((Str × List Stmt) × List Tok) :=
  (eat writeHead ts) >>= fun ts => (anyWord ts) >>= fun n => (eat [op ")", op "{"] n.2) >>= fun ts =>
    (parseStmts ts) >>= fun b => (eat [op "}"] b.2) >>= fun ts => some ((n.1, b.1), ts)

/-- `pub fn read(..) -> .. { .. Ok(()) }` -/
def parseReadFn (ts : List Tok) : Option ((Str × List Stmt) × List Tok) :=
  (eat readHead ts) >>= fun ts => (anyWord ts) >>= fun n => (eat readResult n.2) >>= fun ts =>
    (parseStmts ts) >>= fun b => (eat [kw "Ok", op "(", op "(", op ")", op ")", op "}"] b.2) >>= fun ts => some ((n.1, b.1), ts)

/-- The lines at the beginning. The attribute turns off warnings. -/
def header : List Tok :=
  [op "#", op "!", op "[", kw "allow", op "(", kw "dead_code", op ",", kw "non_camel_case_types", op ",", kw "unused_imports", op ",",
   kw "unused_assignments", op ",", kw "clippy", op "::", kw "field_reassign_with_default", op ")", op "]",
   kw "use", kw "std", op "::", kw "convert", op "::", kw "TryFrom", op ";"]

/-- A whole file. -/
def parseFile (ts : List Tok) : Option Source :=
  (eat header ts) >>= fun ts => (parseItems ts) >>= fun is => (parseWriteFn is.2) >>= fun w => (parseReadFn w.2) >>= fun r =>
    if r.2 = [] then some ⟨is.1, w.1, r.1⟩ else none

/-- The syntax of a text. -/
def parseText (code : Str) : Option Source := (lex code) >>= parseFile

end Packetc.Rs
