import Verif.Js.Lexer
import Verif.Js.Sem
/-!
# A parser for the TypeScript subset, and the meaning of a module text

A recursive descent parser, written from the TypeScript grammar and independently of the generator and of the
printer in `Verif.Js.Syntax`. Operator precedence is that of ECMAScript: `?:` below `&&` below `<`, `<=`, `>`,
`as` below member access and calls. It is stricter than TypeScript: line ends are allowed only between statements,
members and parameters, and what is not needed is rejected. `Module.loads` lists the errors that TypeScript
reports for names. `readText` and `writeText` say what the functions of a module do, given its text only.
-/

namespace Packetc.Js

/-! ### Tokens -/

abbrev kw (s : String) : Tok := .word s.toList
abbrev op (s : String) : Tok := .op s.toList

/-- Expect the given tokens. -/
def eat : List Tok → List Tok → Option (List Tok)
  | [], ts => some ts
  | t :: pre, ts =>
    match ts with
    | [] => none
    | t' :: rest => if t' = t then eat pre rest else none

/-- Skip line ends. -/
def skipNl : List Tok → List Tok
  | .nl :: ts => skipNl ts
  | ts => ts

/-- A word of any kind (property names may be keywords). -/
def anyWord : List Tok → Option (Str × List Tok)
  | .word x :: ts => some (x, ts)
  | _ => none

/-- Can the word be used as the name of a variable? -/
def bindable (x : Str) : Bool := !(reservedWords.contains x) && !(x = "undefined".toList)

/-- A word that is no keyword. -/
def name : List Tok → Option (Str × List Tok)
  | .word x :: ts => if bindable x then some (x, ts) else none
  | _ => none

/-! ### Expressions -/

mutual
/-- Primary expressions and `new`. -/
def parsePrim (ts : List Tok) : Option (Expr × List Tok) :=
  match ts with
  | .num n :: ts => some (.num n, ts)
  | .op o :: ts =>
    if o = "-".toList then
      match ts with
      | .num n :: ts => some (.num (-(n : Int)), ts)
      | _ => none
    else if o = "{".toList then (eat [op "}"] ts) >>= fun ts => some (.obj, ts)
    else none
  | .word x :: ts =>
    if x = "undefined".toList then some (.undef, ts)
    else if x = "null".toList then some (.null, ts)
    else if x = "true".toList then some (.tru, ts)
    else if x = "this".toList then some (.var x, ts)
    else if x = "new".toList then
      (name ts) >>= fun r => (eat [op "("] r.2) >>= fun ts =>
        match eat [op ")"] ts with
        | some ts => some (.new0 r.1, ts)
        | none => (parseExpr ts) >>= fun a => (eat [op ")"] a.2) >>= fun ts => some (.new1 r.1 a.1, ts)
    else if bindable x then some (.var x, ts)
    else none
  | _ => none
partial_fixpoint
/-- Member access, indexing, method calls. -/
def parsePost (e : Expr) (ts : List Tok) : Option (Expr × List Tok) :=
  match ts with
  | .op o :: ts' =>
    if o = ".".toList then
      (anyWord ts') >>= fun r =>
        match eat [op "("] r.2 with
        | some ts =>
          match eat [op ")"] ts with
          | some ts => parsePost (.call0 e r.1) ts
          | none => (parseExpr ts) >>= fun a => (eat [op ")"] a.2) >>= fun ts => parsePost (.call1 e r.1 a.1) ts
        | none => parsePost (.prop e r.1) r.2
    else if o = "[".toList then
      (parseExpr ts') >>= fun a => (eat [op "]"] a.2) >>= fun ts => parsePost (.index e a.1) ts
    else some (e, ts)
  | _ => some (e, ts)
partial_fixpoint
/-- Comparisons and `as number`. -/
def parseRel (e : Expr) (ts : List Tok) : Option (Expr × List Tok) :=
  match ts with
  | .op o :: ts' =>
    if o = "<".toList then (parseOperand ts') >>= fun a => parseRel (.lt e a.1) a.2
    else if o = "<=".toList then (parseOperand ts') >>= fun a => parseRel (.le e a.1) a.2
    else if o = ">".toList then (parseOperand ts') >>= fun a => parseRel (.gt e a.1) a.2
    else some (e, ts)
  | .word x :: ts' =>
    if x = "as".toList then (eat [kw "number"] ts') >>= fun ts => parseRel (.asNumber e) ts
    else some (e, ts)
  | _ => some (e, ts)
partial_fixpoint
/-- The operands of comparisons. -/
def parseOperand (ts : List Tok) : Option (Expr × List Tok) :=
  (parsePrim ts) >>= fun a => parsePost a.1 a.2
partial_fixpoint
/-- `&&` -/
def parseAnd (e : Expr) (ts : List Tok) : Option (Expr × List Tok) :=
  match ts with
  | .op o :: ts' =>
    if o = "&&".toList then
      (parseOperand ts') >>= fun a => (parseRel a.1 a.2) >>= fun b => parseAnd (.and e b.1) b.2
    else some (e, ts)
  | _ => some (e, ts)
partial_fixpoint
/-- Any expression. -/
def parseExpr (ts : List Tok) : Option (Expr × List Tok) :=
  (parseOperand ts) >>= fun a => (parseRel a.1 a.2) >>= fun b => (parseAnd b.1 b.2) >>= fun c =>
    match eat [op "?"] c.2 with
    | none => some c
    | some ts =>
      (parseExpr ts) >>= fun t => (eat [op ":"] t.2) >>= fun ts => (parseExpr ts) >>= fun e =>
        some (.cond c.1 t.1 e.1, e.2)
partial_fixpoint
end

/-! ### Statements -/

/-- What can be assigned to. -/
def isTarget : Expr → Bool
  | .var x => !(x = "this".toList)
  | .prop _ _ => true
  | .index _ _ => true
  | _ => false

/-- `l = r;` -/
def parseAssign (ts : List Tok) : Option ((Expr × Expr) × List Tok) :=
  (parseExpr ts) >>= fun l => (eat [op "="] l.2) >>= fun ts => (parseExpr ts) >>= fun r =>
    (eat [op ";"] r.2) >>= fun ts => if isTarget l.1 then some ((l.1, r.1), ts) else none

/-- `let x = e;` after `let`. -/
def parseLet (ts : List Tok) : Option (Stmt × List Tok) :=
  (name ts) >>= fun x =>
    let any := eat [op ":", kw "any"] x.2
    (eat [op "="] (any.getD x.2)) >>= fun ts => (parseExpr ts) >>= fun e => (eat [op ";"] e.2) >>= fun ts =>
      some (.letS x.1 any.isSome e.1, ts)

/-- `return e;` after `return`. -/
def parseReturn (ts : List Tok) : Option (Expr × List Tok) :=
  (parseExpr ts) >>= fun e => (eat [op ";"] e.2) >>= fun ts => some (e.1, ts)

/-- An expression or assignment as a statement. -/
def parseSimple (ts : List Tok) : Option (Stmt × List Tok) :=
  (parseExpr ts) >>= fun l =>
    match eat [op "="] l.2 with
    | some ts =>
      (parseExpr ts) >>= fun r => (eat [op ";"] r.2) >>= fun ts =>
        if isTarget l.1 then some (.assign l.1 r.1, ts) else none
    | none => (eat [op ";"] l.2) >>= fun ts => some (.expr l.1, ts)

mutual
/-- A statement. -/
def parseStmt (ts : List Tok) : Option (Stmt × List Tok) :=
  match ts with
  | .word x :: ts' =>
    if x = "let".toList then parseLet ts'
    else if x = "return".toList then (parseReturn ts') >>= fun e => some (.ret e.1, e.2)
    else if x = "if".toList then
      (eat [op "("] ts') >>= fun ts => (parseExpr ts) >>= fun c => (eat [op ")"] c.2) >>= fun ts =>
        match eat [op "{"] ts with
        | some ts =>
          (parseStmts ts) >>= fun t => (eat [op "}", kw "else", op "{"] t.2) >>= fun ts =>
            (parseStmts ts) >>= fun e => (eat [op "}"] e.2) >>= fun ts => some (.ifElse c.1 t.1 e.1, ts)
        | none =>
          match eat [kw "return"] ts with
          | some ts => (parseReturn ts) >>= fun e => some (.ifRet c.1 e.1, e.2)
          | none =>
            (parseAssign ts) >>= fun a => (eat [.nl, kw "else"] a.2) >>= fun ts => (parseAssign ts) >>= fun b =>
              some (.ifAssign c.1 a.1.1 a.1.2 b.1.1 b.1.2, b.2)
    else if x = "for".toList then
      (eat [op "(", kw "let"] ts') >>= fun ts => (name ts) >>= fun i => (eat [op "=", .num 0, op ";"] i.2) >>= fun ts =>
        (eat [.word i.1, op "<"] ts) >>= fun ts => (parseOperand ts) >>= fun b =>
          (eat [op ";", op "++", .word i.1, op ")", op "{"] b.2) >>= fun ts => (parseStmts ts) >>= fun body =>
            (eat [op "}"] body.2) >>= fun ts => some (.forS i.1 b.1 body.1, ts)
    else if x = "switch".toList then
      (eat [op "("] ts') >>= fun ts => (parseExpr ts) >>= fun e => (eat [op ")", op "{"] e.2) >>= fun ts =>
        (eat [kw "case", kw "undefined", op ":", kw "case", kw "null", op ":"] (skipNl ts)) >>= fun ts =>
          (parseExpr ts) >>= fun n => (eat [op ";", kw "break", op ";"] n.2) >>= fun ts =>
            (eat [kw "default", op ":", op "{"] (skipNl ts)) >>= fun ts => (parseStmts ts) >>= fun d =>
              (eat [op "}"] d.2) >>= fun ts => (eat [op "}"] (skipNl ts)) >>= fun ts =>
                some (.switchNullish e.1 n.1 d.1, ts)
    else parseSimple ts
  | .op o :: _ => if o = "{".toList then none else parseSimple ts
  | ts => parseSimple ts
partial_fixpoint
/-- Statements, up to a closing brace. -/
def parseStmts (ts : List Tok) : Option (List Stmt × List Tok) :=
  match ts with
  | .nl :: ts => parseStmts ts
  | .op o :: _ =>
    if o = "}".toList then some ([], ts)
    else (parseStmt ts) >>= fun s => (parseStmts s.2) >>= fun ss => some (s.1 :: ss.1, ss.2)
  | ts => (parseStmt ts) >>= fun s => (parseStmts s.2) >>= fun ss => some (s.1 :: ss.1, ss.2)
partial_fixpoint
end

/-! ### Types, declarations, the class -/

/-- A type name, possibly qualified, possibly followed by `[]`. -/
structure TsAtom where
  path : List Str
  array : Bool
deriving DecidableEq, Repr

/-- A union of types. -/
abbrev TsType := List TsAtom

/-- A member of an interface, or a constructor parameter. -/
structure TsMember where
  name : Str
  optional : Bool
  type : TsType
deriving DecidableEq, Repr

inductive TsDecl where
  | interface (name : Str) (members : List TsMember)
  /-- a const enum; the value of each member is `1 << n` -/
  | enum (name : Str) (members : List (Str × Nat))
deriving DecidableEq, Repr

def TsDecl.name : TsDecl → Str
  | .interface n _ => n
  | .enum n _ => n

structure TsMethod where
  static : Bool
  name : Str
  param : TsMember
  result : TsType
  body : List Stmt

structure TsModule where
  imports : List Str
  source : Str
  space : Str
  decls : List TsDecl
  className : Str
  params : List TsMember
  methods : List TsMethod

/-- Words that may begin a type: names, and the types that are keywords. -/
def typeWord : List Tok → Option (Str × List Tok)
  | .word x :: ts => if bindable x ∨ x = "undefined".toList ∨ x = "null".toList then some (x, ts) else none
  | _ => none

/-- `a.b[]` -/
def parseAtom (ts : List Tok) : Option (TsAtom × List Tok) :=
  (typeWord ts) >>= fun a =>
    let q : Option (List Str × List Tok) :=
      match eat [op "."] a.2 with
      | some ts => (anyWord ts) >>= fun b => some ([a.1, b.1], b.2)
      | none => some ([a.1], a.2)
    q >>= fun q =>
      match eat [op "[", op "]"] q.2 with
      | some ts => some (⟨q.1, true⟩, ts)
      | none => some (⟨q.1, false⟩, q.2)

/-- `t | u | ..` -/
def parseType (ts : List Tok) : Option (TsType × List Tok) :=
  (parseAtom ts) >>= fun a =>
    match eat [op "|"] a.2 with
    | some ts => (parseType ts) >>= fun r => some (a.1 :: r.1, r.2)
    | none => some ([a.1], a.2)
partial_fixpoint

/-- `name?: type`, where the name may be a keyword. -/
def parseMember (ts : List Tok) : Option (TsMember × List Tok) :=
  (anyWord ts) >>= fun x =>
    let opt := eat [op "?"] x.2
    (eat [op ":"] (opt.getD x.2)) >>= fun ts => (parseType ts) >>= fun t => some (⟨x.1, opt.isSome, t.1⟩, t.2)

/-- The members of an interface, each followed by a comma, up to the closing brace. -/
def parseMembers (ts : List Tok) : Option (List TsMember × List Tok) :=
  match ts with
  | .nl :: ts => parseMembers ts
  | .op _ :: _ => (eat [op "}"] ts) >>= fun ts => some ([], ts)
  | ts => (parseMember ts) >>= fun m => (eat [op ","] m.2) >>= fun ts => (parseMembers ts) >>= fun ms => some (m.1 :: ms.1, ms.2)
partial_fixpoint

/-- The members of an enum, each followed by a comma, up to the closing brace. -/
def parseVariants (ts : List Tok) : Option (List (Str × Nat) × List Tok) :=
  match ts with
  | .nl :: ts => parseVariants ts
  | .op _ :: _ => (eat [op "}"] ts) >>= fun ts => some ([], ts)
  | ts =>
    (anyWord ts) >>= fun x => (eat [op "=", .num 1, op "<<"] x.2) >>= fun ts =>
      match ts with
      | .num n :: ts => (eat [op ","] ts) >>= fun ts => (parseVariants ts) >>= fun vs => some ((x.1, n) :: vs.1, vs.2)
      | _ => none
partial_fixpoint

/-- The declarations in a namespace, up to the closing brace. -/
def parseDecls (ts : List Tok) : Option (List TsDecl × List Tok) :=
  match ts with
  | .nl :: ts => parseDecls ts
  | .op _ :: _ => (eat [op "}"] ts) >>= fun ts => some ([], ts)
  | ts =>
    (eat [kw "export"] ts) >>= fun ts =>
      match eat [kw "interface"] ts with
      | some ts =>
        (name ts) >>= fun n => (eat [op "{"] n.2) >>= fun ts => (parseMembers ts) >>= fun ms =>
          (parseDecls ms.2) >>= fun ds => some (.interface n.1 ms.1 :: ds.1, ds.2)
      | none =>
        (eat [kw "const", kw "enum"] ts) >>= fun ts => (name ts) >>= fun n => (eat [op "{"] n.2) >>= fun ts =>
          (parseVariants ts) >>= fun vs => (parseDecls vs.2) >>= fun ds => some (.enum n.1 vs.1 :: ds.1, ds.2)
partial_fixpoint

/-- Constructor parameters `public name: type,`, up to the closing parenthesis. -/
def parseParams (ts : List Tok) : Option (List TsMember × List Tok) :=
  match ts with
  | .nl :: ts => parseParams ts
  | .op _ :: _ => (eat [op ")"] ts) >>= fun ts => some ([], ts)
  | ts =>
    (eat [kw "public"] ts) >>= fun ts => (parseMember ts) >>= fun m => (eat [op ","] m.2) >>= fun ts =>
      (parseParams ts) >>= fun ms => some (m.1 :: ms.1, ms.2)
partial_fixpoint

/-- `name(param): type { .. }` -/
def parseMethod (static : Bool) (ts : List Tok) : Option (TsMethod × List Tok) :=
  (anyWord ts) >>= fun n => (eat [op "("] n.2) >>= fun ts => (parseMember ts) >>= fun p =>
    (eat [op ")", op ":"] p.2) >>= fun ts => (parseType ts) >>= fun t => (eat [op "{"] t.2) >>= fun ts =>
      (parseStmts ts) >>= fun b => (eat [op "}"] b.2) >>= fun ts => some (⟨static, n.1, p.1, t.1, b.1⟩, ts)

/-- Methods, up to the closing brace of the class. -/
def parseMethods (ts : List Tok) : Option (List TsMethod × List Tok) :=
  match ts with
  | .nl :: ts => parseMethods ts
  | .op _ :: _ => (eat [op "}"] ts) >>= fun ts => some ([], ts)
  | ts =>
    match eat [kw "static"] ts with
    | some ts => (parseMethod true ts) >>= fun m => (parseMethods m.2) >>= fun ms => some (m.1 :: ms.1, ms.2)
    | none => (parseMethod false ts) >>= fun m => (parseMethods m.2) >>= fun ms => some (m.1 :: ms.1, ms.2)
partial_fixpoint

/-- `{ a, b }` after the opening brace. -/
def parseNames (ts : List Tok) : Option (List Str × List Tok) :=
  (name ts) >>= fun a =>
    match eat [op ","] a.2 with
    | some ts => (parseNames ts) >>= fun r => some (a.1 :: r.1, r.2)
    | none => (eat [op "}"] a.2) >>= fun ts => some ([a.1], ts)
partial_fixpoint

/-- A whole module: one import, one namespace, one class. -/
def parseModule (ts : List Tok) : Option TsModule :=
  (eat [kw "import", op "{"] (skipNl ts)) >>= fun ts => (parseNames ts) >>= fun im => (eat [kw "from"] im.2) >>= fun ts =>
    match ts with
    | .str src :: ts =>
      (eat [op ";"] ts) >>= fun ts => (eat [kw "export", kw "namespace"] (skipNl ts)) >>= fun ts =>
        (name ts) >>= fun ns => (eat [op "{"] ns.2) >>= fun ts => (parseDecls ts) >>= fun ds =>
          (eat [kw "export", kw "class"] (skipNl ds.2)) >>= fun ts => (name ts) >>= fun c =>
            (eat [op "{"] c.2) >>= fun ts => (eat [kw "constructor", op "("] (skipNl ts)) >>= fun ts =>
              (parseParams ts) >>= fun ps => (eat [op "{", op "}"] ps.2) >>= fun ts => (parseMethods ts) >>= fun ms =>
                if skipNl ms.2 = [] then some ⟨im.1, src, ns.1, ds.1, c.1, ps.1, ms.1⟩ else none
    | _ => none

/-! ### Errors that TypeScript reports for a module -/

/-- The types that need no declaration. -/
def knownTypes : List Str :=
  ["number".toList, "string".toList, "undefined".toList, "null".toList, "ArrayBuffer".toList]

/-- Does a type name refer to something: from inside the namespace (`inside`), or from the class. -/
def TsModule.resolves (m : TsModule) (inside : Bool) (a : TsAtom) : Bool :=
  match a.path with
  | [x] => knownTypes.contains x || x = m.className || (inside && (m.decls.map TsDecl.name).contains x)
  | [x, y] => x = m.space && (m.decls.map TsDecl.name).contains y
  | _ => false

/-- No duplicates among the members, and their types exist. -/
def TsModule.declOk (m : TsModule) : TsDecl → Bool
  | .interface n ms =>
    !(reservedTypeNames.contains n) && decide (ms.map TsMember.name).Nodup &&
      ms.all fun x => x.type.all (m.resolves true)
  | .enum n vs => !(reservedTypeNames.contains n) && decide (vs.map Prod.fst).Nodup

/-- A method: its variables are declared once, its types exist, and it is not called like a property. -/
def TsModule.methodOk (m : TsModule) (f : TsMethod) : Bool :=
  bindable f.param.name && blockOk f.body && !((letNames f.body).contains f.param.name) &&
  f.param.type.all (m.resolves false) && f.result.all (m.resolves false) &&
  (f.static || !((m.params.map TsMember.name).contains f.name))

/-- Duplicate or reserved names, unknown types. -/
def TsModule.loads (m : TsModule) : Bool :=
  decide m.imports.Nodup && !(m.imports.contains m.className) && !(m.imports.contains m.space) &&
  !(reservedTypeNames.contains m.className) &&
  decide (m.decls.map TsDecl.name).Nodup && m.decls.all m.declOk &&
  decide (m.params.map TsMember.name).Nodup && m.params.all (fun p => !(reservedWords.contains p.name) && p.type.all (m.resolves false)) &&
  decide (m.methods.map fun f => (f.static, f.name)).Nodup && m.methods.all m.methodOk

/-- The syntax of a text. -/
def parseText (code : Str) : Option TsModule := (lex code) >>= parseModule

/-- The module of a text, if TypeScript accepts it. -/
def load (code : Str) : Option TsModule := (parseText code) >>= fun m => if m.loads then some m else none

/-! ### Calling the functions of a module -/

/-- `C.read(data)`, where `C` is the class in the module text `code`. -/
def readText (rt : Runtime) (fuel : Nat) (code : Str) (heap : List Obj) (data : List UInt8) : Outcome :=
  match load code with
  | none => .syntaxError
  | some m =>
    match m.methods.find? fun f => f.static && f.name = "read".toList with
    | none => .throws .typeError
    | some f => call rt m.className fuel [(f.param.name, some (.buf data))] f.body heap

/-- `C.prototype.write.call(this, buffer)`, where `C` is the class in the module text `code`. -/
def writeText (rt : Runtime) (fuel : Nat) (code : Str) (heap : List Obj) (this buffer : Val) : Outcome :=
  match load code with
  | none => .syntaxError
  | some m =>
    match m.methods.find? fun f => !f.static && f.name = "write".toList with
    | none => .throws .typeError
    | some f => call rt m.className fuel [(f.param.name, some buffer), ("this".toList, some this)] f.body heap

end Packetc.Js
