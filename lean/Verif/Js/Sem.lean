import Verif.Js.Program
import Verif.Js.Runtime
/-!
# Semantics of the emitted TypeScript

A definitional interpreter for the subset of `Verif.Js.Syntax`, following ECMAScript (strict mode, as in
class bodies): heap of mutable objects with prototypes, block scopes with hoisted `let` (temporal dead zone),
early errors for redeclarations, exceptions. Type annotations are erased. Where ECMAScript would do something
that this subset does not need (coercions, calls on foreign objects, ...) evaluation stops with
`Throw.unsupported`; the theorems show that this never happens.
-/

namespace Packetc.Js
open Check

/-- The global and imported bindings used by the generated code. -/
inductive Global where
  | reader | writer | object | array
deriving DecidableEq, Repr

inductive Val where
  | undef
  | null
  | bool (b : Bool)
  | num (n : Num)
  | str (s : Str)
  /-- reference to an object or array in the heap -/
  | ref (i : Nat)
  /-- the `Reader` -/
  | reader
  /-- the `Writer` -/
  | writer
  /-- an `ArrayBuffer` -/
  | buf (b : List UInt8)
  /-- the generated class (its constructor function) -/
  | cls
  | glob (g : Global)
  /-- some inherited member (a function or object) whose identity does not matter -/
  | other
deriving DecidableEq, Repr

/-- The prototype of an object: `Object.prototype`, the class itself (`Object.create(C)`), or `C.prototype`
(`new C(..)`). -/
inductive Proto where
  | plain | cls | inst
deriving DecidableEq, Repr

inductive Obj where
  | obj (proto : Proto) (props : Map Val)
  /-- an array; holes are `undefined` -/
  | arr (items : List Val)
deriving DecidableEq, Repr

inductive Throw where
  | typeError | refError | rangeError | unsupported
deriving DecidableEq, Repr

/-- One scope: a variable that is declared but not initialised yet is mapped to `none`. -/
abbrev Scope := Map (Option Val)

structure State where
  heap : List Obj
  /-- innermost scope first -/
  scopes : List Scope
  /-- the state of the (only) reader -/
  rd : RState
  /-- the bytes written so far by the (only) writer -/
  wr : List UInt8

/-! ### Objects -/

/-- Property names of `Object.prototype`. -/
def objectProtoNames : List Str :=
  ["__proto__".toList, "constructor".toList, "hasOwnProperty".toList, "isPrototypeOf".toList,
   "propertyIsEnumerable".toList, "toLocaleString".toList, "toString".toList, "valueOf".toList,
   "__defineGetter__".toList, "__defineSetter__".toList, "__lookupGetter__".toList, "__lookupSetter__".toList]

/-- Read-only own properties of a class constructor. -/
def readOnlyNames : List Str := ["name".toList, "length".toList, "prototype".toList]

/-- The accessors of `Function.prototype` that throw in strict code. -/
def poisonedNames : List Str := ["caller".toList, "arguments".toList]

/-- Other members reachable from a class constructor: the static method, and `Function.prototype`. -/
def functionNames : List Str := ["read".toList, "apply".toList, "bind".toList, "call".toList]

/-- `o.p` as an rvalue (OrdinaryGet along the prototype chain). -/
def Obj.get (o : Obj) (p : Str) : Except Throw Val :=
  match o with
  | .arr items => if p = "length".toList then .ok (.num (.int items.length)) else .error .unsupported
  | .obj proto props =>
    match props.get p with
    | some v => .ok v
    | none =>
      match proto with
      | .plain => if p ∈ objectProtoNames then .ok .other else .ok .undef
      | .inst => if p ∈ "write".toList :: objectProtoNames then .ok .other else .ok .undef
      | .cls =>
        if p ∈ poisonedNames then .error .typeError
        else if p ∈ readOnlyNames ++ functionNames ++ objectProtoNames then .ok .other else .ok .undef

/-- Values that are not objects and not `null`: the `__proto__` setter ignores them. -/
def Val.primitive : Val → Bool
  | .undef | .bool _ | .num _ | .str _ => true
  | _ => false

/-- `o.p = v` (OrdinarySet in strict mode). -/
def Obj.set (o : Obj) (p : Str) (v : Val) : Except Throw Obj :=
  match o with
  | .arr _ => .error .unsupported
  | .obj proto props =>
    if props.has p then .ok (.obj proto (props.insert p v))
    else if p = "__proto__".toList then (if v.primitive then .ok o else .error .unsupported)
    else if proto = .cls ∧ (p ∈ readOnlyNames ∨ p ∈ poisonedNames) then .error .typeError
    else .ok (.obj proto (props.insert p v))

/-- `o[k]` as an rvalue, for an array and a non-negative integer. -/
def Obj.getIndex (o : Obj) (k : Val) : Except Throw Val :=
  match o, k with
  | .arr items, .num (.int i) => if 0 ≤ i then .ok ((items[i.toNat]?).getD .undef) else .error .unsupported
  | _, _ => .error .unsupported

/-- `o[k] = v`, for an array and a non-negative integer (growing the array if needed). -/
def Obj.setIndex (o : Obj) (k v : Val) : Except Throw Obj :=
  match o, k with
  | .arr items, .num (.int i) =>
    if 0 ≤ i then
      .ok (.arr ((items ++ List.replicate (i.toNat + 1 - items.length) Val.undef).set i.toNat v))
    else .error .unsupported
  | _, _ => .error .unsupported

namespace State

/-- The object a value refers to. -/
def deref (st : State) (v : Val) : Except Throw Obj :=
  match v with
  | .ref i => match st.heap[i]? with | some o => .ok o | none => .error .unsupported
  | .undef | .null => .error .typeError
  | _ => .error .unsupported

/-- `v.p` -/
def getProp (st : State) (v : Val) (p : Str) : Except Throw Val :=
  match v with
  | .str s => if p = "length".toList then .ok (.num (.int (utf16Length s))) else .error .unsupported
  | .reader => if p = "failed".toList then .ok (.bool st.rd.failed) else .error .unsupported
  | v => (st.deref v).bind fun o => o.get p

/-- `v.p = w` -/
def setProp (st : State) (v : Val) (p : Str) (w : Val) : Except Throw State :=
  match v with
  | .reader =>
    match w with
    | .bool b =>
      if p = "failed".toList then .ok { st with rd := { st.rd with failed := b } } else .error .unsupported
    | _ => .error .unsupported
  | .ref i => (st.deref v).bind fun o => (o.set p w).bind fun o' => .ok { st with heap := st.heap.set i o' }
  | .undef | .null => .error .typeError
  | _ => .error .unsupported

/-- `v[k]` -/
def getIndex (st : State) (v k : Val) : Except Throw Val := (st.deref v).bind fun o => o.getIndex k

/-- `v[k] = w` -/
def setIndex (st : State) (v k w : Val) : Except Throw State :=
  match v with
  | .ref i => (st.deref v).bind fun o => (o.setIndex k w).bind fun o' => .ok { st with heap := st.heap.set i o' }
  | .undef | .null => .error .typeError
  | _ => .error .unsupported

/-- Allocate an object. -/
def alloc (st : State) (o : Obj) : Val × State := (.ref st.heap.length, { st with heap := st.heap ++ [o] })

end State

/-! ### Variables -/

/-- Find a variable: innermost scope first. -/
def lookup : List Scope → Str → Option (Option Val)
  | [], _ => none
  | sc :: scs, x =>
    match sc.get x with
    | some b => some b
    | none => lookup scs x

/-- The bindings outside the function: the class hides globals of the same name. -/
def resolveGlobal (cls x : Str) : Except Throw Val :=
  if x = cls then .ok .cls
  else if x = "Reader".toList then .ok (.glob .reader)
  else if x = "Writer".toList then .ok (.glob .writer)
  else if x = "Object".toList then .ok (.glob .object)
  else if x = "Array".toList then .ok (.glob .array)
  else .error .refError

/-- `x` as an rvalue. -/
def getVar (cls : Str) (scs : List Scope) (x : Str) : Except Throw Val :=
  match lookup scs x with
  | some (some v) => .ok v
  | some none => .error .refError
  | none => resolveGlobal cls x

/-- `x = v` -/
def assignVar : List Scope → Str → Val → Except Throw (List Scope)
  | [], _, _ => .error .refError
  | sc :: scs, x, v =>
    match sc.get x with
    | some (some _) => .ok (sc.insert x (some v) :: scs)
    | some none => .error .refError
    | none => (assignVar scs x v).bind fun scs' => .ok (sc :: scs')

/-- `let x = v`: initialise a hoisted variable of the innermost scope. -/
def initLet : List Scope → Str → Val → List Scope
  | [], _, _ => []
  | sc :: scs, x, v => sc.insert x (some v) :: scs

/-- The variables declared by the statements of a block itself. -/
def letNames : List Stmt → List Str
  | [] => []
  | .letS x _ _ :: ss => x :: letNames ss
  | _ :: ss => letNames ss

/-- The scope of a block on entry. -/
def hoist (ss : List Stmt) : Scope := (letNames ss).map fun x => (x, none)

mutual
/-- Early error check: no block inside the statement declares a variable twice. -/
def Stmt.scopeOk : Stmt → Bool
  | .ifElse _ t e => decide (letNames t).Nodup && stmtsOk t && (decide (letNames e).Nodup && stmtsOk e)
  | .forS _ _ body => decide (letNames body).Nodup && stmtsOk body
  | .switchNullish _ _ d => decide (letNames d).Nodup && stmtsOk d
  | _ => true
/-- The same for all statements of a list. -/
def stmtsOk : List Stmt → Bool
  | [] => true
  | s :: ss => s.scopeOk && stmtsOk ss
end

/-- Early error check for a block. -/
def blockOk (ss : List Stmt) : Bool := decide (letNames ss).Nodup && stmtsOk ss

/-! ### Expressions -/

def Val.truthy : Val → Bool
  | .undef | .null => false
  | .bool b => b
  | .num (.int i) => i ≠ 0
  | .num (.f32 b) => b ≠ 0#32 ∧ b ≠ 0x80000000#32 ∧ b ≠ 0x7fc00000#32
  | .str s => s ≠ []
  | _ => true

/-- A comparison of two (integer) numbers. -/
def compareInts (f : Int → Int → Bool) (a b : Val) : Except Throw Val :=
  match a, b with
  | .num (.int i), .num (.int j) => .ok (.bool (f i j))
  | _, _ => .error .unsupported

/-- The scalar `T` of a method name `pre ++ T`. -/
def methodScalar (pre m : Str) : Option Scalar := Scalar.all.find? fun s => decide (pre ++ s.name = m)

variable (rt : Runtime) (cls : Str)

/-- `new G(args)` -/
def construct (g : Val) (args : List Val) (st : State) : Except Throw (Val × State) :=
  match g, args with
  | .glob .reader, [.buf b] => .ok (.reader, { st with rd := ⟨b, false, 0⟩ })
  | .glob .writer, [] => .ok (.writer, { st with wr := [] })
  | .glob .writer, [.buf _] => .ok (.writer, { st with wr := [] })
  | .glob .array, [.num (.int n)] =>
    if 0 ≤ n ∧ n < 2 ^ 32 then .ok (st.alloc (.arr (List.replicate n.toNat .undef))) else .error .rangeError
  | _, _ => .error .unsupported

/-- `o.m()` -/
def callMethod0 (o : Val) (m : Str) (st : State) : Except Throw (Val × State) :=
  match o with
  | .reader =>
    match methodScalar "read_".toList m with
    | some s => .ok (.num (rt.readNum s st.rd).1, { st with rd := (rt.readNum s st.rd).2 })
    | none => .error .unsupported
  | .writer => if m = "finish".toList then .ok (.buf st.wr, st) else .error .unsupported
  | .undef | .null => .error .typeError
  | _ => .error .unsupported

/-- `o.m(a)` -/
def callMethod1 (o : Val) (m : Str) (a : Val) (st : State) : Except Throw (Val × State) :=
  match o, a with
  | .glob .object, .cls => if m = "create".toList then .ok (st.alloc (.obj .cls [])) else .error .unsupported
  | .reader, .num (.int n) =>
    if m = "read_string".toList ∧ 0 ≤ n then
      .ok (.str (rt.readStr n.toNat st.rd).1, { st with rd := (rt.readStr n.toNat st.rd).2 })
    else .error .unsupported
  | .writer, .num n =>
    match methodScalar "write_".toList m with
    | some s => .ok (.undef, { st with wr := st.wr ++ rt.enc s n })
    | none => .error .unsupported
  | .writer, .str s =>
    if m = "write_string".toList then .ok (.undef, { st with wr := st.wr ++ rt.encS s }) else .error .unsupported
  | .undef, _ => .error .typeError
  | .null, _ => .error .typeError
  | _, _ => .error .unsupported

/-- Evaluation of expressions, left to right. -/
def eval : Expr → State → Except Throw (Val × State)
  | .var x, st => (getVar cls st.scopes x).bind fun v => .ok (v, st)
  | .prop e p, st => (eval e st).bind fun r => (r.2.getProp r.1 p).bind fun v => .ok (v, r.2)
  | .index e i, st =>
    (eval e st).bind fun r => (eval i r.2).bind fun k => (k.2.getIndex r.1 k.1).bind fun v => .ok (v, k.2)
  | .num i, st => .ok (.num (.int i), st)
  | .undef, st => .ok (.undef, st)
  | .null, st => .ok (.null, st)
  | .tru, st => .ok (.bool true, st)
  | .obj, st => .ok (st.alloc (.obj .plain []))
  | .new0 c, st => (getVar cls st.scopes c).bind fun g => construct g [] st
  | .new1 c a, st => (getVar cls st.scopes c).bind fun g => (eval a st).bind fun r => construct g [r.1] r.2
  | .call0 o m, st => (eval o st).bind fun r => callMethod0 rt r.1 m r.2
  | .call1 o m a, st => (eval o st).bind fun r => (eval a r.2).bind fun k => callMethod1 rt r.1 m k.1 k.2
  | .asNumber e, st => eval e st
  | .lt a b, st =>
    (eval a st).bind fun x => (eval b x.2).bind fun y =>
      (compareInts (fun i j => decide (i < j)) x.1 y.1).bind fun v => .ok (v, y.2)
  | .le a b, st =>
    (eval a st).bind fun x => (eval b x.2).bind fun y =>
      (compareInts (fun i j => decide (i ≤ j)) x.1 y.1).bind fun v => .ok (v, y.2)
  | .gt a b, st =>
    (eval a st).bind fun x => (eval b x.2).bind fun y =>
      (compareInts (fun i j => decide (j < i)) x.1 y.1).bind fun v => .ok (v, y.2)
  | .and a b, st => (eval a st).bind fun x => if x.1.truthy then eval b x.2 else .ok x
  | .cond c t e, st => (eval c st).bind fun x => if x.1.truthy then eval t x.2 else eval e x.2

/-- `l = r` -/
def evalAssign (l r : Expr) (st : State) : Except Throw State :=
  match l with
  | .var x =>
    (eval rt cls r st).bind fun v => (assignVar v.2.scopes x v.1).bind fun scs => .ok { v.2 with scopes := scs }
  | .prop e p =>
    (eval rt cls e st).bind fun o => (eval rt cls r o.2).bind fun v => v.2.setProp o.1 p v.1
  | .index e i =>
    (eval rt cls e st).bind fun o => (eval rt cls i o.2).bind fun k => (eval rt cls r k.2).bind fun v =>
      v.2.setIndex o.1 k.1 v.1
  | _ => .error .unsupported

/-! ### Statements -/

/-- Why execution of statements stops early. -/
inductive Stop where
  | throw (t : Throw)
  | ret (v : Val) (st : State)
  | timeout

/-- An exception stops the statement. -/
def lift {α : Type} : Except Throw α → Except Stop α
  | .ok a => .ok a
  | .error t => .error (.throw t)

/-- Run `f` in a new innermost scope. -/
def inScope (sc : Scope) (f : State → Except Stop State) (st : State) : Except Stop State :=
  (f { st with scopes := sc :: st.scopes }).bind fun st' => .ok { st' with scopes := st'.scopes.tail }

/-- `for (; cond; inc) body`, at most `fuel` times. -/
def forLoop (cond : State → Except Stop (Val × State)) (body inc : State → Except Stop State) :
    Nat → State → Except Stop State
  | 0, _ => .error .timeout
  | fuel + 1, st =>
    (cond st).bind fun c =>
      if c.1.truthy then (body c.2).bind fun st => (inc st).bind fun st => forLoop cond body inc fuel st
      else .ok c.2

/-- `++x` for an integer variable. -/
def increment (x : Str) (st : State) : Except Throw State :=
  (getVar cls st.scopes x).bind fun v =>
    match v with
    | .num (.int i) => (assignVar st.scopes x (.num (.int (i + 1)))).bind fun scs => .ok { st with scopes := scs }
    | _ => .error .unsupported

variable (fuel : Nat)

mutual
/-- Execution of a statement; `fuel` bounds the iterations of each loop. -/
def exec : Stmt → State → Except Stop State
  | .letS x _ e, st => (lift (eval rt cls e st)).bind fun r => .ok { r.2 with scopes := initLet r.2.scopes x r.1 }
  | .assign l r, st => lift (evalAssign rt cls l r st)
  | .expr e, st => (lift (eval rt cls e st)).bind fun r => .ok r.2
  | .ifElse c t e, st =>
    (lift (eval rt cls c st)).bind fun r =>
      if r.1.truthy then inScope (hoist t) (execs t) r.2 else inScope (hoist e) (execs e) r.2
  | .ifAssign c l r l' r', st =>
    (lift (eval rt cls c st)).bind fun v =>
      if v.1.truthy then lift (evalAssign rt cls l r v.2) else lift (evalAssign rt cls l' r' v.2)
  | .ifRet c e, st =>
    (lift (eval rt cls c st)).bind fun v =>
      if v.1.truthy then (lift (eval rt cls e v.2)).bind fun r => .error (.ret r.1 r.2) else .ok v.2
  | .forS i b body, st =>
    inScope [(i, some (.num (.int 0)))]
      (forLoop (fun st => lift (eval rt cls (.lt (.var i) b) st)) (inScope (hoist body) (execs body))
        (fun st => lift (increment cls i st)) fuel) st
  | .switchNullish e n d, st =>
    (lift (eval rt cls e st)).bind fun v =>
      match v.1 with
      | .undef | .null => (lift (eval rt cls n v.2)).bind fun r => .ok r.2
      | _ => inScope (hoist d) (execs d) v.2
  | .ret e, st => (lift (eval rt cls e st)).bind fun r => .error (.ret r.1 r.2)
/-- Execution of a statement list. -/
def execs : List Stmt → State → Except Stop State
  | [], st => .ok st
  | s :: ss, st => (exec s st).bind fun st => execs ss st
end

/-! ### The module -/

/-- Words that cannot be used as a binding name in a module (ECMAScript 12.7.2, strict mode, plus `eval` and
`arguments`). -/
def reservedWords : List Str :=
  ["await", "break", "case", "catch", "class", "const", "continue", "debugger", "default", "delete", "do",
   "else", "enum", "export", "extends", "false", "finally", "for", "function", "if", "import", "in",
   "instanceof", "new", "null", "return", "super", "switch", "this", "throw", "true", "try", "typeof", "var",
   "void", "while", "with", "yield", "let", "static", "implements", "interface", "package", "private",
   "protected", "public", "eval", "arguments"].map String.toList

/-- Names that TypeScript does not allow for a class (TS2414). -/
def reservedTypeNames : List Str :=
  ["any", "unknown", "never", "number", "bigint", "boolean", "string", "symbol", "void", "object", "undefined"].map
    String.toList

/-- `[A-Za-z_][A-Za-z0-9_]*` -/
def isIdent (x : Str) : Bool :=
  match x with
  | [] => false
  | c :: cs => (c.isAlpha || c = '_') && cs.all fun c => c.isAlphanum || c = '_'

mutual
/-- All field names, at any depth, are identifiers. -/
def identFields : List (FieldOf RType) → Bool
  | [] => true
  | f :: fs => identField f && identFields fs
def identField : FieldOf RType → Bool
  | ⟨n, _, t, _, _⟩ => isIdent n && identType t
def identType : RType → Bool
  | .struct fs => identFields fs
  | _ => true
end

/-- Does the generated module pass the parser: class and constructor parameter names are usable and distinct,
the class does not clash with the imports, and neither method redeclares a variable. -/
def moduleOk (e : Export) : Bool :=
  isIdent e.name && !(reservedWords.contains e.name) && !(reservedTypeNames.contains e.name) &&
  !(e.name = "Reader".toList) && !(e.name = "Writer".toList) &&
  decide (e.fields.map (·.name)).Nodup &&
  identFields e.fields && (e.fields.map (·.name)).all (fun n => !(reservedWords.contains n)) &&
  blockOk (readBody e) && !((letNames (readBody e)).contains "data".toList) &&
  blockOk (writeBody e) && !((letNames (writeBody e)).contains "buffer".toList)

/-- How a call of a generated function can end. -/
inductive Outcome where
  /-- the module does not parse -/
  | syntaxError
  | throws (t : Throw)
  /-- more than `fuel` iterations of some loop -/
  | timeout
  | returns (v : Val) (st : State)

/-- Call a function: parameters, then the body. -/
def call (params : Scope) (body : List Stmt) (heap : List Obj) : Outcome :=
  match execs rt cls fuel body ⟨heap, [hoist body, params], ⟨[], false, 0⟩, []⟩ with
  | .ok st => .returns .undef st
  | .error (.ret v st) => .returns v st
  | .error (.throw t) => .throws t
  | .error .timeout => .timeout

/-- `C.read(data)` -/
def runRead (e : Export) (heap : List Obj) (data : List UInt8) : Outcome :=
  if moduleOk e then call rt e.name fuel [("data".toList, some (.buf data))] (readBody e) heap else .syntaxError

/-- `C.prototype.write.call(this, buffer)` -/
def runWrite (e : Export) (heap : List Obj) (this buffer : Val) : Outcome :=
  if moduleOk e then
    call rt e.name fuel [("buffer".toList, some buffer), ("this".toList, some this)] (writeBody e) heap
  else .syntaxError

end Packetc.Js
