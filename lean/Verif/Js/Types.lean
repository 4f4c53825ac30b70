import Verif.Js.Parse
/-!
# A type checker for the TypeScript subset

The rules of TypeScript (`strict`) for the constructs that occur: block scopes, use before declaration, inference of
`let`, narrowing by `switch` and by a condition, assignability, return types. What the generated code does not need is
rejected. The types of `Reader` and `Writer` are the declarations of the library `packet`.
-/

namespace Packetc.Js

inductive STy where
  | any | number | string | boolean | undef | null | void
  /-- the type of `{}` -/
  | object
  /-- `ArrayBuffer` -/
  | buffer
  | reader | writer
  /-- the types of the values `Reader`, `Writer`, `Object`, `Array` and of the class itself -/
  | readerFn | writerFn | objectFn | arrayFn | cls
  /-- an instance of the class -/
  | inst
  /-- an interface or enum of the namespace -/
  | named (n : Str)
  | array (t : STy)
  | or (t u : STy)
deriving DecidableEq, Repr

/-- The variables in scope, innermost first; `none` before the declaration has been reached. -/
abbrev TEnv := List (Str × Option STy)

/-- The innermost declaration of a variable. -/
def TEnv.find : TEnv → Str → Option (Option STy)
  | [], _ => none
  | (y, t) :: Γ, x => if y = x then some t else TEnv.find Γ x

/-- Entering a block: its variables are known, but may not be used yet. -/
def TEnv.enter (Γ : TEnv) (ss : List Stmt) : TEnv := (letNames ss).map (fun x => (x, none)) ++ Γ

/-- What is left when `undefined` and `null` are excluded. -/
def STy.nonNullish : STy → STy
  | .or t .undef => t.nonNullish
  | .or t .null => t.nonNullish
  | t => t

namespace TsModule
variable (m : TsModule)

/-! ### Type annotations -/

/-- The meaning of a type name, inside the namespace or in the class. -/
def pathType (inside : Bool) : List Str → Option STy
  | [x] =>
    if x = "number".toList then some .number
    else if x = "string".toList then some .string
    else if x = "undefined".toList then some .undef
    else if x = "null".toList then some .null
    else if inside && (m.decls.map TsDecl.name).contains x then some (.named x)
    else if x = m.className then some .inst
    else if x = "ArrayBuffer".toList then some .buffer
    else none
  | [x, y] => if x = m.space && (m.decls.map TsDecl.name).contains y then some (.named y) else none
  | _ => none

def atomType (inside : Bool) (a : TsAtom) : Option STy :=
  (pathType m inside a.path).map fun t => if a.array then .array t else t

def unionType (inside : Bool) : TsType → Option STy
  | [] => none
  | [a] => m.atomType inside a
  | a :: as => (m.atomType inside a).bind fun t => (unionType inside as).map fun u => .or t u

/-- The type of a member or parameter. -/
def memberType (inside : Bool) (x : TsMember) : Option STy :=
  (m.unionType inside x.type).map fun t => if x.optional then .or t .undef else t

/-- Is the type an enum? -/
def isEnum : STy → Bool
  | .named n => m.decls.any fun d => match d with | .enum k _ => k = n | .interface _ _ => false
  | _ => false

/-! ### Assignability -/

/-- Can a value of the type `s`, not a union, be used as a `d`? Numbers can be used as enums. -/
def assignTo (s : STy) : STy → Bool
  | .any => true
  | .or t u => assignTo s t || assignTo s u
  | d => s = .any || s = d || (s = .number && m.isEnum d)

/-- Can a value of the first type be used as the second? -/
def assignable : STy → STy → Bool
  | .or s t, d => assignable s d && assignable t d
  | s, d => m.assignTo s d

/-! ### The library, and the global objects -/

/-- The names that are no local variables. -/
def valueType (x : Str) : Option STy :=
  if x = m.className then some .cls
  else if m.imports.contains x then
    if x = "Reader".toList then some .readerFn else if x = "Writer".toList then some .writerFn else none
  else if x = "Object".toList then some .objectFn
  else if x = "Array".toList then some .arrayFn
  else none

/-- The type of a name used as a value. -/
def varType (Γ : TEnv) (x : Str) : Option STy :=
  match Γ.find x with
  | some t => t
  | none => m.valueType x

/-- The names of the numeric types in `read_T` and `write_T`. -/
def numericNames : List Str := Scalar.all.map Scalar.name

/-- Properties. -/
def propType : STy → Str → Option STy
  | .any, _ => some .any
  | .string, p => if p = "length".toList then some .number else none
  | .array _, p => if p = "length".toList then some .number else none
  | .reader, p => if p = "failed".toList then some .boolean else none
  | .inst, p => (m.params.find? fun x => x.name = p).bind (m.memberType false)
  | .named n, p =>
    match m.decls.find? fun d => d.name = n with
    | some (.interface _ ms) => (ms.find? fun x => x.name = p).bind (m.memberType true)
    | _ => none
  | _, _ => none

/-- `o[i]` -/
def indexType : STy → STy → Option STy
  | .any, i => if i = .number || i = .any then some .any else none
  | .array t, i => if i = .number || i = .any then some t else none
  | _, _ => none

/-- `new C()` -/
def newType0 : STy → Option STy
  | .writerFn => some .writer
  | _ => none

/-- `new C(a)` -/
def newType1 : STy → STy → Option STy
  | .readerFn, a => if m.assignable a .buffer then some .reader else none
  | .writerFn, a => if m.assignable a .buffer then some .writer else none
  | .arrayFn, a => if a = .number then some (.array .any) else none
  | _, _ => none

/-- `o.f()` -/
def callType0 : STy → Str → Option STy
  | .any, _ => some .any
  | .reader, f => if numericNames.any fun t => f = "read_".toList ++ t then some .number else none
  | .writer, f => if f = "finish".toList then some .buffer else none
  | _, _ => none

/-- Types whose values are objects. -/
def isObject : STy → Bool
  | .any | .object | .buffer | .reader | .writer | .readerFn | .writerFn | .objectFn | .arrayFn | .cls | .inst => true
  | .array _ => true
  | _ => false

/-- `o.f(a)` -/
def callType1 : STy → Str → STy → Option STy
  | .any, _, _ => some .any
  | .reader, f, a => if f = "read_string".toList ∧ m.assignable a .number then some .string else none
  | .writer, f, a =>
    if f = "write_string".toList then (if m.assignable a .string then some .void else none)
    else if (numericNames.any fun t => f = "write_".toList ++ t) ∧ m.assignable a .number then some .void
    else none
  | .objectFn, f, a => if f = "create".toList ∧ isObject a then some .any else none
  | _, _, _ => none

/-! ### Expressions -/

/-- The operands of `<`, `<=`, `>`. -/
def isNumber (t : STy) : Bool := t = .number || t = .any

/-- What is known about the variables if a condition is true. -/
def narrow (Γ : TEnv) : Expr → TEnv
  | .var x =>
    match Γ.find x with
    | some (some t) => (x, some t.nonNullish) :: Γ
    | _ => Γ
  | _ => Γ

/-- The type of an expression. -/
def typeOf (Γ : TEnv) : Expr → Option STy
  | .var x => m.varType Γ x
  | .prop e p => (typeOf Γ e).bind fun t => m.propType t p
  | .index e i => (typeOf Γ e).bind fun t => (typeOf Γ i).bind fun u => indexType t u
  | .num _ => some .number
  | .undef => some .undef
  | .null => some .null
  | .tru => some .boolean
  | .obj => some .object
  | .new0 c => (m.varType Γ c).bind newType0
  | .new1 c a => (m.varType Γ c).bind fun t => (typeOf Γ a).bind fun u => m.newType1 t u
  | .call0 o f => (typeOf Γ o).bind fun t => callType0 t f
  | .call1 o f a => (typeOf Γ o).bind fun t => (typeOf Γ a).bind fun u => m.callType1 t f u
  | .asNumber e => (typeOf Γ e).bind fun t => if isNumber t || m.isEnum t then some .number else none
  | .lt a b => (typeOf Γ a).bind fun t => (typeOf Γ b).bind fun u => if isNumber t && isNumber u then some .boolean else none
  | .le a b => (typeOf Γ a).bind fun t => (typeOf Γ b).bind fun u => if isNumber t && isNumber u then some .boolean else none
  | .gt a b => (typeOf Γ a).bind fun t => (typeOf Γ b).bind fun u => if isNumber t && isNumber u then some .boolean else none
  | .and a b => (typeOf Γ a).bind fun t => (typeOf Γ b).bind fun u => if t = .boolean && u = .boolean then some .boolean else none
  | .cond c t e =>
    (typeOf Γ c).bind fun k => (typeOf (narrow Γ c) t).bind fun a => (typeOf Γ e).bind fun b =>
      if k ≠ .void ∧ a = b then some a else none

/-- The type of what is assigned to. Variables must be declared `any`, so that no narrowing is lost. -/
def targetType (Γ : TEnv) : Expr → Option STy
  | .var x => match Γ.find x with | some (some .any) => some .any | _ => none
  | .prop e p => (m.typeOf Γ e).bind fun t =>
    match t with
    | .string | .array _ => none
    | t => m.propType t p
  | .index e i => m.typeOf Γ (.index e i)
  | _ => none

/-! ### Statements -/

/-- `l = r` -/
def assignOk (Γ : TEnv) (l r : Expr) : Bool :=
  match m.targetType Γ l, m.typeOf Γ r with
  | some d, some s => m.assignable s d
  | _, _ => false

/-- A condition: anything but a call without result. -/
def condOk (Γ : TEnv) (c : Expr) : Bool :=
  match m.typeOf Γ c with
  | some t => t ≠ .void
  | none => false

/-- `return e` in a function with result type `ret`. -/
def returnOk (ret : STy) (Γ : TEnv) (e : Expr) : Bool :=
  match m.typeOf Γ e with
  | some t => m.assignable t ret
  | none => false

/-- The type of a variable declared by `let x = e` or `let x: any = e`. -/
def letType (any : Bool) (t : STy) : Option STy :=
  if t = .void then none
  else if any then some .any
  else if t = .undef ∨ t = .null then none
  else some t

mutual
/-- Check a statement; the result is what is known afterwards. -/
def checkStmt (ret : STy) (Γ : TEnv) : Stmt → Option TEnv
  | .letS x any e => (m.typeOf Γ e).bind fun t => (letType any t).map fun t => (x, some t) :: Γ
  | .assign l r => if m.assignOk Γ l r then some Γ else none
  | .expr e => (m.typeOf Γ e).map fun _ => Γ
  | .ifElse c t e =>
    if m.condOk Γ c then
      (checkStmts ret (Γ.enter t) t).bind fun _ => (checkStmts ret (Γ.enter e) e).map fun _ => Γ
    else none
  | .ifAssign c l r l' r' => if m.condOk Γ c && m.assignOk Γ l r && m.assignOk Γ l' r' then some Γ else none
  | .ifRet c e => if m.condOk Γ c && m.returnOk ret Γ e then some Γ else none
  | .forS i b body =>
    let Γ' : TEnv := (i, some .number) :: Γ
    (m.typeOf Γ' (.lt (.var i) b)).bind fun _ => (checkStmts ret (TEnv.enter Γ' body) body).map fun _ => Γ
  | .switchNullish e n d =>
    (m.typeOf Γ e).bind fun _ => (m.typeOf Γ n).bind fun _ =>
      (checkStmts ret ((narrow Γ e).enter d) d).map fun _ => Γ
  | .ret e => if m.returnOk ret Γ e then some Γ else none
/-- Check the statements of a block. -/
def checkStmts (ret : STy) (Γ : TEnv) : List Stmt → Option TEnv
  | [] => some Γ
  | s :: ss => (checkStmt ret Γ s).bind fun Γ => checkStmts ret Γ ss
end

/-- The last statement returns. -/
def endsInReturn (ss : List Stmt) : Bool :=
  match ss.getLast? with
  | some (.ret _) => true
  | _ => false

/-- Check a method of the class. -/
def methodTypes (f : TsMethod) : Bool :=
  match m.memberType false f.param, m.unionType false f.result with
  | some p, some ret =>
    let Γ : TEnv := (f.param.name, some p) :: (if f.static then [] else [("this".toList, some .inst)])
    endsInReturn f.body && (m.checkStmts ret (Γ.enter f.body) f.body).isSome
  | _, _ => false

/-- The type checker has nothing to say about the module. -/
def typeChecks : Bool :=
  (m.params.all fun p => (m.memberType false p).isSome) &&
  (m.decls.all fun d => match d with
    | .interface _ ms => ms.all fun x => (m.memberType true x).isSome
    | .enum _ _ => true) &&
  m.methods.all m.methodTypes

end TsModule

end Packetc.Js
