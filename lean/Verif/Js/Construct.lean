import Verif.Js.Parse
/-!
# The constructor of the generated class, and method calls

`new C(..)`, `x.write(..)` and `x instanceof C`, as ECMAScript defines them for the emitted class. A parameter property
`public p: T` stands for the assignment `this.p = p`. (With `useDefineForClassFields` the properties are defined before they
are assigned; this makes a difference only for a field called `__proto__`.)
-/

namespace Packetc.Js
open Check

/-- The assignments `this.p = p`, in the order of the parameters. A missing argument is `undefined`, further arguments are
ignored. -/
def assignParams : Obj → List Str → List Val → Except Throw Obj
  | o, [], _ => .ok o
  | o, p :: ps, args => (o.set p (args.head?.getD .undef)).bind fun o => assignParams o ps args.tail

/-- How `new C(..)` can end. -/
inductive NewOutcome where
  /-- the module is not accepted -/
  | syntaxError
  | throws (t : Throw)
  | returns (v : Val) (heap : List Obj)

/-- `new C(args)`, where `C` is the class in the module text `code`. -/
def newText (code : Str) (heap : List Obj) (args : List Val) : NewOutcome :=
  match load code with
  | none => .syntaxError
  | some m =>
    match assignParams (.obj .inst []) (m.params.map TsMember.name) args with
    | .error t => .throws t
    | .ok o => .returns (.ref heap.length) (heap ++ [o])

/-- `x.write(buffer)`: an own property comes first (no value of a packet is a function), then the method of `C.prototype`.
The class itself, arrays and plain objects have no member `write`. -/
def callWrite (rt : Runtime) (fuel : Nat) (code : Str) (heap : List Obj) (x buffer : Val) : Outcome :=
  match x with
  | .ref i =>
    match heap[i]? with
    | some (.obj pr props) =>
      if props.has "write".toList then .throws .typeError
      else if pr = .inst then writeText rt fuel code heap x buffer
      else .throws .typeError
    | _ => .throws .typeError
  | _ => .throws .typeError

/-- `x instanceof C`: is `C.prototype` in the prototype chain of `x`? -/
def isInstance (heap : List Obj) (x : Val) : Bool :=
  match x with
  | .ref i => match heap[i]? with | some (.obj .inst _) => true | _ => false
  | _ => false

end Packetc.Js
