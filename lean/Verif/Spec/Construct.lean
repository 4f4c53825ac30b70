import Verif.Js.Construct
import Verif.Spec.Behaviour
/-!
# Packets that are made with the constructor (specification for C115-C117)
-/

namespace Packetc.Js
open Ast Check

/-- The arguments hold the components `ps`, one after the other. There may be more arguments than components; if there are
fewer, then the other components are absent. -/
def ArgsHold (heap : List Obj) (ps : List (PropOf JVal)) (args : List Val) : Prop :=
  ∀ (i : Nat) (p : PropOf JVal), ps[i]? = some p → Rep heap p.value ((args[i]?).getD .undef)

/-- `new C(args)` makes one new object and changes no other; it is an instance of the class, and holds `ps`. -/
def Constructs (e : Artifact) (heap : List Obj) (args : List Val) (ps : List (PropOf JVal)) : Prop :=
  ∃ v o, newText e.code heap args = .returns v (heap ++ [o]) ∧ isInstance (heap ++ [o]) v = true ∧ Rep (heap ++ [o]) (.obj ps) v

/-- `x.write()` and `x.write(buffer)` return `bytes` and change no object. -/
def Sends (rt : Runtime) (e : Artifact) (heap : List Obj) (x : Val) (bytes : List UInt8) : Prop :=
  ∀ buffer fuel, 2 ^ 32 ≤ fuel → (buffer = .undef ∨ ∃ b, buffer = .buf b) →
    ∃ st, callWrite rt fuel e.code heap x buffer = .returns (.buf bytes) st ∧ st.heap = heap

/-- `new C(a, b, ...)` stores the arguments in the fields `ns`, one after the other. -/
def ByPosition (e : Artifact) (ns : List Str) : Prop :=
  ∀ (heap : List Obj) (args : List Val), args.length = ns.length →
    ∃ v o, newText e.code heap args = .returns v (heap ++ [o]) ∧
      ∀ (i : Nat) (n : Str) (a : Val), ns[i]? = some n → args[i]? = some a → o.get n = .ok a

end Packetc.Js
