import Verif.Rust.Sem
/-!
# How long programs of the Rust subset run

Counted in statements executed: a loop counts once, and its body in each round. What happens inside of the `packet` crate (copying the bytes
of a string) and inside of `default()` is not counted.
-/

namespace Packetc.Rs

mutual
/-- Number of statements in the text. -/
def Stmt.size : Stmt → Nat
  | .matchOpt _ _ _ _ _ body => 1 + sizes body
  | .forIter _ _ body => 1 + sizes body
  | .ifGt _ _ body => 1 + sizes body
  | .forRange _ body => 1 + sizes body
  | _ => 1
def sizes : List Stmt → Nat
  | [] => 0
  | s :: ss => s.size + sizes ss
end

/-- `f` of the result, nothing if there is none. -/
def Res.count {α} (r : Res α) (f : α → St → Nat) : Nat :=
  match r with
  | .ok a s => f a s
  | _ => 0

/-- `n` rounds, up to the first that fails. -/
def stepsRounds (count : St → Nat) (body : M Unit) : Nat → St → Nat
  | 0, _ => 0
  | n + 1, s => count s + (body s).count fun _ s' => stepsRounds count body n s'

/-- One round per item, up to the first that fails. -/
def stepsEach (count : Val → St → Nat) (body : Val → M Unit) : List Val → St → Nat
  | [], _ => 0
  | v :: vs, s => count v s + (body v s).count fun _ s' => stepsEach count body vs s'

variable (lib : Lib) (P : Prog)

mutual
/-- Number of statements that are executed when the statement is run in a state, following `exec`. -/
def steps : Stmt → St → Nat
  | .matchOpt _ e _ _ x body, s => 1 + (eval lib P e s).count fun v s' => match v with
    | .some v => stepsAll body { s' with env := (x, v) :: s'.env }
    | _ => 0
  | .forIter x e body, s => 1 + (eval lib P e s).count fun v s' => match v with
    | .vec l => stepsEach (fun v s => stepsAll body { s with env := (x, v) :: s.env }) (fun v => block do declare x v; execAll lib P body) l s'
    | _ => 0
  | .ifGt e n body, s => 1 + (eval lib P e s).count fun v s' => match v with
    | .num (.int i) => if (n : Int) < i then stepsAll body s' else 0
    | _ => 0
  | .forRange n body, s => 1 + (eval lib P n s).count fun v s' => match v with
    | .num (.int k) => stepsRounds (fun s => stepsAll body s) (block (execAll lib P body)) k.toNat s'
    | _ => 0
  | .write _ _, _ => 1
  | .letS _ _ _, _ => 1
  | .assign _ _, _ => 1
  | .reserve _ _, _ => 1
  | .push _ _, _ => 1
def stepsAll : List Stmt → St → Nat
  | [], _ => 0
  | t :: ts, s => steps t s + (exec lib P t s).count fun _ s' => stepsAll ts s'
end

/-- Statements executed by `read` into a default value of the type of its parameter. -/
def readSteps (src : Source) (data : List UInt8) : Nat :=
  stepsAll lib P src.read.2 ⟨[("output".toList, P.dflt src.read.1)], [], data⟩

/-- Statements executed by `write`. -/
def writeSteps (src : Source) (input : Val) : Nat :=
  stepsAll lib P src.write.2 ⟨[("input".toList, input)], [], []⟩

end Packetc.Rs
