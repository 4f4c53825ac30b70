import Verif.Rust.Sem
/-!
# What a run of a program of the Rust subset leaves behind, also if it fails

The `?` operator returns from the function at once; what was assigned before stays assigned. `leaveAll` gives the variables at the moment when
the run ends, in either way. A statement that fails outside of a block has not changed anything: evaluation does not assign, and assigning does
not fail.
-/

namespace Packetc.Rs

/-- The oldest `n` variables. -/
def cut (n : Nat) (env : List (Str × Val)) : List (Str × Val) := env.drop (env.length - n)

/-- `n` rounds, up to the first that fails. -/
def leaveRounds (left : St → List (Str × Val)) (body : M Unit) : Nat → St → List (Str × Val)
  | 0, s => s.env
  | n + 1, s => match body s with
    | .ok _ s' => leaveRounds left body n s'
    | _ => left s

/-- One round per item, up to the first that fails. -/
def leaveEach (left : Val → St → List (Str × Val)) (body : Val → M Unit) : List Val → St → List (Str × Val)
  | [], s => s.env
  | v :: vs, s => match body v s with
    | .ok _ s' => leaveEach left body vs s'
    | _ => left v s

variable (lib : Lib) (P : Prog)

/-- The variables after a statement without blocks. -/
def leaveSimple (t : Stmt) (s : St) : List (Str × Val) :=
  match exec lib P t s with
  | .ok _ s' => s'.env
  | _ => s.env

mutual
/-- The variables when the statement has ended or failed, following `exec`. -/
def leave : Stmt → St → List (Str × Val)
  | .matchOpt _ e _ _ x body, s => match eval lib P e s with
    | .ok (.some v) s' => cut s'.env.length (leaveAll body { s' with env := (x, v) :: s'.env })
    | _ => s.env
  | .forIter x e body, s => match eval lib P e s with
    | .ok (.vec l) s' => leaveEach (fun v s => cut s.env.length (leaveAll body { s with env := (x, v) :: s.env }))
        (fun v => block do declare x v; execAll lib P body) l s'
    | _ => s.env
  | .ifGt e n body, s => match eval lib P e s with
    | .ok (.num (.int i)) s' => if (n : Int) < i then cut s'.env.length (leaveAll body s') else s'.env
    | _ => s.env
  | .forRange n body, s => match eval lib P n s with
    | .ok (.num (.int k)) s' => leaveRounds (fun s => cut s.env.length (leaveAll body s)) (block (execAll lib P body)) k.toNat s'
    | _ => s.env
  | .write t e, s => leaveSimple lib P (.write t e) s
  | .letS m x e, s => leaveSimple lib P (.letS m x e) s
  | .assign l r, s => leaveSimple lib P (.assign l r) s
  | .reserve e n, s => leaveSimple lib P (.reserve e n) s
  | .push e v, s => leaveSimple lib P (.push e v) s
def leaveAll : List Stmt → St → List (Str × Val)
  | [], s => s.env
  | t :: ts, s => match exec lib P t s with
    | .ok _ s' => leaveAll ts s'
    | _ => leave t s
end

/-- What is in the output parameter of `read` after the call, whether it has failed or not. -/
def outputAfter (src : Source) (output : Val) (data : List UInt8) : Option Val :=
  get (leaveAll lib P src.read.2 ⟨[("output".toList, output)], [], data⟩) "output".toList

end Packetc.Rs
