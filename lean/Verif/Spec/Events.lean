import Verif.Model.CliEvents
/-!
# Reading a trace (specification for C68-C70)
-/

namespace Packetc.Cli

/-- The event looks at the input. -/
def Event.Input : Event → Prop
  | .list _ => True
  | .read _ => True
  | _ => False

/-- The event changes files. -/
def Event.Output : Event → Prop
  | .mkdirs _ _ => True
  | .write _ _ _ => True
  | _ => False

/-- The lines printed. -/
def linesOf (t : List Event) : List Str := t.filterMap fun | .line s => some s | _ => none

/-- The files written (or attempted to). -/
def writesOf (t : List Event) : List (List Comp) := t.filterMap fun | .write p _ _ => some p | _ => none

/-- The files read (or attempted to). -/
def readsOf (t : List Event) : List Str := t.filterMap fun | .read p => some p | _ => none

/-- The effect of an event on the files. -/
def Event.apply (st : Store) : Event → Store
  | .write p c none => st.set p (some c)
  | .write p _ (some left) => st.set p left
  | _ => st

/-- The effect of a trace on the files. -/
def replay (t : List Event) (st : Store) : Store := t.foldl Event.apply st

/-- The line tells of this file: after `Writing to ` comes a text that denotes it. -/
def Announces (l : Str) (p : List Comp) : Prop := ∃ text, l = "Writing to ".toList ++ text ∧ components text = p

/-- One file is saved: announced, its directory created, and then written. -/
def SaveBlock (b : List Event) : Prop := ∃ l p c r, Announces l p ∧
  b = [.line l, .mkdirs p.dropLast true, .write p c r]

/-- A file could not be saved because its directory could not be created. -/
def FailBlock (b : List Event) : Prop := ∃ l p, Announces l p ∧ b = [.line l, .mkdirs p.dropLast false]

end Packetc.Cli
