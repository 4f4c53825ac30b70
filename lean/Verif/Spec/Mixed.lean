import Verif.Spec.Bridge
import Verif.Spec.Behaviour
import Verif.Spec.RoundTrip
/-!
# A Rust program and a TypeScript program of another schema (specification for C120)
-/

namespace Packetc.Rs
open Check
open Js (Runtime JVal PropOf TypedFs Artifact Reads Writes Shaped ShortStr Ascii IsVariant)

/-- Everything that the Rust program writes is a packet of the TypeScript program, which reads it as the same packet. -/
def TsFollows (rt : Runtime) (lib : Lib) (r : Resolved) (s : Source) (P : Prog) (e : Artifact) : Prop :=
  ∀ vs bytes, ValFs (2 ^ 32) r.export.fields vs → runWrite lib P s.write.2 (.struct vs) = some bytes →
    Shaped e.fields (jsFs r.export.fields vs) ∧ Reads rt e bytes (jsFs r.export.fields vs)

/-- Everything that the TypeScript program sends (with strings as in C96 and arrays that fit in the memory of the Rust program) is read by
the Rust program as the same packet. -/
def RustFollows (rt : Runtime) (lib : Lib) (e : Artifact) (r : Resolved) (s : Source) (P : Prog) : Prop :=
  ∀ ps, TypedFs (fun s => ShortStr s ∧ Ascii s) IsVariant e.fields ps → FewProps lib.maxItems ps →
    ∃ bytes vs, Writes rt e ps bytes ∧ readDefault lib P s bytes = .ok (.struct vs) [] ∧ jsFs r.export.fields vs = ps

end Packetc.Rs
