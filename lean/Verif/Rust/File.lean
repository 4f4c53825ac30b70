import Verif.Model.Rust
/-!
# A Rust file

rust.rs emits the parts of a file; at this commit nothing puts them together. Here they are put together in the order in which its tests
push them: the common lines, the definitions of the types (in the order of the map, which the code does not determine), `write`, `read`.
-/

namespace Packetc.RustGen
open Check Gen

/-- A part of a file: `none` if the generator panics. -/
def part (g : GenCtx → GenCtx) : Option Str :=
  let c := g (GenCtx.new [])
  if c.panicked then none else some c.out

/-- The definition of a type: nothing for a type that is built in. -/
def defPart : Str × (Str × RType) → Option Str
  | (n, _, .struct fs) => part (genDefStruct fs n)
  | (n, _, .enum e) => part (genDefEnum e n)
  | (_, _, .builtin _) => some []

/-- The definitions. -/
def defParts : TypeMap → Option Str
  | [] => some []
  | d :: ds => (defPart d).bind fun a => (defParts ds).map fun b => a ++ b

/-- The file for a checked schema. -/
def rustFile (r : Resolved) : Option Str :=
  (defParts r.types).bind fun defs =>
    (part (genWriteImpl r.export r.export.name)).bind fun w =>
      (part (genReadImpl r.export r.export.name)).map fun rd => genCommon ++ defs ++ w ++ rd

end Packetc.RustGen
