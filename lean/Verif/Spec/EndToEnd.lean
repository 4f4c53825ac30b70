import Verif.Spec.Folders
import Verif.Spec.Behaviour
/-!
# From schemas in files to programs in files (specification for C113)
-/

namespace Packetc.Cli

/-- A successful run of the compiler in the file system `fs`, on a directory or on one file, has left `fs'`, where the output
for the schema with this text is at `q`. -/
inductive Produced (env : Str → Env) (fs fs' : Files) (text : Str) (q : List Str) : Prop
  | folder (cwd path out dir place es b r) : fs.Sound → fs cwd = some .dir → Found fs cwd path dir (.dir es b) →
      Leads cwd out place → mainF env cwd .typeScript path out (some (.dir es b)) fs = (.ok (), fs') →
      fs.Schema dir r (some text) → OutFile place r q → Produced env fs fs' text q
  | single (cwd path out dir place cs stem) : fs.Sound → fs cwd = some .dir → Found fs cwd path dir (.file (some text)) →
      Leads cwd out place → components path = cs ++ [.normal (stem ++ ".pkt".toList)] → stem ≠ [] → '.' ∉ stem →
      mainF env cwd .typeScript path out (some (.file (some text))) fs = (.ok (), fs') →
      q = place ++ [stem ++ ".ts".toList] → Produced env fs fs' text q

/-- The compiler runs with some iteration orders of its hash maps; version and time are in one line. -/
def Runnable (env : Str → Env) : Prop := ∀ p, (env p).Fair ∧ Js.OneLine (env p)

end Packetc.Cli
