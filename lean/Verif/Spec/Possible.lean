import Verif.Spec.Resolved
/-!
# Which errors a schema can be rejected with (specification for C84)

Stated on the syntax tree only: no maps, no caches, no iteration order.
-/

namespace Packetc.WellFormed
open Ast Check

/-- Optional and array at once. -/
def OptArray (u : Unresolved) : Prop := u.array = true ∧ u.optional = true

/-- The type itself cannot be resolved. -/
inductive Flawed (ast : AST) (n : Str) : Prop
  | undeclared : n ∉ builtinNames → ¬ Declared ast n → Flawed ast n
  | optArray (fs f) : (n, .struct fs) ∈ decls ast → f ∈ fs → OptArray f.2 → Flawed ast n
  | recursive : Recursive ast n → Flawed ast n

/-- The type cannot be resolved, because of itself or because of a type it uses. -/
def Broken (ast : AST) (n : Str) : Prop := ∃ k, Relation.ReflTransGen (Refers ast) n k ∧ Flawed ast k

/-- The types below the given fields. -/
def Below (ast : AST) (fs : List (Str × Unresolved)) (m : Str) : Prop :=
  ∃ g ∈ fs, Relation.ReflTransGen (Refers ast) g.2.name m

/-- `Report ast R K stack n e`: resolving the struct `n` ends with the error `e`. The types satisfying `K` are known
already, `stack` are the types being resolved (`n` is one of them), and all of this was started for the sake of `R`. -/
inductive Report (ast : AST) (R : Str) : (Str → Prop) → List Str → Str → CheckErr → Prop
  /-- The first field that is optional and array and has a known type. -/
  | early {K stack n pre f u post} : (n, .struct (pre ++ (f, u) :: post)) ∈ decls ast → K u.name → OptArray u →
      (∀ g ∈ pre, K g.2.name → ¬ OptArray g.2) → Report ast R K stack n (.optionalArray f n)
  /-- There is none, and the first field that cannot be resolved has type `R`. -/
  | cycle {K stack n pre f u post} : (n, .struct (pre ++ (f, u) :: post)) ∈ decls ast →
      (∀ g ∈ pre ++ (f, u) :: post, K g.2.name → ¬ OptArray g.2) → (∀ g ∈ pre, ¬ Broken ast g.2.name) →
      u.name = R → Report ast R K stack n (.cycle R)
  /-- There is none, and the first field that cannot be resolved has an undeclared type, or one being resolved. -/
  | missing {K stack n pre f u post} : (n, .struct (pre ++ (f, u) :: post)) ∈ decls ast →
      (∀ g ∈ pre ++ (f, u) :: post, K g.2.name → ¬ OptArray g.2) → (∀ g ∈ pre, ¬ Broken ast g.2.name) →
      u.name ≠ R → (u.name ∈ stack ∨ (u.name ∉ builtinNames ∧ ¬ Declared ast u.name)) →
      Report ast R K stack n (.missingType u.name)
  /-- There is none, and the first field that cannot be resolved has another type. -/
  | inside {K stack n pre f u post e} : (n, .struct (pre ++ (f, u) :: post)) ∈ decls ast →
      (∀ g ∈ pre ++ (f, u) :: post, K g.2.name → ¬ OptArray g.2) → (∀ g ∈ pre, ¬ Broken ast g.2.name) →
      Broken ast u.name → u.name ∉ stack →
      Report ast R (fun m => K m ∨ Below ast pre m) (u.name :: stack) u.name e → Report ast R K stack n e
  /-- There is none, and the types of all fields can be resolved: the first field that is optional and array. -/
  | late {K stack n pre f u post} : (n, .struct (pre ++ (f, u) :: post)) ∈ decls ast →
      (∀ g ∈ pre ++ (f, u) :: post, K g.2.name → ¬ OptArray g.2) →
      (∀ g ∈ pre ++ (f, u) :: post, ¬ Broken ast g.2.name) → OptArray u → (∀ g ∈ pre, ¬ OptArray g.2) →
      Report ast R K stack n (.optionalArray f n)

/-- A set of types that may be resolved before the others: it contains the types that do not depend on any
declaration, and everything used by its members, and no type that cannot be resolved. -/
structure Settled (ast : AST) (K : Str → Prop) : Prop where
  simple : ∀ n, Simple ast n → K n
  closed : ∀ n m, Refers ast n m → K n → K m
  sound : ∀ n, K n → ¬ Broken ast n

/-- Fields of builtin types, not optional and array at once, with different names. -/
def PlainFields (fs : List (Str × Unresolved)) : Prop :=
  (∀ g ∈ fs, g.2.name ∈ builtinNames ∧ ¬ OptArray g.2) ∧ (fs.map Prod.fst).Nodup

/-- `Local n t e`: the declaration of `n` as `t` is wrong whatever the other declarations are, and the error is `e`. -/
inductive Local (n : Str) : Ty → CheckErr → Prop
  | emptyEnum : Local n (.enum []) (.emptyEnum n)
  | tooManyVariants (vs) : 32 < vs.length → Local n (.enum vs) (.tooManyVariants n vs.length)
  | duplicateVariant (vs v) : vs.length ≤ 32 → FirstRepeat vs v → Local n (.enum vs) (.duplicateVariant v n)
  | duplicateField (pre f u post) : PlainFields pre → f ∈ pre.map Prod.fst →
      Local n (.struct (pre ++ (f, u) :: post)) (.duplicateField f n)
  | optionalArray (pre f u post) : PlainFields pre → f ∉ pre.map Prod.fst → u.name ∈ builtinNames → OptArray u →
      Local n (.struct (pre ++ (f, u) :: post)) (.optionalArray f n)

/-- One export, different names, and no declaration that is wrong by itself. -/
structure Clean (ast : AST) : Prop where
  oneExport : (exports ast).length = 1
  unique : ((decls ast).map Prod.fst).Nodup
  locally : ∀ d ∈ decls ast, ∀ e, ¬ Local d.1 d.2 e

/-- The errors that the schema can be rejected with. -/
inductive Possible (ast : AST) : CheckErr → Prop
  | noExport : exports ast = [] → Possible ast .noExport
  | moreThanOneExport : 2 ≤ (exports ast).length → Possible ast .moreThanOneExport
  | duplicateDecl (n) : (exports ast).length = 1 → FirstRepeat ((decls ast).map Prod.fst) n →
      Possible ast (.duplicateDecl n)
  /-- the first declaration that is wrong by itself -/
  | locally (pre n t post e) : (exports ast).length = 1 → ((decls ast).map Prod.fst).Nodup →
      decls ast = pre ++ (n, t) :: post → (∀ d ∈ pre, ∀ e, ¬ Local d.1 d.2 e) → Local n t e → Possible ast e
  /-- any declaration that cannot be resolved -/
  | resolving (K R e) : Clean ast → Settled ast K → Declared ast R → Broken ast R → Report ast R K [R] R e →
      Possible ast e
  | notAStruct (n) : Clean ast → (∀ m, Declared ast m → ¬ Broken ast m) → exports ast = [n] →
      (n ∈ builtinNames ∨ ∃ vs, (n, .enum vs) ∈ decls ast) → Possible ast (.notAStruct n)
  | exportUnresolved (n) : Clean ast → (∀ m, Declared ast m → ¬ Broken ast m) → exports ast = [n] →
      n ∉ builtinNames → ¬ Declared ast n → Possible ast (.exportUnresolved n)

/-- Recursion can be reached from the type. -/
def Loops (ast : AST) (n : Str) : Prop := ∃ k, Relation.ReflTransGen (Refers ast) n k ∧ Recursive ast k

/-- `m` is the type of the first field of `n` from which recursion can be reached. -/
def Leads (ast : AST) (n m : Str) : Prop :=
  ∃ pre f post, (n, .struct (pre ++ f :: post)) ∈ decls ast ∧ f.2.name = m ∧ Loops ast m ∧
    ∀ g ∈ pre, ¬ Loops ast g.2.name

end Packetc.WellFormed
