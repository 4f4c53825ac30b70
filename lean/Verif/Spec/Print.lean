import Verif.Spec.Grammar
/-!
# Canonical schema syntax (specification for C02)
-/

namespace Packetc.Print
open Ast

/-- Names allowed by the grammar. -/
def LegalField (f : Str × Unresolved) : Prop := Grammar.Ident f.1 ∧ Grammar.Word f.2.name

def LegalTy : Ty → Prop
  | .enum vs => ∀ v ∈ vs, Grammar.Ident v
  | .struct fs => ∀ f ∈ fs, LegalField f

def LegalNode : Node → Prop
  | .decl n t => Grammar.Ident n ∧ ¬ "export".toList <+: n ∧ LegalTy t
  | .export n => Grammar.Word n

def Legal (ast : AST) : Prop := ∀ n ∈ ast, LegalNode n

def variant (v : Str) : Str := v ++ ",\n".toList

def field (f : Str × Unresolved) : Str :=
  f.1 ++ (if f.2.optional then "?".toList else []) ++ ": ".toList ++ f.2.name ++
    (if f.2.array then "[]".toList else []) ++ ",\n".toList

def ty : Ty → Str
  | .enum vs => "enum {\n".toList ++ vs.flatMap variant ++ "}".toList
  | .struct fs => "struct {\n".toList ++ fs.flatMap field ++ "}".toList

def node : Node → Str
  | .decl n t => n ++ ": ".toList ++ ty t ++ "\n".toList
  | .export n => "export ".toList ++ n ++ "\n".toList

/-- One declaration or export per line, fields and variants each on their own line. -/
def schema (ast : AST) : Str := ast.flatMap node

end Packetc.Print
