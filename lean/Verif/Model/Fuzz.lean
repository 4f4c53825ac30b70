import Verif.Model.Basic
/-!
# `scripts/gen_random_pkt.py`: the generator of random schema files

The random choices are data (`Def`); which data the script can draw is `Def.Ok`. Probabilities are not modelled
(only which choices are possible), nor the translation of line ends when a text file is written on Windows.
-/

namespace Packetc.Fuzz

/-- `string.ascii_lowercase`. (gen_random_pkt.py:28.) -/
def lower (c : Char) : Bool := 'a' ≤ c && c ≤ 'z'
/-- `string.ascii_letters`. (gen_random_pkt.py:29, 87.) -/
def letter (c : Char) : Bool := lower c || ('A' ≤ c && c ≤ 'Z')
/-- `string.digits`. (gen_random_pkt.py:29, 87.) -/
def digit (c : Char) : Bool := '0' ≤ c && c ≤ '9'

/-- gen_random_pkt.py:27-31 `identifier`: the strings it can return. -/
def Identifier : Str → Prop
  | [] => False
  | c :: cs => (lower c || c == '_') = true ∧ (1 ≤ cs.length ∧ cs.length ≤ 100) ∧
      ∀ d ∈ cs, (letter d || d == '_' || digit d) = true

/-- gen_random_pkt.py:34-35 `whitespace` -/
def Whitespace (s : Str) : Prop := ∃ n, n ≤ 10 ∧ s = List.replicate n ' '

/-- gen_random_pkt.py:38-42 `whitespace_with_newlines` -/
def WhitespaceNl (s : Str) : Prop := s.length ≤ 2 ∧ ∀ c ∈ s, c = ' ' ∨ c = '\n'

/-- Python's `str.upper`, for ASCII. (gen_random_pkt.py:67.) -/
def upper (s : Str) : Str := s.map Char.toUpper

/-- Python's `str.capitalize`, for ASCII: first character in upper case, all others in lower case. (gen_random_pkt.py:73.) -/
def capitalize : Str → Str
  | [] => []
  | c :: cs => c.toUpper :: cs.map Char.toLower

/-- gen_random_pkt.py:78-81 `maybe_array`, with MAX_ARRAY_DIMENSIONS = 1 -/
def maybeArray (a : Bool) : Str := if a then "[]".toList else []

/-- One field of a struct: the identifier drawn, the sampled type, whether `maybe_array` gives `[]`.
(gen_random_pkt.py:66-69.) -/
structure Field where
  ident : Str
  type : Str
  array : Bool

/-- The random choices of one call of `generate_definition`. In `enum` and `struct`, `ident` is the identifier
drawn for the name, `w₁`, `w₂` are the calls of `_w()` and `op`, `cl` those of `__()`. Each variant comes with
the white space after it. (gen_random_pkt.py:49-90.) -/
inductive Def where
  | comment (body : Str)
  | enum (ident w₁ w₂ op cl : Str) (variants : List (Str × Str))
  | struct (ident w₁ w₂ op cl : Str) (fields : List Field)

/-- The choices possible when the set of types is `types` (gen_random_pkt.py:49-90). The number of fields is
`min(randint(1, 100), len(types))`, and `random.sample` returns different elements of the set. -/
def Def.Ok (types : List Str) : Def → Prop
  | .comment body => body.length ≤ 100 ∧ ∀ c ∈ body, (letter c || digit c || c == ' ' || c == '\t') = true
  | .enum ident w₁ w₂ op cl variants =>
    Identifier ident ∧ Whitespace w₁ ∧ Whitespace w₂ ∧ WhitespaceNl op ∧ WhitespaceNl cl ∧
    (1 ≤ variants.length ∧ variants.length ≤ 32) ∧ ∀ v ∈ variants, Identifier v.1 ∧ WhitespaceNl v.2
  | .struct ident w₁ w₂ op cl fields =>
    Identifier ident ∧ Whitespace w₁ ∧ Whitespace w₂ ∧ WhitespaceNl op ∧ WhitespaceNl cl ∧
    (∃ n, (1 ≤ n ∧ n ≤ 100) ∧ fields.length = min n types.length) ∧
    (fields.map Field.type).Nodup ∧ ∀ f ∈ fields, Identifier f.ident ∧ f.type ∈ types

/-- The first component of the result of `generate_definition` (`None` for comments). (gen_random_pkt.py:75, 86.) -/
def Def.name : Def → Option Str
  | .comment _ => none
  | .enum ident .. => some (capitalize ident)
  | .struct ident .. => some (capitalize ident)

/-- gen_random_pkt.py:66-68: one field. -/
def fieldText (f : Field) : Str :=
  "    ".toList ++ upper f.ident ++ ": ".toList ++ f.type ++ maybeArray f.array

/-- gen_random_pkt.py:49-75, 84-90 and `line += "\n"` (104): the second component of the result of
`generate_definition`, as it is written. -/
def Def.line : Def → Str
  | .comment body => "#".toList ++ body ++ "\n".toList
  | .enum ident w₁ w₂ op cl variants =>
    capitalize ident ++ ":".toList ++ w₁ ++ "enum".toList ++ w₂ ++ ("{".toList ++ op) ++
      joinWith ",".toList (variants.map fun v => v.1 ++ v.2) ++ ("}".toList ++ cl) ++ "\n".toList
  | .struct ident w₁ w₂ op cl fields =>
    capitalize ident ++ ":".toList ++ w₁ ++ "struct".toList ++ w₂ ++ ("{".toList ++ op) ++
      joinWith ",\n".toList (fields.map fieldText) ++ ("}".toList ++ cl) ++ "\n".toList

/-- Python's `sub in s` for strings. (gen_random_pkt.py:105.) -/
def contains (sub : Str) : Str → Bool
  | [] => sub.isPrefixOf []
  | c :: cs => sub.isPrefixOf (c :: cs) || contains sub cs

/-- `types.add(name)`: sets are lists without duplicates. (gen_random_pkt.py:74.) -/
def addType (types : List Str) : Option Str → List Str
  | none => types
  | some n => if n ∈ types then types else n :: types

/-- The variables of the main program. `export` is unbound (`none`) until a line contains `struct`, and may be
bound to Python's `None` (`some none`). `text` is what has been written to the file. (gen_random_pkt.py:97-99, 106.) -/
structure State where
  types : List Str
  size : Nat
  «export» : Option (Option Str)
  text : Str

/-- gen_random_pkt.py:24 `PKT_TYPES` -/
def pktTypes : List Str :=
  ["string".toList, "uint8".toList, "uint16".toList, "uint32".toList, "int8".toList, "int16".toList,
   "int32".toList, "float".toList]

/-- gen_random_pkt.py:97-99 -/
def State.init : State := ⟨pktTypes, 0, none, []⟩

/-- gen_random_pkt.py:103-108: the body of the loop. -/
def step (s : State) (d : Def) : State :=
  { types := addType s.types d.name
    size := s.size + d.line.length
    «export» := if contains "struct".toList d.line then some d.name else s.export
    text := s.text ++ d.line }

/-- gen_random_pkt.py:100-108: `Loop n s ds s'`: with `n` iterations left, the loop can go from `s` to `s'` with
the choices `ds`. `total_size / 1024 >= 1024` is `1048576 ≤ size`. -/
inductive Loop : Nat → State → List Def → State → Prop
  | done {s} : Loop 0 s [] s
  | full {n s} : 1048576 ≤ s.size → Loop (n + 1) s [] s
  | next {n s d ds s'} : s.size < 1048576 → d.Ok s.types → Loop n (step s d) ds s' → Loop (n + 1) s (d :: ds) s'

/-- The main program can make the choices `ds`, and then reaches its last line in state `s`. (gen_random_pkt.py:93-108.) -/
def MainRun (ds : List Def) (s : State) : Prop := Loop 100 State.init ds s

/-- How the script ends: normally, or with an exception in its last line (`NameError` if `export` is unbound,
`TypeError` if it is `None`); the file `fuzz.pkt` then holds what was written before. (gen_random_pkt.py:110.) -/
inductive Outcome where
  | finished (file : Str)
  | exception (file : Str)

/-- gen_random_pkt.py:98, 108-110: what is in the file. -/
def Outcome.file : Outcome → Str
  | .finished t => t
  | .exception t => t

/-- gen_random_pkt.py:110: the last line. -/
def State.finish (s : State) : Outcome :=
  match s.export with
  | some (some n) => .finished (s.text ++ ("\n export ".toList ++ n))
  | _ => .exception s.text

end Packetc.Fuzz
