import Verif.Model.Basic
/-!
# Plain text (specification for C88)
-/

namespace Packetc.Chars

/-- A printable ASCII character, or LF. No CR, no tab, no other control character, nothing beyond ASCII. -/
def PlainChar (c : Char) : Prop := c = '\n' ∨ (32 ≤ c.toNat ∧ c.toNat ≤ 126)

instance (c : Char) : Decidable (PlainChar c) := inferInstanceAs (Decidable (_ ∨ _))

/-- A text of such characters. -/
def Plain (s : Str) : Prop := ∀ c ∈ s, PlainChar c

instance (s : Str) : Decidable (Plain s) := inferInstanceAs (Decidable (∀ c ∈ s, PlainChar c))

/-- A plain character that neither begins a string, a template, a comment or a regular expression, nor escapes. -/
def CodeChar (c : Char) : Prop := PlainChar c ∧ c ∉ "\"'`/\\".toList

instance (c : Char) : Decidable (CodeChar c) := inferInstanceAs (Decidable (_ ∧ _))

/-- A text of such characters. -/
def Code (s : Str) : Prop := ∀ c ∈ s, CodeChar c

instance (s : Str) : Decidable (Code s) := inferInstanceAs (Decidable (∀ c ∈ s, CodeChar c))

end Packetc.Chars
