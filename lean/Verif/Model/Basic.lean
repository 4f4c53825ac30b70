/-!
# Basic definitions shared by the whole model

Text is modelled as a list of Unicode scalar values (`char` in Rust); a Rust `&str`/`String`
is the UTF-8 encoding of such a list, and byte offsets are sums of UTF-8 sizes.
-/

namespace Packetc

/-- A Rust `&str` / `String`: its sequence of `char`s. (used throughout, e.g. lib.rs:43.) -/
abbrev Str := List Char

/-- Length in bytes of the UTF-8 encoding (Rust `str::len`). (used by `peg` for positions: lib.rs:28.) -/
def bytes : Str → Nat
  | [] => 0
  | c :: cs => c.utf8Size + bytes cs

/-- `[a, b, c].join(sep)` (Rust `[String]::join`). (gen/ts.rs:20-22; gen_random_pkt.py:54, 66.) -/
def joinWith (sep : Str) : List Str → Str
  | [] => []
  | [x] => x
  | x :: y :: ys => x ++ sep ++ joinWith sep (y :: ys)

end Packetc
