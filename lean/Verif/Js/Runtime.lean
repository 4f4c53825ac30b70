import Verif.Model.Basic
/-!
# The `packet` runtime library used by the generated code: its contract and an instance

The library (`import { Reader, Writer } from "packet"`) is not part of the repository. `Runtime` states what
is assumed of it, and `leUtf8` shows that the assumptions can be met (little endian, UTF-8).
-/

namespace Packetc.Js

/-- JavaScript numbers, as far as the generated code handles them: integers, and single-precision floats
(given by their bit pattern; such a number is only stored and loaded, never compared). -/
inductive Num where
  | int (i : Int)
  | f32 (bits : BitVec 32)
deriving DecidableEq, Repr

/-- The fixed-width types of the wire format. -/
inductive Scalar where
  | uint8 | uint16 | uint32 | int8 | int16 | int32 | float
deriving DecidableEq, Repr

namespace Scalar

/-- Width in bytes. -/
def width : Scalar → Nat
  | uint8 => 1 | uint16 => 2 | uint32 => 4 | int8 => 1 | int16 => 2 | int32 => 4 | float => 4

/-- The name used in `read_T` / `write_T`. -/
def name : Scalar → Str
  | uint8 => "uint8".toList | uint16 => "uint16".toList | uint32 => "uint32".toList
  | int8 => "int8".toList | int16 => "int16".toList | int32 => "int32".toList | float => "float".toList

def all : List Scalar := [uint8, uint16, uint32, int8, int16, int32, float]

/-- Bit pattern of a float: JavaScript has only one NaN. -/
def CanonF (b : BitVec 32) : Prop :=
  (b.extractLsb' 23 8 = 0xff#8 ∧ b.extractLsb' 0 23 ≠ 0#23) → b = 0x7fc00000#32

/-- The numbers of each type. -/
def Ok : Scalar → Num → Prop
  | uint8, .int i => 0 ≤ i ∧ i < 2 ^ 8
  | uint16, .int i => 0 ≤ i ∧ i < 2 ^ 16
  | uint32, .int i => 0 ≤ i ∧ i < 2 ^ 32
  | int8, .int i => -2 ^ 7 ≤ i ∧ i < 2 ^ 7
  | int16, .int i => -2 ^ 15 ≤ i ∧ i < 2 ^ 15
  | int32, .int i => -2 ^ 31 ≤ i ∧ i < 2 ^ 31
  | float, .f32 b => CanonF b
  | _, _ => False

end Scalar

/-- Number of UTF-16 code units: what `s.length` is in JavaScript. -/
def utf16Length : Str → Nat
  | [] => 0
  | c :: cs => (if c.toNat < 0x10000 then 1 else 2) + utf16Length cs

/-- What is assumed about `packet`'s `Writer` and `Reader`. `enc`/`dec` are the fixed-width encodings, `encS`/
`decS` the text encoding, `stuckNum`/`stuckStr` what a read returns (and leaves) when it cannot succeed. -/
structure Runtime where
  enc : Scalar → Num → List UInt8
  dec : Scalar → List UInt8 → Num
  enc_len : ∀ s n, (enc s n).length = s.width
  dec_enc : ∀ (s : Scalar) (n : Num), s.Ok n → dec s (enc s n) = n
  dec_ok : ∀ (s : Scalar) (bs : List UInt8), s.Ok (dec s bs)
  encS : Str → List UInt8
  decS : List UInt8 → Str
  decS_encS : ∀ s, decS (encS s) = s
  stuckNum : Scalar → List UInt8 → Num × List UInt8
  stuckNum_ok : ∀ (s : Scalar) (bs : List UInt8), s.Ok (stuckNum s bs).1
  stuckStr : Nat → List UInt8 → Str × List UInt8

/-- State of a `Reader`: unread bytes, the public `failed` flag, and (for C43) the number of reads so far. -/
structure RState where
  rest : List UInt8
  failed : Bool
  calls : Nat
deriving DecidableEq, Repr

namespace Runtime
variable (rt : Runtime)

/-- `reader.read_T()`: decodes if enough bytes are left and no failure happened before; otherwise sets
`failed`. -/
def readNum (s : Scalar) (r : RState) : Num × RState :=
  if r.failed = false ∧ s.width ≤ r.rest.length then
    (rt.dec s (r.rest.take s.width), ⟨r.rest.drop s.width, false, r.calls + 1⟩)
  else ((rt.stuckNum s r.rest).1, ⟨(rt.stuckNum s r.rest).2, true, r.calls + 1⟩)

/-- `reader.read_string(len)`: `len` is a number of bytes. -/
def readStr (len : Nat) (r : RState) : Str × RState :=
  if r.failed = false ∧ len ≤ r.rest.length then
    (rt.decS (r.rest.take len), ⟨r.rest.drop len, false, r.calls + 1⟩)
  else ((rt.stuckStr len r.rest).1, ⟨(rt.stuckStr len r.rest).2, true, r.calls + 1⟩)

end Runtime

/-! ### An instance: little endian, UTF-8 -/

/-- `w` bytes, least significant first. -/
def leBytes : Nat → Nat → List UInt8
  | 0, _ => []
  | w + 1, n => UInt8.ofNat (n % 256) :: leBytes w (n / 256)

def leNat : List UInt8 → Nat
  | [] => 0
  | b :: bs => b.toNat + 256 * leNat bs

theorem leBytes_length (w n : Nat) : (leBytes w n).length = w := by
  induction w generalizing n with
  | zero => rfl
  | succ w ih => simp [leBytes, ih]

theorem leNat_leBytes (w n : Nat) : leNat (leBytes w n) = n % 256 ^ w := by
  induction w generalizing n with
  | zero => simp [leBytes, leNat, Nat.mod_one]
  | succ w ih =>
    simp only [leBytes, leNat, ih]
    have : (UInt8.ofNat (n % 256)).toNat = n % 256 := by
      simp
    rw [this, Nat.pow_succ, Nat.mul_comm (256 ^ w) 256, Nat.mod_mul]

theorem leNat_lt (bs : List UInt8) : leNat bs < 256 ^ bs.length := by
  induction bs with
  | nil => simp [leNat]
  | cons b bs ih =>
    have hb : b.toNat < 256 := UInt8.toNat_lt b
    simp only [leNat, List.length_cons, Nat.pow_succ]
    omega

/-- Replace every NaN by the canonical one. -/
def canonF (b : BitVec 32) : BitVec 32 :=
  if b.extractLsb' 23 8 = 0xff#8 ∧ b.extractLsb' 0 23 ≠ 0#23 then 0x7fc00000#32 else b

theorem canonF_canon (b : BitVec 32) : Scalar.CanonF (canonF b) := by
  unfold canonF Scalar.CanonF
  split
  · intro _; rfl
  · intro h; exact absurd h ‹_›

theorem canonF_of_canon (b : BitVec 32) (h : Scalar.CanonF b) : canonF b = b := by
  unfold canonF
  split
  · exact (h ‹_›).symm
  · rfl

def leEnc (s : Scalar) : Num → List UInt8
  | .int i => leBytes s.width (i % (256 ^ s.width : Nat)).toNat
  | .f32 b => leBytes s.width b.toNat

/-- Read a signed `w`-byte integer. -/
def leInt (w : Nat) (bs : List UInt8) : Int :=
  let n := leNat bs % 256 ^ w
  if 2 * n < 256 ^ w then (n : Int) else (n : Int) - (256 ^ w : Nat)

def leDec : Scalar → List UInt8 → Num
  | .uint8, bs => .int (leNat bs % 2 ^ 8 : Nat)
  | .uint16, bs => .int (leNat bs % 2 ^ 16 : Nat)
  | .uint32, bs => .int (leNat bs % 2 ^ 32 : Nat)
  | .int8, bs => .int (leInt 1 bs)
  | .int16, bs => .int (leInt 2 bs)
  | .int32, bs => .int (leInt 4 bs)
  | .float, bs => .f32 (canonF (BitVec.ofNat 32 (leNat bs)))

theorem leDec_ok (s : Scalar) (bs : List UInt8) : s.Ok (leDec s bs) := by
  cases s <;> simp only [Scalar.Ok, leDec, leInt]
  case float => exact canonF_canon _
  all_goals first | omega | (split <;> omega)

theorem leDec_leEnc (s : Scalar) (n : Num) (h : s.Ok n) : leDec s (leEnc s n) = n := by
  cases s <;> cases n <;> simp only [Scalar.Ok] at h <;> simp only [leDec, leEnc, leInt, leNat_leBytes, Scalar.width]
  case float b =>
    have := b.isLt
    rw [Nat.mod_eq_of_lt (by omega)]
    simp [canonF_of_canon _ h]
  all_goals
    congr 1
    first
    | omega
    | (split <;> omega)

/-- UTF-8. -/
def utf8Enc (s : Str) : List UInt8 := s.flatMap String.utf8EncodeChar

def utf8Dec (bs : List UInt8) : Str :=
  match (bs.toByteArray).utf8Decode? with
  | some a => a.toList
  | none => ['�']

theorem utf8Dec_utf8Enc (s : Str) : utf8Dec (utf8Enc s) = s := by
  unfold utf8Dec utf8Enc
  have : (s.flatMap String.utf8EncodeChar).toByteArray = s.utf8Encode := rfl
  rw [this, List.utf8Decode?_utf8Encode]

/-- A concrete library: little endian integers, UTF-8 text, failed reads return 0 or the empty string. -/
def leUtf8 : Runtime where
  enc := leEnc
  dec := leDec
  enc_len s n := by cases n <;> simp [leEnc, leBytes_length]
  dec_enc := leDec_leEnc
  dec_ok := leDec_ok
  encS := utf8Enc
  decS := utf8Dec
  decS_encS := utf8Dec_utf8Enc
  stuckNum s bs := (match s with | .float => .f32 0#32 | _ => .int 0, bs)
  stuckNum_ok s bs := by cases s <;> simp [Scalar.Ok, Scalar.CanonF]
  stuckStr _ bs := ([], bs)

end Packetc.Js
