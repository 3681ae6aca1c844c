import Verif.Json.Model
import Verif.Json.CompareModel

/-!
# Model of the binary reader and writer of `ristra/io/catalyst/utils/json.hpp`: what the formats share

Bytes are natural numbers, an input the list of the bytes not yet read.  A `double` is the number of
its 64 bits, a `float` that of its 32 bits.  Messages and positions of errors are left out.
-/

namespace Verif.Json

/-- the machine: whether numbers are stored with the lowest byte first (`little_endianess`,
json.hpp:5263-5266), and the limits `max_size()` of arrays, objects and strings -/
structure Mach where
  little : Bool
  maxArr : Nat
  maxObj : Nat
  maxStr : Nat

/-- how a function of the reader ends: with a result; after `sax->parse_error` with the number of the error
(which throws, or returns `false`, which all callers hand on); with another exception.  `running` is
the end of the rounds counted out. -/
inductive Rd (α : Type) where
  | ok (a : α)
  | fail (id : Nat)
  | threw (kind : String)
  | running
deriving DecidableEq

/-- sequencing -/
def Rd.bind (x : Rd α) (f : α → Rd β) : Rd β :=
  match x with
  | .ok a => f a
  | .fail id => .fail id
  | .threw k => .threw k
  | .running => .running

instance : Monad Rd where
  pure := .ok
  bind := Rd.bind

/-- the number whose bytes stand in memory: `std::memcpy(&result, vec.data(), sizeof(NumberType))` -/
def memValue (little : Bool) (vec : Bytes) : Nat :=
  if little then vec.foldr (fun b n => b + 256 * n) 0 else vec.foldl (fun n b => 256 * n + b) 0

/-- the lowest `w` bytes of a number, the lowest first -/
def lowBytes : Nat → Nat → Bytes
  | 0, _ => []
  | w + 1, n => n % 256 :: lowBytes w (n / 256)

/-- the bytes of a number of `w` bytes in memory: `std::memcpy(vec.data(), &n, sizeof(NumberType))` -/
def memBytes (little : Bool) (w n : Nat) : Bytes :=
  if little then lowBytes w n else (lowBytes w n).reverse

/-- `get_number`, json.hpp:6982-7009, for an unsigned type of `w` bytes: the number and the rest of the input.
`inputLittle` is `InputIsLittleEndian`. -/
def getNumber (m : Mach) (inputLittle : Bool) (w : Nat) (s : Bytes) : Rd (Nat × Bytes) :=
  if w ≤ s.length then
    .ok (memValue m.little (if m.little ≠ inputLittle then (s.take w).reverse else s.take w), s.drop w)
  else .fail 110

/-- `get_string`, json.hpp:7025-7041: the string, and the rest of the input.  At the end of the input,
`unexpect_eof` (7049-7058) throws; if it must not (`ex` is false), `generate_n` goes on to append characters
to the string until there are `len` of them. -/
def takeString (m : Mach) (ex : Bool) (len : Nat) (s : Bytes) : Rd (Bytes × Bytes) :=
  if len ≤ s.length then
    if len ≤ m.maxStr then .ok (s.take len, s.drop len) else .threw "std::length_error"
  else if ex then .fail 110
  else if len ≤ m.maxStr then .fail 110
  else .threw "std::length_error"

/-- `write_number`, json.hpp:12562-12577, for an unsigned type of `w` bytes, or a floating-point number given by
its bits; `outputLittle` is `OutputIsLittleEndian` -/
def writeNumber (m : Mach) (outputLittle : Bool) (w n : Nat) : Bytes :=
  if m.little ≠ outputLittle then (memBytes m.little w n).reverse else memBytes m.little w n

/-! ## Floating-point numbers -/

/-- `std::ldexp(n, e)`: the bits of n * 2^e.  Simplified: only for a result that is neither too small nor
too large for a normal number, and `n` below 2^53. -/
def ldexp (n : Nat) (e : Int) : Nat :=
  if n = 0 then 0
  else (1023 + n.log2 + e).toNat * 2 ^ 52 + (n - 2 ^ n.log2) * 2 ^ (52 - n.log2)

/-- the bits of infinity, and of `quiet_NaN()` -/
def bitsInf : Nat := 0x7FF0000000000000
def bitsNaN : Nat := 0x7FF8000000000000

/-- the number given by the two bytes of a half-precision number, json.hpp:5787-5809 -/
def readHalf (half : Nat) : Nat :=
  let exp : Nat := half / 2 ^ 10 % 2 ^ 5
  let mant : Nat := half % 2 ^ 10
  let val : Nat :=
    if exp = 0 then ldexp mant (-24)
    else if exp = 31 then (if mant = 0 then bitsInf else bitsNaN)
    else ldexp (mant + 1024) (exp - 25)
  if half / 2 ^ 15 % 2 ≠ 0 then val + 2 ^ 63 else val

/-- the conversion of `float` to `double`, json.hpp:5814-5815 and elsewhere, as IEEE 754 defines it.  A NaN becomes
a quiet one with the same payload, as processors do. -/
def readSingle (n : Nat) : Nat :=
  let exp : Nat := n / 2 ^ 23 % 2 ^ 8
  let mant : Nat := n % 2 ^ 23
  let val : Nat :=
    if exp = 0 then ldexp mant (-149)
    else if exp = 255 then (if mant = 0 then bitsInf else bitsInf + (2 ^ 22 + mant % 2 ^ 22) * 2 ^ 29)
    else (exp + 896) * 2 ^ 52 + mant * 2 ^ 29
  if n / 2 ^ 31 % 2 ≠ 0 then val + 2 ^ 63 else val

/-! ## Reading a value -/

/-- the exception for a number of an error, `parse_error::create` -/
def errorKind (id : Nat) : String :=
  if id = 110 then "parse_error.110" else if id = 112 then "parse_error.112"
  else if id = 114 then "parse_error.114" else "parse_error.113"

/-- `from_cbor` and `from_msgpack`, json.hpp:21518-21526, 21627-21635, with `sax_parse`, json.hpp:5211-5255, and the builder
of values: the value, `none` for one of type `discarded`, and the rest of the input.  `r` is what the
reader of the format came to: the calls of the builder, and the rest of the input. -/
def finishRead (strict ex : Bool) (r : Rd (List (Event Nat) × Bytes)) :
    Outcome (Option (Json Nat) × Bytes) :=
  match r with
  | .running => .diverges
  | .threw k => .throws k
  | .fail id => if ex then .throws (errorKind id) else .ok (none, [])
  | .ok (evs, s) =>
    match (⟨.null, [], none⟩ : Dom Nat).onAll evs with
    | none => .ub
    | some d =>
      if strict ∧ s ≠ [] then if ex then .throws "parse_error.110" else .ok (none, s.tail)
      else .ok (some d.root, s)

end Verif.Json
