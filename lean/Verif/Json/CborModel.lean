import Verif.Json.BinModel

/-!
# Model of the CBOR format of `ristra/io/catalyst/utils/json.hpp`
-/

namespace Verif.Json

/-! ## Reading -/

mutual
/-- `get_cbor_string`, json.hpp:5840-5921; `cur` is `current`, the byte read last.  At most `fuel` rounds, see
`C125_terminates`. -/
def cborString (m : Mach) (ex : Bool) : Nat → Option Nat → Bytes → Rd (Bytes × Bytes)
  | _, none, _ => .fail 110
  | 0, some _, _ => .running
  | fuel + 1, some c, s =>
    if 0x60 ≤ c ∧ c ≤ 0x77 then takeString m ex (c % 32) s
    else if c = 0x78 then (getNumber m false 1 s).bind fun p => takeString m ex p.1 p.2
    else if c = 0x79 then (getNumber m false 2 s).bind fun p => takeString m ex p.1 p.2
    else if c = 0x7A then (getNumber m false 4 s).bind fun p => takeString m ex p.1 p.2
    else if c = 0x7B then (getNumber m false 8 s).bind fun p => takeString m ex p.1 p.2
    else if c = 0x7F then cborChunks m ex fuel s
    else .fail 113
/-- the loop of `get_cbor_string`, json.hpp:5903-5912 -/
def cborChunks (m : Mach) (ex : Bool) : Nat → Bytes → Rd (Bytes × Bytes)
  | _, [] => .fail 110
  | 0, _ :: _ => .running
  | fuel + 1, c :: s =>
    if c = 0xFF then .ok ([], s)
    else (cborString m ex fuel (some c) s).bind fun p =>
      (cborChunks m ex fuel p.2).bind fun q => .ok (p.1 ++ q.1, q.2)
end

/-- `std::size_t(-1)` -/
def noSize : Nat := 2 ^ 64 - 1

/-- a half-precision number, json.hpp:5764-5809 -/
def getHalf : Bytes → Rd (Nat × Bytes)
  | b1 :: b2 :: s => .ok (readHalf (b1 * 2 ^ 8 + b2), s)
  | _ => .fail 110

mutual
/-- `parse_cbor_internal`, json.hpp:5498-5826; `cur` is the byte read last.  The calls of the builder, and the
rest of the input. -/
def cborV (m : Mach) (ex : Bool) : Nat → Option Nat → Bytes → Rd (List (Event Nat) × Bytes)
  | _, none, _ => .fail 110
  | 0, some _, _ => .running
  | fuel + 1, some c, s =>
    if c ≤ 0x17 then .ok ([.uint c], s)
    else if c = 0x18 then (getNumber m false 1 s).bind fun p => .ok ([.uint p.1], p.2)
    else if c = 0x19 then (getNumber m false 2 s).bind fun p => .ok ([.uint p.1], p.2)
    else if c = 0x1A then (getNumber m false 4 s).bind fun p => .ok ([.uint p.1], p.2)
    else if c = 0x1B then (getNumber m false 8 s).bind fun p => .ok ([.uint p.1], p.2)
    else if 0x20 ≤ c ∧ c ≤ 0x37 then .ok ([.int (0x20 - 1 - c)], s)
    else if c = 0x38 then (getNumber m false 1 s).bind fun p => .ok ([.int (-1 - p.1)], p.2)
    else if c = 0x39 then (getNumber m false 2 s).bind fun p => .ok ([.int (-1 - p.1)], p.2)
    else if c = 0x3A then (getNumber m false 4 s).bind fun p => .ok ([.int (-1 - p.1)], p.2)
    else if c = 0x3B then (getNumber m false 8 s).bind fun p => .ok ([.int (-1 - toSigned p.1)], p.2)
    else if (0x60 ≤ c ∧ c ≤ 0x7B) ∨ c = 0x7F then
      (cborString m ex (2 * s.length + 2) (some c) s).bind fun p => .ok ([.str p.1], p.2)
    else if 0x80 ≤ c ∧ c ≤ 0x97 then cborArr m ex fuel (c % 32) s
    else if c = 0x98 then (getNumber m false 1 s).bind fun p => cborArr m ex fuel p.1 p.2
    else if c = 0x99 then (getNumber m false 2 s).bind fun p => cborArr m ex fuel p.1 p.2
    else if c = 0x9A then (getNumber m false 4 s).bind fun p => cborArr m ex fuel p.1 p.2
    else if c = 0x9B then (getNumber m false 8 s).bind fun p => cborArr m ex fuel p.1 p.2
    else if c = 0x9F then cborArr m ex fuel noSize s
    else if 0xA0 ≤ c ∧ c ≤ 0xB7 then cborObj m ex fuel (c % 32) s
    else if c = 0xB8 then (getNumber m false 1 s).bind fun p => cborObj m ex fuel p.1 p.2
    else if c = 0xB9 then (getNumber m false 2 s).bind fun p => cborObj m ex fuel p.1 p.2
    else if c = 0xBA then (getNumber m false 4 s).bind fun p => cborObj m ex fuel p.1 p.2
    else if c = 0xBB then (getNumber m false 8 s).bind fun p => cborObj m ex fuel p.1 p.2
    else if c = 0xBF then cborObj m ex fuel noSize s
    else if c = 0xF4 then .ok ([.bool false], s)
    else if c = 0xF5 then .ok ([.bool true], s)
    else if c = 0xF6 then .ok ([.null], s)
    else if c = 0xF9 then (getHalf s).bind fun p => .ok ([.float p.1], p.2)
    else if c = 0xFA then (getNumber m false 4 s).bind fun p => .ok ([.float (readSingle p.1)], p.2)
    else if c = 0xFB then (getNumber m false 8 s).bind fun p => .ok ([.float p.1], p.2)
    else .fail 112
/-- `get_cbor_array`, json.hpp:5928-5958, with `start_array` of the builder, json.hpp:4541-4552 -/
def cborArr (m : Mach) (ex : Bool) : Nat → Nat → Bytes → Rd (List (Event Nat) × Bytes)
  | 0, _, _ => .running
  | fuel + 1, len, s =>
    if len ≠ noSize then
      if len > m.maxArr then .threw "out_of_range.408"
      else (cborElems m ex fuel len s).bind fun p => .ok (.startArray :: (p.1 ++ [.endArray]), p.2)
    else (cborElemsUntil m ex fuel s).bind fun p => .ok (.startArray :: (p.1 ++ [.endArray]), p.2)
/-- the loop for a given number of elements, json.hpp:5937-5943 -/
def cborElems (m : Mach) (ex : Bool) : Nat → Nat → Bytes → Rd (List (Event Nat) × Bytes)
  | _, 0, s => .ok ([], s)
  | _, _ + 1, [] => .fail 110
  | 0, _ + 1, _ :: _ => .running
  | fuel + 1, n + 1, c :: s =>
    (cborV m ex fuel (some c) s).bind fun p =>
      (cborElems m ex fuel n p.2).bind fun q => .ok (p.1 ++ q.1, q.2)
/-- the loop to the end mark, json.hpp:5947-5953 -/
def cborElemsUntil (m : Mach) (ex : Bool) : Nat → Bytes → Rd (List (Event Nat) × Bytes)
  | _, [] => .fail 110
  | 0, _ :: _ => .running
  | fuel + 1, c :: s =>
    if c = 0xFF then .ok ([], s)
    else (cborV m ex fuel (some c) s).bind fun p =>
      (cborElemsUntil m ex fuel p.2).bind fun q => .ok (p.1 ++ q.1, q.2)
/-- `get_cbor_object`, json.hpp:5965-6010, with `start_object` of the builder, json.hpp:4515-4526 -/
def cborObj (m : Mach) (ex : Bool) : Nat → Nat → Bytes → Rd (List (Event Nat) × Bytes)
  | 0, _, _ => .running
  | fuel + 1, len, s =>
    if len ≠ noSize then
      if len > m.maxObj then .threw "out_of_range.408"
      else (cborMembers m ex fuel len s).bind fun p => .ok (.startObject :: (p.1 ++ [.endObject]), p.2)
    else (cborMembersUntil m ex fuel s).bind fun p => .ok (.startObject :: (p.1 ++ [.endObject]), p.2)
/-- the loop for a given number of members, json.hpp:5975-5989 -/
def cborMembers (m : Mach) (ex : Bool) : Nat → Nat → Bytes → Rd (List (Event Nat) × Bytes)
  | _, 0, s => .ok ([], s)
  | _, _ + 1, [] => .fail 110
  | 0, _ + 1, _ :: _ => .running
  | fuel + 1, n + 1, c :: s =>
    (cborString m ex (2 * s.length + 2) (some c) s).bind fun k =>
      (cborV m ex fuel k.2.head? k.2.tail).bind fun p =>
        (cborMembers m ex fuel n p.2).bind fun q => .ok (.key k.1 :: (p.1 ++ q.1), q.2)
/-- the loop to the end mark, json.hpp:5993-6006 -/
def cborMembersUntil (m : Mach) (ex : Bool) : Nat → Bytes → Rd (List (Event Nat) × Bytes)
  | _, [] => .fail 110
  | 0, _ :: _ => .running
  | fuel + 1, c :: s =>
    if c = 0xFF then .ok ([], s)
    else (cborString m ex (2 * s.length + 2) (some c) s).bind fun k =>
      (cborV m ex fuel k.2.head? k.2.tail).bind fun p =>
        (cborMembersUntil m ex fuel p.2).bind fun q => .ok (.key k.1 :: (p.1 ++ q.1), q.2)
end

/-- `from_cbor`, json.hpp:21518-21542: the value, `none` for one of type `discarded`, and the rest of the input -/
def fromCbor (m : Mach) (strict ex : Bool) (s : Bytes) : Outcome (Option (Json Nat) × Bytes) :=
  finishRead strict ex (cborV m ex (3 * s.length + 3) s.head? s.tail)

/-! ## Writing -/

/-- the control byte and the length of a string, json.hpp:11480-11505 -/
def cborStringHead (m : Mach) (n : Nat) : Bytes :=
  if n ≤ 0x17 then writeNumber m false 1 (0x60 + n)
  else if n ≤ 2 ^ 8 - 1 then 0x78 :: writeNumber m false 1 n
  else if n ≤ 2 ^ 16 - 1 then 0x79 :: writeNumber m false 2 n
  else if n ≤ 2 ^ 32 - 1 then 0x7A :: writeNumber m false 4 n
  else if n ≤ 2 ^ 64 - 1 then 0x7B :: writeNumber m false 8 n
  else []

/-- the control byte and the size of an array, json.hpp:11516-11543 -/
def cborArrHead (m : Mach) (n : Nat) : Bytes :=
  if n ≤ 0x17 then writeNumber m false 1 (0x80 + n)
  else if n ≤ 2 ^ 8 - 1 then 0x98 :: writeNumber m false 1 n
  else if n ≤ 2 ^ 16 - 1 then 0x99 :: writeNumber m false 2 n
  else if n ≤ 2 ^ 32 - 1 then 0x9A :: writeNumber m false 4 n
  else if n ≤ 2 ^ 64 - 1 then 0x9B :: writeNumber m false 8 n
  else []

/-- the control byte and the size of an object, json.hpp:11554-11581 -/
def cborObjHead (m : Mach) (n : Nat) : Bytes :=
  if n ≤ 0x17 then writeNumber m false 1 (0xA0 + n)
  else if n ≤ 2 ^ 8 - 1 then 0xB8 :: writeNumber m false 1 n
  else if n ≤ 2 ^ 16 - 1 then 0xB9 :: writeNumber m false 2 n
  else if n ≤ 2 ^ 32 - 1 then 0xBA :: writeNumber m false 4 n
  else if n ≤ 2 ^ 64 - 1 then 0xBB :: writeNumber m false 8 n
  else []

/-- `write_cbor` of a string, json.hpp:11477-11512 -/
def cborStr (m : Mach) (s : Bytes) : Bytes := cborStringHead m s.length ++ s

/-- `write_cbor` of a signed integer, json.hpp:11376-11438 -/
def cborInt (m : Mach) (i : Int) : Bytes :=
  if i ≥ 0 then
    if i ≤ 0x17 then writeNumber m false 1 i.toNat
    else if i ≤ 2 ^ 8 - 1 then 0x18 :: writeNumber m false 1 i.toNat
    else if i ≤ 2 ^ 16 - 1 then 0x19 :: writeNumber m false 2 i.toNat
    else if i ≤ 2 ^ 32 - 1 then 0x1A :: writeNumber m false 4 i.toNat
    else 0x1B :: writeNumber m false 8 i.toNat
  else
    let p := -1 - i
    if i ≥ -24 then writeNumber m false 1 (0x20 + p).toNat
    else if p ≤ 2 ^ 8 - 1 then 0x38 :: writeNumber m false 1 p.toNat
    else if p ≤ 2 ^ 16 - 1 then 0x39 :: writeNumber m false 2 p.toNat
    else if p ≤ 2 ^ 32 - 1 then 0x3A :: writeNumber m false 4 p.toNat
    else 0x3B :: writeNumber m false 8 p.toNat

/-- `write_cbor` of an unsigned integer, json.hpp:11440-11468 -/
def cborUint (m : Mach) (n : Nat) : Bytes :=
  if n ≤ 0x17 then writeNumber m false 1 n
  else if n ≤ 2 ^ 8 - 1 then 0x18 :: writeNumber m false 1 n
  else if n ≤ 2 ^ 16 - 1 then 0x19 :: writeNumber m false 2 n
  else if n ≤ 2 ^ 32 - 1 then 0x1A :: writeNumber m false 4 n
  else 0x1B :: writeNumber m false 8 n

mutual
/-- `write_cbor`, json.hpp:11358-11597 (with the prefix of a `double`, 12314-12317): the bytes written;
`to_cbor`, 21119-21133, collects them -/
def toCbor (m : Mach) : Json Nat → Bytes
  | .null => [0xF6]
  | .bool b => [if b then 0xF5 else 0xF4]
  | .int i => cborInt m i
  | .uint n => cborUint m n
  | .float x => 0xFB :: writeNumber m false 8 x
  | .str s => cborStr m s
  | .arr xs => cborArrHead m xs.length ++ toCborL m xs
  | .obj ms => cborObjHead m ms.length ++ toCborM m ms
/-- the elements, json.hpp:11545-11549 -/
def toCborL (m : Mach) : List (Json Nat) → Bytes
  | [] => []
  | v :: vs => toCbor m v ++ toCborL m vs
/-- the members, json.hpp:11583-11588 -/
def toCborM (m : Mach) : List (Bytes × Json Nat) → Bytes
  | [] => []
  | (k, v) :: ms => cborStr m k ++ toCbor m v ++ toCborM m ms
end

end Verif.Json
