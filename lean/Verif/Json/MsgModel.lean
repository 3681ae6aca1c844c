import Verif.Json.BinModel

/-!
# Model of the MessagePack format of `ristra/io/catalyst/utils/json.hpp`
-/

namespace Verif.Json

/-! ## Reading -/

/-- a number of `w` bytes taken for a signed one, as `get_number` of a signed type copies it -/
def asSigned (w n : Nat) : Int := if n < 2 ^ (8 * w - 1) then n else n - 2 ^ (8 * w)

/-- `get_msgpack_string`, json.hpp:6381-6451; `cur` is `current`, the byte read last -/
def msgString (m : Mach) (ex : Bool) (cur : Option Nat) (s : Bytes) : Rd (Bytes × Bytes) :=
  match cur with
  | none => .fail 110
  | some c =>
    if 0xA0 ≤ c ∧ c ≤ 0xBF then takeString m ex (c % 32) s
    else if c = 0xD9 then (getNumber m false 1 s).bind fun p => takeString m ex p.1 p.2
    else if c = 0xDA then (getNumber m false 2 s).bind fun p => takeString m ex p.1 p.2
    else if c = 0xDB then (getNumber m false 4 s).bind fun p => takeString m ex p.1 p.2
    else .fail 113

mutual
/-- `parse_msgpack_internal`, json.hpp:6017-6370; `cur` is the byte read last.  The calls of the builder, and the
rest of the input.  At most `fuel` rounds, see `C128_terminates`. -/
def msgV (m : Mach) (ex : Bool) : Nat → Option Nat → Bytes → Rd (List (Event Nat) × Bytes)
  | _, none, _ => .fail 110
  | 0, some _, _ => .running
  | fuel + 1, some c, s =>
    if c ≤ 0x7F then .ok ([.uint c], s)
    else if c ≤ 0x8F then msgObj m ex fuel (c % 16) s
    else if c ≤ 0x9F then msgArr m ex fuel (c % 16) s
    else if c ≤ 0xBF ∨ (0xD9 ≤ c ∧ c ≤ 0xDB) then
      (msgString m ex (some c) s).bind fun p => .ok ([.str p.1], p.2)
    else if c = 0xC0 then .ok ([.null], s)
    else if c = 0xC2 then .ok ([.bool false], s)
    else if c = 0xC3 then .ok ([.bool true], s)
    else if c = 0xCA then (getNumber m false 4 s).bind fun p => .ok ([.float (readSingle p.1)], p.2)
    else if c = 0xCB then (getNumber m false 8 s).bind fun p => .ok ([.float p.1], p.2)
    else if c = 0xCC then (getNumber m false 1 s).bind fun p => .ok ([.uint p.1], p.2)
    else if c = 0xCD then (getNumber m false 2 s).bind fun p => .ok ([.uint p.1], p.2)
    else if c = 0xCE then (getNumber m false 4 s).bind fun p => .ok ([.uint p.1], p.2)
    else if c = 0xCF then (getNumber m false 8 s).bind fun p => .ok ([.uint p.1], p.2)
    else if c = 0xD0 then (getNumber m false 1 s).bind fun p => .ok ([.int (asSigned 1 p.1)], p.2)
    else if c = 0xD1 then (getNumber m false 2 s).bind fun p => .ok ([.int (asSigned 2 p.1)], p.2)
    else if c = 0xD2 then (getNumber m false 4 s).bind fun p => .ok ([.int (asSigned 4 p.1)], p.2)
    else if c = 0xD3 then (getNumber m false 8 s).bind fun p => .ok ([.int (asSigned 8 p.1)], p.2)
    else if c = 0xDC then (getNumber m false 2 s).bind fun p => msgArr m ex fuel p.1 p.2
    else if c = 0xDD then (getNumber m false 4 s).bind fun p => msgArr m ex fuel p.1 p.2
    else if c = 0xDE then (getNumber m false 2 s).bind fun p => msgObj m ex fuel p.1 p.2
    else if c = 0xDF then (getNumber m false 4 s).bind fun p => msgObj m ex fuel p.1 p.2
    else if 0xE0 ≤ c ∧ c ≤ 0xFF then .ok ([.int (asSigned 1 c)], s)
    else .fail 112
/-- `get_msgpack_array`, json.hpp:6457-6473, with `start_array` of the builder, json.hpp:4541-4552 -/
def msgArr (m : Mach) (ex : Bool) : Nat → Nat → Bytes → Rd (List (Event Nat) × Bytes)
  | 0, _, _ => .running
  | fuel + 1, len, s =>
    if len > m.maxArr then .threw "out_of_range.408"
    else (msgElems m ex fuel len s).bind fun p => .ok (.startArray :: (p.1 ++ [.endArray]), p.2)
/-- the loop, json.hpp:6464-6470 -/
def msgElems (m : Mach) (ex : Bool) : Nat → Nat → Bytes → Rd (List (Event Nat) × Bytes)
  | _, 0, s => .ok ([], s)
  | _, _ + 1, [] => .fail 110
  | 0, _ + 1, _ :: _ => .running
  | fuel + 1, n + 1, c :: s =>
    (msgV m ex fuel (some c) s).bind fun p =>
      (msgElems m ex fuel n p.2).bind fun q => .ok (p.1 ++ q.1, q.2)
/-- `get_msgpack_object`, json.hpp:6479-6503, with `start_object` of the builder, json.hpp:4515-4526 -/
def msgObj (m : Mach) (ex : Bool) : Nat → Nat → Bytes → Rd (List (Event Nat) × Bytes)
  | 0, _, _ => .running
  | fuel + 1, len, s =>
    if len > m.maxObj then .threw "out_of_range.408"
    else (msgMembers m ex fuel len s).bind fun p => .ok (.startObject :: (p.1 ++ [.endObject]), p.2)
/-- the loop, json.hpp:6487-6500 -/
def msgMembers (m : Mach) (ex : Bool) : Nat → Nat → Bytes → Rd (List (Event Nat) × Bytes)
  | _, 0, s => .ok ([], s)
  | _, _ + 1, [] => .fail 110
  | 0, _ + 1, _ :: _ => .running
  | fuel + 1, n + 1, c :: s =>
    (msgString m ex (some c) s).bind fun k =>
      (msgV m ex fuel k.2.head? k.2.tail).bind fun p =>
        (msgMembers m ex fuel n p.2).bind fun q => .ok (.key k.1 :: (p.1 ++ q.1), q.2)
end

/-- `from_msgpack`, json.hpp:21627-21651: the value, `none` for one of type `discarded`, and the rest of the input -/
def fromMsg (m : Mach) (strict ex : Bool) (s : Bytes) : Outcome (Option (Json Nat) × Bytes) :=
  finishRead strict ex (msgV m ex (3 * s.length + 3) s.head? s.tail)

/-! ## Writing -/

/-- the control byte and the length of a string, json.hpp:11740-11763; nothing for 2^32 and more characters -/
def msgStringHead (m : Mach) (n : Nat) : Bytes :=
  if n ≤ 31 then writeNumber m false 1 (0xA0 + n)
  else if n ≤ 2 ^ 8 - 1 then 0xD9 :: writeNumber m false 1 n
  else if n ≤ 2 ^ 16 - 1 then 0xDA :: writeNumber m false 2 n
  else if n ≤ 2 ^ 32 - 1 then 0xDB :: writeNumber m false 4 n
  else []

/-- the control byte and the size of an array, json.hpp:11775-11792; nothing for 2^32 and more elements -/
def msgArrHead (m : Mach) (n : Nat) : Bytes :=
  if n ≤ 15 then writeNumber m false 1 (0x90 + n)
  else if n ≤ 2 ^ 16 - 1 then 0xDC :: writeNumber m false 2 n
  else if n ≤ 2 ^ 32 - 1 then 0xDD :: writeNumber m false 4 n
  else []

/-- the control byte and the size of an object, json.hpp:11804-11821; nothing for 2^32 and more members -/
def msgObjHead (m : Mach) (n : Nat) : Bytes :=
  if n ≤ 15 then writeNumber m false 1 (0x80 + n % 16)
  else if n ≤ 2 ^ 16 - 1 then 0xDE :: writeNumber m false 2 n
  else if n ≤ 2 ^ 32 - 1 then 0xDF :: writeNumber m false 4 n
  else []

/-- `write_msgpack` of a string, json.hpp:11737-11770 -/
def msgStr (m : Mach) (s : Bytes) : Bytes := msgStringHead m s.length ++ s

/-- `write_msgpack` of an unsigned integer, and of a signed one that is not negative, json.hpp:11627-11655, 11696-11728 -/
def msgUint (m : Mach) (n : Nat) : Bytes :=
  if n < 128 then writeNumber m false 1 n
  else if n ≤ 2 ^ 8 - 1 then 0xCC :: writeNumber m false 1 n
  else if n ≤ 2 ^ 16 - 1 then 0xCD :: writeNumber m false 2 n
  else if n ≤ 2 ^ 32 - 1 then 0xCE :: writeNumber m false 4 n
  else if n ≤ 2 ^ 64 - 1 then 0xCF :: writeNumber m false 8 n
  else []

/-- `write_msgpack` of a signed integer, json.hpp:11620-11693 -/
def msgInt (m : Mach) (i : Int) : Bytes :=
  if i ≥ 0 then msgUint m i.toNat
  else if i ≥ -32 then writeNumber m false 1 (i % 2 ^ 8).toNat
  else if i ≥ -2 ^ 7 ∧ i ≤ 2 ^ 7 - 1 then 0xD0 :: writeNumber m false 1 (i % 2 ^ 8).toNat
  else if i ≥ -2 ^ 15 ∧ i ≤ 2 ^ 15 - 1 then 0xD1 :: writeNumber m false 2 (i % 2 ^ 16).toNat
  else if i ≥ -2 ^ 31 ∧ i ≤ 2 ^ 31 - 1 then 0xD2 :: writeNumber m false 4 (i % 2 ^ 32).toNat
  else if i ≥ -2 ^ 63 ∧ i ≤ 2 ^ 63 - 1 then 0xD3 :: writeNumber m false 8 (i % 2 ^ 64).toNat
  else []

mutual
/-- `write_msgpack`, json.hpp:11602-11835 (with the prefix of a `double`, 12328-12331): the bytes written;
`to_msgpack`, 21213-21228, collects them -/
def toMsg (m : Mach) : Json Nat → Bytes
  | .null => [0xC0]
  | .bool b => [if b then 0xC3 else 0xC2]
  | .int i => msgInt m i
  | .uint n => msgUint m n
  | .float x => 0xCB :: writeNumber m false 8 x
  | .str s => msgStr m s
  | .arr xs => msgArrHead m xs.length ++ toMsgL m xs
  | .obj ms => msgObjHead m ms.length ++ toMsgM m ms
/-- the elements, json.hpp:11794-11798 -/
def toMsgL (m : Mach) : List (Json Nat) → Bytes
  | [] => []
  | v :: vs => toMsg m v ++ toMsgL m vs
/-- the members, json.hpp:11823-11828 -/
def toMsgM (m : Mach) : List (Bytes × Json Nat) → Bytes
  | [] => []
  | (k, v) :: ms => msgStr m k ++ toMsg m v ++ toMsgM m ms
end

end Verif.Json
