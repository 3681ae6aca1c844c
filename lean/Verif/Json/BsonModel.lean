import Verif.Json.MsgModel
import Verif.Json.PointerModel

/-!
# Model of the BSON format of `ristra/io/catalyst/utils/json.hpp`
-/

namespace Verif.Json

/-! ## Reading -/

/-- `get_bson_cstr`, json.hpp:5308-5326: the characters up to the zero, and the rest of the input; `n` characters are in
the string already -/
def bsonCstr (m : Mach) : Nat → Bytes → Rd (Bytes × Bytes)
  | _, [] => .fail 110
  | n, c :: s =>
    if c = 0 then .ok ([], s)
    else if n < m.maxStr then (bsonCstr m (n + 1) s).bind fun p => .ok (c :: p.1, p.2)
    else .threw "std::length_error"

/-- `get_bson_string`, json.hpp:5340-5349, after its length has been read.  `.fail 0`: at the end of the input in place of
the last byte the function returns `false`, and `sax->parse_error` has not been called. -/
def bsonString (m : Mach) (ex : Bool) (len : Int) (s : Bytes) : Rd (Bytes × Bytes) :=
  if len < 1 then .fail 112
  else (takeString m ex (len - 1).toNat s).bind fun p =>
    match p.2 with
    | [] => .fail 0
    | _ :: r => .ok (p.1, r)

mutual
/-- `parse_bson_internal`, json.hpp:5283-5299, and `parse_bson_array` (`isArr`), 5469-5485.  The result of `get_number` is not
looked at; if the input has ended there without an exception, it is found to have ended at the next `get()`, so that the
result is the same. -/
def bsonDoc (m : Mach) (ex : Bool) : Nat → Bool → Bytes → Rd (List (Event Nat) × Bytes)
  | 0, _, _ => .running
  | fuel + 1, isArr, s =>
    (getNumber m true 4 s).bind fun p =>
      (bsonElems m ex fuel isArr p.2).bind fun q =>
        if isArr then .ok (.startArray :: (q.1 ++ [.endArray]), q.2)
        else .ok (.startObject :: (q.1 ++ [.endObject]), q.2)
/-- `parse_bson_element_list`, json.hpp:5432-5463 -/
def bsonElems (m : Mach) (ex : Bool) : Nat → Bool → Bytes → Rd (List (Event Nat) × Bytes)
  | _, _, [] => .fail 110
  | 0, _, _ :: _ => .running
  | fuel + 1, isArr, c :: s =>
    if c = 0 then .ok ([], s)
    else
      (bsonCstr m 0 s).bind fun k =>
        (bsonValue m ex fuel c k.2).bind fun p =>
          (bsonElems m ex fuel isArr p.2).bind fun q =>
            if isArr then .ok (p.1 ++ q.1, q.2) else .ok (.key k.1 :: (p.1 ++ q.1), q.2)
/-- `parse_bson_element_internal`, json.hpp:5361-5418.  At the end of the input, `get()` of a truth value is not 0. -/
def bsonValue (m : Mach) (ex : Bool) : Nat → Nat → Bytes → Rd (List (Event Nat) × Bytes)
  | 0, _, _ => .running
  | fuel + 1, c, s =>
    if c = 0x01 then (getNumber m true 8 s).bind fun p => .ok ([.float p.1], p.2)
    else if c = 0x02 then
      (getNumber m true 4 s).bind fun p =>
        (bsonString m ex (asSigned 4 p.1) p.2).bind fun q => .ok ([.str q.1], q.2)
    else if c = 0x03 then bsonDoc m ex fuel false s
    else if c = 0x04 then bsonDoc m ex fuel true s
    else if c = 0x08 then .ok ([.bool (s.head? ≠ some 0)], s.tail)
    else if c = 0x0A then .ok ([.null], s)
    else if c = 0x10 then (getNumber m true 4 s).bind fun p => .ok ([.int (asSigned 4 p.1)], p.2)
    else if c = 0x12 then (getNumber m true 8 s).bind fun p => .ok ([.int (asSigned 8 p.1)], p.2)
    else .fail 114
end

/-- `from_bson`, json.hpp:21802-21828: the value, `none` for one of type `discarded`, and the rest of the input -/
def fromBson (m : Mach) (strict ex : Bool) (s : Bytes) : Outcome (Option (Json Nat) × Bytes) :=
  match bsonDoc m ex (3 * s.length + 3) false s with
  | .fail 0 => .ok (none, [])
  | r => finishRead strict ex r

/-! ## Writing -/

/-- `calc_bson_entry_header_size`, json.hpp:12008-12018 -/
def bsonHeaderSize (name : Bytes) : Outcome Nat :=
  if 0 ∈ name then .throws "out_of_range.409" else .ok (1 + name.length + 1)

mutual
/-- `calc_bson_element_size`, json.hpp:12190-12227, without the size of the header; `calc_bson_object_size`, 12278-12287,
`calc_bson_array_size`, 12155-12165, `calc_bson_string_size`, 12055-12058, `calc_bson_integer_size`, 12085-12090, and
`calc_bson_unsigned_size`, 12113-12118 -/
def bsonSize : Json Nat → Outcome Nat
  | .null => .ok 0
  | .bool _ => .ok 1
  | .float _ => .ok 8
  | .int i => .ok (if -2 ^ 31 ≤ i ∧ i ≤ 2 ^ 31 - 1 then 4 else 8)
  | .uint n => .ok (if n ≤ 2 ^ 31 - 1 then 4 else 8)
  | .str s => .ok (4 + s.length + 1)
  | .arr xs => (bsonSizeL 0 xs).bind fun n => .ok (4 + n + 1)
  | .obj ms => (bsonSizeM ms).bind fun n => .ok (4 + n + 1)
/-- the elements from index `i` on, json.hpp:12159-12162 -/
def bsonSizeL (i : Nat) : List (Json Nat) → Outcome Nat
  | [] => .ok 0
  | v :: vs =>
    (bsonHeaderSize (toStr i)).bind fun h => (bsonSize v).bind fun n => (bsonSizeL (i + 1) vs).bind fun r =>
      .ok (h + n + r)
/-- the members, json.hpp:12280-12284 -/
def bsonSizeM : List (Bytes × Json Nat) → Outcome Nat
  | [] => .ok 0
  | (k, v) :: ms =>
    (bsonHeaderSize k).bind fun h => (bsonSize v).bind fun n => (bsonSizeM ms).bind fun r => .ok (h + n + r)
end

/-- `write_bson_entry_header`, json.hpp:12023-12030 -/
def bsonEntry (name : Bytes) (type : Nat) : Bytes := type :: (name ++ [0])

mutual
/-- `write_bson_element`, json.hpp:12235-12270, with the functions for the types, 12035-12050, 12063-12080, 12095-12109,
12123-12150, 12170-12184.  `static_cast<std::int32_t>` of a size keeps the lowest 32 bits. -/
def bsonElem (m : Mach) (name : Bytes) : Json Nat → Outcome Bytes
  | .null => .ok (bsonEntry name 0x0A)
  | .bool b => .ok (bsonEntry name 0x08 ++ [if b then 0x01 else 0x00])
  | .float x => .ok (bsonEntry name 0x01 ++ writeNumber m true 8 x)
  | .int i =>
    if -2 ^ 31 ≤ i ∧ i ≤ 2 ^ 31 - 1 then .ok (bsonEntry name 0x10 ++ writeNumber m true 4 (i % 2 ^ 32).toNat)
    else .ok (bsonEntry name 0x12 ++ writeNumber m true 8 (i % 2 ^ 64).toNat)
  | .uint n =>
    if n ≤ 2 ^ 31 - 1 then .ok (bsonEntry name 0x10 ++ writeNumber m true 4 n)
    else if n ≤ 2 ^ 63 - 1 then .ok (bsonEntry name 0x12 ++ writeNumber m true 8 n)
    else .throws "out_of_range.407"
  | .str s => .ok (bsonEntry name 0x02 ++ (writeNumber m true 4 ((s.length + 1) % 2 ^ 32) ++ (s ++ [0])))
  | .arr xs =>
    (bsonSizeL 0 xs).bind fun n => (bsonElemsL m 0 xs).bind fun t =>
      .ok (bsonEntry name 0x04 ++ (writeNumber m true 4 ((4 + n + 1) % 2 ^ 32) ++ (t ++ [0])))
  | .obj ms =>
    (bsonSizeM ms).bind fun n => (bsonElemsM m ms).bind fun t =>
      .ok (bsonEntry name 0x03 ++ (writeNumber m true 4 ((4 + n + 1) % 2 ^ 32) ++ (t ++ [0])))
/-- the loop of `write_bson_array`, json.hpp:12176-12181 -/
def bsonElemsL (m : Mach) (i : Nat) : List (Json Nat) → Outcome Bytes
  | [] => .ok []
  | v :: vs =>
    (bsonElem m (toStr i) v).bind fun t => (bsonElemsL m (i + 1) vs).bind fun ts => .ok (t ++ ts)
/-- the loop of `write_bson_object`, json.hpp:12297-12300 -/
def bsonElemsM (m : Mach) : List (Bytes × Json Nat) → Outcome Bytes
  | [] => .ok []
  | (k, v) :: ms =>
    (bsonElem m k v).bind fun t => (bsonElemsM m ms).bind fun ts => .ok (t ++ ts)
end

/-- `to_bson`, json.hpp:21389-21394, `write_bson`, 11338-11353, and `write_bson_object`, 12293-12303 -/
def toBson (m : Mach) : Json Nat → Outcome Bytes
  | .obj ms =>
    (bsonSizeM ms).bind fun n => (bsonElemsM m ms).bind fun t =>
      .ok (writeNumber m true 4 ((4 + n + 1) % 2 ^ 32) ++ (t ++ [0]))
  | _ => .throws "type_error.317"

end Verif.Json
