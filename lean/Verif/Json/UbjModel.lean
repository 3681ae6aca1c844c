import Verif.Json.MsgModel

/-!
# Model of the UBJSON format of `ristra/io/catalyst/utils/json.hpp`
-/

namespace Verif.Json

/-! ## Reading -/

/-- `get_ignore_noop`, json.hpp:6959-6968: what is left after the bytes 'N' -/
def dropNoop : Bytes → Bytes
  | [] => []
  | b :: s => if b = 0x4E then dropNoop s else b :: s

/-- `get_ignore_noop`: the character read, and the rest of the input -/
def getNoop (s : Bytes) : Option Nat × Bytes := ((dropNoop s).head?, (dropNoop s).tail)

/-- the integer after a type 'U', 'i', 'I', 'l' or 'L', json.hpp:6547-6576, 6591-6645 -/
def ubjInt (m : Mach) (c : Nat) (s : Bytes) : Rd (Int × Bytes) :=
  if c = 0x55 then (getNumber m false 1 s).bind fun p => .ok ((p.1 : Int), p.2)
  else if c = 0x69 then (getNumber m false 1 s).bind fun p => .ok (asSigned 1 p.1, p.2)
  else if c = 0x49 then (getNumber m false 2 s).bind fun p => .ok (asSigned 2 p.1, p.2)
  else if c = 0x6C then (getNumber m false 4 s).bind fun p => .ok (asSigned 4 p.1, p.2)
  else if c = 0x4C then (getNumber m false 8 s).bind fun p => .ok (asSigned 8 p.1, p.2)
  else .fail 113

/-- `get_ubjson_string`, json.hpp:6535-6583; `c` is the character read (with `get_char`, or before).  `std::generate_n`
does nothing for a length below 0. -/
def ubjString (m : Mach) (ex : Bool) (c : Option Nat) (s : Bytes) : Rd (Bytes × Bytes) :=
  match c with
  | none => .fail 110
  | some c => (ubjInt m c s).bind fun p => takeString m ex p.1.toNat p.2

/-- `string_t::npos`: no size is given -/
def ubjNone : Nat := 2 ^ 64 - 1

/-- `get_ubjson_size_value`, json.hpp:6589-6654: the size; and the last character read, `current` -/
def ubjSize (m : Mach) (s : Bytes) : Rd ((Nat × Option Nat) × Bytes) :=
  match getNoop s with
  | (none, _) => .fail 113
  | (some c, s) =>
    (ubjInt m c s).bind fun p =>
      .ok (((p.1 % 2 ^ 64).toNat, (s.take (s.length - p.2.length)).getLast?), p.2)

/-- what `get_ubjson_size_type` finds: the size, the type (0 if none is given), and `current` -/
structure UbjHead where
  size : Nat
  type : Nat
  cur : Option Nat

/-- `get_ubjson_size_type` after the '$', json.hpp:6673-6692 -/
def ubjTyped (m : Mach) (s : Bytes) : Rd (UbjHead × Bytes) :=
  match s with
  | [] => .fail 110
  | t :: s =>
    match getNoop s with
    | (none, _) => .fail 110
    | (some c, s) =>
      if c = 0x23 then (ubjSize m s).bind fun p => .ok (⟨p.1.1, t, p.1.2⟩, p.2) else .fail 112

/-- `get_ubjson_size_type`, json.hpp:6666-6701 -/
def ubjHead (m : Mach) (s : Bytes) : Rd (UbjHead × Bytes) :=
  match getNoop s with
  | (none, s) => .ok (⟨ubjNone, 0, none⟩, s)
  | (some c, s) =>
    if c = 0x24 then ubjTyped m s
    else if c = 0x23 then (ubjSize m s).bind fun p => .ok (⟨p.1.1, 0, p.1.2⟩, p.2)
    else .ok (⟨ubjNone, 0, some c⟩, s)

/-- the loops `for (std::size_t i = 0; i < size; ++i)` over the elements, json.hpp:6822-6828, 6833-6839 -/
def ubjRepeat (f : Bytes → Rd (List (Event Nat) × Bytes)) : Nat → Bytes → Rd (List (Event Nat) × Bytes)
  | 0, s => .ok ([], s)
  | n + 1, s => (f s).bind fun p => (ubjRepeat f n p.2).bind fun q => .ok (p.1 ++ q.1, q.2)

/-- the loop `while (current != ']')`, json.hpp:6849-6856; `n` rounds at most -/
def ubjUntil (f : Option Nat → Bytes → Rd (List (Event Nat) × Bytes)) (n : Nat) (cur : Option Nat) (s : Bytes) :
    Rd (List (Event Nat) × Bytes) :=
  if cur = some 0x5D then .ok ([], s)
  else
    match n with
    | 0 => .running
    | n + 1 =>
      (f cur s).bind fun p =>
        (ubjUntil f n (getNoop p.2).1 (getNoop p.2).2).bind fun q => .ok (p.1 ++ q.1, q.2)

/-- the loop `while (current != '}')`, json.hpp:6919-6931; `n` rounds at most -/
def ubjMembersUntil (m : Mach) (ex : Bool) (f : Option Nat → Bytes → Rd (List (Event Nat) × Bytes)) (n : Nat)
    (cur : Option Nat) (s : Bytes) : Rd (List (Event Nat) × Bytes) :=
  if cur = some 0x7D then .ok ([], s)
  else
    match n with
    | 0 => .running
    | n + 1 =>
      (ubjString m ex cur s).bind fun k =>
        (f (getNoop k.2).1 (getNoop k.2).2).bind fun p =>
          (ubjMembersUntil m ex f n (getNoop p.2).1 (getNoop p.2).2).bind fun q => .ok (.key k.1 :: (p.1 ++ q.1), q.2)

/-- one member of an object whose size is given, json.hpp:6885-6893, 6900-6908 -/
def ubjMember (m : Mach) (ex : Bool) (f : Bytes → Rd (List (Event Nat) × Bytes)) (s : Bytes) :
    Rd (List (Event Nat) × Bytes) :=
  (ubjString m ex s.head? s.tail).bind fun k => (f k.2).bind fun p => .ok (.key k.1 :: p.1, p.2)

/-- `get_ubjson_array`, json.hpp:6803-6860; `f` is `get_ubjson_value` -/
def ubjArr (m : Mach) (f : Option Nat → Bytes → Rd (List (Event Nat) × Bytes)) (s : Bytes) :
    Rd (List (Event Nat) × Bytes) :=
  (ubjHead m s).bind fun h =>
    if h.1.size ≠ ubjNone then
      if m.maxArr < h.1.size then .threw "out_of_range.408"
      else if h.1.type ≠ 0 then
        if h.1.type ≠ 0x4E then ubjRepeat (f (some h.1.type)) h.1.size h.2 else .ok ([], h.2)
      else ubjRepeat (fun s => f (getNoop s).1 (getNoop s).2) h.1.size h.2
    else ubjUntil f (h.2.length + 2) h.1.cur h.2

/-- `get_ubjson_object`, json.hpp:6865-6935 -/
def ubjObj (m : Mach) (ex : Bool) (f : Option Nat → Bytes → Rd (List (Event Nat) × Bytes)) (s : Bytes) :
    Rd (List (Event Nat) × Bytes) :=
  (ubjHead m s).bind fun h =>
    if h.1.size ≠ ubjNone then
      if m.maxObj < h.1.size then .threw "out_of_range.408"
      else if h.1.type ≠ 0 then ubjRepeat (ubjMember m ex (f (some h.1.type))) h.1.size h.2
      else ubjRepeat (ubjMember m ex fun s => f (getNoop s).1 (getNoop s).2) h.1.size h.2
    else ubjMembersUntil m ex f (h.2.length + 2) h.1.cur h.2

/-- the character after 'C', json.hpp:6764-6778 -/
def ubjChar (s : Bytes) : Rd (List (Event Nat) × Bytes) :=
  match s with
  | [] => .fail 110
  | b :: s => if 127 < b then .fail 113 else .ok ([.str [b]], s)

/-- `get_ubjson_value`, json.hpp:6707-6798; at most `fuel` levels deep -/
def ubjV (m : Mach) (ex : Bool) : Nat → Option Nat → Bytes → Rd (List (Event Nat) × Bytes)
  | _, none, _ => .fail 110
  | 0, some _, _ => .running
  | fuel + 1, some c, s =>
    if c = 0x54 then .ok ([.bool true], s)
    else if c = 0x46 then .ok ([.bool false], s)
    else if c = 0x5A then .ok ([.null], s)
    else if c = 0x55 then (getNumber m false 1 s).bind fun p => .ok ([.uint p.1], p.2)
    else if c = 0x69 then (getNumber m false 1 s).bind fun p => .ok ([.int (asSigned 1 p.1)], p.2)
    else if c = 0x49 then (getNumber m false 2 s).bind fun p => .ok ([.int (asSigned 2 p.1)], p.2)
    else if c = 0x6C then (getNumber m false 4 s).bind fun p => .ok ([.int (asSigned 4 p.1)], p.2)
    else if c = 0x4C then (getNumber m false 8 s).bind fun p => .ok ([.int (asSigned 8 p.1)], p.2)
    else if c = 0x64 then (getNumber m false 4 s).bind fun p => .ok ([.float (readSingle p.1)], p.2)
    else if c = 0x44 then (getNumber m false 8 s).bind fun p => .ok ([.float p.1], p.2)
    else if c = 0x43 then ubjChar s
    else if c = 0x53 then (ubjString m ex s.head? s.tail).bind fun p => .ok ([.str p.1], p.2)
    else if c = 0x5B then
      (ubjArr m (ubjV m ex fuel) s).bind fun p => .ok (.startArray :: (p.1 ++ [.endArray]), p.2)
    else if c = 0x7B then
      (ubjObj m ex (ubjV m ex fuel) s).bind fun p => .ok (.startObject :: (p.1 ++ [.endObject]), p.2)
    else .fail 112

/-- `from_ubjson`, json.hpp:21715-21723, with `sax_parse`, 5211-5255: in strict mode bytes 'N' after the value are skipped -/
def fromUbj (m : Mach) (strict ex : Bool) (s : Bytes) : Outcome (Option (Json Nat) × Bytes) :=
  finishRead strict ex ((ubjV m ex (s.length + 2) (getNoop s).1 (getNoop s).2).bind fun p =>
    .ok (p.1, if strict then dropNoop p.2 else p.2))

/-! ## Writing -/

/-- the type and the bytes of an unsigned integer, `write_number_with_ubjson_prefix`, json.hpp:12350-12400; `pre` is
`add_prefix` -/
def ubjUint (m : Mach) (pre : Bool) (n : Nat) : Outcome Bytes :=
  let p (c : Nat) : Bytes := if pre then [c] else []
  if n ≤ 127 then .ok (p 0x69 ++ writeNumber m false 1 n)
  else if n ≤ 255 then .ok (p 0x55 ++ writeNumber m false 1 n)
  else if n ≤ 32767 then .ok (p 0x49 ++ writeNumber m false 2 n)
  else if n ≤ 2147483647 then .ok (p 0x6C ++ writeNumber m false 4 n)
  else if n ≤ 9223372036854775807 then .ok (p 0x4C ++ writeNumber m false 8 n)
  else .throws "out_of_range.407"

/-- the type and the bytes of a signed integer, `write_number_with_ubjson_prefix`, json.hpp:12402-12455 -/
def ubjSint (m : Mach) (pre : Bool) (i : Int) : Outcome Bytes :=
  let p (c : Nat) : Bytes := if pre then [c] else []
  if -128 ≤ i ∧ i ≤ 127 then .ok (p 0x69 ++ writeNumber m false 1 (i % 2 ^ 8).toNat)
  else if 0 ≤ i ∧ i ≤ 255 then .ok (p 0x55 ++ writeNumber m false 1 (i % 2 ^ 8).toNat)
  else if -32768 ≤ i ∧ i ≤ 32767 then .ok (p 0x49 ++ writeNumber m false 2 (i % 2 ^ 16).toNat)
  else if -2147483648 ≤ i ∧ i ≤ 2147483647 then .ok (p 0x6C ++ writeNumber m false 4 (i % 2 ^ 32).toNat)
  else if -9223372036854775808 ≤ i ∧ i ≤ 9223372036854775807 then .ok (p 0x4C ++ writeNumber m false 8 (i % 2 ^ 64).toNat)
  else .throws "out_of_range.407"

/-- `ubjson_prefix`, json.hpp:12466-12535 -/
def ubjPrefix : Json Nat → Nat
  | .null => 0x5A
  | .bool b => if b then 0x54 else 0x46
  | .int i =>
    if -128 ≤ i ∧ i ≤ 127 then 0x69
    else if 0 ≤ i ∧ i ≤ 255 then 0x55
    else if -32768 ≤ i ∧ i ≤ 32767 then 0x49
    else if -2147483648 ≤ i ∧ i ≤ 2147483647 then 0x6C
    else 0x4C
  | .uint n =>
    if n ≤ 127 then 0x69
    else if n ≤ 255 then 0x55
    else if n ≤ 32767 then 0x49
    else if n ≤ 2147483647 then 0x6C
    else 0x4C
  | .float _ => 0x44
  | .str _ => 0x53
  | .arr _ => 0x5B
  | .obj _ => 0x7B

/-- the type all values share, json.hpp:11907-11924, 11952-11969; `none` if there is none, or no type is wanted.  `assert(use_count)`
fails if a type is wanted without a size. -/
def ubjShared (useCount useType : Bool) : List (Json Nat) → Outcome (Option Nat)
  | [] => .ok none
  | v :: vs =>
    if useType then
      if useCount then
        .ok (if vs.all fun w => ubjPrefix w == ubjPrefix v then some (ubjPrefix v) else none)
      else .assertFail
    else .ok none

/-- the type, if any, json.hpp:11918-11923, 11963-11968, and the size, if wanted, 11926-11930, 11971-11975 -/
def ubjStart (m : Mach) (useCount : Bool) (shared : Option Nat) (n : Nat) : Outcome Bytes :=
  if useCount then
    (ubjUint m true n).bind fun b => .ok ((match shared with | some c => [0x24, c] | none => []) ++ 0x23 :: b)
  else .ok []

mutual
/-- `write_ubjson`, json.hpp:11844-11998; `pre` is `add_prefix` -/
def ubjW (m : Mach) (useCount useType pre : Bool) : Json Nat → Outcome Bytes
  | .null => .ok (if pre then [0x5A] else [])
  | .bool b => .ok (if pre then [if b then 0x54 else 0x46] else [])
  | .int i => ubjSint m pre i
  | .uint n => ubjUint m pre n
  | .float x => .ok ((if pre then [0x44] else []) ++ writeNumber m false 8 x)
  | .str s => (ubjUint m true s.length).bind fun l => .ok ((if pre then [0x53] else []) ++ (l ++ s))
  | .arr xs =>
    (ubjShared useCount useType xs).bind fun c =>
      (ubjStart m useCount c xs.length).bind fun h =>
        (ubjWL m useCount useType c.isNone xs).bind fun t =>
          .ok ((if pre then [0x5B] else []) ++ (h ++ (t ++ if useCount then [] else [0x5D])))
  | .obj ms =>
    (ubjShared useCount useType (ms.map (·.2))).bind fun c =>
      (ubjStart m useCount c ms.length).bind fun h =>
        (ubjWM m useCount useType c.isNone ms).bind fun t =>
          .ok ((if pre then [0x7B] else []) ++ (h ++ (t ++ if useCount then [] else [0x7D])))
/-- the elements, json.hpp:11932-11935 -/
def ubjWL (m : Mach) (useCount useType pre : Bool) : List (Json Nat) → Outcome Bytes
  | [] => .ok []
  | v :: vs => (ubjW m useCount useType pre v).bind fun t => (ubjWL m useCount useType pre vs).bind fun ts => .ok (t ++ ts)
/-- the members, json.hpp:11977-11984 -/
def ubjWM (m : Mach) (useCount useType pre : Bool) : List (Bytes × Json Nat) → Outcome Bytes
  | [] => .ok []
  | (k, v) :: ms =>
    (ubjUint m true k.length).bind fun l => (ubjW m useCount useType pre v).bind fun t =>
      (ubjWM m useCount useType pre ms).bind fun ts => .ok (l ++ (k ++ (t ++ ts)))
end

/-- `to_ubjson`, json.hpp:21312-21331 -/
def toUbj (m : Mach) (useCount useType : Bool) (v : Json Nat) : Outcome Bytes := ubjW m useCount useType true v

end Verif.Json
