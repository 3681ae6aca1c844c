import Verif.Json.Model
import Mathlib.Order.Defs.LinearOrder

/-!
# Model of the comparisons of `ristra/io/catalyst/utils/json.hpp`

`operator==`, `<` and the operators made of them.  Values of type `discarded` are left out, as in
`Json.Model`; comparisons with scalars make a value of the scalar first (20276-20294, 20442-20462).
-/

namespace Verif.Json

/-- what comparing needs to know of floating-point numbers: the place of a number among the values
`L`, `none` for a NaN; the places of the integers; the conversion of integers, which rounds -/
structure FloatOrder (F L : Type) where
  place : F → Option L
  num : Int → L
  ofInt : Int → F

variable {F L : Type} [LinearOrder L]

/-- `==` of floating-point numbers -/
def FloatOrder.eq (fo : FloatOrder F L) (x y : F) : Bool :=
  match fo.place x, fo.place y with
  | some a, some b => a == b
  | _, _ => false

/-- `<` of floating-point numbers -/
def FloatOrder.lt (fo : FloatOrder F L) (x y : F) : Bool :=
  match fo.place x, fo.place y with
  | some a, some b => decide (a < b)
  | _, _ => false

/-- `static_cast<number_integer_t>` of an unsigned integer of 64 bits: modulo 2^64 -/
def toSigned (n : Nat) : Int := if n % 2 ^ 64 < 2 ^ 63 then (n % 2 ^ 64 : Nat) else (n % 2 ^ 64 : Nat) - 2 ^ 64

/-- the table `order` of `operator<(value_t, value_t)`, json.hpp:2878-2889 -/
def kindOrder : Json F → Nat
  | .null => 0
  | .obj _ => 3
  | .arr _ => 4
  | .str _ => 5
  | .bool _ => 1
  | .int _ => 2
  | .uint _ => 2
  | .float _ => 2

/-- `std::string::operator<`: as `memcmp`, the bytes are unsigned -/
def bytesLt : Bytes → Bytes → Bool
  | [], [] => false
  | [], _ :: _ => true
  | _ :: _, [] => false
  | a :: s, b :: t => if a < b then true else if b < a then false else bytesLt s t

mutual
/-- `operator==`, json.hpp:20215-20275 -/
def eqV (fo : FloatOrder F L) : Json F → Json F → Bool
  | .arr xs, .arr ys => eqL fo xs ys
  | .obj ms, .obj ns => eqM fo ms ns
  | .null, .null => true
  | .str s, .str t => s == t
  | .bool b, .bool c => b == c
  | .int i, .int j => i == j
  | .uint m, .uint n => m == n
  | .float x, .float y => fo.eq x y
  | .int i, .float y => fo.eq (fo.ofInt i) y
  | .float x, .int j => fo.eq x (fo.ofInt j)
  | .uint m, .float y => fo.eq (fo.ofInt m) y
  | .float x, .uint n => fo.eq x (fo.ofInt n)
  | .uint m, .int j => toSigned m == j
  | .int i, .uint n => i == toSigned n
  | _, _ => false
/-- `operator==` of `std::vector`: the same length and equal elements (json.hpp:20225) -/
def eqL (fo : FloatOrder F L) : List (Json F) → List (Json F) → Bool
  | [], [] => true
  | x :: xs, y :: ys => eqV fo x y && eqL fo xs ys
  | _, _ => false
/-- `operator==` of `std::map`: the same length and equal pairs (json.hpp:20228) -/
def eqM (fo : FloatOrder F L) : List (Bytes × Json F) → List (Bytes × Json F) → Bool
  | [], [] => true
  | (k, x) :: ms, (l, y) :: ns => k == l && eqV fo x y && eqM fo ms ns
  | _, _ => false
end

mutual
/-- `operator<`, json.hpp:20373-20441 -/
def ltV (fo : FloatOrder F L) : Json F → Json F → Bool
  | .arr xs, .arr ys => ltL fo xs ys
  | .obj ms, .obj ns => ltM fo ms ns
  | .null, .null => false
  | .str s, .str t => bytesLt s t
  | .bool b, .bool c => !b && c
  | .int i, .int j => decide (i < j)
  | .uint m, .uint n => decide (m < n)
  | .float x, .float y => fo.lt x y
  | .int i, .float y => fo.lt (fo.ofInt i) y
  | .float x, .int j => fo.lt x (fo.ofInt j)
  | .uint m, .float y => fo.lt (fo.ofInt m) y
  | .float x, .uint n => fo.lt x (fo.ofInt n)
  | .int i, .uint n => decide (i < toSigned n)
  | .uint m, .int j => decide (toSigned m < j)
  | a, b => decide (kindOrder a < kindOrder b)
termination_by a b => sizeOf a + sizeOf b
/-- `operator<` of `std::vector`, that is `std::lexicographical_compare` (json.hpp:20387) -/
def ltL (fo : FloatOrder F L) : List (Json F) → List (Json F) → Bool
  | [], [] => false
  | [], _ :: _ => true
  | _ :: _, [] => false
  | x :: xs, y :: ys => if ltV fo x y then true else if ltV fo y x then false else ltL fo xs ys
termination_by a b => sizeOf a + sizeOf b
/-- `operator<` of `std::map`, that is `std::lexicographical_compare` of pairs (json.hpp:20390) -/
def ltM (fo : FloatOrder F L) : List (Bytes × Json F) → List (Bytes × Json F) → Bool
  | [], [] => false
  | [], _ :: _ => true
  | _ :: _, [] => false
  | (k, x) :: ms, (l, y) :: ns =>
    if bytesLt k l || (!bytesLt l k && ltV fo x y) then true
    else if bytesLt l k || (!bytesLt k l && ltV fo y x) then false
    else ltM fo ms ns
termination_by a b => sizeOf a + sizeOf b
end

/-- `operator!=`, json.hpp:20320-20323 -/
def neV (fo : FloatOrder F L) (a b : Json F) : Bool := !eqV fo a b

/-- `operator<=`, json.hpp:20484-20487 -/
def leV (fo : FloatOrder F L) (a b : Json F) : Bool := !ltV fo b a

/-- `operator>`, json.hpp:20530-20533 -/
def gtV (fo : FloatOrder F L) (a b : Json F) : Bool := !leV fo a b

/-- `operator>=`, json.hpp:20576-20579 -/
def geV (fo : FloatOrder F L) (a b : Json F) : Bool := !ltV fo a b

end Verif.Json
