import Verif.ArrayView.Model

/-!
# Arithmetic of indices (utils/array_view.h, `index_t`)

Components are `std::ptrdiff_t`, taken to be 64 bits wide: a sum, product, quotient or negation that does not fit is
undefined.  `Model.lean` has the same operations without that limit, for the bounds of sections.
-/

namespace Verif.ArrayView

/-- the values of `std::ptrdiff_t` -/
def fits (x : Int) : Bool := decide (-9223372036854775808 ≤ x) && decide (x ≤ 9223372036854775807)

/-- the result of an operation on `std::ptrdiff_t` -/
def signed (x : Int) : Outcome Int := if fits x then .ok x else .ub

/-- an integer converted to `std::ptrdiff_t`, modulo 2^64 -/
def toSigned (x : Int) : Int := (x + 9223372036854775808) % 18446744073709551616 - 9223372036854775808

/-- `std::transform` with a binary operation -/
def zipIdx (f : Int → Int → Outcome Int) : Idx → Idx → Outcome Idx
  | a :: as, b :: bs => do
    let x ← f a b
    let r ← zipIdx f as bs
    .ok (x :: r)
  | _, _ => .ok []

/-- `std::transform` with a unary operation -/
def mapIdx (f : Int → Outcome Int) : Idx → Outcome Idx
  | [] => .ok []
  | a :: as => do
    let x ← f a
    let r ← mapIdx f as
    .ok (x :: r)

/-- the constructors taking integers, array_view.h:166-172, with `detail::narrow_cast`, array_view.h:32-34 -/
def mkIdx (ks : List Int) : Idx := ks.map toSigned

/-- `get<Dim>()`, array_view.h:205-213: returned as a `std::size_t` -/
def idxGet (a : Idx) (d : Nat) (h : d < a.length) : Int := a[d] % 18446744073709551616

/-- `at(i)`, array_view.h:231-247 -/
def idxAt (a : Idx) (i : Nat) : Outcome Int :=
  if h : i < a.length then .ok a[i] else .outOfRange

/-- `operator+` and `operator+=`, array_view.h:339-344, 359-367 -/
def idxPlus (a b : Idx) : Outcome Idx := zipIdx (fun x y => signed (x + y)) a b
/-- `operator-` and `operator-=`, array_view.h:349-354, 372-380 -/
def idxMinus (a b : Idx) : Outcome Idx := zipIdx (fun x y => signed (x - y)) a b
/-- unary `operator-`, array_view.h:469-477 -/
def idxNeg (a : Idx) : Outcome Idx := mapIdx (fun x => signed (-x)) a

/-- an arithmetic argument: an integer, or a floating point number if finite -/
inductive Scalar
  | int (k : Int)
  | real (q : Option Rat)

/-- towards zero -/
def truncate (q : Rat) : Int := q.num.tdiv q.den

/-- what `std::multiplies<std::ptrdiff_t>` and `std::divides<std::ptrdiff_t>` make of their second argument, array_view.h:434, 450 -/
def Scalar.convert : Scalar → Outcome Int
  | .int k => .ok (toSigned k)
  | .real (some q) => signed (truncate q)
  | .real none => .ub

/-- `operator*` (both orders) and `operator*=`, array_view.h:386-394, 416-420, 427-437 -/
def idxTimes (a : Idx) (s : Scalar) : Outcome Idx :=
  mapIdx (fun x => do
    let k ← s.convert
    signed (x * k)) a

/-- `operator/` and `operator/=`, array_view.h:400-408, 443-453 -/
def idxOver (a : Idx) (s : Scalar) : Outcome Idx :=
  mapIdx (fun x => do
    let k ← s.convert
    if k = 0 then .ub else signed (x.tdiv k)) a

/-- `a + ... + a`, `n` times, starting from the zero index -/
def sumOf (a : Idx) : Nat → Outcome Idx
  | 0 => .ok (a.map fun _ => 0)
  | n + 1 => do
    let r ← sumOf a n
    idxPlus r a

end Verif.ArrayView
