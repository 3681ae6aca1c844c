import Verif.Common.Loop
import Verif.Common.Outcome
import Mathlib.Algebra.Field.Defs
import Mathlib.Data.Real.Sqrt
import Mathlib.Data.Fin.VecNotation

/-!
# Model of `ristra/math/general.h` and `ristra/math/vector.h`

Vectors of fixed size are functions on `Fin n`; containers are lists.  Scalars are exact
(commutative ring, field, linear order or ℝ; definitions that need no laws are for any scalars, see
`Rounding`), except in the section on `int` averages, where
the conversions made by `/=` with an unsigned right hand side are modelled.
-/

namespace Verif.Vec

/-- `array<T,D>`, as its element function -/
abbrev Vec (n : Nat) (K : Type u) := Fin n → K

/-! ## Averages -/

section Average
variable {K : Type} [Zero K] [Add K] [Div K] [NatCast K]

/-- general_impl.h:30-49 `detail::average(res, args...)`: recursive `res += t` -/
def accumulate (res : K) : List K → K
  | [] => res
  | t :: ts => accumulate (res + t) ts

/-- general.h:32-47 `average(t, args...)`, at least three arguments -/
def averagePack (t : K) (args : List K) : K := accumulate t args / ((args.length + 1 : Nat) : K)

/-- general.h:49-58 `average(t, u)` -/
def averageTwo [OfNat K 2] (t u : K) : K := (t + u) / 2

/-- general.h:75-88 `average(container)` -/
def averageContainer (vals : List K) : Outcome K := do
  Outcome.assert (decide (vals.length > 0))
  let avg := vals.foldl (· + ·) 0
  .ok (avg / ((vals.length : Nat) : K))

/-- general.h:90-107 `average(first, last)`; the range is given by the list of its elements -/
def averageRange (vals : List K) : Outcome K := do
  let num := vals.length
  Outcome.assert (decide (num > 0))
  let avg := vals.foldl (· + ·) 0
  .ok (avg / ((num : Nat) : K))

end Average

section IntAverage

/-- `int a; a /= n` with `n` of type `std::size_t` (64 bits): `a` is converted to `size_t`, the
division is unsigned, and the quotient is converted back to 32-bit `int` -/
def intDivSize (a : Int) (n : Nat) : Int := Int.bmod ((a % 2 ^ 64) / (n : Int)) (2 ^ 32)

/-- general.h:32-47 for `int` arguments; `sizeof...(args) + 1` is a `size_t`.  The sum is
assumed not to overflow. -/
def averagePackInt (t : Int) (args : List Int) : Int :=
  intDivSize (args.foldl (· + ·) t) (args.length + 1)

/-- general.h:75-88 for a container of `int`; `vals.size()` is a `size_t` -/
def averageContainerInt (vals : List Int) : Outcome Int := do
  Outcome.assert (decide (vals.length > 0))
  .ok (intDivSize (vals.foldl (· + ·) 0) vals.length)

/-- general.h:90-107 for a range of `int`; `std::distance` is signed, so `/=` truncates -/
def averageRangeInt (vals : List Int) : Outcome Int := do
  Outcome.assert (decide (vals.length > 0))
  .ok (Int.tdiv (vals.foldl (· + ·) 0) vals.length)

end IntAverage

/-! ## Extrema -/

section Order
variable {K : Type} [LinearOrder K]

/-- `std::min(a,b)`: `b < a ? b : a` -/
def stdMin (a b : K) : K := if b < a then b else a
/-- `std::max(a,b)`: `a < b ? b : a` -/
def stdMax (a b : K) : K := if a < b then b else a

/-- `std::min_element` over `[p, end)`, tail part: `best` is the position of the smallest so
far, `pos` the current one -/
def minScan (bestPos : Nat) (best : K) (pos : Nat) : List K → Nat × K
  | [] => (bestPos, best)
  | x :: xs => if x < best then minScan pos x (pos + 1) xs else minScan bestPos best (pos + 1) xs

/-- `std::max_element`, likewise -/
def maxScan (bestPos : Nat) (best : K) (pos : Nat) : List K → Nat × K
  | [] => (bestPos, best)
  | x :: xs => if best < x then maxScan pos x (pos + 1) xs else maxScan bestPos best (pos + 1) xs

/-- general.h:113-131 `min_element(a)`: the position of the returned iterator (`a.length` is
`end()`) -/
def minElement : List K → Nat
  | [] => 0
  | x :: xs => (minScan 0 x 1 xs).1

/-- general.h:133-151 `max_element(a)` -/
def maxElement : List K → Nat
  | [] => 0
  | x :: xs => (maxScan 0 x 1 xs).1

/-- general.h:273-284 `min(a,b)` for fixed-size arrays -/
def minArray (tmp a b : Vec n K) : Vec n K := forLoop n (fun i tmp => upd tmp i (stdMin (a i) (b i))) tmp
/-- general.h:302-313 `max(a,b)` for fixed-size arrays -/
def maxArray (tmp a b : Vec n K) : Vec n K := forLoop n (fun i tmp => upd tmp i (stdMax (a i) (b i))) tmp

/-- `v[i]` on a container (unchecked) -/
def rd (v : List α) (i : Nat) : Outcome α := match v[i]? with | some x => .ok x | none => .ub
/-- `v[i] = x` on a container (unchecked) -/
def wr (v : List α) (i : Nat) (x : α) : Outcome (List α) := if i < v.length then .ok (v.set i x) else .ub

/-- loop of the container versions, from index `i` -/
def zipLoop (f : K → K → K) (a b : List K) (i : Nat) (tmp : List K) : Nat → Outcome (List K)
  | 0 => .ok tmp
  | fuel + 1 => do
    if i < a.length then
      let x ← rd a i
      let y ← rd b i
      let tmp' ← wr tmp i (f x y)
      zipLoop f a b (i + 1) tmp' fuel
    else .ok tmp

/-- general.h:286-293 `min(a,b)` for containers: `tmp` is default constructed -/
def minContainer (a b : List K) : Outcome (List K) := zipLoop stdMin a b 0 [] (a.length + 1)
/-- general.h:315-322 `max(a,b)` for containers -/
def maxContainer (a b : List K) : Outcome (List K) := zipLoop stdMax a b 0 [] (a.length + 1)

/-- general.h:340-343 `sgn`: `(0 < val) - (val < 0)` -/
def sgn [Zero K] (v : K) : Int := (if 0 < v then 1 else 0) - (if v < 0 then 1 else 0)

end Order

/-! ## Products -/

section Products
variable {K : Type} [Zero K] [Add K] [Sub K] [Mul K]

/-- general.h:170-181 `dot_product` of fixed-size arrays -/
def dot (a b : Vec n K) : K := forLoop n (fun i s => s + a i * b i) 0

/-- general.h:161-167, 183-189 `dot_product` of ranges and containers: `std::inner_product`
from zero, the second range is read as far as the first one goes -/
def dotRange (s : K) : List K → List K → Outcome K
  | [], _ => .ok s
  | _ :: _, [] => .ub
  | x :: xs, y :: ys => dotRange (s + x * y) xs ys

/-- general.h:329-338 `sqr` -/
def sqr (x : K) : K := x * x
/-- general.h:329-338 `cube` -/
def cube (x : K) : K := x * x * x

/-- general.h:377-384 `normal(a,b)` in two dimensions -/
def normal2 (a b : Vec 2 K) : Vec 2 K := ![a 1 - b 1, b 0 - a 0]

/-- general.h:391-399 `normal(a,b)` in three dimensions -/
def normal3 (_a _b : Vec 3 K) : Outcome (Vec 3 K) := .throws "runtime_error"

/-- general.h:411-418 -/
def cross2 (a b : Vec 2 K) : K := a 0 * b 1 - a 1 * b 0

/-- general.h:426-437 -/
def cross3 (a b : Vec 3 K) : Vec 3 K :=
  ![a 1 * b 2 - a 2 * b 1, a 2 * b 0 - a 0 * b 2, a 0 * b 1 - a 1 * b 0]

/-- general.h:449-458 -/
def triple (a b c : Vec 3 K) : K :=
  a 0 * b 1 * c 2 + b 0 * c 1 * a 2 + c 0 * a 1 * b 2
    - a 2 * b 1 * c 0 - b 2 * c 1 * a 0 - c 2 * a 1 * b 0

/-- vector.h:36-50 `reflect(v,n)` -/
def reflect [OfNat K 2] (v n : Vec d K) : Vec d K :=
  let dt := dot v n
  let rot := forLoop d (fun i (rot : Vec d K) => upd rot i (rot i * (2 * dt))) n
  forLoop d (fun i (tmp : Vec d K) => upd tmp i (tmp i - rot i)) v

end Products

noncomputable section Real

/-- general.h:196-220 `magnitude`; `abs` (lines 222-235) is the same -/
def magnitude (a : Vec n ℝ) : ℝ := Real.sqrt (forLoop n (fun i s => s + a i * a i) 0)

/-- general.h:246-259 `delta_magnitude` -/
def deltaMagnitude (a b : Vec n ℝ) : ℝ :=
  Real.sqrt (forLoop n (fun i s => let del := a i - b i; s + del * del) 0)

/-- `x / val` of `math::array` (array.h): multiply by the reciprocal.  Real division by zero
is infinite or NaN in the code; the caller has to exclude it. -/
def divScalar (tmp x : Vec n ℝ) (val : ℝ) : Vec n ℝ :=
  let inv := 1 / val
  forLoop n (fun i (tmp : Vec n ℝ) => upd tmp i (x i * inv)) tmp

/-- general.h:357-366 `unit(x)`; division by a zero length is a separate outcome because it
gives NaN in the code -/
def unit (tmp x : Vec n ℝ) : Outcome (Vec n ℝ) :=
  let l := magnitude x
  if l = 0 then .throws "NaN" else .ok (divScalar tmp x l)

end Real

end Verif.Vec
