import Verif.Common.Loop
import Verif.Common.Outcome

/-!
# Model of `ristra/math/array.h` and `ristra/utils/dimensioned_array.h`

An array of `n` elements is a function on `Fin n`; every loop of the code is a `forLoop`
that stores one element per step, so a right-hand side that refers to the array being
assigned sees the partly updated contents.  Arithmetic is that of the element type given
by the operation; floating-point rounding is not modelled.
-/

namespace Verif.MathArray

/-- `array<T,N>` and `dimensioned_array__`, as the element function -/
abbrev Arr (n : Nat) (T : Type u) := Fin n → T

/-! ## Aliasing-aware compound assignment -/

/-- The right-hand array of `x op= y`: a different object or `x` itself. -/
inductive ArrArg (n : Nat) (T : Type u) where
  | other (y : Arr n T)
  | self

/-- reading element `i` of the right-hand array when `x` has come that far -/
def ArrArg.read (x : Arr n T) : ArrArg n T → Fin n → T
  | .other y => y
  | .self => x

/-- The right-hand scalar, passed by reference: a different object or `x[k]`. -/
inductive ScalArg (n : Nat) (T : Type u) where
  | value (v : T)
  | element (k : Fin n)

/-- reading the right-hand scalar when `x` has come that far -/
def ScalArg.read (x : Arr n T) : ScalArg n T → T
  | .value v => v
  | .element k => x k

/-- `array::operator+=,-=,*=,/= (array)`: math/array.h:353-358, 373-378, 394-399, 414-419 -/
def opAssign (op : T → T → T) (x : Arr n T) (rhs : ArrArg n T) : Arr n T :=
  forLoop n (fun i x => upd x i (op (x i) (rhs.read x i))) x

/-- `array::operator+=,-=,*= (const T2 & val)`: array.h:363-368, 383-388, 404-409; `val` is read
again in every step -/
def scalAssign (op : T → T → T) (x : Arr n T) (rhs : ScalArg n T) : Arr n T :=
  forLoop n (fun i x => upd x i (op (x i) (rhs.read x))) x

/-- `array::operator/= (const T2 & val)`: array.h:424-430, multiplies by a reciprocal computed
once -/
def divScalAssign (mul div : T → T → T) (one : T) (x : Arr n T) (rhs : ScalArg n T) : Arr n T :=
  let inv := div one (rhs.read x)
  forLoop n (fun i x => upd x i (mul (x i) inv)) x

/-- `fill(const T & value)`, array.h:300-304, and `operator=(const T2 &)` 343-347 -/
def fillAssign (x : Arr n T) (rhs : ScalArg n T) : Arr n T :=
  forLoop n (fun i x => upd x i (rhs.read x)) x

/-- `swap`, array.h:293-297 -/
def swap (x y : Arr n T) : Arr n T × Arr n T :=
  forLoop n (fun i p => (upd p.1 i (p.2 i), upd p.2 i (p.1 i))) (x, y)

/-- `dimensioned_array__::operator op (const dimensioned_array__ &)`: dimensioned_array.h
lines 201-214, does nothing when the argument is the object itself -/
def dimOpAssign (op : T → T → T) (x : Arr n T) (rhs : ArrArg n T) : Arr n T :=
  match rhs with
  | .self => x
  | .other _ => forLoop n (fun i x => upd x i (op (x i) (rhs.read x i))) x

/-- `dimensioned_array__::operator op (TYPE val)`: dimensioned_array.h:220-231, `val` by value -/
def dimScalAssign (op : T → T → T) (x : Arr n T) (rhs : ScalArg n T) : Arr n T :=
  let val := rhs.read x
  forLoop n (fun i x => upd x i (op (x i) val)) x

/-- `operator=(const TYPE & val)`, dimensioned_array.h:185-195, by reference -/
def dimFillAssign (x : Arr n T) (rhs : ScalArg n T) : Arr n T :=
  forLoop n (fun i x => upd x i (rhs.read x)) x

/-- dimensioned_array.h:284-293 -/
def dimDiv (op : T → T → T) (x : Arr n T) (v : T) : Arr n T := dimScalAssign op x (.value v)

/-- free `operator+`, `operator-` of dimensioned arrays, dimensioned_array.h:312-353: copy, then `op=` -/
def dimOp (op : T → T → T) (x y : Arr n T) : Arr n T := dimOpAssign op x (.other y)

/-- initializer-list constructor, dimensioned_array.h:86-92, and
`array::assign(initializer_list)`, math/array.h:316-320 -/
def fromList (l : List T) (x : Arr n T) : Outcome (Arr n T) := do
  Outcome.assert (l.length == n)
  .ok (forLoop n (fun i x => match l[i.1]? with | some v => upd x i v | none => x) x)

/-! ## Binary operators of `math::array`: lines 510-716.  `tmp` is the uninitialised result -/

/-- `operator+ - * / (array, array)`, math/array.h:513-523, 563-573, 613-623, 664-674 -/
def binOp (op : T → T → T) (tmp x y : Arr n T) : Arr n T :=
  forLoop n (fun i tmp => upd tmp i (op (x i) (y i))) tmp
/-- with the scalar on the right, array.h:531-542, 581-592, 632-643 -/
def binScalRight (op : T → T → T) (tmp x : Arr n T) (v : T) : Arr n T :=
  forLoop n (fun i tmp => upd tmp i (op (x i) v)) tmp
/-- with the scalar on the left, array.h:544-555, 594-605, 645-656, 698-709 -/
def binScalLeft (op : T → T → T) (tmp : Arr n T) (v : T) (x : Arr n T) : Arr n T :=
  forLoop n (fun i tmp => upd tmp i (op v (x i))) tmp
/-- `operator/ (array, scalar)`, array.h:684-696: by the reciprocal -/
def divScal (mul div : T → T → T) (one : T) (tmp x : Arr n T) (v : T) : Arr n T :=
  let inv := div one v
  forLoop n (fun i tmp => upd tmp i (mul (x i) inv)) tmp
/-- unary minus, array.h:435-440 -/
def neg (op : T → T) (tmp x : Arr n T) : Arr n T :=
  forLoop n (fun i tmp => upd tmp i (op (x i))) tmp

/-! ## Comparisons, lines 454-500 -/

/-- `operator==(array, array)`: the loop with early return; math/array.h:454-463 -/
def eqFrom [DecidableEq T] (x y : Arr n T) (i : Nat) : Bool :=
  if h : i < n then
    if x ⟨i, h⟩ ≠ y ⟨i, h⟩ then false else eqFrom x y (i + 1)
  else true
termination_by n - i
/-- `operator==(array, array)`, math/array.h:454-463: the loop from the first element -/
def eq [DecidableEq T] (x y : Arr n T) : Bool := eqFrom x y 0

/-- `operator==(array, scalar)`; math/array.h:465-474 -/
def eqScal [DecidableEq T] (x : Arr n T) (v : T) : Bool := eq x (fun _ => v)

/-- `std::lexicographical_compare` on two ranges of the same length; called at math/array.h:476-479 -/
def ltFrom [LT T] [DecidableLT T] (x y : Arr n T) (i : Nat) : Bool :=
  if h : i < n then
    if x ⟨i, h⟩ < y ⟨i, h⟩ then true
    else if y ⟨i, h⟩ < x ⟨i, h⟩ then false
    else ltFrom x y (i + 1)
  else false
termination_by n - i
/-- `operator<`, array.h:476-479 -/
def lt [LT T] [DecidableLT T] (x y : Arr n T) : Bool := ltFrom x y 0
/-- `operator!=`, array.h:481-484 -/
def ne [DecidableEq T] (x y : Arr n T) : Bool := !(eq x y)
/-- `operator>`, array.h:486-489 -/
def gt [LT T] [DecidableLT T] (x y : Arr n T) : Bool := lt y x
/-- `operator<=`, array.h:490-493 -/
def le [LT T] [DecidableLT T] (x y : Arr n T) : Bool := !(lt y x)
/-- `operator>=`, array.h:494-497 -/
def ge [LT T] [DecidableLT T] (x y : Arr n T) : Bool := !(lt x y)

/-! ## Access: `operator[]`, `operator()` lines 180-204, `at` lines 210-225 -/

/-- `operator[]` and `operator()`, math/array.h:183-208 -/
def get (x : Arr n T) (i : Nat) : Outcome T :=
  if h : i < n then .ok (x ⟨i, h⟩) else .assertFail
/-- `at`, array.h:215-229 -/
def at' (x : Arr n T) (i : Nat) : Outcome T :=
  if i ≥ n then .outOfRange else if h : i < n then .ok (x ⟨i, h⟩) else .ub
/-- `empty()`, array.h:278: constantly false -/
def empty (_ : Arr n T) : Bool := false

end Verif.MathArray
