import Verif.MultiArray.Model

/-!
# Model of `ristra/math/multi_array.h`: operators, comparison, fill, swap and assign

The storage of an array of shape `dims` is a list of `elements dims` values.  The loop counter
`select_counter_t<elements>` counts to `elements` without wrapping (`C68_select_counter` in
`Verif.TupleUtils`).  The result array of a binary operator starts uninitialised (`tmp`).
Arithmetic is that of the element type, given by the operation; rounding is not modelled here.
-/

namespace Verif.MultiArray

section
variable {T : Type}

/-- `for (i; i < elements; i++) elems_[i] = body(i)`, with `k` elements to go; the body sees the
contents so far -/
def storeLoop (body : Nat → List T → Outcome T) (elems : List T) (i : Nat) : Nat → Outcome (List T)
  | 0 => .ok elems
  | k + 1 => body i elems >>= fun v => store elems i v >>= fun e => storeLoop body e (i + 1) k

/-- the array on the right of a compound assignment: another object or the object itself -/
inductive ArrArg (T : Type) where
  | other (y : List T)
  | self

/-- the scalar on the right, which is taken by reference: another object or an element -/
inductive ScalArg (T : Type) where
  | value (v : T)
  | element (k : Nat)

/-- reading element `i` of the right-hand array when `elems` has come that far -/
def ArrArg.read (elems : List T) : ArrArg T → Nat → Outcome T
  | .other y, i => load y i
  | .self, i => load elems i

/-- reading the right-hand scalar when `elems` has come that far -/
def ScalArg.read (elems : List T) : ScalArg T → Outcome T
  | .value v => .ok v
  | .element k => load elems k

/-- `operator+=, -=, *=, /= (multi_array)`, multi_array.h:469-473, 487-491, 506-510, 524-528 -/
def opAssign (dims : List Nat) (op : T → T → T) (elems : List T) (rhs : ArrArg T) : Outcome (List T) :=
  storeLoop (fun i e => load e i >>= fun x => rhs.read e i >>= fun y => .ok (op x y)) elems 0 (elements dims)

/-- `operator+=, -=, *= (const T2 & val)`, multi_array.h:478-482, 496-500, 515-519: `val` is read again in
every step -/
def scalAssign (dims : List Nat) (op : T → T → T) (elems : List T) (rhs : ScalArg T) : Outcome (List T) :=
  storeLoop (fun i e => load e i >>= fun x => rhs.read e >>= fun y => .ok (op x y)) elems 0 (elements dims)

/-- `operator/= (const T2 & val)`, multi_array.h:533-538: multiplies by a reciprocal computed once -/
def divAssign (dims : List Nat) (mul div : T → T → T) (one : T) (elems : List T) (rhs : ScalArg T) : Outcome (List T) :=
  rhs.read elems >>= fun v =>
    storeLoop (fun i e => load e i >>= fun x => .ok (mul x (div one v))) elems 0 (elements dims)

/-- `fill`, multi_array.h:417-420, and `operator= (const T2 &)`, multi_array.h:459-463 -/
def fill (dims : List Nat) (elems : List T) (rhs : ScalArg T) : Outcome (List T) :=
  storeLoop (fun _ e => rhs.read e) elems 0 (elements dims)

/-- `operator= (const multi_array<T2> &)` from another object, multi_array.h:450-455, with the conversion -/
def convAssign {U : Type} (dims : List Nat) (conv : U → T) (elems : List T) (rhs : List U) : Outcome (List T) :=
  storeLoop (fun i _ => load rhs i >>= fun y => .ok (conv y)) elems 0 (elements dims)

/-- unary minus, multi_array.h:543-547 -/
def neg (dims : List Nat) (op : T → T) (tmp elems : List T) : Outcome (List T) :=
  storeLoop (fun i _ => load elems i >>= fun x => .ok (op x)) tmp 0 (elements dims)

/-- `operator+ - * / (multi_array, multi_array)`, multi_array.h:711-720, 758-767, 805-814, 853-862; the
elements are read through the checked `operator[]` -/
def binOp (dims : List Nat) (op : T → T → T) (tmp x y : List T) : Outcome (List T) :=
  storeLoop (fun i _ => flat dims x i >>= fun a => flat dims y i >>= fun b => .ok (op a b)) tmp 0 (elements dims)

/-- with the scalar on the right, multi_array.h:728-738, 775-785, 823-833 -/
def binScalRight (dims : List Nat) (op : T → T → T) (tmp x : List T) (v : T) : Outcome (List T) :=
  storeLoop (fun i _ => flat dims x i >>= fun a => .ok (op a v)) tmp 0 (elements dims)

/-- with the scalar on the left, multi_array.h:740-750, 787-797, 835-845, 885-895 -/
def binScalLeft (dims : List Nat) (op : T → T → T) (tmp : List T) (v : T) (x : List T) : Outcome (List T) :=
  storeLoop (fun i _ => flat dims x i >>= fun a => .ok (op v a)) tmp 0 (elements dims)

/-- `operator/ (multi_array, scalar)`, multi_array.h:872-883: by the reciprocal -/
def divScal (dims : List Nat) (mul div : T → T → T) (one : T) (tmp x : List T) (v : T) : Outcome (List T) :=
  storeLoop (fun i _ => flat dims x i >>= fun a => .ok (mul a (div one v))) tmp 0 (elements dims)

/-- `swap`, multi_array.h:410-412 and 698-701; different objects -/
def swapLoop (x y : List T) (i : Nat) : Nat → Outcome (List T × List T)
  | 0 => .ok (x, y)
  | k + 1 => load x i >>= fun a => load y i >>= fun b => store x i b >>= fun x => store y i a >>= fun y =>
      swapLoop x y (i + 1) k

/-- `swap`, multi_array.h:410-412: the whole range -/
def swap (dims : List Nat) (x y : List T) : Outcome (List T × List T) := swapLoop x y 0 (elements dims)

/-- `assign(first, last)`, multi_array.h:426-430: `std::copy` to the beginning, from index `i` on -/
def assignFrom (elems : List T) (i : Nat) : List T → Outcome (List T)
  | [] => .ok elems
  | v :: vs => store elems i v >>= fun e => assignFrom e (i + 1) vs

/-- `assign(first, last)`, multi_array.h:426-430 -/
def assign (elems range : List T) : Outcome (List T) := assignFrom elems 0 range

/-- `operator==(multi_array, multi_array)`, multi_array.h:653-661, from index `i` with `k` to go -/
def eqLoop [DecidableEq T] (dims : List Nat) (x y : List T) (i : Nat) : Nat → Outcome Bool
  | 0 => .ok true
  | k + 1 => flat dims x i >>= fun a => flat dims y i >>= fun b =>
      if a ≠ b then .ok false else eqLoop dims x y (i + 1) k

/-- `operator==(multi_array, multi_array)`, multi_array.h:653-661: from the first element -/
def eq [DecidableEq T] (dims : List Nat) (x y : List T) : Outcome Bool := eqLoop dims x y 0 (elements dims)

/-- `operator==(multi_array, scalar)`, multi_array.h:663-671 -/
def eqScalLoop [DecidableEq T] (dims : List Nat) (x : List T) (v : T) (i : Nat) : Nat → Outcome Bool
  | 0 => .ok true
  | k + 1 => flat dims x i >>= fun a => if a ≠ v then .ok false else eqScalLoop dims x v (i + 1) k

/-- `operator==(multi_array, scalar)`, multi_array.h:663-671: from the first element -/
def eqScal [DecidableEq T] (dims : List Nat) (x : List T) (v : T) : Outcome Bool :=
  eqScalLoop dims x v 0 (elements dims)

/-- `std::lexicographical_compare`, and `operator<`, multi_array.h:674-677 -/
def lt [LT T] [DecidableLT T] : List T → List T → Bool
  | _, [] => false
  | [], _ :: _ => true
  | a :: as, b :: bs => if a < b then true else if b < a then false else lt as bs

/-- multi_array.h:679-694 -/
def ne [DecidableEq T] (dims : List Nat) (x y : List T) : Outcome Bool := eq dims x y >>= fun b => .ok (!b)
/-- `operator>`, multi_array.h:684-686 -/
def gt [LT T] [DecidableLT T] (x y : List T) : Bool := lt y x
/-- `operator<=`, multi_array.h:688-690 -/
def le [LT T] [DecidableLT T] (x y : List T) : Bool := !(lt y x)
/-- `operator>=`, multi_array.h:692-694 -/
def ge [LT T] [DecidableLT T] (x y : List T) : Bool := !(lt x y)

/-- `front` and `back`, multi_array.h:353-366; an array has at least one element -/
def front (elems : List T) : Outcome T := load elems 0
/-- `back`, multi_array.h:361-366 -/
def back (dims : List Nat) (elems : List T) : Outcome T := load elems (elements dims - 1)

end

end Verif.MultiArray
