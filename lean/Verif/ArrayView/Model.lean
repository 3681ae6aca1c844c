import Verif.Common.Outcome

/-!
# Model of `ristra/utils/array_view.h`

An `index_t<Rank>` is a list of integers of length `Rank` (`ptrdiff_t` without overflow).
Sizes, which the code accumulates in `size_t`, are integers as well (no wrap-around).
A pointer is an offset into the one buffer a view was made from, `none` is `nullptr`; memory
is the list of elements of that buffer.

Conversions between view types, iterators and `swap` are in `Iterators` and `Asking`.  Not modelled:
`array_view_impl.h`, which nothing includes.
-/

namespace Verif.ArrayView

/-- an `index_t` -/
abbrev Idx := List Int

/-! ## `index_t` comparisons and arithmetic -/

/-- `operator==`, array_view.h:283-286: `std::equal` -/
def idxEq (a b : Idx) : Bool := a == b

/-- `operator<`, array_view.h:300-306: true as soon as one component is less -/
def idxLt : Idx → Idx → Bool
  | a :: as, b :: bs => if a < b then true else idxLt as bs
  | _, _ => false

/-- `operator<=`, array_view.h:310 -/
def idxLe (a b : Idx) : Bool := !(idxLt b a)
/-- `operator>`, array_view.h:315 -/
def idxGt (a b : Idx) : Bool := idxLt b a
/-- `operator>=`, array_view.h:320 -/
def idxGe (a b : Idx) : Bool := !(idxGt b a)
/-- `operator!=`, array_view.h:291 -/
def idxNe (a b : Idx) : Bool := !(idxEq a b)

/-- `operator+`, array_view.h:339-367 -/
def idxAdd (a b : Idx) : Idx := List.zipWith (· + ·) a b
/-- `operator-`, array_view.h:349-378 -/
def idxSub (a b : Idx) : Idx := List.zipWith (· - ·) a b

/-! ## bounds -/

/-- `make_strides::stride`, array_view.h:47-53; `ids[1]` past the array is undefined -/
def stride : Idx → Nat → Outcome Int
  | _, 0 => .ok 1
  | _ :: d :: ds, n + 1 => do
    let r ← stride (d :: ds) n
    .ok (d * r)
  | _, _ + 1 => .ub

/-- expanding a pack of calls -/
def collect : List (Outcome Int) → Outcome (List Int)
  | [] => .ok []
  | o :: os => do
    let x ← o
    let xs ← collect os
    .ok (x :: xs)

/-- `make_strides::operator()`, array_view.h:55-96: `{{ stride(&ids[I], N-I-1)... }}` -/
def makeStrides (ids : Idx) : Outcome Idx :=
  collect ((List.range ids.length).map fun I => stride (ids.drop I) (ids.length - I - 1))

/-- the data of `strided_bounds` (array_view.h:798-800), `contiguous_bounds` (array_view.h:1054-1057) and
`static_bounds` (1264-1271): extents and strides -/
structure Bounds where
  ext : Idx
  str : Idx
deriving DecidableEq, Repr

/-- constructors from extents only, array_view.h:606-614, 629-632 (strided), 866-872, 888-899
(contiguous), 1264-1271 (static) -/
def ofExtents (ext : Idx) : Outcome Bounds := do
  let s ← makeStrides ext
  .ok ⟨ext, s⟩

/-- `contiguous_bounds(ArrayType&)`, array_view.h:878-885 and 1039-1044: the second initializer is
`strides_( extents... )` -/
def contiguousOfArray (ext : Idx) : Bounds := ⟨ext, ext⟩

/-- `strided_bounds(bounds, strides)`, array_view.h:637-646 -/
def ofStrides (ext str : Idx) : Bounds := ⟨ext, str⟩

/-- `contiguous_bounds::operator[]` used as an lvalue, array_view.h:908-909: changes an extent and
leaves the strides -/
def setExtent (b : Bounds) (i : Nat) (v : Int) : Bounds := ⟨b.ext.set i v, b.str⟩

/-- `size()`, array_view.h:683-689, 938-944 -/
def sizeLoop (ret : Int) : Idx → Int
  | [] => ret
  | n :: ns => sizeLoop (ret * n) ns
/-- `size()`, array_view.h:683-689, 938-944: the loop from one -/
def Bounds.size (b : Bounds) : Int := sizeLoop 1 b.ext

/-- `strided_bounds::total_size()`, array_view.h:692-698 -/
def totalLoop (ret : Int) : Idx → Idx → Int
  | n :: ns, s :: ss => totalLoop (ret + (n - 1) * s) ns ss
  | _, _ => ret
/-- `strided_bounds::total_size()`, array_view.h:692-698: the loop from one -/
def Bounds.totalSize (b : Bounds) : Int := totalLoop 1 b.ext b.str

/-- `contains`, array_view.h:703-709, 955-961, 1177-1183 -/
def contains : Idx → Idx → Bool
  | i :: is, n :: ns => if i < 0 || i ≥ n then false else contains is ns
  | _, _ => true

/-- `linearize`, array_view.h:724-729, 980-986, 1202-1208 -/
def linLoop (off : Int) : Idx → Idx → Int
  | i :: is, s :: ss => linLoop (off + i * s) is ss
  | _, _ => off
/-- `linearize`, array_view.h:724-729, 980-986, 1202-1208: the first term, then the loop -/
def Bounds.linearize (b : Bounds) (idx : Idx) : Int :=
  match idx, b.str with
  | i :: is, s :: ss => linLoop (i * s) is ss
  | _, _ => 0

/-- `strided_bounds::slice`, array_view.h:732-736, with `shift_left`, array_view.h:250-256 -/
def Bounds.sliceStrided (b : Bounds) : Bounds := ⟨b.ext.tail, b.str.tail⟩

/-- `contiguous_bounds::slice`, array_view.h:989-993 (`static_bounds::slice`, 1216-1219, builds the
same numbers at compile time): new strides from the remaining extents -/
def Bounds.sliceContiguous (b : Bounds) : Outcome Bounds := ofExtents b.ext.tail

/-! ## `bounds_iterator` -/

/-- how a loop with a `return` inside leaves -/
inductive LoopExit where
  | ret (cur : Idx)
  | fell (cur : Idx)
deriving DecidableEq, Repr

/-- the loop of `operator++`, array_view.h:1364-1370: `i` counts the components still to visit -/
def incLoop (b cur : Idx) : Nat → LoopExit
  | 0 => .fell cur
  | i + 1 =>
    if cur.getD i 0 < b.getD i 0 - 1 then .ret (cur.set i (cur.getD i 0 + 1))
    else incLoop b (cur.set i 0) i

/-- `operator++`, array_view.h:1362-1374 -/
def inc (b cur : Idx) : Idx :=
  match incLoop b cur b.length with
  | .ret c => c
  | .fell _ => b

/-- the loop of `operator--`, array_view.h:1394-1400 -/
def decLoop (b cur : Idx) : Nat → LoopExit
  | 0 => .fell cur
  | i + 1 =>
    if cur.getD i 0 ≥ 1 then .ret (cur.set i (cur.getD i 0 - 1))
    else decLoop b (cur.set i (b.getD i 0 - 1)) i

/-- `operator--`, array_view.h:1385-1405 -/
def dec (b cur : Idx) : Outcome Idx :=
  if idxGe cur b then .ok (b.map (· - 1))
  else
    match decLoop b cur b.length with
    | .ret c => .ok c
    | .fell _ => .throws "runtime_error"

/-- `begin()`, array_view.h:740: the zero index -/
def beginIdx (b : Idx) : Idx := List.replicate b.length 0
/-- `end()`, array_view.h:745: the bounds themselves -/
def endIdx (b : Idx) : Idx := b

/-- the two loops of `linearize`, array_view.h:1530-1552: from the last component to the first,
carrying `(res, multiplier)`; `d` is 1 in the past-the-end branch and 0 otherwise -/
def itLinLoop (d res0 : Int) : Idx → Idx → Int × Int
  | i :: is, n :: ns =>
    let (res, mult) := itLinLoop d res0 is ns
    (res + (i - d) * mult, mult * n)
  | _, _ => (res0, 1)

/-- `bounds_iterator::linearize`, array_view.h:1530-1552 -/
def itLinearize (b idx : Idx) : Int :=
  if idxGe idx b then (itLinLoop 1 1 idx b).1 else (itLinLoop 0 0 idx b).1

/-- iterator difference, array_view.h:1464-1467 -/
def itDiff (b x y : Idx) : Int := itLinearize b x - itLinearize b y

/-- the stride array of `operator+=`, array_view.h:1436-1440 -/
def advStrides : Idx → Idx
  | [] => []
  | [_] => [1]
  | _ :: n :: ns =>
    match advStrides (n :: ns) with
    | s :: ss => (s * n) :: s :: ss
    | [] => []

/-- the division loop of `operator+=`, array_view.h:1441-1444 (C++ `/` and `%` truncate; dividing by
zero is undefined) -/
def advLoop (lin : Int) : Idx → Outcome Idx
  | [] => .ok []
  | s :: ss =>
    if s = 0 then .ub
    else do
      let r ← advLoop (lin.tmod s) ss
      .ok (lin.tdiv s :: r)

/-- `operator+=`, array_view.h:1433-1448.  Line 1436 `value_type stride = 0;` only compiles for rank
one (`index_t` has no constructor from a single integer otherwise), so for a larger rank any
use of this function is rejected by the compiler; the model gives the line the meaning it
evidently intends. -/
def advance (b cur : Idx) (n : Int) : Outcome Idx := do
  let c ← advLoop (itLinearize b cur + n) (advStrides b)
  Outcome.assert (idxGe c (beginIdx b) && idxGe b c)
  .ok c

/-- `for (it = begin; it != end; ++it)` collecting `*it`; `fuel` bounds the steps -/
def collectFrom (b cur : Idx) : Nat → Outcome (List Idx)
  | 0 => .diverges
  | fuel + 1 =>
    if idxEq cur (endIdx b) then .ok []
    else do
      let r ← collectFrom b (inc b cur) fuel
      .ok (cur :: r)

/-! ## views -/

/-- the data of `strided_array_view` (array_view.h:2518-2520), `array_view` (array_view.h:3033-3035) and
`static_array_view` -/
structure View where
  data : Option Int
  bnd : Bounds
deriving DecidableEq, Repr

/-- default construction, e.g. array_view.h:2050 and 2518: a null pointer and zero bounds -/
def View.default (rank : Nat) : View := ⟨none, ⟨List.replicate rank 0, List.replicate rank 0⟩⟩

/-- `*(p)` where `p` points into a buffer -/
def load (mem : List T) (p : Int) : Outcome T :=
  if 0 ≤ p then (match mem[p.toNat]? with | some x => .ok x | none => .ub) else .ub

/-- the address `data_ + linearize(idx)` -/
def View.addr (v : View) (idx : Idx) : Option Int := v.data.map (· + v.bnd.linearize idx)

/-- `operator[](index)` and `operator()(i...)`, array_view.h:2265-2268, 2282-2290 -/
def View.get (mem : List T) (v : View) (idx : Idx) : Outcome T :=
  match v.addr idx with
  | some p => load mem p
  | none => .ub

/-- `at(index)`, array_view.h:2274-2280, 2783-2789, 3292-3298: declared `noexcept`, so the `throw`
calls `std::terminate` -/
def View.at' (mem : List T) (v : View) (idx : Idx) : Outcome T :=
  if contains idx v.bnd.ext then v.get mem idx else .throws "terminate"

/-- container constructors, array_view.h:2154-2167, 2676-2689, 3185-3198 -/
def ofContainer (n : Nat) (b : Bounds) : Outcome View := do
  Outcome.assert ((n : Int) ≥ b.size)
  .ok ⟨some 0, b⟩

/-- `strided_array_view::operator[](size_t)`, array_view.h:2301-2305 -/
def View.sliceStrided (v : View) (i : Nat) : View :=
  ⟨v.data.map (· + i * v.bnd.str.headD 0), v.bnd.sliceStrided⟩

/-- `array_view::operator[](size_t)`, array_view.h:2810-2814 -/
def View.sliceContiguous (v : View) (i : Nat) : Outcome View := do
  let b ← v.bnd.sliceContiguous
  .ok ⟨v.data.map (· + i * v.bnd.str.headD 0), b⟩

/-- the checked `slice(size_t)`, array_view.h:2312-2319, 2821-2828: the comparison is made in
`size_t`, here for non-negative extents -/
def View.slice (v : View) (i : Nat) : Outcome View :=
  if (i : Int) ≥ v.bnd.ext.headD 0 then .outOfRange else .ok (v.sliceStrided i)
/-- the checked `slice(size_t)` of a contiguous view, array_view.h:2821-2828 -/
def View.sliceC (v : View) (i : Nat) : Outcome View :=
  if (i : Int) ≥ v.bnd.ext.headD 0 then .outOfRange else v.sliceContiguous i

/-- `section(origin)`, array_view.h:2329-2334, 2838-2843; that of a static view (3350-3355) is in `Asking` -/
def View.sectionFrom (v : View) (origin : Idx) : Outcome View := do
  Outcome.assert (contains origin v.bnd.ext)
  .ok ⟨v.addr origin, ofStrides (idxSub v.bnd.ext origin) v.bnd.str⟩

/-- `section(origin, bnds)`, array_view.h:2336-2343, 2845-2852; that of a static view (3357-3364) is in `Asking` -/
def View.section (v : View) (origin bnds : Idx) : Outcome View := do
  Outcome.assert (contains origin v.bnd.ext)
  Outcome.assert (idxLe (idxAdd origin bnds) v.bnd.ext)
  .ok ⟨v.addr origin, ofStrides bnds v.bnd.str⟩

/-- `empty()`, array_view.h:2221, 2731, 3239 -/
def View.empty (v : View) : Bool := v.data.isSome

/-- `explicit operator bool`, array_view.h:2252, 2761 -/
def View.toBool (v : View) : Bool := v.data.isSome

/-- `std::equal(begin, end, other.begin())` over two `strided_iterator`s (array_view.h:1574-1770) -/
def equalLoop [BEq T] (m1 m2 : List T) (v w : View) (c d : Idx) : Nat → Outcome Bool
  | 0 => .diverges
  | fuel + 1 =>
    if idxEq c (endIdx v.bnd.ext) then .ok true
    else do
      let x ← v.get m1 c
      let y ← w.get m2 d
      if x == y then equalLoop m1 m2 v w (inc v.bnd.ext c) (inc w.bnd.ext d) fuel else .ok false

/-- `strided_array_view::operator==`, array_view.h:2421-2425; `same` says that the two buffers are the
same object, needed to compare pointers -/
def eqStrided [BEq T] (fuel : Nat) (same : Bool) (m1 m2 : List T) (v w : View) : Outcome Bool :=
  if v.bnd.size == w.bnd.size then
    if (v.data == w.data && (same || v.data.isNone)) then .ok true
    else equalLoop m1 m2 v w (beginIdx v.bnd.ext) (beginIdx w.bnd.ext) fuel
  else .ok false

/-- `std::equal` over two `contiguous_iterator`s (array_view.h:1777-1975): `n` elements from each pointer -/
def equalPtr [BEq T] (m1 m2 : List T) (p q : Int) : Nat → Outcome Bool
  | 0 => .ok true
  | n + 1 => do
    let x ← load m1 p
    let y ← load m2 q
    if x == y then equalPtr m1 m2 (p + 1) (q + 1) n else .ok false

/-- `array_view::operator==`, array_view.h:2936-2940, and `static_array_view`, 3455-3460 -/
def eqContiguous [BEq T] (same : Bool) (m1 m2 : List T) (v w : View) : Outcome Bool :=
  if v.bnd.size == w.bnd.size then
    if (v.data == w.data && (same || v.data.isNone)) then .ok true
    else
      match v.data, w.data with
      | some p, some q => equalPtr m1 m2 p q v.bnd.size.toNat
      | _, _ => if v.bnd.size = 0 then .ok true else .ub
  else .ok false

/-- `std::lexicographical_compare` over two `contiguous_iterator`s -/
def lexPtr (lt : T → T → Bool) (m1 m2 : List T) (p q : Int) : Nat → Nat → Outcome Bool
  | _, 0 => .ok false
  | 0, _ + 1 => .ok true
  | n + 1, k + 1 => do
    let x ← load m1 p
    let y ← load m2 q
    if lt x y then .ok true
    else if lt y x then .ok false
    else lexPtr lt m1 m2 (p + 1) (q + 1) n k

/-- `array_view::operator<`, array_view.h:2959-2962 -/
def ltContiguous (lt : T → T → Bool) (m1 m2 : List T) (v w : View) : Outcome Bool :=
  match v.data, w.data with
  | some p, some q => lexPtr lt m1 m2 p q v.bnd.size.toNat w.bnd.size.toNat
  | _, _ => .ub

end Verif.ArrayView
