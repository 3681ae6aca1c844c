import Verif.Common.Outcome

/-!
# Model of `ristra/math/multi_array.h`: orderings, indexing and element access

Dimensions, indices and strides are lists of natural numbers (`size_t` without
wrap-around; a negative argument becomes a huge one and is out of range).  The elementwise
operators (lines 460-545, 650-900) are loops over the flat storage, literally those of
`math::array`, and are covered by `Verif.MathArray`.
-/

namespace Verif.MultiArray

/-- `stride(ids, N)`, multi_array.h:40-46 (row major) and 86-92 (column major, the same text): the
pointer `ids` is a suffix of the dimension array; reading `ids[1]` past the end is undefined -/
def stride : List Nat → Nat → Outcome Nat
  | _, 0 => .ok 1
  | _ :: d :: ds, n + 1 => do
    let r ← stride (d :: ds) n
    .ok (d * r)
  | _, _ + 1 => .ub

/-- expanding a pack of calls -/
def collect : List (Outcome Nat) → Outcome (List Nat)
  | [] => .ok []
  | o :: os => do
    let x ← o
    let xs ← collect os
    .ok (x :: xs)

/-- `row_major_ordering`, multi_array.h:53-69: `{{ stride(&ids[I], N-I-1)... }}` -/
def rowMajor (dims : List Nat) : Outcome (List Nat) :=
  collect ((List.range dims.length).map fun I => stride (dims.drop I) (dims.length - I - 1))

/-- `col_major_ordering`, multi_array.h:99-115: `{{ stride(&ids[N-I-1], I)... }}` -/
def colMajor (dims : List Nat) : Outcome (List Nat) :=
  collect ((List.range dims.length).map fun I => stride (dims.drop (dims.length - I - 1)) I)

/-- `elements = multiply(N...)`, multi_array.h:158 -/
def elements (dims : List Nat) : Nat := dims.foldr (· * ·) 1

/-- `element(ids)`, multi_array.h:563-572: `ind += ids[i]*strides_[i]` -/
def elementLoop (ind : Nat) : List Nat → List Nat → Nat
  | i :: is, s :: ss => elementLoop (ind + i * s) is ss
  | _, _ => ind
/-- `element(ids)`, multi_array.h:563-572: the loop from zero -/
def element (strides ids : List Nat) : Nat := elementLoop 0 ids strides

/-- `check_ranges`, multi_array.h:600-612: every index against its dimension, first to last -/
def checkRanges : List Nat → List Nat → Outcome Unit
  | i :: is, d :: ds => if i ≥ d then .outOfRange else checkRanges is ds
  | _, _ => .ok ()

/-- `assert_ranges`, multi_array.h:616-630 -/
def assertRanges : List Nat → List Nat → Outcome Unit
  | i :: is, d :: ds => if i < d then assertRanges is ds else .assertFail
  | _, _ => .ok ()

/-- `elems_[ind]` -/
def load (elems : List T) (ind : Nat) : Outcome T :=
  match elems[ind]? with | some x => .ok x | none => .ub

/-- `elems_[ind] = v` -/
def store (elems : List T) (ind : Nat) (v : T) : Outcome (List T) :=
  if ind < elems.length then .ok (elems.set ind v) else .ub

/-- `operator()(i...)`, multi_array.h:311-327 -/
def call (dims : List Nat) (elems : List T) (ids : List Nat) : Outcome T := do
  assertRanges ids dims
  let strides ← rowMajor dims
  load elems (element strides ids)

/-- `operator()(i...) = v` -/
def callStore (dims : List Nat) (elems : List T) (ids : List Nat) (v : T) : Outcome (List T) := do
  assertRanges ids dims
  let strides ← rowMajor dims
  store elems (element strides ids) v

/-- `at(i...)`, multi_array.h:334-349 -/
def at' (dims : List Nat) (elems : List T) (ids : List Nat) : Outcome T := do
  checkRanges ids dims
  let strides ← rowMajor dims
  load elems (element strides ids)

/-- `operator[](const size_type (&ids)[D])`, multi_array.h:288-302: no check -/
def index (dims : List Nat) (elems : List T) (ids : List Nat) : Outcome T := do
  let strides ← rowMajor dims
  load elems (element strides ids)

/-- `operator[](i)`, multi_array.h:270-280 -/
def flat (dims : List Nat) (elems : List T) (i : Nat) : Outcome T :=
  if i < elements dims then load elems i else .assertFail

/-- initializer-list constructor, multi_array.h:209-216, with `assign` 434-440 -/
def ofList (dims : List Nat) (l : List T) : Outcome (List T) :=
  match l with
  | [v] => .ok (List.replicate (elements dims) v)
  | _ => if l.length = elements dims then .ok l else .assertFail

end Verif.MultiArray
