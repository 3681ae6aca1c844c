import Verif.Common.Outcome
import Verif.FixedVector.Spec

/-!
# Model of `ristra/utils/fixed_vector.h`

`cells` models the member `std::array<T,N> data_` (line 372), `len` the member
`length_` (line 374); `N = cells.length`.  Iterators are modelled by their offset
from `begin()`.  Cells beyond `len` hold whatever was left there.

Simplifications: template/iterator-category dispatch is dropped; `std::distance` of
the caller's own ranges is the length of the list passed; object lifetime is not
modelled (all `N` cells are always constructed, as in the code).
-/

namespace Verif.FixedVector

/-- `fixed_vector<T,N>`: fixed_vector.h:28-376 (data members 372-374). -/
structure FV (T : Type u) where
  cells : List T
  len : Nat
deriving Repr, DecidableEq

/-- How the library moves a block of elements to an overlapping place.
`std::copy`/`std::move` (called at fixed_vector.h:184, 200, 218, 242, 262, 283, 303) are
`memmove` for trivially copyable `T`, and otherwise an element loop going left to
right, in which a moved-from source element is left as `residue x` (for `std::copy`
the residue is `x` itself). -/
inductive Mode (T : Type u) where
  | memmove
  | loop (residue : T → T)

/-- `data_[i] = x`; outside the array: undefined. -/
def write (c : List T) (i : Nat) (x : T) : Outcome (List T) :=
  if i < c.length then .ok (c.set i x) else .ub

/-- reading `data_[i]`; outside the array: undefined. -/
def read (c : List T) (i : Nat) : Outcome T :=
  match c[i]? with
  | some x => .ok x
  | none => .ub

/-- write a list of values to consecutive cells, left to right
(`std::copy` from a foreign range, `std::fill_n`). -/
def writeList (c : List T) (i : Nat) : List T → Outcome (List T)
  | [] => .ok c
  | x :: xs => do
    let c ← write c i x
    writeList c (i + 1) xs

/-- read `n` consecutive cells -/
def readList (c : List T) (i : Nat) : Nat → Outcome (List T)
  | 0 => .ok []
  | n + 1 => do
    let x ← read c i
    let xs ← readList c (i + 1) n
    .ok (x :: xs)

/-- the left-to-right element loop of `std::copy` / `std::move` -/
def moveLoop (residue : T → T) (c : List T) (src dst : Nat) : Nat → Outcome (List T)
  | 0 => .ok c
  | n + 1 => do
    let x ← read c src
    let c ← write c src (residue x)
    let c ← write c dst x
    moveLoop residue c (src + 1) (dst + 1) n

/-- `std::copy/std::move([src,last), dst)` inside the array; a range whose end lies
before its begin is undefined. -/
def shift (m : Mode T) (c : List T) (src last dst : Nat) : Outcome (List T) :=
  if last < src then .ub else
  match m with
  | .memmove => do
    let xs ← readList c src (last - src)
    writeList c dst xs
  | .loop res => moveLoop res c src dst (last - src)

/-- `_validate_iterator`: fixed_vector.h:360-365 (offsets are never negative here) -/
def validate (v : FV T) (pos : Nat) : Outcome Nat := do
  Outcome.assert (pos ≤ v.len)
  .ok pos

/-- fixed_vector.h:51: default constructor; cells are uninitialised -/
def FV.mk0 (cells : List T) : FV T := ⟨cells, 0⟩

/-- copy constructor, fixed_vector.h:53-57 (`std::copy_n` into the fresh cells) -/
def copyCtor (fresh : List T) (o : FV T) : Outcome (FV T) := do
  let xs ← readList o.cells 0 o.len
  let c ← writeList fresh 0 xs
  .ok ⟨c, o.len⟩

/-- fixed_vector.h:90-95 -/
def assignFill (v : FV T) (n : Nat) (x : T) : Outcome (FV T) := do
  Outcome.assert (n ≤ v.cells.length)
  let c ← writeList v.cells 0 (List.replicate n x)
  .ok ⟨c, n⟩

/-- fixed_vector.h:97-103 and 105-110 -/
def assignList (v : FV T) (xs : List T) : Outcome (FV T) := do
  Outcome.assert (xs.length ≤ v.cells.length)
  let c ← writeList v.cells 0 xs
  .ok ⟨c, xs.length⟩

/-- fixed_vector.h:118-129 -/
def at' (v : FV T) (i : Nat) : Outcome T :=
  if i ≥ v.len then .outOfRange else read v.cells i

/-- fixed_vector.h:131-135 -/
def front (v : FV T) : Outcome T := read v.cells 0
/-- fixed_vector.h:132,135: `data_[size()-1]`; for an empty vector the index wraps around and
is out of range. -/
def back (v : FV T) : Outcome T := if v.len = 0 then .ub else read v.cells (v.len - 1)

/-- the value argument of `insert`: either an object outside the vector or a reference
to a cell of the vector itself -/
inductive Arg (T : Type u) where
  | ext (x : T)
  | cell (i : Nat)

/-- reading the argument when it is used -/
def Arg.deref (c : List T) : Arg T → Outcome T
  | .ext x => .ok x
  | .cell i => read c i

/-- fixed_vector.h:177-191 (and 193-207): note that `value` is read *after* the shift. -/
def insertArg (m : Mode T) (v : FV T) (pos : Nat) (a : Arg T) : Outcome (FV T × Nat) := do
  Outcome.assert (v.len < v.cells.length)
  let d ← validate v pos
  let c ← shift m v.cells d v.len (d + 1)
  let x ← a.deref c
  let c ← write c d x
  .ok (⟨c, v.len + 1⟩, d)

/-- fixed_vector.h:209-225 -/
def insertFill (m : Mode T) (v : FV T) (pos n : Nat) (x : T) : Outcome (FV T × Nat) := do
  Outcome.assert (v.len + n ≤ v.cells.length)
  let d ← validate v pos
  if n = 0 then .ok (v, d) else do
    let c ← shift m v.cells d v.len (d + n)
    let c ← writeList c d (List.replicate n x)
    .ok (⟨c, v.len + n⟩, d)

/-- fixed_vector.h:231-249 -/
def insertRange (m : Mode T) (v : FV T) (pos : Nat) (ys : List T) : Outcome (FV T × Nat) := do
  Outcome.assert (v.len + ys.length ≤ v.cells.length)
  let d ← validate v pos
  if ys.length = 0 then .ok (v, d) else do
    let c ← shift m v.cells d v.len (d + ys.length)
    let c ← writeList c d ys
    .ok (⟨c, v.len + ys.length⟩, d)

/-- fixed_vector.h:251-269: the iterator is not validated -/
def insertIList (m : Mode T) (v : FV T) (pos : Nat) (ys : List T) : Outcome (FV T × Nat) := do
  Outcome.assert (v.len + ys.length ≤ v.cells.length)
  if ys.length = 0 then .ok (v, pos) else do
    let c ← shift m v.cells pos v.len (pos + ys.length)
    let c ← writeList c pos ys
    .ok (⟨c, v.len + ys.length⟩, pos)

/-- fixed_vector.h:273-288 -/
def erase (m : Mode T) (v : FV T) (pos : Nat) : Outcome (FV T × Nat) :=
  if v.len = 0 then .ok (v, v.len) else do
    let d ← validate v pos
    let c ← if d + 1 ≠ v.len then shift m v.cells (d + 1) v.len d else .ok v.cells
    .ok (⟨c, v.len - 1⟩, d)

/-- fixed_vector.h:290-308 (`std::distance` of a reversed pair: undefined for the caller) -/
def eraseRange (m : Mode T) (v : FV T) (first last : Nat) : Outcome (FV T × Nat) :=
  if v.len = 0 then .ok (v, v.len) else
  if first = last then .ok (v, 0) else
  if last < first then .ub else do
    let d ← validate v first
    let l ← validate v last
    let c ← if last ≠ v.len then shift m v.cells l v.len d else .ok v.cells
    .ok (⟨c, v.len - (last - first)⟩, d)

/-- fixed_vector.h:310-327 -/
def pushBack (v : FV T) (x : T) : Outcome (FV T) := do
  Outcome.assert (v.len < v.cells.length)
  let c ← write v.cells v.len x
  .ok ⟨c, v.len + 1⟩

/-- fixed_vector.h:329-333 -/
def popBack (v : FV T) : FV T := if v.len = 0 then v else ⟨v.cells, v.len - 1⟩

/-- fixed_vector.h:175 -/
def clear (v : FV T) : FV T := ⟨v.cells, 0⟩

/-- fixed_vector.h:335-339: new elements are whatever the cells held -/
def resize (v : FV T) (n : Nat) : Outcome (FV T) := do
  Outcome.assert (n ≤ v.cells.length)
  .ok ⟨v.cells, n⟩

/-- fixed_vector.h:340-346 -/
def resizeFill (v : FV T) (n : Nat) (x : T) : Outcome (FV T) := do
  Outcome.assert (n ≤ v.cells.length)
  let c ← writeList v.cells v.len (List.replicate (n - v.len) x)
  .ok ⟨c, n⟩

/-- fixed_vector.h:348-352 -/
def swap (a b : FV T) : FV T × FV T := (⟨b.cells, b.len⟩, ⟨a.cells, a.len⟩)

/-- `v[i] = x` through `operator[]`, fixed_vector.h:115-116 (unchecked) -/
def setAt (v : FV T) (i : Nat) (x : T) : Outcome (FV T) := do
  let c ← write v.cells i x
  .ok ⟨c, v.len⟩

/-- the loop of `std::equal(first, last, other)` : `n` comparisons -/
def equalLoop [DecidableEq T] (a b : List T) (i : Nat) : Nat → Outcome Bool
  | 0 => .ok true
  | n + 1 => do
    let x ← read a i
    let y ← read b i
    if x = y then equalLoop a b (i + 1) n else .ok false

/-- fixed_vector.h:382-387: only `lhs.size()` elements are compared -/
def eqOp [DecidableEq T] (a b : FV T) : Outcome Bool := equalLoop a.cells b.cells 0 a.len

/-- One call of the container, with the offset returned (if any). -/
def step (m : Mode T) (v : FV T) : Op T → Outcome (FV T × Option Nat)
  | .pushBack x => do let v ← pushBack v x; .ok (v, none)
  | .popBack => .ok (popBack v, none)
  | .clear => .ok (clear v, none)
  | .assignFill n x => do let v ← assignFill v n x; .ok (v, none)
  | .assignList xs => do let v ← assignList v xs; .ok (v, none)
  | .resizeFill n x => do let v ← resizeFill v n x; .ok (v, none)
  | .insert pos x => do let (v, i) ← insertArg m v pos (.ext x); .ok (v, some i)
  | .insertFill pos n x => do let (v, i) ← insertFill m v pos n x; .ok (v, some i)
  | .insertRange pos ys => do let (v, i) ← insertRange m v pos ys; .ok (v, some i)
  | .insertIList pos ys => do let (v, i) ← insertIList m v pos ys; .ok (v, some i)
  | .erase pos => do let (v, i) ← erase m v pos; .ok (v, some i)
  | .eraseRange a b => do let (v, i) ← eraseRange m v a b; .ok (v, some i)
  | .setAt i x => do let v ← setAt v i x; .ok (v, none)

/-- A history of calls. -/
def run (m : Mode T) (v : FV T) : List (Op T) → Outcome (FV T)
  | [] => .ok v
  | op :: ops => do
    let (v, _) ← step m v op
    run m v ops

/-- what a client sees by iterating from `begin()` to `end()`, fixed_vector.h:145-148 -/
def FV.contents (v : FV T) : List T := v.cells.take v.len

end Verif.FixedVector
