import Mathlib.Order.Defs.LinearOrder

/-!
# Model of `ristra/utils/algorithm.h`

`std::sort` is any function meeting its contract (`Sorts`); `std::set_intersection` and
`std::unique` are modelled by the loops the standard describes.
-/

namespace Verif.Algorithm

/-- contract of `std::sort` on a totally ordered element type -/
def Sorts [LinearOrder α] (sort : List α → List α) : Prop :=
  ∀ l, (sort l).Perm l ∧ (sort l).Pairwise (· ≤ ·)

/-- `std::set_intersection`: while both ranges are non-empty, skip the smaller head, or emit
the common head and advance both -/
def setIntersection [LinearOrder α] : List α → List α → List α
  | [], _ => []
  | _ :: _, [] => []
  | a :: as, b :: bs =>
    if a < b then setIntersection as (b :: bs)
    else if b < a then setIntersection (a :: as) bs
    else a :: setIntersection as bs
termination_by as bs => as.length + bs.length

/-- `unsorted_set_intersection`, algorithm.h:29-46: `out` is what the output iterator has already
received -/
def unsortedSetIntersection [LinearOrder α] (sort : List α → List α) (xs ys out : List α) : List α :=
  out ++ setIntersection (sort xs) (sort ys)

/-- `std::unique` after the first element: `kept` is the last element retained -/
def uniqueLoop [DecidableEq α] (kept : α) : List α → List α
  | [] => []
  | x :: xs => if kept = x then uniqueLoop kept xs else x :: uniqueLoop x xs

/-- `remove_duplicates`, algorithm.h:52-58: `unique`, then erase the tail -/
def removeDuplicates [DecidableEq α] : List α → List α
  | [] => []
  | x :: xs => x :: uniqueLoop x xs

end Verif.Algorithm
