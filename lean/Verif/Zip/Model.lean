import Verif.Common.Outcome

/-!
# Model of `ristra/utils/zip.h`, `zip_impl.h` and `tasks.h`

The zipped containers are distinct objects with elements of one type `α` (a sum of the
actual element types); a container is a list and an iterator is a position in it.
-/

namespace Verif.Zip

/-- `not_equal_tuples`, zip_impl.h:119-133 -/
def notEqualTuples : List Nat → List Nat → Bool
  | [a], [b] => a != b
  | a :: as, b :: bs => a != b && notEqualTuples as bs
  | _, _ => false

/-- `increment`, zip_impl.h:98-109 -/
def increment : List Nat → List Nat
  | [] => []
  | p :: ps => (p + 1) :: increment ps

/-- `dereference_tuple`, zip_impl.h:167-183 (the tuple of references, read) -/
def dereference : List (List α) → List Nat → Outcome (List α)
  | r :: rs, p :: ps =>
    match r[p]? with
    | some x => do
      let xs ← dereference rs ps
      .ok (x :: xs)
    | none => .ub
  | _, _ => .ok []

/-- assigning through the references held in the tuple at positions `cur` -/
def assign : List (List α) → List Nat → List α → List (List α)
  | r :: rs, p :: ps, v :: vs => r.set p v :: assign rs ps vs
  | rs, _, _ => rs

/-- The body of a loop over a zipped range.  It sees the tuple of current values and its own
state, and gives the next state and the value left in each referenced element. -/
abbrev Body (σ α : Type) := σ → List α → σ × (Nat → α)

/-- `for (auto it : zipper) body(it)`: zipper begin/end zip_impl.h:268-297, `!=`, `++`, `*` lines
246-265; at most `fuel` evaluations of the loop condition -/
def forEach (body : Body σ α) (last : List Nat) :
    Nat → List Nat → σ → List (List α) → Outcome (σ × List (List α))
  | 0, _, _, _ => .diverges
  | fuel + 1, cur, s, rs =>
    if notEqualTuples cur last then do
      let xs ← dereference rs cur
      let r := body s xs
      forEach body last fuel (increment cur) r.1
        (assign rs cur ((List.range rs.length).map r.2))
    else .ok (s, rs)

/-- the check in `zip`, zip.h:128-136: `sizes[1]` is read unconditionally, and the
loop starts at index 2 -/
def zipCheck (rs : List (List α)) : Outcome Unit :=
  match rs.map List.length with
  | _ :: first :: more => Outcome.assert (more.all (fun s => first == s))
  | _ => .ub

/-- `simple_task(func, args...)`, tasks.h:24-50: `zip`, then the loop -/
def simpleTask (body : Body σ α) (fuel : Nat) (s : σ) (rs : List (List α)) :
    Outcome (σ × List (List α)) := do
  zipCheck rs
  forEach body (rs.map List.length) fuel (rs.map fun _ => 0) s rs

end Verif.Zip
