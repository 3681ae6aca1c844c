import Mathlib.Logic.Function.Basic
import Verif.Common.Outcome
import Verif.TupleUtils.Model

/-!
# Model of `ristra/math/tuple.h`

A tuple is a list of memory cells: `std::tuple<double, int>` owns its cells, and
`std::tuple<double &, int &>` (for which the code takes care to `decay` the result types)
refers to cells of other objects, so two tuples may share cells.  `V` is the type of all
scalar values (a tagged union of the C++ arithmetic types), `conv c` the conversion to the
type of cell `c` done by an assignment, and an arithmetic operator is a partial function on
values (`.ub` e.g. for an integer division by zero), so that element types may differ and
promotions, overflow and rounding are part of the operator.

Simplified: the cells of one tuple have types known from the context (`conv`); a scalar
operand is a cell too, because the code takes it by reference (`const U & rhs`).
-/

namespace Verif.TupleUtils.Math
variable {V : Type}

/-- the memory: what every cell holds -/
abbrev Store (V : Type) := Nat → V

/-- `cell = value`: the conversion to the type of the cell, then the store -/
def assign (conv : Nat → V → V) (c : Nat) (v : V) (s : Store V) : Store V := Function.update s c (conv c v)

/-- a statement executed after those before it ended normally -/
def stmt (f : Store V → Outcome (Store V)) (s : Outcome (Store V)) : Outcome (Store V) := s >>= f

/-- `fill`, tuple.h:36-45: `tup = val`, `val` by reference -/
def fill (conv : Nat → V → V) (t : List Nat) (val : Nat) (s : Store V) : Outcome (Store V) :=
  tupleForEach (fun c => stmt fun s => .ok (assign conv c (s val) s)) t (.ok s)

/-- `plus_equal`, `minus_equal`, `multiplies_equal`, `divides_equal` of two tuples, tuple.h:52-60,
120-128, 186-194, 255-263: `get<0>(tup) = get<0>(tup) op get<1>(tup)` -/
def opEqual (conv : Nat → V → V) (op : V → V → Outcome V) (lhs rhs : List Nat) (s : Store V) :
    Outcome (Store V) :=
  tupleForEach (fun p : Nat × Nat => stmt fun s => do
    let v ← op (s p.1) (s p.2)
    .ok (assign conv p.1 v s)) (tupleZip lhs rhs) (.ok s)

/-- the same with a scalar, tuple.h:62-69, 130-137, 196-203, 265-272: `tup = tup op rhs` -/
def opEqualScalar (conv : Nat → V → V) (op : V → V → Outcome V) (lhs : List Nat) (rhs : Nat) (s : Store V) :
    Outcome (Store V) :=
  tupleForEach (fun c => stmt fun s => do
    let v ← op (s c) (s rhs)
    .ok (assign conv c v s)) lhs (.ok s)

/-- `operator+ - * /` of two tuples, tuple.h:77-89, 145-156, 211-222, 280-291: `a = b op c` by
`tuple_visit` into `tmp`, a new tuple -/
def opTuple (conv : Nat → V → V) (op : V → V → Outcome V) (tmp lhs rhs : List Nat) (s : Store V) :
    Outcome (Store V) :=
  tupleVisit (fun cs => stmt fun s =>
    match cs with
    | [a, b, c] => do
      let v ← op (s b) (s c)
      .ok (assign conv a v s)
    | _ => .ub) tmp [lhs, rhs] (.ok s)

/-- `tuple op scalar`, tuple.h:91-101, 158-168, 224-234, 293-303 -/
def opRight (conv : Nat → V → V) (op : V → V → Outcome V) (tmp lhs : List Nat) (rhs : Nat) (s : Store V) :
    Outcome (Store V) :=
  tupleForEach (fun p : Nat × Nat => stmt fun s => do
    let v ← op (s p.2) (s rhs)
    .ok (assign conv p.1 v s)) (tupleZip tmp lhs) (.ok s)

/-- `scalar op tuple`, tuple.h:103-113, 170-180, 236-246, 305-315 -/
def opLeft (conv : Nat → V → V) (op : V → V → Outcome V) (tmp : List Nat) (lhs : Nat) (rhs : List Nat) (s : Store V) :
    Outcome (Store V) :=
  tupleForEach (fun p : Nat × Nat => stmt fun s => do
    let v ← op (s lhs) (s p.2)
    .ok (assign conv p.1 v s)) (tupleZip tmp rhs) (.ok s)

/-- `operator<<`, tuple.h:325-333, given the text of each element -/
def print (texts : List (List Char)) : List Char :=
  tupleForEach (fun x os => os ++ " [ ".toList ++ x ++ " ]".toList) texts "{".toList ++ " }".toList

end Verif.TupleUtils.Math
