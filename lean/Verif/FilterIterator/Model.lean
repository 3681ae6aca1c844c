import Verif.Common.Outcome

/-!
# Model of `ristra/utils/filter_iterator.h`

The underlying range is a list; an underlying iterator is a position in it.  `operator*`
(line 101) returns `iter_` itself, which does not convert to a reference: any use fails to
compile.  The model uses the evidently intended `*iter_`, so that the traversal can be
discussed at all.
-/

namespace Verif.FilterIterator

/-- members `iter_`, `end_`, `pred_`: filter_iterator.h:162-167 -/
structure FIt where
  iter : Nat
  fin : Nat
deriving Repr, DecidableEq

/-- the constructor, filter_iterator.h:53-55: no search for a first match -/
def mk' (first last : Nat) : FIt := ⟨first, last⟩

/-- the loop of `operator++`, filter_iterator.h:107-114, from position `i` with `end_ - i` steps left:
`for (; iter_ != end_; ++iter_) if (pred_(*iter_)) return *this;` -/
def search (xs : List T) (p : T → Bool) (i fin : Nat) : Outcome Nat :=
  if i = fin then .ok i
  else if h : i < xs.length then
    if p xs[i] then .ok i else search xs p (i + 1) fin
  else .ub
termination_by xs.length - i

/-- `operator++`, filter_iterator.h:107-114 -/
def incr (xs : List T) (p : T → Bool) (it : FIt) : Outcome FIt := do
  let i ← search xs p it.iter it.fin
  .ok ⟨i, it.fin⟩

/-- `operator*` as intended -/
def deref (xs : List T) (it : FIt) : Outcome T :=
  match xs[it.iter]? with | some x => .ok x | none => .ub

/-- `operator==`, filter_iterator.h:133 -/
def eq (a b : FIt) : Bool := a.iter == b.iter

/-- `for (it = begin; it != end; ++it) visit(*it)` run for at most `fuel` steps -/
def traverse (xs : List T) (p : T → Bool) (e : FIt) : Nat → FIt → Outcome (List T)
  | 0, _ => .diverges
  | fuel + 1, it =>
    if eq it e then .ok []
    else do
      let x ← deref xs it
      let it' ← incr xs p it
      let rest ← traverse xs p e fuel it'
      .ok (x :: rest)

/-- begin / end of the filtered range over a whole container -/
def begin' (xs : List T) : FIt := mk' 0 xs.length
/-- end of the filtered range over a whole container -/
def end' (xs : List T) : FIt := mk' xs.length xs.length

end Verif.FilterIterator
