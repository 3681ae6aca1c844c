/-!
# Model of the tuple helpers

`ristra/utils/tuple_for_each(_impl).h`, `tuple_visit(_impl).h`, `tuple_zip(_impl).h`,
`tuple_to_array.h`, `static_for.h`, and `multiply`, `fill`, `make_array`,
`select_counter_t` of `template_helpers(_impl).h`.

A tuple is a list of values of one type; a functor is a state transformer, so that both the
order and the number of calls are visible in the final state.  References, forwarding and
the compile-time checks of tuple sizes are not modelled.
-/

namespace Verif.TupleUtils

/-- `std::make_index_sequence<N>` -/
def indexSequence (n : Nat) : List Nat := List.range n

/-- a braced initialiser list evaluates its clauses from left to right
(`int unused[] = { 0, (f(...), 0)... }`); tuple_for_each_impl.h:29, static_for.h:23 -/
def braced (calls : List (σ → σ)) (s : σ) : σ := calls.foldl (fun s c => c s) s

/-- `tuple_for_each`, tuple_for_each.h and tuple_for_each_impl.h: one call per index;
tuple_for_each.h:23-27, tuple_for_each_impl.h:20-30 -/
def tupleForEach (f : α → σ → σ) (t : List α) (s : σ) : σ :=
  braced ((indexSequence t.length).map fun i => match t[i]? with | some x => f x | none => id) s

/-- `static_for<N>`, static_for.h; static_for.h:21-36 -/
def staticFor (n : Nat) (f : Nat → σ → σ) (s : σ) : σ := braced ((indexSequence n).map f) s

/-- `visit_tuple_ws<size>::visit`, tuple_visit_impl.h: recurse on `size-1`, then call on
index `size`.  Several tuples are visited in step: the functor gets the list of their
elements at that index.; tuple_visit_impl.h:21-47 -/
def visitWs (f : List α → σ → σ) (ts : List (List α)) : Nat → σ → σ
  | 0, s => f (ts.filterMap (·[0]?)) s
  | size + 1, s => f (ts.filterMap (·[size + 1]?)) (visitWs f ts size s)

/-- `tuple_visit`, tuple_visit.h: starts at the last index (the size of the first tuple
minus one; an empty tuple does not compile); tuple_visit.h:24-32 -/
def tupleVisit (f : List α → σ → σ) (head : List α) (tail : List (List α)) (s : σ) : σ :=
  visitWs f (head :: tail) (head.length - 1) s

/-- `gens<N, S...>`, tuple_zip_impl.h: `gens<N-1, N-1, S...>` down to `seq<S...>`; tuple_zip_impl.h:25-35 -/
def gens : Nat → List Nat → List Nat
  | 0, s => s
  | n + 1, s => gens n (n :: s)

/-- `tuple_zip`, tuple_zip.h: the pair of elements for each generated index; tuple_zip.h:44-52, tuple_zip_impl.h:38-42 -/
def tupleZip (t1 : List α) (t2 : List β) : List (α × β) :=
  (gens t2.length []).filterMap fun i =>
    match t1[i]?, t2[i]? with
    | some a, some b => some (a, b)
    | _, _ => none

/-- `to_array`, tuple_to_array.h; tuple_to_array.h:18-42 -/
def toArray (t : List α) : List α := (indexSequence t.length).filterMap (t[·]?)

/-- `multiply`, template_helpers_impl.h; template_helpers_impl.h:26-32, template_helpers.h:26-28 -/
def multiply : List Nat → Nat
  | [] => 1
  | a :: as => a * multiply as

/-- `fill<N>::apply(v, vs...)`, template_helpers.h: `fill<1>` makes the array of the
arguments, `fill<N>` adds one copy of `v` (`fill<0>` does not terminate at compile time); template_helpers.h:67-83 -/
def fillApply : Nat → α → List α → Option (List α)
  | 0, _, _ => none
  | 1, v, vs => some (v :: vs)
  | n + 2, v, vs => fillApply (n + 1) v (v :: vs)

/-- `select_counter_t<N>`: the largest value of the chosen type (`int`, else `size_t`); template_helpers.h:37-60 -/
def counterMax (n : Nat) : Nat := if n < 2 ^ 31 - 1 then 2 ^ 31 - 1 else 2 ^ 64 - 1

end Verif.TupleUtils
