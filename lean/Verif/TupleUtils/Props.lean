import Verif.TupleUtils.Model

/-!
# C68: tuple traversal order and coverage

The specification is a left fold over the elements (or over the indices 0,1,...,N-1): the
functor is called once per element, in order.
-/

namespace Verif.TupleUtils

theorem braced_getElem (f : α → σ → σ) (t : List α) (s : σ) :
    braced ((List.range t.length).map fun i => match t[i]? with | some x => f x | none => id) s
      = t.foldl (fun s x => f x s) s := by
  have : ((List.range t.length).map fun i => match t[i]? with | some x => f x | none => id) = t.map f := by
    apply List.ext_getElem
    · simp
    · intro i h1 h2
      simp at h1 h2
      simp [h2]
  rw [this, braced, List.foldl_map]

/-- **C68** `tuple_for_each` calls the functor on each element once, first to last. -/
theorem C68_tuple_for_each {α σ : Type} (f : α → σ → σ) (t : List α) (s : σ) :
    tupleForEach f t s = t.foldl (fun s x => f x s) s := braced_getElem f t s

/-- **C68** `static_for<N>` calls the functor on 0, 1, ..., N-1 in that order. -/
theorem C68_static_for {σ : Type} (n : Nat) (f : Nat → σ → σ) :
    (∀ s, staticFor 0 f s = s) ∧ ∀ s, staticFor (n + 1) f s = f n (staticFor n f s) := by
  constructor
  · intro s; simp [staticFor, braced, indexSequence]
  · intro s; simp [staticFor, braced, indexSequence, List.range_succ]

/-- the calls made, as a log: exactly 0..N-1 -/
theorem C68_static_for_log (n : Nat) : staticFor n (fun i log => log ++ [i]) [] = List.range n := by
  induction n with
  | zero => simp [staticFor, braced, indexSequence]
  | succ n ih => rw [(C68_static_for n _).2, ih, List.range_succ]

theorem visitWs_eq (f : List α → σ → σ) (ts : List (List α)) (k : Nat) (s : σ) :
    visitWs f ts k s = (List.range (k + 1)).foldl (fun s i => f (ts.filterMap (·[i]?)) s) s := by
  induction k with
  | zero => rfl
  | succ k ih => rw [visitWs, ih, List.range_succ (n := k + 1), List.foldl_append]; rfl

/-- **C68** `tuple_visit` on any number of non-empty tuples calls the functor once per index
of the first tuple, in increasing order, with the elements of all tuples at that index. -/
theorem C68_tuple_visit {α σ : Type} (f : List α → σ → σ) (head : List α) (tail : List (List α))
    (hne : head ≠ []) (s : σ) :
    tupleVisit f head tail s =
      (List.range head.length).foldl (fun s i => f ((head :: tail).filterMap (·[i]?)) s) s := by
  rw [tupleVisit, visitWs_eq]
  have : head.length - 1 + 1 = head.length := by
    have := List.length_pos_iff.2 hne; omega
  rw [this]

example : tupleVisit (fun xs log => log ++ [xs]) [1, 2, 3] [[4, 5, 6]] [] = [[1, 4], [2, 5], [3, 6]] := by
  decide

theorem gens_eq (n : Nat) (s : List Nat) : gens n s = List.range n ++ s := by
  induction n generalizing s with
  | zero => simp [gens]
  | succ n ih => rw [gens, ih, List.range_succ]; simp

/-- **C68** `tuple_zip` and `tuple_tie` pair up the elements of two equally long tuples in
order. -/
theorem C68_tuple_zip {α β : Type} (t1 : List α) (t2 : List β) (h : t1.length = t2.length) :
    tupleZip t1 t2 = t1.zip t2 := by
  unfold tupleZip
  rw [gens_eq, List.append_nil]
  induction t1 generalizing t2 with
  | nil =>
    cases t2 with
    | nil => rfl
    | cons => simp at h
  | cons a t1 ih =>
    cases t2 with
    | nil => simp at h
    | cons b t2 =>
      simp only [List.length_cons, Nat.add_right_cancel_iff] at h
      rw [List.length_cons, List.range_succ_eq_map, List.filterMap_cons]
      simp only [List.getElem?_cons_zero, List.zip_cons_cons, List.filterMap_map]
      congr 1
      rw [← ih t2 h]
      congr 1

example : [1, 2, 3].length = ["a", "b", "c"].length := rfl

/-- **C68** Converting a tuple to an array keeps every element in its place. -/
theorem C68_to_array {α : Type} (t : List α) : toArray t = t := by
  unfold toArray indexSequence
  induction t with
  | nil => rfl
  | cons a t ih =>
    rw [List.length_cons, List.range_succ_eq_map, List.filterMap_cons]
    simp only [List.getElem?_cons_zero, List.filterMap_map]
    congr 1

/-- **C68** `multiply` is the product, `fill<N>` makes `N` copies, and the selected counter
type can count up to the array length (so the loops over it terminate). -/
theorem C68_template_helpers {α : Type} (as : List Nat) (n : Nat) (v : α) :
    multiply as = as.foldr (· * ·) 1 ∧
    fillApply (n + 1) v [] = some (List.replicate (n + 1) v) ∧
    (n < 2 ^ 64 → n ≤ counterMax n) := by
  refine ⟨?_, ?_, ?_⟩
  · induction as with
    | nil => rfl
    | cons a as ih => simp [multiply, ih]
  · have : ∀ n (vs : List α), fillApply (n + 1) v vs = some (List.replicate (n + 1) v ++ vs) := by
      intro n
      induction n with
      | zero => intro vs; rfl
      | succ n ih =>
        intro vs
        rw [fillApply, ih]
        rw [List.replicate_succ' (n := n + 1)]; simp
    rw [this]; simp
  · intro h; unfold counterMax; split <;> omega

end Verif.TupleUtils
