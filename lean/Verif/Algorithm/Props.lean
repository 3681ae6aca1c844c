import Verif.Algorithm.Model
import Mathlib.Data.List.Sort

/-!
# C09 (intersection of unsorted ranges) and C10 (remove_duplicates)
-/

namespace Verif.Algorithm

theorem setIntersection_mem [LinearOrder α] (a b : List α) (x : α) (h : x ∈ setIntersection a b) : x ∈ a := by
  fun_induction setIntersection a b with
  | case1 => simp at h
  | case2 => simp at h
  | case3 a as b bs hlt ih => exact List.mem_cons_of_mem _ (ih h)
  | case4 a as b bs h1 h2 ih => exact ih h
  | case5 a as b bs h1 h2 ih =>
    rcases List.mem_cons.1 h with h | h
    · simp [h]
    · exact List.mem_cons_of_mem _ (ih h)

theorem setIntersection_sorted [LinearOrder α] (a b : List α) (ha : a.Pairwise (· ≤ ·)) :
    (setIntersection a b).Pairwise (· ≤ ·) := by
  fun_induction setIntersection a b with
  | case1 => simp
  | case2 => simp
  | case3 a as b bs hlt ih => exact ih (List.pairwise_cons.1 ha).2
  | case4 a as b bs h1 h2 ih => exact ih ha
  | case5 a as b bs h1 h2 ih =>
    obtain ⟨h, ha⟩ := List.pairwise_cons.1 ha
    exact List.pairwise_cons.2 ⟨fun x hx => h x (setIntersection_mem _ _ _ hx), ih ha⟩

theorem setIntersection_count [LinearOrder α] (a b : List α) (ha : a.Pairwise (· ≤ ·))
    (hb : b.Pairwise (· ≤ ·)) (x : α) :
    (setIntersection a b).count x = min (a.count x) (b.count x) := by
  fun_induction setIntersection a b with
  | case1 => simp
  | case2 => simp
  | case3 a as b bs hlt ih =>
    rw [ih (List.pairwise_cons.1 ha).2 hb]
    rw [List.count_cons (a := x) (b := a)]
    by_cases hx : a = x
    · subst hx
      have : (b :: bs).count a = 0 := by
        rw [List.count_eq_zero]
        intro hm
        rcases List.mem_cons.1 hm with h | h
        · exact absurd h (ne_of_lt hlt)
        · exact absurd (lt_of_lt_of_le hlt ((List.pairwise_cons.1 hb).1 _ h)) (lt_irrefl _)
      simp [this]
    · simp [hx]
  | case4 a as b bs h1 h2 ih =>
    rw [ih ha (List.pairwise_cons.1 hb).2]
    rw [List.count_cons (a := x) (b := b)]
    by_cases hx : b = x
    · subst hx
      have : (a :: as).count b = 0 := by
        rw [List.count_eq_zero]
        intro hm
        rcases List.mem_cons.1 hm with h | h
        · exact absurd h (ne_of_lt h2)
        · exact absurd (lt_of_lt_of_le h2 ((List.pairwise_cons.1 ha).1 _ h)) (lt_irrefl _)
      simp [this]
    · simp [hx]
  | case5 a as b bs h1 h2 ih =>
    have hab : a = b := le_antisymm (not_lt.1 h2) (not_lt.1 h1)
    subst hab
    rw [List.count_cons, List.count_cons, List.count_cons,
      ih (List.pairwise_cons.1 ha).2 (List.pairwise_cons.1 hb).2]
    omega

/-- **C09** For all ranges in any order, with any repetitions, what is written after the
already-written `out` is sorted and contains each value as often as in the range where it
is rarer. -/
theorem C09_intersection {α : Type} [LinearOrder α] (sort : List α → List α) (hs : Sorts sort)
    (xs ys out : List α) :
    ∃ r, unsortedSetIntersection sort xs ys out = out ++ r ∧ r.Pairwise (· ≤ ·) ∧
      (∀ x, r.count x = min (xs.count x) (ys.count x)) ∧
      (∀ x, x ∈ r ↔ x ∈ xs ∧ x ∈ ys) := by
  have hc : ∀ x, (setIntersection (sort xs) (sort ys)).count x = min (xs.count x) (ys.count x) := by
    intro x
    rw [setIntersection_count _ _ (hs xs).2 (hs ys).2, (hs xs).1.count_eq, (hs ys).1.count_eq]
  refine ⟨_, rfl, setIntersection_sorted _ _ (hs xs).2, hc, fun x => ?_⟩
  rw [← List.count_pos_iff, hc, ← List.count_pos_iff (l := xs), ← List.count_pos_iff (l := ys)]
  omega

/-- a sort meeting the contract exists -/
example : Sorts (fun l : List Nat => l.mergeSort) := fun l =>
  ⟨List.mergeSort_perm l _, by
    have := List.pairwise_mergeSort (le := fun a b : Nat => decide (a ≤ b))
      (fun a b c h1 h2 => by simp at *; omega) (fun a b => by simp; omega) l
    simpa using this⟩

/-- **C09** The result depends only on the contents of the ranges, not on their order, and
not on which of the two comes first. -/
theorem C09_order_irrelevant {α : Type} [LinearOrder α] (sort : List α → List α) (hs : Sorts sort)
    (xs xs' ys ys' out : List α) (hx : xs.Perm xs') (hy : ys.Perm ys') :
    unsortedSetIntersection sort xs ys out = unsortedSetIntersection sort xs' ys' out ∧
    unsortedSetIntersection sort xs ys out = unsortedSetIntersection sort ys xs out := by
  have key : ∀ a b c d : List α, (∀ x, min (a.count x) (b.count x) = min (c.count x) (d.count x)) →
      unsortedSetIntersection sort a b out = unsortedSetIntersection sort c d out := by
    intro a b c d h
    obtain ⟨r, e, h1, h2, _⟩ := C09_intersection sort hs a b out
    obtain ⟨r', e', h1', h2', _⟩ := C09_intersection sort hs c d out
    rw [e, e']
    congr 1
    refine List.Perm.eq_of_pairwise (le := (· ≤ ·)) ?_ h1 h1' (List.perm_iff_count.2 fun x => by rw [h2, h2', h])
    intro a b _ _; exact le_antisymm
  exact ⟨key _ _ _ _ fun x => by rw [hx.count_eq, hy.count_eq], key _ _ _ _ fun x => Nat.min_comm _ _⟩

example : [3, 1, 2].Perm [1, 2, 3] := by decide

/-! ## C10 -/

/-- **Full property of C10**: each value is kept exactly once, in order of first occurrence -/
def KeepsFirstOccurrences [DecidableEq α] (xs ys : List α) : Prop :=
  ys.Nodup ∧ (∀ x, x ∈ ys ↔ x ∈ xs) ∧
  ∀ x y, x ∈ xs → y ∈ xs → (ys.idxOf x < ys.idxOf y ↔ xs.idxOf x < xs.idxOf y)

theorem uniqueLoop_sublist [DecidableEq α] (k : α) (xs : List α) : (uniqueLoop k xs).Sublist xs := by
  induction xs generalizing k with
  | nil => simp [uniqueLoop]
  | cons x xs ih =>
    unfold uniqueLoop; split
    · exact (ih k).cons x
    · exact (ih x).cons_cons x

theorem uniqueLoop_mem [DecidableEq α] (k : α) (xs : List α) (x : α) :
    x ∈ k :: uniqueLoop k xs ↔ x ∈ k :: xs := by
  induction xs generalizing k with
  | nil => simp [uniqueLoop]
  | cons y xs ih =>
    unfold uniqueLoop; split
    · next h => subst h; rw [ih]; simp
    · next h => have := ih y; simp only [List.mem_cons] at this ⊢; rw [this]

/-- **C10** For every sequence: the result is a subsequence with the same values in which no
two neighbours are equal. -/
theorem C10_no_adjacent_duplicates {α : Type} [DecidableEq α] (xs : List α) :
    (removeDuplicates xs).Sublist xs ∧ (∀ x, x ∈ removeDuplicates xs ↔ x ∈ xs) ∧
    (removeDuplicates xs).IsChain (· ≠ ·) := by
  cases xs with
  | nil => simp [removeDuplicates]
  | cons x xs =>
    refine ⟨(uniqueLoop_sublist x xs).cons_cons x, fun y => uniqueLoop_mem x xs y, ?_⟩
    simp only [removeDuplicates]
    induction xs generalizing x with
    | nil => simp [uniqueLoop]
    | cons y ys ih =>
      unfold uniqueLoop; split
      · exact ih x
      · next h => exact List.isChain_cons_cons.2 ⟨h, ih y⟩

/-- **C10 fails**: duplicates that are not neighbours survive. -/
theorem C10_fails : ¬ KeepsFirstOccurrences [1, 2, 1] (removeDuplicates [1, 2, 1]) := by
  intro h
  have := h.1
  revert this; decide

/-- equal elements form one block -/
def Grouped (xs : List α) : Prop :=
  ∀ a b c x, xs = a ++ x :: b ++ x :: c → ∀ y ∈ b, y = x

theorem uniqueLoop_skip [DecidableEq α] (k : α) (xs : List α) (hg : Grouped (k :: xs)) :
    k ∉ uniqueLoop k xs := by
  induction xs with
  | nil => simp [uniqueLoop]
  | cons x xs ih =>
    unfold uniqueLoop; split
    · next h =>
      subst h
      apply ih
      intro a b c z e y hy
      exact hg (k :: a) b c z (by simp [e]) y hy
    · next h =>
      intro hm
      rcases List.mem_cons.1 hm with h' | h'
      · exact h h'
      · have := (uniqueLoop_sublist x xs).subset h'
        obtain ⟨s, t, rfl⟩ := List.append_of_mem this
        have := hg [] (x :: s) t k (by simp) x (by simp)
        exact h this.symm

theorem Grouped.tail {x : α} {xs : List α} (h : Grouped (x :: xs)) : Grouped xs := by
  intro a b c z e y hy
  exact h (x :: a) b c z (by simp [e]) y hy

theorem Grouped.dropDup {x : α} {xs : List α} (h : Grouped (x :: x :: xs)) : Grouped (x :: xs) := h.tail

theorem uniqueLoop_nodup [DecidableEq α] (k : α) (xs : List α) (hg : Grouped (k :: xs)) :
    (k :: uniqueLoop k xs).Nodup := by
  induction xs generalizing k with
  | nil => simp [uniqueLoop]
  | cons x xs ih =>
    by_cases h : k = x
    · subst h
      have := ih k hg.tail
      simpa [uniqueLoop] using this
    · have h1 := uniqueLoop_skip k (x :: xs) hg
      have h2 := ih x hg.tail
      simp only [uniqueLoop, h, if_false] at h1 ⊢
      exact List.nodup_cons.2 ⟨h1, h2⟩

theorem uniqueLoop_order [DecidableEq α] (k : α) (xs : List α) (x y : α)
    (hx : x ∈ k :: xs) (hy : y ∈ k :: xs) :
    ((k :: uniqueLoop k xs).idxOf x < (k :: uniqueLoop k xs).idxOf y ↔
      (k :: xs).idxOf x < (k :: xs).idxOf y) := by
  induction xs generalizing k with
  | nil => simp [uniqueLoop]
  | cons z zs ih =>
    by_cases hz : k = z
    · subst hz
      have hx' : x ∈ k :: zs := by simpa using hx
      have hy' : y ∈ k :: zs := by simpa using hy
      have := ih k hx' hy'
      simp only [uniqueLoop, if_true, this]
      by_cases h1 : k = x
      · subst h1
        by_cases h2 : k = y
        · subst h2; simp
        · simp [List.idxOf_cons_ne _ h2]
      · by_cases h2 : k = y
        · subst h2; simp
        · simp [List.idxOf_cons_ne _ h1, List.idxOf_cons_ne _ h2]
    · simp only [uniqueLoop, hz, if_false]
      by_cases h1 : k = x
      · subst h1
        by_cases h2 : k = y
        · subst h2; simp
        · simp [List.idxOf_cons, h2]
      · by_cases h2 : k = y
        · subst h2; simp [List.idxOf_cons]
        · have := ih z (by simpa [Ne.symm h1] using hx) (by simpa [Ne.symm h2] using hy)
          rw [List.idxOf_cons_ne _ h1, List.idxOf_cons_ne _ h2, List.idxOf_cons_ne _ h1,
            List.idxOf_cons_ne _ h2]
          omega

/-- **C10 (partial)** If equal elements are neighbours (in particular if the sequence is
sorted), every value is kept exactly once, in order of first occurrence. -/
theorem C10_grouped_partial {α : Type} [DecidableEq α] (xs : List α) (h : Grouped xs) :
    KeepsFirstOccurrences xs (removeDuplicates xs) := by
  cases xs with
  | nil => simp [KeepsFirstOccurrences, removeDuplicates]
  | cons x xs =>
    exact ⟨uniqueLoop_nodup x xs h, fun y => uniqueLoop_mem x xs y,
      fun a b ha hb => uniqueLoop_order x xs a b ha hb⟩

theorem grouped_of_nodup [DecidableEq α] (k : α) (xs : List α) (h : (k :: uniqueLoop k xs).Nodup) :
    Grouped (k :: xs) := by
  induction xs generalizing k with
  | nil =>
    intro a b c z e
    have := congrArg List.length e
    simp at this
    omega
  | cons x xs ih =>
    by_cases hk : k = x
    · subst hk
      have hg := ih k (by simpa [uniqueLoop] using h)
      intro a b c z e y hy
      cases a with
      | nil =>
        simp only [List.nil_append, List.cons_append, List.cons.injEq] at e
        obtain ⟨rfl, e⟩ := e
        cases b with
        | nil => simp at hy
        | cons u b =>
          simp only [List.cons_append, List.cons.injEq] at e
          obtain ⟨rfl, e⟩ := e
          rcases List.mem_cons.1 hy with rfl | hy
          · rfl
          · exact hg [] b c k (by simp [e]) y hy
      | cons u a =>
        simp only [List.cons_append, List.cons.injEq] at e
        exact hg a b c z (by simp [e.2]) y hy
    · simp only [uniqueLoop, hk, if_false] at h
      obtain ⟨h1, h2⟩ := List.nodup_cons.1 h
      have hg := ih x h2
      rw [uniqueLoop_mem] at h1
      intro a b c z e y hy
      cases a with
      | nil =>
        simp only [List.nil_append, List.cons_append, List.cons.injEq] at e
        obtain ⟨rfl, e⟩ := e
        exact absurd (by rw [e]; simp) h1
      | cons u a =>
        simp only [List.cons_append, List.cons.injEq] at e
        exact hg a b c z (by simp [e.2]) y hy

/-- **C10** exactly: every value is kept once, in order of first occurrence, if and only if
equal elements are neighbours in the given sequence. -/
theorem C10_iff {α : Type} [DecidableEq α] (xs : List α) :
    KeepsFirstOccurrences xs (removeDuplicates xs) ↔ Grouped xs := by
  refine ⟨fun h => ?_, C10_grouped_partial xs⟩
  cases xs with
  | nil => intro a b c z e; simp at e
  | cons x xs => exact grouped_of_nodup x xs h.1

/-- both sides occur -/
example : KeepsFirstOccurrences [2, 2, 1] (removeDuplicates [2, 2, 1]) ∧
    ¬ KeepsFirstOccurrences [2, 1, 2] (removeDuplicates [2, 1, 2]) := by
  refine ⟨C10_grouped_partial _ ?_, fun h => ?_⟩
  · exact grouped_of_nodup 2 [2, 1] (by decide)
  · have := (C10_iff _).1 h [] [1] [] 2 rfl 1 (by simp)
    omega

/-- **C10 (partial)** Sorted sequences are grouped, so the call is right on them. -/
theorem C10_sorted_partial {α : Type} [LinearOrder α] (xs : List α) (h : xs.Pairwise (· ≤ ·)) :
    KeepsFirstOccurrences xs (removeDuplicates xs) ∧ (removeDuplicates xs).Pairwise (· < ·) := by
  have hg : Grouped xs := by
    rintro a b c x rfl y hy
    simp only [List.append_assoc, List.cons_append, List.pairwise_append, List.pairwise_cons,
      List.mem_append, List.mem_cons] at h
    have h1 := h.2.1.1 y (Or.inl hy)
    have h2 := h.2.1.2.2.2 y hy x (Or.inl rfl)
    exact le_antisymm h2 h1
  have hk := C10_grouped_partial xs hg
  refine ⟨hk, ?_⟩
  have hs := h.sublist (C10_no_adjacent_duplicates xs).1
  have hn := hk.1
  rw [List.Nodup] at hn
  exact (hs.and hn).imp fun h => lt_of_le_of_ne h.1 h.2

example : [1, 1, 2, 5, 5, 5].Pairwise (· ≤ ·) := by decide

/-- **C10** Applying it twice is the same as applying it once. -/
theorem C10_idempotent {α : Type} [DecidableEq α] (xs : List α) :
    removeDuplicates (removeDuplicates xs) = removeDuplicates xs := by
  have key : ∀ (ys : List α) (k : α), (k :: ys).IsChain (· ≠ ·) → uniqueLoop k ys = ys := by
    intro ys
    induction ys with
    | nil => intro k _; rfl
    | cons y ys ih =>
      intro k h
      obtain ⟨h1, h2⟩ := List.isChain_cons_cons.1 h
      simp [uniqueLoop, h1, ih y h2]
  have hc := (C10_no_adjacent_duplicates xs).2.2
  cases h : removeDuplicates xs with
  | nil => rfl
  | cons x ys => rw [h] at hc; simp only [removeDuplicates]; rw [key ys x hc]

end Verif.Algorithm
