import Verif.FilterIterator.Model

/-!
# C07: a filtered range visits exactly the matching elements, in order, and terminates
-/

namespace Verif.FilterIterator

/-- **Full property**: traversing from begin to end terminates having visited exactly the
elements satisfying the predicate, in order. -/
def VisitsFiltered (xs : List T) (p : T → Bool) : Prop :=
  ∃ fuel, traverse xs p (end' xs) fuel (begin' xs) = .ok (xs.filter p)

theorem search_spec (xs : List T) (p : T → Bool) (i : Nat) (hi : i ≤ xs.length) :
    ∃ j, search xs p i xs.length = .ok j ∧ i ≤ j ∧ j ≤ xs.length ∧
      (∀ k (_ : i ≤ k) (h : k < j) (hj : j ≤ xs.length), p xs[k] = false) ∧
      (∀ h : j < xs.length, p xs[j] = true) := by
  induction hn : xs.length - i generalizing i with
  | zero =>
    have : i = xs.length := by omega
    subst this
    exact ⟨xs.length, by rw [search]; simp, by omega, by omega, by omega, by omega⟩
  | succ n ih =>
    have hlt : i < xs.length := by omega
    rw [search]
    simp only [show i ≠ xs.length by omega, if_false, hlt, dif_pos]
    by_cases hp : p xs[i] = true
    · exact ⟨i, by simp [hp], by omega, by omega, by omega, fun _ => hp⟩
    · simp only [Bool.not_eq_true] at hp
      obtain ⟨j, e, h1, h2, h3, h4⟩ := ih (i + 1) (by omega) (by omega)
      refine ⟨j, by simp [hp, e], by omega, h2, ?_, h4⟩
      intro k hk hkj hj
      by_cases hki : k = i
      · subst hki; exact hp
      · exact h3 k (by omega) hkj hj

/-- **C07** (what `++` does) From any position of the range, `++` moves to the first
position at or after the current one whose element matches, or to the end. -/
theorem C07_increment_partial {T : Type} (xs : List T) (p : T → Bool) (i : Nat) (hi : i ≤ xs.length) :
    ∃ j, incr xs p ⟨i, xs.length⟩ = .ok ⟨j, xs.length⟩ ∧ i ≤ j ∧ j ≤ xs.length ∧
      (∀ k (_ : i ≤ k) (_ : k < j) (hj : j ≤ xs.length), p xs[k] = false) ∧
      (∀ h : j < xs.length, p xs[j] = true) := by
  obtain ⟨j, e, h⟩ := search_spec xs p i hi
  exact ⟨j, by simp [incr, e], h⟩

example : incr [1, 3, 4, 5, 6] (fun n => n % 2 == 0) ⟨0, 5⟩ = .ok ⟨2, 5⟩ := by
  simp [incr, search]

theorem incr_stuck (xs : List T) (p : T → Bool) (i : Nat) (hi : i < xs.length) (hp : p xs[i] = true) :
    incr xs p ⟨i, xs.length⟩ = .ok ⟨i, xs.length⟩ := by
  have : search xs p i xs.length = .ok i := by
    rw [search]; simp [show i ≠ xs.length by omega, hi, hp]
  simp [incr, this]

theorem traverse_stuck (xs : List T) (p : T → Bool) (i : Nat) (hi : i < xs.length)
    (hp : p xs[i] = true) (fuel : Nat) :
    traverse xs p (end' xs) fuel ⟨i, xs.length⟩ = .diverges := by
  induction fuel with
  | zero => rfl
  | succ fuel ih =>
    have : (i == xs.length) = false := by simp; omega
    simp only [end', mk'] at ih
    simp [traverse, eq, end', mk', this, deref, hi, incr_stuck xs p i hi hp, ih]

/-- **C07 fails** as soon as one element matches: the traversal never reaches the end,
because `++` does not leave a matching element. -/
theorem C07_traversal_never_ends_fails {T : Type} (xs : List T) (p : T → Bool)
    (h : ∃ x ∈ xs, p x = true) (fuel : Nat) :
    traverse xs p (end' xs) fuel (begin' xs) = .diverges := by
  obtain ⟨x, hx, hpx⟩ := h
  obtain ⟨m, hm, rfl⟩ := List.getElem_of_mem hx
  cases fuel with
  | zero => rfl
  | succ fuel =>
    have hne : ¬ ((0 : Nat) == xs.length) = true := by simp; omega
    obtain ⟨j, e, h1, h2, h3, h4⟩ := search_spec xs p 0 (by omega)
    have hj : j < xs.length := by
      by_cases hj : j < xs.length
      · exact hj
      · exfalso
        have := h3 m (by omega) (by omega) (by omega)
        rw [this] at hpx; exact absurd hpx (by simp)
    have e' : incr xs p ⟨0, xs.length⟩ = .ok ⟨j, xs.length⟩ := by simp [incr, e]
    unfold traverse
    simp only [begin', mk', eq, end', hne]
    simp only [deref, List.getElem?_eq_getElem (show 0 < xs.length by omega), Outcome.bind_ok, e']
    have := traverse_stuck xs p j hj (h4 hj) fuel
    simp only [end', mk'] at this
    rw [this]
    rfl

/-- hence the full property is false for every range with a match -/
theorem C07_full_fails {T : Type} (xs : List T) (p : T → Bool) (h : ∃ x ∈ xs, p x = true) :
    ¬ VisitsFiltered xs p := by
  rintro ⟨fuel, e⟩
  rw [C07_traversal_never_ends_fails xs p h] at e
  exact absurd e (by simp)

example : ∃ x ∈ [1, 2, 3], (fun n => n % 2 == 0) x = true := ⟨2, by simp, by simp⟩

/-- **C07** If nothing matches the traversal ends, but a non-empty range visits its first
element although it does not match (the constructor does not search). -/
theorem C07_no_match_partial {T : Type} (xs : List T) (p : T → Bool) (h : ∀ x ∈ xs, p x = false) :
    ∃ fuel, traverse xs p (end' xs) fuel (begin' xs) = .ok (xs.take 1) := by
  cases xs with
  | nil => exact ⟨1, by simp [traverse, eq, begin', end', mk']⟩
  | cons x xs =>
    obtain ⟨j, e, h1, h2, h3, h4⟩ := search_spec (x :: xs) p 0 (by simp)
    have hj : j = xs.length + 1 := by
      by_cases hj : j < (x :: xs).length
      · have := h4 hj
        rw [h _ (List.getElem_mem hj)] at this
        exact absurd this (by simp)
      · simp at hj h2; omega
    have e' : incr (x :: xs) p ⟨0, xs.length + 1⟩ = .ok ⟨xs.length + 1, xs.length + 1⟩ := by
      simp only [List.length_cons] at e
      simp [incr, e, hj]
    exact ⟨2, by simp [traverse, eq, begin', end', mk', deref, e']⟩

example : ∀ x ∈ [1, 3, 5], (fun n => n % 2 == 0) x = false := by simp

/-- **C07** exactly: a traversal of a filtered range is right only when the range is empty. -/
theorem C07_iff {T : Type} (xs : List T) (p : T → Bool) : VisitsFiltered xs p ↔ xs = [] := by
  constructor
  · intro h
    by_cases hm : ∃ x ∈ xs, p x = true
    · exact absurd h (C07_full_fails xs p hm)
    · have hn : ∀ x ∈ xs, p x = false := fun x hx => by
        cases hp : p x with
        | false => rfl
        | true => exact absurd ⟨x, hx, hp⟩ hm
      cases xs with
      | nil => rfl
      | cons x xs =>
        exfalso
        obtain ⟨fuel, e⟩ := h
        have hf : (x :: xs).filter p = [] := by
          rw [List.filter_eq_nil_iff]; intro a ha; simp [hn a ha]
        rw [hf] at e
        cases fuel with
        | zero => simp [traverse] at e
        | succ fuel =>
          have hne : ¬ ((0 : Nat) == (x :: xs).length) = true := by simp
          obtain ⟨j, e1, h1, h2, -, -⟩ := search_spec (x :: xs) p 0 (by simp)
          have e' : incr (x :: xs) p ⟨0, (x :: xs).length⟩ = .ok ⟨j, (x :: xs).length⟩ := by
            simp only [incr, e1, Outcome.bind_ok]
          unfold traverse at e
          simp only [begin', mk', eq, end', hne] at e
          simp only [deref, List.getElem?_eq_getElem (show 0 < (x :: xs).length by simp), Outcome.bind_ok, e'] at e
          cases ht : traverse (x :: xs) p ⟨(x :: xs).length, (x :: xs).length⟩ fuel ⟨j, (x :: xs).length⟩ <;>
            rw [ht] at e <;> simp at e
  · rintro rfl
    exact ⟨1, by simp [traverse, eq, begin', end', mk']⟩

example : ¬ VisitsFiltered [1, 2, 3] (fun n => n % 2 == 0) := fun h => by simpa using (C07_iff _ _).1 h

end Verif.FilterIterator
