import Verif.Elements.Model
import Mathlib.Algebra.BigOperators.Group.Finset.Basic
import Mathlib.Tactic.Ring
import Mathlib.Tactic.FieldSimp
import Mathlib.Tactic.NormNum
import Mathlib.Tactic.IntervalCases
import Mathlib.Algebra.CharZero.Defs
import Mathlib.Data.Rat.Cast.CharZero
import Mathlib.Analysis.Calculus.Deriv.Mul
import Mathlib.Analysis.Calculus.Deriv.Add

/-! Helper lemmas for the element model. -/

namespace Verif.Elements

variable {R : Type}

theorem fill_apply (l : List Nat) (f : Nat → R) (out : Nat → R) (v : Nat) :
    fill l f out v = if v ∈ l then f v else out v := by
  rw [fill]
  induction l generalizing out with
  | nil => simp
  | cons a l ih =>
    rw [List.foldl_cons, ih]
    by_cases h : v ∈ l
    · simp [h]
    · by_cases ha : v = a
      · subst ha; simp
      · simp [h, ha, Function.update_of_ne ha]

theorem steps_zero_one (n : Nat) : steps 0 n 1 = List.range n := by
  rw [steps, List.range_eq_range']
  congr 1
  omega

variable [Field R]

/-- one pass over the dimensions -/
theorem addDims (nd : Nat) (g : Nat → R) (x : Nat → R) (k : Nat) :
    (List.range nd).foldl (fun x d => Function.update x d (x d + g d)) x k = if k < nd then x k + g k else x k := by
  induction nd generalizing k with
  | zero => simp
  | succ n ih =>
    rw [List.range_succ, List.foldl_append, List.foldl_cons, List.foldl_nil]
    by_cases h : k = n
    · subst h
      rw [Function.update_self, ih]
      simp
    · rw [Function.update_of_ne h, ih]
      have : k < n ↔ k < n + 1 := by omega
      simp [this]

/-- `physical_position` computes the sum of the vertices weighted by the shape functions -/
theorem accumulate_apply (nv nd : Nat) (vertices : Nat → Nat → R) (shape x : Nat → R) (k : Nat) :
    accumulate nv nd vertices shape x k =
      if k < nd then ∑ v ∈ Finset.range nv, vertices v k * shape v else x k := by
  rw [accumulate, steps_zero_one, steps_zero_one]
  have h0 : ∀ k, fill (List.range nd) (fun _ => (0 : R)) x k = if k < nd then 0 else x k := by
    intro k; rw [fill_apply]; simp
  induction nv with
  | zero => simp [h0]
  | succ n ih =>
    rw [List.range_succ, List.foldl_append, List.foldl_cons, List.foldl_nil, addDims, ih]
    by_cases h : k < nd
    · simp only [h, if_true, Finset.sum_range_succ]
    · simp only [h, if_false]

theorem addVerts (nv d : Nat) (g : Nat → R) (x : Nat → R) (k : Nat) :
    (List.range nv).foldl (fun x v => Function.update x d (x d + g v)) x k =
      if k = d then x d + ∑ v ∈ Finset.range nv, g v else x k := by
  induction nv generalizing k with
  | zero =>
    by_cases h : k = d
    · subst h; simp
    · simp [h]
  | succ n ih =>
    rw [List.range_succ, List.foldl_append, List.foldl_cons, List.foldl_nil]
    by_cases h : k = d
    · subst h
      rw [Function.update_self, ih]
      simp [Finset.sum_range_succ, add_assoc]
    · rw [Function.update_of_ne h, ih, if_neg h, if_neg h]

theorem accumulateByDim_apply (nv nd : Nat) (vertices : Nat → Nat → R) (shape x : Nat → R) (k : Nat) :
    accumulateByDim nv nd vertices shape x k =
      if k < nd then ∑ v ∈ Finset.range nv, vertices v k * shape v else x k := by
  rw [accumulateByDim, steps_zero_one, steps_zero_one]
  have h0 : ∀ k, fill (List.range nd) (fun _ => (0 : R)) x k = if k < nd then 0 else x k := by
    intro k; rw [fill_apply]; simp
  generalize fill (List.range nd) (fun _ => (0 : R)) x = y at h0
  have key : ∀ m ≤ nd, ∀ k, (List.range m).foldl (fun x d =>
      (List.range nv).foldl (fun x v => Function.update x d (x d + vertices v d * shape v)) x) y k =
      if k < m then ∑ v ∈ Finset.range nv, vertices v k * shape v else y k := by
    intro m hm
    induction m with
    | zero => simp
    | succ n ih =>
      intro k
      rw [List.range_succ, List.foldl_append, List.foldl_cons, List.foldl_nil, addVerts, ih (by omega), ih (by omega)]
      by_cases h : k = n
      · subst h
        simp [h0, show k < nd by omega]
      · have : k < n ↔ k < n + 1 := by omega
        simp [h, this]
  rw [key nd le_rfl, h0]
  by_cases h : k < nd <;> simp [h]

/-- one entry's inner loop -/
theorem addEntry (n j k : Nat) (g : Nat → R) (J : Nat → Nat → R) (a b : Nat) :
    (List.range n).foldl (fun (J : Nat → Nat → R) v =>
      Function.update J j (Function.update (J j) k (J j k + g v))) J a b =
      if a = j ∧ b = k then J j k + ∑ v ∈ Finset.range n, g v else J a b := by
  induction n generalizing a b with
  | zero =>
    by_cases h : a = j ∧ b = k
    · obtain ⟨rfl, rfl⟩ := h; simp
    · simp [h]
  | succ n ih =>
    rw [List.range_succ, List.foldl_append, List.foldl_cons, List.foldl_nil]
    by_cases ha : a = j
    · subst ha
      rw [Function.update_self]
      by_cases hb : b = k
      · subst hb
        rw [Function.update_self, ih]
        simp [Finset.sum_range_succ, add_assoc]
      · rw [Function.update_of_ne hb, ih]; simp [hb]
    · rw [Function.update_of_ne ha, ih]; simp [ha]

omit [Field R] in
/-- a doubly nested loop whose body rewrites only its own entry -/
theorem nested (body : Nat → Nat → (Nat → Nat → R) → Nat → Nat → R) (f : Nat → Nat → R → R)
    (hb : ∀ j k J a b, body j k J a b = if a = j ∧ b = k then f j k (J j k) else J a b) (m n : Nat)
    (J : Nat → Nat → R) (a b : Nat) :
    (List.range m).foldl (fun J j => (List.range n).foldl (fun J k => body j k J) J) J a b =
      if a < m ∧ b < n then f a b (J a b) else J a b := by
  have inner : ∀ (n j : Nat) (J : Nat → Nat → R) (a b : Nat),
      (List.range n).foldl (fun J k => body j k J) J a b = if a = j ∧ b < n then f a b (J a b) else J a b := by
    intro n j J
    induction n with
    | zero => simp
    | succ n ih =>
      intro a b
      rw [List.range_succ, List.foldl_append, List.foldl_cons, List.foldl_nil, hb]
      by_cases h : a = j ∧ b = n
      · obtain ⟨rfl, rfl⟩ := h
        simp [ih]
      · rw [if_neg h, ih]
        have : (a = j ∧ b < n) ↔ (a = j ∧ b < n + 1) := by omega
        simp [this]
  induction m generalizing a b with
  | zero => simp
  | succ m ih =>
    rw [List.range_succ, List.foldl_append, List.foldl_cons, List.foldl_nil, inner, ih]
    by_cases h : a = m
    · subst h; simp
    · have : a < m ↔ a < m + 1 := by omega
      simp [h, this]

/-- the Jacobian entries are the sums of vertex coordinate times partial derivative -/
theorem jacobianEntries_apply (vertices partials : Nat → Nat → R) (n dim : Nat) (J : Nat → Nat → R) (j k : Nat) :
    jacobianEntries vertices partials n dim J j k =
      if j < dim ∧ k < dim then ∑ v ∈ Finset.range n, vertices v k * partials v j else J j k := by
  simp only [jacobianEntries, steps_zero_one]
  rw [nested (fun j k J => (List.range n).foldl (fun J v =>
      Function.update J j (Function.update (J j) k (J j k + vertices v k * partials v j))) J)
    (fun j k s => s + ∑ v ∈ Finset.range n, vertices v k * partials v j)
    (fun j k J a b => addEntry n j k (fun v => vertices v k * partials v j) J a b)]
  rw [nested (fun j k J => Function.update J j (Function.update (J j) k 0)) (fun _ _ _ => 0)
    (fun j k J a b => by
      by_cases ha : a = j
      · subst ha
        by_cases hb : b = k
        · subst hb; simp
        · simp [hb]
      · simp [ha])]
  by_cases h : j < dim ∧ k < dim <;> simp [h]

end Verif.Elements
