import Verif.Vec.Model
import Verif.Mat.Lemmas
import Mathlib.LinearAlgebra.Matrix.Determinant.Basic
import Mathlib.Algebra.Order.BigOperators.Group.List
import Mathlib.Algebra.BigOperators.Fin
import Mathlib.Tactic.Linarith
import Mathlib.Tactic.LinearCombination
import Mathlib.Tactic.Ring
import Mathlib.Tactic.FieldSimp
import Mathlib.Tactic.NormNum
import Mathlib.Tactic.FinCases
import Mathlib.Tactic.Positivity

/-!
# C30 (products and normals), C31 (averages and extrema), C32 (unit and reflect)
-/

namespace Verif.Vec

theorem dot_eq {K : Type} [CommRing K] (a b : Vec n K) : dot a b = ∑ i, a i * b i := by
  unfold dot; rw [forLoop_sum]; simp

theorem dot3 {K : Type} [CommRing K] (a b : Vec 3 K) : dot a b = a 0 * b 0 + a 1 * b 1 + a 2 * b 2 := by
  rw [dot_eq, Fin.sum_univ_three]

theorem dot2 {K : Type} [CommRing K] (a b : Vec 2 K) : dot a b = a 0 * b 0 + a 1 * b 1 := by
  rw [dot_eq, Fin.sum_univ_two]

/-! ## C30 -/

/-- **C30** `dot_product` is the sum of products: symmetric, bilinear, in every dimension. -/
theorem C30_dot {K : Type} [CommRing K] (a b c : Vec n K) (s : K) :
    dot a b = ∑ i, a i * b i ∧ dot a b = dot b a ∧ dot (a + b) c = dot a c + dot b c ∧
      dot a (b + c) = dot a b + dot a c ∧ dot (s • a) b = s * dot a b ∧ dot a (s • b) = s * dot a b := by
  simp only [dot_eq, Pi.add_apply, Pi.smul_apply, smul_eq_mul, Finset.mul_sum,
    ← Finset.sum_add_distrib, true_and]
  refine ⟨?_, ?_, ?_, ?_, ?_⟩ <;> exact Finset.sum_congr rfl fun i _ => by ring

/-- **C30** The range/container version: equal lengths give the sum of products; a shorter
second range is read past its end. -/
theorem C30_dot_range {K : Type} [CommRing K] (xs ys : List K) :
    dotRange 0 xs ys =
      if xs.length ≤ ys.length then .ok ((List.zipWith (· * ·) xs ys).sum) else .ub := by
  have : ∀ s, dotRange s xs ys =
      if xs.length ≤ ys.length then .ok (s + (List.zipWith (· * ·) xs ys).sum) else .ub := by
    induction xs generalizing ys with
    | nil => intro s; simp [dotRange]
    | cons x xs ih =>
      intro s
      cases ys with
      | nil => simp [dotRange]
      | cons y ys =>
        simp only [dotRange, ih, List.length_cons, Nat.add_le_add_iff_right, List.zipWith_cons_cons,
          List.sum_cons, add_assoc]
  simpa using this 0

/-- **C30** The three-dimensional cross product is orthogonal to both factors, anticommutative,
bilinear, and satisfies Lagrange's identity. -/
theorem C30_cross {K : Type} [CommRing K] (a b c : Vec 3 K) (s : K) :
    dot (cross3 a b) a = 0 ∧ dot (cross3 a b) b = 0 ∧ cross3 a b = -cross3 b a ∧ cross3 a a = 0 ∧
      cross3 (a + b) c = cross3 a c + cross3 b c ∧ cross3 (s • a) b = s • cross3 a b ∧
      dot (cross3 a b) (cross3 a b) = dot a a * dot b b - dot a b ^ 2 := by
  refine ⟨?_, ?_, ?_, ?_, ?_, ?_, ?_⟩
  · rw [dot3]; simp [cross3]; ring
  · rw [dot3]; simp [cross3]; ring
  · funext i; fin_cases i <;> simp [cross3] <;> ring
  · funext i; fin_cases i <;> simp [cross3] <;> ring
  · funext i; fin_cases i <;> simp [cross3] <;> ring
  · funext i; fin_cases i <;> simp [cross3] <;> ring
  · simp only [dot3]; simp [cross3]; ring

/-- **C30** Right-handedness: the cross products of the axes. -/
theorem C30_cross_axes {K : Type} [CommRing K] :
    cross3 (![1, 0, 0] : Vec 3 K) ![0, 1, 0] = ![0, 0, 1] ∧
      cross3 (![0, 1, 0] : Vec 3 K) ![0, 0, 1] = ![1, 0, 0] ∧
      cross3 (![0, 0, 1] : Vec 3 K) ![1, 0, 0] = ![0, 1, 0] := by
  refine ⟨?_, ?_, ?_⟩ <;> funext i <;> fin_cases i <;> simp [cross3]

/-- **C30** The two-dimensional cross product is the determinant of the two vectors, and the
Lagrange identity holds. -/
theorem C30_cross2 {K : Type} [CommRing K] (a b : Vec 2 K) :
    cross2 a b = Matrix.det (Matrix.of ![a, b]) ∧ cross2 a b = -cross2 b a ∧
      cross2 a b ^ 2 = dot a a * dot b b - dot a b ^ 2 := by
  refine ⟨?_, ?_, ?_⟩
  · rw [Matrix.det_fin_two]; simp [cross2]
  · simp only [cross2]; ring
  · simp only [dot2, cross2]; ring

/-- **C30** The triple product is the determinant of the three vectors, it is `a·(b×c)`, and it
is invariant under cyclic permutation and changes sign under exchange. -/
theorem C30_triple {K : Type} [CommRing K] (a b c : Vec 3 K) :
    triple a b c = Matrix.det (Matrix.of ![a, b, c]) ∧ triple a b c = dot a (cross3 b c) ∧
      triple a b c = triple b c a ∧ triple a b c = -triple b a c := by
  refine ⟨?_, ?_, ?_, ?_⟩
  · rw [Matrix.det_fin_three]; simp [triple]; ring
  · rw [dot3]; simp [cross3, triple]; ring
  · simp only [triple]; ring
  · simp only [triple]; ring

/-- **C30** `normal(a,b)` in two dimensions is orthogonal to the edge `b - a`, has the length of
the edge, and is the edge turned by a quarter turn to the left. -/
theorem C30_normal2 {K : Type} [CommRing K] (a b : Vec 2 K) :
    dot (normal2 a b) (b - a) = 0 ∧ dot (normal2 a b) (normal2 a b) = dot (b - a) (b - a) ∧
      cross2 (b - a) (normal2 a b) = dot (b - a) (b - a) ∧ normal2 b a = -normal2 a b := by
  refine ⟨?_, ?_, ?_, ?_⟩
  · rw [dot2]; simp [normal2]; ring
  · simp only [dot2]; simp [normal2]; ring
  · simp only [dot2]; simp [normal2, cross2]; ring
  · funext i; fin_cases i <;> simp [normal2]

/-- **C30 fails** in three dimensions: `normal(a,b)` throws whatever the arguments. -/
theorem C30_normal3_fails {K : Type} [CommRing K] (a b : Vec 3 K) :
    normal3 a b = .throws "runtime_error" := rfl

example : dot (![1, 2, 3] : Vec 3 ℚ) ![4, 5, 6] = 32 := by rw [dot3]; simp; norm_num
example : cross3 (![1, 2, 3] : Vec 3 ℚ) ![4, 5, 6] = ![-3, 6, -3] := by
  funext i; fin_cases i <;> simp [cross3] <;> norm_num
example : triple (![1, 2, 3] : Vec 3 ℚ) ![4, 5, 6] ![7, 8, 10] = -3 := by simp [triple]; norm_num
example : normal2 (![0, 0] : Vec 2 ℚ) ![1, 0] = ![0, 1] := by simp [normal2]

/-! ## C31 -/

theorem accumulate_eq {K : Type} [Field K] (r : K) (l : List K) : accumulate r l = r + l.sum := by
  induction l generalizing r with
  | nil => simp [accumulate]
  | cons x l ih => simp [accumulate, ih, add_assoc]

theorem foldl_add_eq {K : Type} [AddCommMonoid K] (r : K) (l : List K) :
    l.foldl (· + ·) r = r + l.sum := by
  induction l generalizing r with
  | nil => simp
  | cons x l ih => simp [ih, add_assoc]

/-- the mean of a non-empty list -/
def mean {K : Type} [Field K] (l : List K) : K := l.sum / (l.length : K)

theorem mean_bounds {K : Type} [Field K] [LinearOrder K] [IsStrictOrderedRing K] (l : List K)
    (hl : l ≠ []) (lo hi : K) (hlo : ∀ x ∈ l, lo ≤ x) (hhi : ∀ x ∈ l, x ≤ hi) :
    lo ≤ mean l ∧ mean l ≤ hi := by
  have hp : (0 : K) < l.length := by
    have := List.length_pos_iff.2 hl
    exact_mod_cast this
  unfold mean
  rw [le_div_iff₀ hp, div_le_iff₀ hp]
  have h1 := List.card_nsmul_le_sum l lo hlo
  have h2 := List.sum_le_card_nsmul l hi hhi
  simp only [nsmul_eq_mul] at h1 h2
  constructor
  · linarith
  · linarith

/-- **C31** In exact arithmetic every overload of `average` is the sum divided by the count. -/
theorem C31_average {K : Type} [Field K] :
    (∀ (t u v : K) (r : List K), averagePack t (u :: v :: r) = mean (t :: u :: v :: r)) ∧
      (∀ t u : K, averageTwo t u = mean [t, u]) ∧
      (∀ l : List K, averageContainer l = if l = [] then .assertFail else .ok (mean l)) ∧
      (∀ l : List K, averageRange l = if l = [] then .assertFail else .ok (mean l)) := by
  refine ⟨fun t u v r => ?_, fun t u => ?_, fun l => ?_, fun l => ?_⟩
  · simp [averagePack, accumulate_eq, mean]
  · simp [averageTwo, mean]
  · cases l with
    | nil => simp [averageContainer]
    | cons x l => simp [averageContainer, mean, foldl_add_eq]
  · cases l with
    | nil => simp [averageRange]
    | cons x l => simp [averageRange, mean, foldl_add_eq]

/-- **C31** The average of a non-empty list lies between any bounds of its elements. -/
theorem C31_average_between {K : Type} [Field K] [LinearOrder K] [IsStrictOrderedRing K] (l : List K)
    (hl : l ≠ []) (lo hi : K) (hlo : ∀ x ∈ l, lo ≤ x) (hhi : ∀ x ∈ l, x ≤ hi) :
    ∃ m, averageContainer l = .ok m ∧ averageRange l = .ok m ∧ lo ≤ m ∧ m ≤ hi := by
  refine ⟨mean l, ?_, ?_, mean_bounds l hl lo hi hlo hhi⟩
  · rw [C31_average.2.2.1, if_neg hl]
  · rw [C31_average.2.2.2, if_neg hl]

example : ∃ m : ℚ, averageContainer [1, 2, 6] = .ok m ∧ 1 ≤ m ∧ m ≤ 6 := by
  obtain ⟨m, h, -, h'⟩ := C31_average_between [(1 : ℚ), 2, 6] (by simp) 1 6 (by simp) (by simp; norm_num)
  exact ⟨m, h, h'⟩

/-- **C31** Likewise for an argument pack. -/
theorem C31_average_pack_between {K : Type} [Field K] [LinearOrder K] [IsStrictOrderedRing K]
    (t u v : K) (r : List K) (lo hi : K) (hlo : ∀ x ∈ t :: u :: v :: r, lo ≤ x)
    (hhi : ∀ x ∈ t :: u :: v :: r, x ≤ hi) :
    lo ≤ averagePack t (u :: v :: r) ∧ averagePack t (u :: v :: r) ≤ hi := by
  rw [C31_average.1]
  exact mean_bounds _ (by simp) lo hi hlo hhi

example : 1 ≤ averagePack (1 : ℚ) [2, 6] ∧ averagePack (1 : ℚ) [2, 6] ≤ 6 :=
  C31_average_pack_between 1 2 6 [] 1 6 (by simp) (by simp; norm_num)

/-- **C31** An average never depends on the order of the elements. -/
theorem C31_average_perm {K : Type} [Field K] (l l' : List K) (h : l.Perm l') :
    averageContainer l = averageContainer l' := by
  rw [C31_average.2.2.1, C31_average.2.2.1]
  have : mean l = mean l' := by unfold mean; rw [h.sum_eq, h.length_eq]
  rw [this]
  by_cases hl : l = []
  · subst hl; simp [List.nil_perm.1 h]
  · have : l' ≠ [] := fun e => hl (by subst e; exact List.perm_nil.1 h)
    rw [if_neg hl, if_neg this]

example (a b c : ℚ) : averageContainer [a, b, c] = averageContainer [c, b, a] :=
  C31_average_perm [a, b, c] [c, b, a] (List.reverse_perm [a, b, c]).symm

/-- **C31 fails** for `int`: the pack and container versions divide by an unsigned count, so a
negative sum is converted to a huge positive number. -/
theorem C31_int_negative_fails :
    averagePackInt (-1) [-2, -3] = 1431655763 ∧ averageContainerInt [-1, -2, -3] = .ok 1431655763 := by
  refine ⟨?_, ?_⟩ <;> decide

/-- **C31** For `int` values with a non-negative sum below `2^31` all versions truncate the
exact quotient. -/
theorem C31_int_partial (l : List Int) (hl : l ≠ []) (h0 : 0 ≤ l.sum) (h1 : l.sum < 2 ^ 31) :
    averageContainerInt l = .ok (l.sum / l.length) ∧ averageRangeInt l = .ok (l.sum / l.length) := by
  have hp : 0 < l.length := List.length_pos_iff.2 hl
  have hz : (0 : Int) < l.length := by exact_mod_cast hp
  have hq0 : 0 ≤ l.sum / (l.length : Int) := Int.ediv_nonneg h0 (by omega)
  have hq1 : l.sum / (l.length : Int) ≤ l.sum := Int.ediv_le_self _ h0
  constructor
  · simp only [averageContainerInt, hp, decide_true, Outcome.assert_true, Outcome.bind_ok, intDivSize,
      foldl_add_eq, zero_add]
    rw [Int.emod_eq_of_lt h0 (by omega)]
    congr 1
    rw [Int.bmod_eq_of_le] <;> omega
  · simp only [averageRangeInt, hp, decide_true, Outcome.assert_true, Outcome.bind_ok, foldl_add_eq, zero_add]
    rw [Int.tdiv_eq_ediv_of_nonneg h0]

example : averageContainerInt [4, 5, 7] = .ok 5 := by decide
example : averageContainer ([1, 2, 6] : List ℚ) = .ok 3 := by
  rw [C31_average.2.2.1]; simp [mean]; norm_num
example : averageTwo (1 : ℚ) 2 = 3 / 2 := by norm_num [averageTwo]

theorem minScan_spec {K : Type} [LinearOrder K] (pre : List K) (bp : Nat) (b : K) (l : List K)
    (hb : pre[bp]? = some b) (hmin : ∀ x ∈ pre, b ≤ x) (hfirst : ∀ k < bp, ∀ x, pre[k]? = some x → b < x) :
    let r := minScan bp b pre.length l
    (pre ++ l)[r.1]? = some r.2 ∧ (∀ x ∈ pre ++ l, r.2 ≤ x) ∧
      ∀ k < r.1, ∀ x, (pre ++ l)[k]? = some x → r.2 < x := by
  induction l generalizing pre bp b with
  | nil => simpa [minScan] using ⟨hb, hmin, hfirst⟩
  | cons x l ih =>
    simp only [minScan]
    have hbp : bp < pre.length := by
      rw [List.getElem?_eq_some_iff] at hb; exact hb.1
    have happ : pre ++ x :: l = (pre ++ [x]) ++ l := by simp
    have hlen : pre.length + 1 = (pre ++ [x]).length := by simp
    by_cases hx : x < b
    · rw [if_pos hx, happ, hlen]
      apply ih (pre ++ [x]) pre.length x
      · simp
      · intro y hy
        rcases List.mem_append.1 hy with h | h
        · exact (hx.trans_le (hmin y h)).le
        · simp at h; exact h.ge
      · intro k hk y hy
        rw [List.getElem?_append_left hk] at hy
        exact hx.trans_le (hmin y (List.mem_of_getElem? hy))
    · rw [if_neg hx, happ, hlen]
      apply ih (pre ++ [x]) bp b
      · rw [List.getElem?_append_left hbp]; exact hb
      · intro y hy
        rcases List.mem_append.1 hy with h | h
        · exact hmin y h
        · simp at h; rw [h]; exact not_lt.1 hx
      · intro k hk y hy
        rw [List.getElem?_append_left (by omega)] at hy
        exact hfirst k hk y hy

theorem maxScan_eq_minScan {K : Type} [LinearOrder K] (bp : Nat) (b : K) (p : Nat) (l : List K) :
    maxScan bp b p l =
      ((minScan (K := Kᵒᵈ) bp (OrderDual.toDual b) p (l.map OrderDual.toDual)).1,
        OrderDual.ofDual (minScan (K := Kᵒᵈ) bp (OrderDual.toDual b) p (l.map OrderDual.toDual)).2) := by
  induction l generalizing bp b p with
  | nil => rfl
  | cons x l ih =>
    simp only [maxScan, List.map_cons, minScan, OrderDual.toDual_lt_toDual]
    split <;> exact ih _ _ _

/-- **C31** `min_element` of a non-empty range points to an element that bounds all the others
from below, and it is the first such element. -/
theorem C31_min_element {K : Type} [LinearOrder K] (l : List K) (hl : l ≠ []) :
    ∃ m, l[minElement l]? = some m ∧ (∀ x ∈ l, m ≤ x) ∧
      ∀ k < minElement l, ∀ x, l[k]? = some x → m < x := by
  cases l with
  | nil => exact absurd rfl hl
  | cons a l => exact ⟨_, minScan_spec [a] 0 a l (by simp) (by simp) (by simp)⟩

example : ∃ m, [3, 1, 2, 1][minElement [3, 1, 2, 1]]? = some m ∧ ∀ x ∈ [3, 1, 2, 1], m ≤ x := by
  obtain ⟨m, h, h', -⟩ := C31_min_element [3, 1, 2, 1] (by simp)
  exact ⟨m, h, h'⟩

/-- **C31** `max_element` of a non-empty range points to the first element that bounds all the
others from above. -/
theorem C31_max_element {K : Type} [LinearOrder K] (l : List K) (hl : l ≠ []) :
    ∃ m, l[maxElement l]? = some m ∧ (∀ x ∈ l, x ≤ m) ∧
      ∀ k < maxElement l, ∀ x, l[k]? = some x → x < m := by
  cases l with
  | nil => exact absurd rfl hl
  | cons a l =>
    have := minScan_spec (K := Kᵒᵈ) [OrderDual.toDual a] 0 (OrderDual.toDual a) (l.map OrderDual.toDual)
      (by simp) (by simp) (by simp)
    simp only [maxElement, maxScan_eq_minScan]
    obtain ⟨h1, h2, h3⟩ := this
    have e : [OrderDual.toDual a] ++ l.map OrderDual.toDual = (a :: l).map OrderDual.toDual := rfl
    rw [e] at h1 h2 h3
    refine ⟨OrderDual.ofDual (minScan (K := Kᵒᵈ) 0 (OrderDual.toDual a) 1 (l.map OrderDual.toDual)).2, ?_, ?_, ?_⟩
    · rw [List.getElem?_map] at h1
      cases hh : (a :: l)[(minScan (K := Kᵒᵈ) 0 (OrderDual.toDual a) 1 (l.map OrderDual.toDual)).1]? with
      | none =>
        have : [OrderDual.toDual a].length = 1 := rfl
        simp [hh, this] at h1
      | some v =>
        have : [OrderDual.toDual a].length = 1 := rfl
        simp only [this, hh, Option.map_some, Option.some.injEq] at h1
        rw [← h1]; rfl
    · intro x hx
      exact h2 (OrderDual.toDual x) (List.mem_map_of_mem hx)
    · intro k hk x hx
      exact h3 k hk (OrderDual.toDual x) (by rw [List.getElem?_map, hx]; rfl)

/-- **C31** On an empty range the returned iterator is `end()`. -/
theorem C31_extrema_empty {K : Type} [LinearOrder K] : minElement ([] : List K) = 0 ∧ maxElement ([] : List K) = 0 :=
  ⟨rfl, rfl⟩

example : minElement ([3, 1, 2, 1] : List Nat) = 1 := by decide
example : maxElement ([3, 1, 4, 4] : List Nat) = 2 := by decide

theorem stdMin_eq {K : Type} [LinearOrder K] (a b : K) : stdMin a b = min a b := by
  unfold stdMin
  split
  · rename_i h; exact (min_eq_right h.le).symm
  · rename_i h; exact (min_eq_left (not_lt.1 h)).symm

theorem stdMax_eq {K : Type} [LinearOrder K] (a b : K) : stdMax a b = max a b := by
  unfold stdMax
  split
  · rename_i h; exact (max_eq_right h.le).symm
  · rename_i h; exact (max_eq_left (not_lt.1 h)).symm

/-- **C31** Elementwise `min` and `max` of fixed-size arrays, whatever the result held before. -/
theorem C31_elementwise_partial {K : Type} [LinearOrder K] (tmp a b : Vec n K) (i : Fin n) :
    minArray tmp a b i = min (a i) (b i) ∧ maxArray tmp a b i = max (a i) (b i) := by
  unfold minArray maxArray
  rw [forLoop_fill, forLoop_fill]
  exact ⟨stdMin_eq _ _, stdMax_eq _ _⟩

theorem zipLoop_nil {K : Type} [LinearOrder K] (f : K → K → K) (a b : List K) (ha : a ≠ []) (n : Nat) :
    zipLoop f a b 0 [] (n + 1) = .ub := by
  have : 0 < a.length := List.length_pos_iff.2 ha
  unfold zipLoop
  simp only [this, if_true]
  cases a with
  | nil => exact absurd rfl ha
  | cons x a =>
    cases b with
    | nil => simp [rd]
    | cons y b => simp [rd, wr]

/-- **C31 fails** for resizable containers: elementwise `min` and `max` write past the end of an
empty result for all non-empty arguments. -/
theorem C31_container_fails {K : Type} [LinearOrder K] (a b : List K) (ha : a ≠ []) :
    minContainer a b = .ub ∧ maxContainer a b = .ub :=
  ⟨zipLoop_nil _ a b ha _, zipLoop_nil _ a b ha _⟩

example : minContainer [1, 2] [3, (0 : Nat)] = .ub := (C31_container_fails _ _ (by simp)).1
example (tmp : Vec 2 Nat) : minArray tmp ![1, 5] ![3, 2] = ![1, 2] := by
  funext i; rw [(C31_elementwise_partial _ _ _ _).1]; fin_cases i <;> simp

/-- **C31** `sgn` is the sign: its product with the magnitude gives the value back. -/
theorem C31_sgn {K : Type} [Ring K] [LinearOrder K] [IsStrictOrderedRing K] (v : K) :
    (sgn v : K) * |v| = v ∧ (sgn v = 1 ↔ 0 < v) ∧ (sgn v = -1 ↔ v < 0) ∧ (sgn v = 0 ↔ v = 0) := by
  unfold sgn
  rcases lt_trichotomy v 0 with h | h | h
  · simp [h, not_lt.2 h.le, abs_of_neg h, h.ne]
  · subst h; simp
  · simp [h, not_lt.2 h.le, abs_of_pos h, h.ne']

/-- **C31** `sqr` and `cube` are the second and third power, for any ring of values. -/
theorem C31_powers {K : Type} [CommRing K] (x : K) : sqr x = x ^ 2 ∧ cube x = x ^ 3 := by
  constructor
  · rw [sqr]; ring
  · rw [cube]; ring

example : sqr (-3 : Int) = 9 ∧ cube (-3 : Int) = -27 := by decide

/-! ## C32 -/

theorem magnitude_eq (v : Vec n ℝ) : magnitude v = Real.sqrt (∑ i, v i * v i) := by
  unfold magnitude; rw [forLoop_sum]; simp

theorem sumsq_nonneg (v : Vec n ℝ) : 0 ≤ ∑ i, v i * v i :=
  Finset.sum_nonneg fun i _ => mul_self_nonneg (v i)

/-- **C32** `magnitude` is a norm-like length: its square is the dot product, it is zero only
for the zero vector, and it scales with the absolute value. -/
theorem C32_magnitude (v w : Vec n ℝ) (c : ℝ) :
    magnitude v ^ 2 = dot v v ∧ 0 ≤ magnitude v ∧ (magnitude v = 0 ↔ v = 0) ∧
      magnitude (c • v) = |c| * magnitude v ∧ deltaMagnitude v w = magnitude (v - w) := by
  refine ⟨?_, ?_, ?_, ?_, ?_⟩
  · rw [magnitude_eq, dot_eq, Real.sq_sqrt (sumsq_nonneg v)]
  · exact Real.sqrt_nonneg _
  · rw [magnitude_eq, Real.sqrt_eq_zero (sumsq_nonneg v),
      Finset.sum_eq_zero_iff_of_nonneg fun i _ => mul_self_nonneg (v i)]
    constructor
    · intro h; funext i; exact mul_self_eq_zero.1 (h i (Finset.mem_univ i))
    · rintro rfl i _; simp
  · rw [magnitude_eq, magnitude_eq, ← Real.sqrt_sq_eq_abs, ← Real.sqrt_mul (sq_nonneg c), Finset.mul_sum]
    congr 1
    exact Finset.sum_congr rfl fun i _ => by simp only [Pi.smul_apply, smul_eq_mul]; ring
  · unfold deltaMagnitude magnitude; rfl

/-- **C32** `unit(v)` of a non-zero vector has magnitude one and is a positive multiple of `v`. -/
theorem C32_unit (tmp v : Vec n ℝ) (hv : v ≠ 0) :
    ∃ u, unit tmp v = .ok u ∧ magnitude u = 1 ∧ ∃ c : ℝ, 0 < c ∧ v = c • u := by
  have hm : magnitude v ≠ 0 := fun h => hv ((C32_magnitude v v 0).2.2.1.1 h)
  have hpos : 0 < magnitude v := lt_of_le_of_ne (C32_magnitude v v 0).2.1 (Ne.symm hm)
  have hu : divScalar tmp v (magnitude v) = (magnitude v)⁻¹ • v := by
    unfold divScalar
    simp only [forLoop_fill]
    funext i
    simp [mul_comm]
  refine ⟨divScalar tmp v (magnitude v), by simp [unit, hm], ?_, magnitude v, hpos, ?_⟩
  · rw [hu, (C32_magnitude v v _).2.2.2.1, abs_of_pos (inv_pos.2 hpos), inv_mul_cancel₀ hm]
  · rw [hu, smul_smul, mul_inv_cancel₀ hm, one_smul]

example : ∃ u, unit 0 (![3, 4] : Vec 2 ℝ) = .ok u ∧ magnitude u = 1 := by
  obtain ⟨u, h, h', -⟩ := C32_unit 0 (![3, 4] : Vec 2 ℝ) (fun h => by simpa using congrFun h 0)
  exact ⟨u, h, h'⟩

/-- **C32** The zero vector has no unit vector: the code divides zero by zero. -/
theorem C32_unit_zero (tmp : Vec n ℝ) : unit tmp 0 = .throws "NaN" := by
  have : magnitude (0 : Vec n ℝ) = 0 := (C32_magnitude 0 0 0).2.2.1.2 rfl
  simp [unit, this]

theorem reflect_eq {K : Type} [CommRing K] (v m : Vec n K) : reflect v m = v - (2 * dot v m) • m := by
  unfold reflect
  dsimp only
  rw [forLoop_upd_each (fun _ x => x * (2 * dot v m)) m, forLoop_upd_each (fun i x => x - m i * (2 * dot v m)) v]
  funext i
  simp only [Pi.sub_apply, Pi.smul_apply, smul_eq_mul]
  ring

/-- **C32** Reflecting about a unit normal: twice is the identity, dot products (hence
magnitudes) are preserved, the normal component flips, the tangential part is unchanged. -/
theorem C32_reflect {K : Type} [CommRing K] (v w m : Vec n K) (hm : dot m m = 1) :
    reflect (reflect v m) m = v ∧ dot (reflect v m) (reflect w m) = dot v w ∧
      dot (reflect v m) m = -dot v m ∧ (∀ t, dot t m = 0 → dot (reflect v m) t = dot v t) := by
  have hl : ∀ (x y z : Vec n K) (c : K), dot (x - c • y) z = dot x z - c * dot y z := by
    intro x y z c
    simp only [dot_eq, Pi.sub_apply, Pi.smul_apply, smul_eq_mul, Finset.mul_sum, ← Finset.sum_sub_distrib]
    exact Finset.sum_congr rfl fun i _ => by ring
  have hs : ∀ x y : Vec n K, dot x y = dot y x := fun x y => (C30_dot x y 0 0).2.1
  have h3 : dot (reflect v m) m = -dot v m := by rw [reflect_eq, hl, hm]; ring
  refine ⟨?_, ?_, h3, ?_⟩
  · rw [reflect_eq (reflect v m), h3, reflect_eq]
    funext i; simp only [Pi.sub_apply, Pi.smul_apply, smul_eq_mul]; ring
  · rw [reflect_eq v, hl, reflect_eq w, hs v, hs m, hl, hl, hm, hs w v, hs m v]; ring
  · intro t ht
    rw [reflect_eq, hl, hs m t, ht]; ring

/-- **C32** Consequently the reflection preserves the magnitude. -/
theorem C32_reflect_magnitude (v m : Vec n ℝ) (hm : magnitude m = 1) :
    magnitude (reflect v m) = magnitude v := by
  have h1 : dot m m = 1 := by rw [← (C32_magnitude m m 0).1, hm]; norm_num
  have := (C32_reflect v v m h1).2.1
  rw [dot_eq, dot_eq] at this
  rw [magnitude_eq, magnitude_eq, this]

example : dot (![3 / 5, 4 / 5] : Vec 2 ℚ) ![3 / 5, 4 / 5] = 1 := by rw [dot2]; norm_num
example : magnitude (![3, 4] : Vec 2 ℝ) = 5 := by
  rw [magnitude_eq, Fin.sum_univ_two]
  rw [show ((![3, 4] : Vec 2 ℝ) 0 * (![3, 4] : Vec 2 ℝ) 0 + (![3, 4] : Vec 2 ℝ) 1 * (![3, 4] : Vec 2 ℝ) 1) = 5 ^ 2 by
    norm_num]
  exact Real.sqrt_sq (by norm_num)

end Verif.Vec
