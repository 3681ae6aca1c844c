import Verif.Elements.Props
import Mathlib.LinearAlgebra.Matrix.Determinant.Basic
import Mathlib.LinearAlgebra.Matrix.Adjugate

/-!
# C63: Jacobian matrix, determinant, inverse
-/

namespace Verif.Elements

variable {R : Type} [Field R]

/-- the leading `n` by `n` part as a mathematical matrix -/
def mat (n : Nat) (J : Nat → Nat → R) : Matrix (Fin n) (Fin n) R := Matrix.of fun i j => J i.1 j.1

theorem det_four (J : Nat → Nat → R) : (mat 4 J).det =
    J 0 3 * J 1 2 * J 2 1 * J 3 0 - J 0 2 * J 1 3 * J 2 1 * J 3 0 - J 0 3 * J 1 1 * J 2 2 * J 3 0
    + J 0 1 * J 1 3 * J 2 2 * J 3 0 + J 0 2 * J 1 1 * J 2 3 * J 3 0 - J 0 1 * J 1 2 * J 2 3 * J 3 0
    - J 0 3 * J 1 2 * J 2 0 * J 3 1 + J 0 2 * J 1 3 * J 2 0 * J 3 1 + J 0 3 * J 1 0 * J 2 2 * J 3 1
    - J 0 0 * J 1 3 * J 2 2 * J 3 1 - J 0 2 * J 1 0 * J 2 3 * J 3 1 + J 0 0 * J 1 2 * J 2 3 * J 3 1
    + J 0 3 * J 1 1 * J 2 0 * J 3 2 - J 0 1 * J 1 3 * J 2 0 * J 3 2 - J 0 3 * J 1 0 * J 2 1 * J 3 2
    + J 0 0 * J 1 3 * J 2 1 * J 3 2 + J 0 1 * J 1 0 * J 2 3 * J 3 2 - J 0 0 * J 1 1 * J 2 3 * J 3 2
    - J 0 2 * J 1 1 * J 2 0 * J 3 3 + J 0 1 * J 1 2 * J 2 0 * J 3 3 + J 0 2 * J 1 0 * J 2 1 * J 3 3
    - J 0 0 * J 1 2 * J 2 1 * J 3 3 - J 0 1 * J 1 0 * J 2 2 * J 3 3 + J 0 0 * J 1 1 * J 2 2 * J 3 3 := by
  rw [Matrix.det_succ_row_zero]
  simp only [Fin.sum_univ_four, Matrix.det_fin_three, Matrix.submatrix_apply, mat, Matrix.of_apply]
  simp [Fin.succAbove, Fin.lt_def]
  ring

/-- C63: in 2D and 3D `jacobian` fills the matrix with the derivatives of the position - row: the
reference direction, column: the coordinate - and returns its determinant.  The matrix must have
three rows and columns even in 2D, see `C63_two_by_two_fails` -/
theorem C63_jacobian (e : Kind) (J : Matrix2 ℝ) (vertices : Nat → Nat → ℝ) (xi : Nat → ℝ) (out : Nat → Nat → ℝ)
    (hr : 3 ≤ J.rows) (hc : 3 ≤ J.cols) :
    ∃ J' det, jacobian J vertices (fun v j => e.partials j (out j) xi v) e.nodes e.dim = .ok (J', det) ∧
      det = (mat e.dim J'.get).det ∧
      ∀ j k, j < e.dim → k < e.dim → ∀ tmp x,
        HasDerivAt (fun t => e.position tmp x (Function.update xi j t) vertices k) (J'.get j k) (xi j) := by
  have hd : e.dim = 2 ∨ e.dim = 3 := by cases e <;> simp [Kind.dim]
  have hub : ¬(J.rows < e.dim ∨ J.cols < e.dim ∨ J.rows < 3 ∨ J.cols < 3) := by omega
  rw [jacobian, if_neg hub]
  refine ⟨_, _, rfl, ?_, ?_⟩
  · dsimp only
    generalize jacobianEntries vertices (fun v j => e.partials j (out j) xi v) e.nodes e.dim J.get = m
    rcases hd with h | h <;> rw [h]
    · simp [mat, Matrix.det_fin_two]
    · simp [mat, Matrix.det_fin_three]; ring
  · intro j k hj hk tmp x
    dsimp only
    rw [jacobianEntries_apply, if_pos ⟨hj, hk⟩]
    exact C61_position e tmp x (out j) xi vertices j k hj hk

example : ∃ J' det, jacobian ⟨3, 3, fun _ _ => 7⟩ (fun v k => (v : ℝ) ^ 2 + k)
    (fun v j => Kind.hex8.partials j (fun _ => 0) (fun _ => 1 / 3) v) 8 3 = .ok (J', det) ∧ det = (mat 3 J'.get).det := by
  obtain ⟨J', det, h, h', -⟩ := C63_jacobian .hex8 ⟨3, 3, fun _ _ => 7⟩ (fun v k => (v : ℝ) ^ 2 + k) (fun _ => 1 / 3)
    (fun _ _ => 0) (by decide) (by decide)
  exact ⟨J', det, h, h'⟩

/-- C63 for arbitrary partials: in 2D and 3D the returned number is the determinant of the matrix
`J[j][k] = Σ_v vertices[v][k] * partial[v][j]`; entries outside are untouched -/
theorem C63_determinant (J : Matrix2 R) (vertices partials : Nat → Nat → R) (n dim : Nat) (hdim : dim = 2 ∨ dim = 3)
    (hr : 3 ≤ J.rows) (hc : 3 ≤ J.cols) :
    ∃ J', jacobian J vertices partials n dim = .ok (J', (mat dim J'.get).det) ∧
      (∀ j k, j < dim → k < dim → J'.get j k = ∑ v ∈ Finset.range n, vertices v k * partials v j) ∧
      (∀ j k, ¬(j < dim ∧ k < dim) → J'.get j k = J.get j k) := by
  have hub : ¬(J.rows < dim ∨ J.cols < dim ∨ J.rows < 3 ∨ J.cols < 3) := by omega
  rw [jacobian, if_neg hub]
  refine ⟨{ J with get := jacobianEntries vertices partials n dim J.get }, ?_, ?_, ?_⟩
  · generalize jacobianEntries vertices partials n dim J.get = m
    rcases hdim with h | h <;> subst h
    · simp [mat, Matrix.det_fin_two]
    · simp [mat, Matrix.det_fin_three]; ring
  · intro j k hj hk
    dsimp only
    rw [jacobianEntries_apply, if_pos ⟨hj, hk⟩]
  · intro j k h
    dsimp only
    rw [jacobianEntries_apply, if_neg h]

/-- two dimensions in a matrix with three rows and columns -/
example : ∃ J', jacobian ⟨3, 3, fun _ _ => (7 : ℚ)⟩ (fun v k => v ^ 2 + k) (fun v j => v + j) 4 2 = .ok (J', (mat 2 J'.get).det) ∧
    J'.get 2 2 = 7 := by
  obtain ⟨J', h, -, h'⟩ := C63_determinant ⟨3, 3, fun _ _ => (7 : ℚ)⟩ (fun v k => v ^ 2 + k) (fun v j => v + j) 4 2 (.inl rfl)
    (by decide) (by decide)
  exact ⟨J', h, h' 2 2 (by decide)⟩

/-- C63 is false for a 2 by 2 matrix: the determinant formula reads a third row -/
theorem C63_two_by_two_fails (get : Nat → Nat → R) (vertices partials : Nat → Nat → R) (n : Nat) :
    jacobian ⟨2, 2, get⟩ vertices partials n 2 = .ub := by
  simp [jacobian]

/-- C63 in 4D -/
theorem C63_determinant_4d (J : Matrix2 R) (vertices partials : Nat → Nat → R) (n : Nat) (hr : 4 ≤ J.rows)
    (hc : 4 ≤ J.cols) :
    ∃ J', jacobian4D J vertices partials n 4 = .ok (J', (mat 4 J'.get).det) ∧
      ∀ j k, j < 4 → k < 4 → J'.get j k = ∑ v ∈ Finset.range n, vertices v k * partials v j := by
  have hub : ¬(J.rows < 4 ∨ J.cols < 4 ∨ J.rows < 4 ∨ J.cols < 4) := by omega
  rw [jacobian4D, if_neg hub]
  refine ⟨{ J with get := jacobianEntries vertices partials n 4 J.get }, ?_, ?_⟩
  · rw [det_four]
  · intro j k hj hk
    dsimp only
    rw [jacobianEntries_apply, if_pos ⟨hj, hk⟩]

example : ∃ J', jacobian4D ⟨4, 5, fun _ _ => (7 : ℚ)⟩ (fun v k => v ^ 2 + k) (fun v j => v + j) 16 4 = .ok (J', (mat 4 J'.get).det) := by
  obtain ⟨J', h, -⟩ := C63_determinant_4d ⟨4, 5, fun _ _ => (7 : ℚ)⟩ (fun v k => v ^ 2 + k) (fun v j => v + j) 16 (by decide) (by decide)
  exact ⟨J', h⟩

/-! ## inverses -/

theorem comb2 (x a y b D t : R) (h : D ≠ 0) (e : x * a + y * b = t * D) : x * (a / D) + y * (b / D) = t := by
  have : x * (a / D) + y * (b / D) = (x * a + y * b) / D := by ring
  rw [this, e, mul_div_assoc, div_self h, mul_one]

theorem comb2' (x a y b D t : R) (h : D ≠ 0) (e : a * x + b * y = t * D) : a / D * x + b / D * y = t := by
  have : a / D * x + b / D * y = (a * x + b * y) / D := by ring
  rw [this, e, mul_div_assoc, div_self h, mul_one]

theorem comb3 (x a y b z c D t : R) (h : D ≠ 0) (e : x * a + y * b + z * c = t * D) :
    x * (a / D) + y * (b / D) + z * (c / D) = t := by
  have : x * (a / D) + y * (b / D) + z * (c / D) = (x * a + y * b + z * c) / D := by ring
  rw [this, e, mul_div_assoc, div_self h, mul_one]

section
variable [DecidableEq R]

/-- C63: the 2D inverse is the inverse whenever there is one -/
theorem C63_inverse_2d (j : Nat → Nat → R) (h : (mat 2 j).det ≠ 0) :
    ∃ i, jacobianInverse2 j = .ok i ∧ mat 2 j * mat 2 i = 1 ∧ mat 2 i * mat 2 j = 1 := by
  have hd : j 0 0 * j 1 1 - j 0 1 * j 1 0 ≠ 0 := by
    simpa [mat, Matrix.det_fin_two] using h
  refine ⟨_, by rw [jacobianInverse2, if_neg hd], ?_, ?_⟩
  · ext a b
    revert a b
    simp only [Fin.forall_fin_two, Matrix.mul_apply, Fin.sum_univ_two, mat, Matrix.of_apply, Matrix.one_apply]
    simp only [row, Fin.val_zero, Fin.val_one, List.getD_cons_zero, List.getD_cons_succ, if_true, zero_ne_one,
      one_ne_zero, if_false]
    refine ⟨⟨?_, ?_⟩, ?_, ?_⟩ <;> refine comb2 _ _ _ _ _ _ hd ?_ <;> ring
  · ext a b
    revert a b
    simp only [Fin.forall_fin_two, Matrix.mul_apply, Fin.sum_univ_two, mat, Matrix.of_apply, Matrix.one_apply]
    simp only [row, Fin.val_zero, Fin.val_one, List.getD_cons_zero, List.getD_cons_succ, if_true, zero_ne_one,
      one_ne_zero, if_false]
    refine ⟨⟨?_, ?_⟩, ?_, ?_⟩ <;> refine comb2' _ _ _ _ _ _ hd ?_ <;> ring

example : ∃ i, jacobianInverse2 (row [[2, 1], [1, 1]] : Nat → Nat → ℚ) = .ok i ∧ mat 2 (row [[2, 1], [1, 1]]) * mat 2 i = 1 := by
  obtain ⟨i, h, h', -⟩ := C63_inverse_2d (row [[2, 1], [1, 1]] : Nat → Nat → ℚ) (by
    simp [mat, Matrix.det_fin_two, row]; norm_num)
  exact ⟨i, h, h'⟩

/-- C63: the 2D inverse reports a singular matrix (infinities or NaNs) -/
theorem C63_inverse_2d_singular (j : Nat → Nat → R) (h : (mat 2 j).det = 0) : jacobianInverse2 j = .throws "NaN" := by
  have hd : j 0 0 * j 1 1 - j 0 1 * j 1 0 = 0 := by
    simpa [mat, Matrix.det_fin_two] using h
  rw [jacobianInverse2, if_pos hd]

example : jacobianInverse2 (row [[2, 1], [4, 2]] : Nat → Nat → ℚ) = .throws "NaN" :=
  C63_inverse_2d_singular _ (by simp [mat, Matrix.det_fin_two, row]; norm_num)

/-- C63 is false in 3D, in three ways: for an invertible triangular matrix the result is not the
inverse; for a symmetric invertible matrix it is not either; and for some invertible matrices the
function divides by zero -/
theorem C63_inverse_3d_fails [CharZero R] :
    (∃ j i : Nat → Nat → R, (mat 3 j).det = 1 ∧ (∀ a b, b < a → j a b = 0) ∧
      jacobianInverse3 j = .ok i ∧ mat 3 j * mat 3 i ≠ 1) ∧
    (∃ j i : Nat → Nat → R, (mat 3 j).det ≠ 0 ∧ (∀ a b, j a b = j b a) ∧
      jacobianInverse3 j = .ok i ∧ mat 3 j * mat 3 i ≠ 1) ∧
    (∃ j : Nat → Nat → R, (mat 3 j).det = 1 ∧ jacobianInverse3 j = .throws "NaN") := by
  refine ⟨?_, ?_, ?_⟩
  · refine ⟨fun a b => if a = b then 1 else if a = 0 ∧ b = 1 then 2 else 0, ?w, ?_, ?_, ?_, ?_⟩
    rotate_left 3
    · rw [jacobianInverse3, if_neg (by norm_num)]
    · intro h
      have := congrFun (congrFun h 1) 0
      norm_num [Matrix.mul_apply, Fin.sum_univ_three, mat, row] at this
    · simp [mat, Matrix.det_fin_three]
    · intro a b hab
      have h1 : ¬ a = b := by omega
      have h2 : ¬ (a = 0 ∧ b = 1) := by omega
      simp [h1, h2]
  · refine ⟨row [[1, 2, 0], [2, 1, 0], [0, 0, 1]], ?w2, ?_, ?_, ?_, ?_⟩
    rotate_left 3
    · rw [jacobianInverse3, if_neg (by simp [row]; norm_num)]
    · intro h
      have := congrFun (congrFun h 0) 2
      rw [Matrix.one_apply_ne (by decide)] at this
      norm_num [Matrix.mul_apply, Fin.sum_univ_three, mat, row] at this
    · simp [mat, Matrix.det_fin_three, row]; norm_num
    · intro a b
      rcases a with _ | _ | _ | a <;> rcases b with _ | _ | _ | b <;> simp [row]
  · refine ⟨row [[1, 1, 0], [0, 1, 0], [0, 0, 1]], ?_, ?_⟩
    · simp [mat, Matrix.det_fin_three, row]
    · rw [jacobianInverse3, if_pos (by simp [row])]

/-- C63 in 3D as far as it holds: symmetric matrices whose (1,0) entry is zero or whose (1,1) and
(2,1) entries agree - in particular diagonal ones.  (Missing: everything else, see
`C63_inverse_3d_fails`.) -/
theorem C63_inverse_3d_partial (j : Nat → Nat → R) (h : (mat 3 j).det ≠ 0) (h01 : j 0 1 = j 1 0) (h02 : j 0 2 = j 2 0)
    (h12 : j 1 2 = j 2 1) (hz : j 1 0 = 0 ∨ j 1 1 = j 2 1) :
    ∃ i, jacobianInverse3 j = .ok i ∧ mat 3 j * mat 3 i = 1 := by
  have hz' : j 1 0 * j 1 1 = j 1 0 * j 2 1 := by rcases hz with h | h <;> rw [h] <;> ring
  have hd : j 0 0 * (j 1 1 * j 2 2 - j 1 2 * j 2 1) + j 0 1 * (j 2 1 * j 0 2 - j 0 1 * j 2 2)
      + j 0 2 * (j 0 1 * j 1 2 - j 0 2 * j 1 1) ≠ 0 := by
    intro e
    apply h
    simp only [mat, Matrix.det_fin_three, Matrix.of_apply]
    simp only [h01, h02, h12] at e
    simp
    rw [h01, h02, h12]
    linear_combination e
  refine ⟨_, by rw [jacobianInverse3, if_neg hd], ?_⟩
  ext a b
  revert a b
  simp only [Fin.forall_fin_succ, Matrix.mul_apply, Fin.sum_univ_three, mat, Matrix.of_apply, Matrix.one_apply]
  simp only [row, Fin.val_zero, Fin.val_one, Fin.val_two, Fin.val_succ, List.getD_cons_zero, List.getD_cons_succ,
    IsEmpty.forall_iff, and_true]
  refine ⟨⟨?_, ?_, ?_⟩, ⟨?_, ?_, ?_⟩, ?_, ?_, ?_⟩ <;> refine comb3 _ _ _ _ _ _ _ _ hd ?_ <;>
    simp [h01, h02, h12] <;>
    first | ring1 | linear_combination (j 0 0) * hz' | linear_combination (j 1 0) * hz' | linear_combination (j 2 0) * hz'

omit [DecidableEq R] in
/-- the matrix with rows `(a,b,c) (d,e,f) (g,h,i)`; `t` is the determinant the code computes -/
theorem inverse3_symmetric (a b c d e f g h i D t : R) (hD : D ≠ 0)
    (eD : D = a * (e * i - f * h) + b * (f * g - d * i) + c * (d * h - g * e))
    (e11 : D * (e * i - f * h) = t * (e * i - f * h)) (e22 : D * (i * a - g * c) = t * (i * a - g * c))
    (e33 : D * (a * e - b * d) = t * (a * e - b * d))
    (e12 : D * (f * g - d * i) = t * (h * c - b * i)) (e21 : D * (h * c - b * i) = t * (f * g - d * i))
    (e13 : D * (d * e - g * e) = t * (b * f - c * e)) (e31 : D * (b * f - c * e) = t * (d * h - g * e))
    (e23 : D * (g * b - h * a) = t * (c * d - f * a)) (e32 : D * (c * d - f * a) = t * (g * b - h * a)) :
    (b = d ∧ c = g ∧ f = h) ∧ (d = 0 ∨ e = h) := by
  by_cases ht : t = D
  · subst ht
    have s1 := mul_left_cancel₀ hD e12
    have s2 := mul_left_cancel₀ hD e23
    have s3 := mul_left_cancel₀ hD e31
    have s4 := mul_left_cancel₀ hD e13
    have hb : b = d := by
      apply mul_left_cancel₀ hD
      rw [eD]
      linear_combination (b * f - c * e) * s2 + (c * d - f * a) * s3 + (a * e - b * d) * s1
    have hc : c = g := by
      apply mul_left_cancel₀ hD
      rw [eD]
      linear_combination -(c * d - f * a) * s1 - (f * g - d * i) * s2 - (i * a - g * c) * s3
    have hf : f = h := by
      apply mul_left_cancel₀ hD
      rw [eD]
      linear_combination (e * i - f * h) * s2 + (b * f - c * e) * s1 + (h * c - b * i) * s3
    refine ⟨⟨hb, hc, hf⟩, ?_⟩
    have : d * (e - h) = 0 := by
      linear_combination s4 + s3
    rcases mul_eq_zero.1 this with h | h
    · exact .inl h
    · exact .inr (sub_eq_zero.1 h)
  · exfalso
    have hne : D - t ≠ 0 := fun h => ht (sub_eq_zero.1 h).symm
    have z1 : e * i - f * h = 0 := (mul_eq_zero.1 (show (D - t) * (e * i - f * h) = 0 by linear_combination e11)).resolve_left hne
    have z2 : i * a - g * c = 0 := (mul_eq_zero.1 (show (D - t) * (i * a - g * c) = 0 by linear_combination e22)).resolve_left hne
    have z3 : a * e - b * d = 0 := (mul_eq_zero.1 (show (D - t) * (a * e - b * d) = 0 by linear_combination e33)).resolve_left hne
    have z4 : (f * g - d * i) + (h * c - b * i) = 0 :=
      (mul_eq_zero.1 (show (D - t) * ((f * g - d * i) + (h * c - b * i)) = 0 by linear_combination e12 + e21)).resolve_left hne
    have z5 : (g * b - h * a) + (c * d - f * a) = 0 :=
      (mul_eq_zero.1 (show (D - t) * ((g * b - h * a) + (c * d - f * a)) = 0 by linear_combination e23 + e32)).resolve_left hne
    have hadj : (h * c - b * i) * (c * d - f * a) * ((d * h - g * e) + (b * f - c * e)) = D * D := by
      rw [eD]
      linear_combination -(b * f - c * e) * (g * b - h * a) * z4 + (b * f - c * e) * (h * c - b * i) * z5 - ((i * a - g * c) * (a * e - b * d) - (c * d - f * a) * (g * b - h * a)) * z1 + (h * c - b * i) * (f * g - d * i) * z3 + (b * f - c * e) * (d * h - g * e) * z2
    have hprod : (h * c - b * i) * (c * d - f * a) * ((d * h - g * e) + (b * f - c * e)) ≠ 0 := by
      rw [hadj]; exact mul_ne_zero hD hD
    have n1 : h * c - b * i ≠ 0 := fun z => hprod (by rw [z]; ring)
    have hDt : D + t = 0 := (mul_eq_zero.1 (show (D + t) * (h * c - b * i) = 0 by linear_combination D * z4 - e12)).resolve_right n1
    have z6 : (d * h - g * e) + (b * f - c * e) = 0 :=
      (mul_eq_zero.1 (show D * ((d * h - g * e) + (b * f - c * e)) = 0 by
        linear_combination e31 + (d * h - g * e) * hDt)).resolve_left hD
    exact hprod (by rw [z6, mul_zero])

/-- C63 in 3D, exactly: for an invertible matrix, `jacobian_inverse_3d` returns its inverse if and
only if the matrix is symmetric and its (1,0) entry is zero or its (1,1) and (2,1) entries agree -/
theorem C63_inverse_3d_iff (j : Nat → Nat → R) (h : (mat 3 j).det ≠ 0) :
    (∃ i, jacobianInverse3 j = .ok i ∧ mat 3 j * mat 3 i = 1) ↔
      (j 0 1 = j 1 0 ∧ j 0 2 = j 2 0 ∧ j 1 2 = j 2 1) ∧ (j 1 0 = 0 ∨ j 1 1 = j 2 1) := by
  refine ⟨?_, fun ⟨⟨h01, h02, h12⟩, hz⟩ => C63_inverse_3d_partial j h h01 h02 h12 hz⟩
  rintro ⟨i, e, hm⟩
  have hD : (mat 3 j).det = j 0 0 * (j 1 1 * j 2 2 - j 1 2 * j 2 1) + j 0 1 * (j 1 2 * j 2 0 - j 1 0 * j 2 2)
      + j 0 2 * (j 1 0 * j 2 1 - j 2 0 * j 1 1) := by
    simp [mat, Matrix.det_fin_three]; ring
  rw [jacobianInverse3] at e
  split at e
  · simp at e
  · next hD' =>
    rw [Outcome.ok.injEq] at e
    have hadj : (mat 3 j).adjugate = (mat 3 j).det • mat 3 i := by
      rw [← Matrix.mul_one (mat 3 j).adjugate, ← hm, ← Matrix.mul_assoc, Matrix.adjugate_mul, Matrix.smul_mul, Matrix.one_mul]
    rw [Matrix.adjugate_fin_three] at hadj
    have ent : ∀ (a b : Fin 3) (x : R), x / (j 0 0 * (j 1 1 * j 2 2 - j 1 2 * j 2 1) + j 0 1 * (j 2 1 * j 0 2 - j 0 1 * j 2 2)
        + j 0 2 * (j 0 1 * j 1 2 - j 0 2 * j 1 1)) = i a b → (mat 3 j).det * x = (j 0 0 * (j 1 1 * j 2 2 - j 1 2 * j 2 1) + j 0 1 * (j 2 1 * j 0 2 - j 0 1 * j 2 2)
        + j 0 2 * (j 0 1 * j 1 2 - j 0 2 * j 1 1)) * ((mat 3 j).det • mat 3 i) a b := by
      intro a b x hx
      rw [Matrix.smul_apply, smul_eq_mul, show mat 3 i a b = i a b from rfl, ← hx]
      rw [mul_comm (_ + _ + _), mul_assoc, div_mul_cancel₀ _ hD']
    rw [← hadj] at ent
    subst e
    refine inverse3_symmetric (j 0 0) (j 0 1) (j 0 2) (j 1 0) (j 1 1) (j 1 2) (j 2 0) (j 2 1) (j 2 2) (mat 3 j).det _ h hD
      ((ent 0 0 (j 1 1 * j 2 2 - j 1 2 * j 2 1) rfl).trans (by congr 1 <;> (simp [mat]; try ring)))
      ((ent 1 1 (j 2 2 * j 0 0 - j 2 0 * j 0 2) rfl).trans (by congr 1 <;> (simp [mat]; try ring)))
      ((ent 2 2 (j 0 0 * j 1 1 - j 0 1 * j 1 0) rfl).trans (by congr 1 <;> (simp [mat]; try ring)))
      ((ent 0 1 (j 1 2 * j 2 0 - j 1 0 * j 2 2) rfl).trans (by congr 1 <;> (simp [mat]; try ring)))
      ((ent 1 0 (j 2 1 * j 0 2 - j 0 1 * j 2 2) rfl).trans (by congr 1 <;> (simp [mat]; try ring)))
      ((ent 0 2 (j 1 0 * j 1 1 - j 2 0 * j 1 1) rfl).trans (by congr 1 <;> (simp [mat]; try ring)))
      ((ent 2 0 (j 0 1 * j 1 2 - j 0 2 * j 1 1) rfl).trans (by congr 1 <;> (simp [mat]; try ring)))
      ((ent 1 2 (j 2 0 * j 0 1 - j 2 1 * j 0 0) rfl).trans (by congr 1 <;> (simp [mat]; try ring)))
      ((ent 2 1 (j 0 2 * j 1 0 - j 1 2 * j 0 0) rfl).trans (by congr 1 <;> (simp [mat]; try ring)))

omit [DecidableEq R] in
example : ∃ i, jacobianInverse3 (row [[2, 0, 1], [0, 1, 0], [1, 0, 3]] : Nat → Nat → ℚ) = .ok i ∧
    mat 3 (row [[2, 0, 1], [0, 1, 0], [1, 0, 3]]) * mat 3 i = 1 :=
  C63_inverse_3d_partial _ (by simp [mat, Matrix.det_fin_three, row]; norm_num) (by simp [row]) (by simp [row]) (by simp [row])
    (.inl (by simp [row]))

/-- what the sums of `jacobian_inverse_4d` satisfy: the adjugate equations, but for the third
column -/
theorem sums4 (j : Nat → Nat → R) (a b : Fin 4) :
    ∑ c : Fin 4, j a c * inverse4Sums j (4 * c.1 + b.1) =
      (if a = b then (mat 4 j).det else 0) + (if b = 2 then j a 2 * (j 3 0 * j 0 3 * (j 1 1 - j 1 2)) else 0) := by
  rw [det_four]
  revert a b
  simp only [Fin.forall_fin_succ, IsEmpty.forall_iff, and_true, Fin.sum_univ_four]
  simp only [inverse4Sums]
  refine ⟨⟨?_, ?_, ?_, ?_⟩, ⟨?_, ?_, ?_, ?_⟩, ⟨?_, ?_, ?_, ?_⟩, ?_, ?_, ?_, ?_⟩ <;> simp [Fin.ext_iff] <;> ring

/-- C63 in 4D, exactly: given the determinant of an invertible matrix, `jacobian_inverse_4d`
returns the inverse if and only if `J[3][0] * J[0][3] * (J[1][1] - J[1][2])` is zero -/
theorem C63_inverse_4d (j : Nat → Nat → R) (h : (mat 4 j).det ≠ 0) :
    ∃ i, jacobianInverse4 j (mat 4 j).det = .ok i ∧
      (mat 4 j * mat 4 i = 1 ↔ j 3 0 * j 0 3 * (j 1 1 - j 1 2) = 0) := by
  refine ⟨_, by rw [jacobianInverse4, if_neg h], ?_⟩
  have entry : ∀ a b : Fin 4, (mat 4 j * mat 4 (fun a b => inverse4Sums j (4 * a + b) * (1 / (mat 4 j).det))) a b =
      (if a = b then 1 else 0) + (if b = 2 then j a 2 * (j 3 0 * j 0 3 * (j 1 1 - j 1 2)) / (mat 4 j).det else 0) := by
    intro a b
    rw [Matrix.mul_apply]
    have : ∀ c : Fin 4, mat 4 j a c * mat 4 (fun a b => inverse4Sums j (4 * a + b) * (1 / (mat 4 j).det)) c b =
        j a c * inverse4Sums j (4 * c.1 + b.1) * (1 / (mat 4 j).det) := by
      intro c
      rw [show mat 4 j a c = j a c from rfl, show mat 4 (fun a b => inverse4Sums j (4 * a + b) * (1 / (mat 4 j).det)) c b =
        inverse4Sums j (4 * c.1 + b.1) * (1 / (mat 4 j).det) from rfl, mul_assoc]
    simp only [this]
    rw [← Finset.sum_mul, sums4, add_mul]
    congr 1
    · split
      · rw [mul_one_div, div_self h]
      · rw [zero_mul]
    · split
      · rw [mul_one_div]
      · rw [zero_mul]
  constructor
  · intro hm
    by_contra hne
    apply h
    have hcol : ∀ a : Fin 4, j a 2 = 0 := by
      intro a
      have h1 := entry a 2
      rw [hm, Matrix.one_apply, if_pos rfl] at h1
      have h2 : j a 2 * (j 3 0 * j 0 3 * (j 1 1 - j 1 2)) / (mat 4 j).det = 0 := by
        have := h1.symm
        rw [add_eq_left] at this
        exact this
      rcases div_eq_zero_iff.mp h2 with h3 | h3
      · exact (mul_eq_zero.mp h3).resolve_right hne
      · exact absurd h3 h
    have c0 := hcol 0; have c1 := hcol 1; have c2 := hcol 2; have c3 := hcol 3
    simp only [Fin.val_zero, Fin.val_one, Fin.val_two] at c0 c1 c2
    have c3' : j 3 2 = 0 := c3
    rw [det_four, c0, c1, c2, c3']
    ring
  · intro hz
    ext a b
    rw [entry, hz, Matrix.one_apply]
    simp

/-- C63 is false in 4D: a matrix with determinant one whose computed inverse is not its inverse -/
theorem C63_inverse_4d_fails :
    ∃ j i : Nat → Nat → R, (mat 4 j).det = 1 ∧ jacobianInverse4 j (mat 4 j).det = .ok i ∧ mat 4 j * mat 4 i ≠ 1 := by
  have hd : (mat 4 (row [[1, 0, 0, 1], [0, 1, 0, 0], [0, 0, 1, 0], [1, 0, 0, 2]] : Nat → Nat → R)).det = 1 := by
    rw [det_four]; simp [row]; norm_num
  obtain ⟨i, h1, h2⟩ := C63_inverse_4d (row [[1, 0, 0, 1], [0, 1, 0, 0], [0, 0, 1, 0], [1, 0, 0, 2]] : Nat → Nat → R)
    (by rw [hd]; exact one_ne_zero)
  refine ⟨_, i, hd, h1, fun h => ?_⟩
  have := h2.mp h
  simp [row] at this

/-- matrices meeting the hypotheses -/
example : (mat 2 (row [[2, 1], [1, 1]] : Nat → Nat → ℚ)).det ≠ 0 := by
  simp [mat, Matrix.det_fin_two, row]; norm_num

example : (mat 3 (row [[2, 0, 1], [0, 1, 0], [1, 0, 3]] : Nat → Nat → ℚ)).det ≠ 0 := by
  simp [mat, Matrix.det_fin_three, row]; norm_num

end

end Verif.Elements
