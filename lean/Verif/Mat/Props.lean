import Verif.Mat.Lemmas
import Mathlib.Analysis.Matrix.Normed
import Mathlib.Analysis.SpecialFunctions.Trigonometric.Basic
import Mathlib.Data.Fin.VecNotation
import Mathlib.Tactic.NormNum
import Mathlib.Tactic.Linarith
import Mathlib.Tactic.FieldSimp
import Mathlib.Tactic.LinearCombination

/-!
# C22-C27 and C29: determinant, inverse, products, special matrices, norms, trace

`Matrix.of M` turns the element function `M` into a Mathlib matrix; Mathlib's `det`, `*`,
`*ᵥ`, `1`, `ᵀ` are the specification.
-/

namespace Verif.Mat
open Matrix

/-! ## C22 -/

section
variable {K : Type u} [CommRing K]

/-- **C22** For every size the recursive expansion computes the determinant. -/
theorem C22_determinant (N : Nat) (M : Mat (N + 1) (N + 1) K) : determinant N M = .ok (det (of M)) :=
  determinant_ok N M

/-- **C22** multiplicative, also through the library's own product -/
theorem C22_multiplicative (N : Nat) (A B : Mat (N + 1) (N + 1) K) :
    ∃ a b, determinant N A = .ok a ∧ determinant N B = .ok b ∧ determinant N (matMul A B) = .ok (a * b) := by
  refine ⟨_, _, determinant_ok N A, determinant_ok N B, ?_⟩
  rw [determinant_ok, ← det_mul, matMul_eq]
  rfl

/-- **C22** invariant under (the library's) transposition -/
theorem C22_transpose (N : Nat) (tmp A : Mat (N + 1) (N + 1) K) :
    determinant N (transpose tmp A) = determinant N A := by
  rw [determinant_ok, determinant_ok, ← det_transpose (of A), transpose_eq]; rfl

/-- **C22** alternating: exchanging two rows changes the sign, equal rows give zero -/
theorem C22_alternating (N : Nat) (A : Mat (N + 1) (N + 1) K) (i j : Fin (N + 1)) (h : i ≠ j) :
    (∃ d, determinant N A = .ok d ∧ determinant N (fun r => A (Equiv.swap i j r)) = .ok (-d)) ∧
    (A i = A j → determinant N A = .ok 0) := by
  constructor
  · refine ⟨_, determinant_ok N A, ?_⟩
    rw [determinant_ok]
    have : (of fun r => A (Equiv.swap i j r)) = (of A).submatrix (Equiv.swap i j) id := rfl
    rw [this, det_permute, Equiv.Perm.sign_swap h]; simp
  · intro e
    rw [determinant_ok, det_zero_of_row_eq h]
    exact e

/-- **C22** linear in every row -/
theorem C22_multilinear (N : Nat) (A : Mat (N + 1) (N + 1) K) (i : Fin (N + 1)) (u v : Vec (N + 1) K) (a b : K) :
    ∃ du dv, determinant N (upd A i u) = .ok du ∧ determinant N (upd A i v) = .ok dv ∧
      determinant N (upd A i (fun k => a * u k + b * v k)) = .ok (a * du + b * dv) := by
  have e : ∀ w : Vec (N + 1) K, of (upd A i w) = (of A).updateRow i w := by
    intro w; ext r c
    by_cases hr : r = i
    · subst hr; simp [upd]
    · simp [upd, hr, Matrix.updateRow_ne hr]
  refine ⟨_, _, determinant_ok N _, determinant_ok N _, ?_⟩
  rw [determinant_ok, e, e, e, ← det_updateRow_smul, ← det_updateRow_smul,
    ← det_updateRow_add]
  rfl

example : determinant 1 (![![1, 2], ![3, 4]] : Mat 2 2 Int) = .ok (-2) := by
  rw [C22_determinant]; simp [det_fin_two]
end

/-! ## C23 -/

section
variable {K : Type u} [Field K] [DecidableEq K]

/-- **C23** `inverse` succeeds exactly on matrices with non-zero determinant and returns the
two-sided inverse; otherwise its assertion fails. -/
theorem C23_inverse (tmp A : Mat (N + 1) (N + 1) K) :
    (det (of A) ≠ 0 → ∃ B, inverse tmp A = .ok B ∧ matMul A B = identityMatrix (N + 1) ∧
      matMul B A = identityMatrix (N + 1)) ∧
    (det (of A) = 0 → inverse tmp A = .assertFail) := by
  refine ⟨fun h => ⟨_, inverse_ok tmp A h, ?_, ?_⟩, inverse_fail tmp A⟩
  · rw [matMul_eq, identityMatrix_eq]
    have := mul_nonsing_inv (of A) (isUnit_iff_ne_zero.2 h)
    funext i j
    have e := congrFun (congrFun this i) j
    rw [mul_apply, one_apply] at e
    exact e
  · rw [matMul_eq, identityMatrix_eq]
    have := nonsing_inv_mul (of A) (isUnit_iff_ne_zero.2 h)
    funext i j
    have e := congrFun (congrFun this i) j
    rw [mul_apply, one_apply] at e
    exact e

/-- **C23** the closed forms for sizes 2 and 3 agree with the general formula -/
theorem C23_specialised (tmp A : Mat 2 2 K) (tmp' B : Mat 3 3 K) :
    inverse2 tmp A = inverseN tmp A ∧ inverse3 tmp' B = inverseN tmp' B := by
  constructor
  · by_cases h : det (of A) = 0
    · rw [inverseN_fail tmp A h]; exact inverse_fail tmp A h
    · rw [inverseN_ok tmp A h]; exact inverse_ok tmp A h
  · by_cases h : det (of B) = 0
    · rw [inverseN_fail tmp' B h]; exact inverse_fail tmp' B h
    · rw [inverseN_ok tmp' B h]; exact inverse_ok tmp' B h

/-- **C23** `solve` gives the unique solution -/
theorem C23_solve (tmp A : Mat (N + 1) (N + 1) K) (b : Vec (N + 1) K) (h : det (of A) ≠ 0) :
    ∃ x, solve tmp A b = .ok x ∧ ∀ y, (∀ i, ∑ j, A i j * y j = b i) ↔ y = x := by
  refine ⟨_, by simp only [solve, inverse_ok tmp A h, Outcome.bind_ok]; rfl, ?_⟩
  have hx : axPlusY (fun i j => (of A)⁻¹ i j) b (fun _ => 0) = (of A)⁻¹ *ᵥ b := by
    rw [axPlusY_eq]; funext i; rw [zero_add]; rfl
  rw [hx]
  have hu := isUnit_iff_ne_zero.2 h
  intro y
  constructor
  · intro hy
    have : (of A) *ᵥ y = b := funext hy
    rw [← this, mulVec_mulVec, nonsing_inv_mul _ hu, one_mulVec]
  · intro e i
    have : (of A) *ᵥ y = b := by rw [e, mulVec_mulVec, mul_nonsing_inv _ hu, one_mulVec]
    exact congrFun this i

example : det (of (![![2, 1], ![1, 1]] : Mat 2 2 ℚ)) ≠ 0 := by simp [det_fin_two]; norm_num
end

/-! ## C24 -/

section
variable {K : Type u} [CommRing K]

/-- **C24** the returning versions are the usual products -/
theorem C24_products (A : Mat m n K) (B : Mat n p K) (x : Vec n K) (tmp : Vec m K) :
    (∀ i j, matMul A B i j = ∑ k, A i k * B k j) ∧ (∀ i, mulVec tmp A x i = ∑ k, A i k * x k) := by
  rw [matMul_eq, mulVec_eq]; exact ⟨fun _ _ => rfl, fun _ => rfl⟩

/-- **C24** the in-place versions add the product to what was there -/
theorem C24_in_place (A : Mat m n K) (B : Mat n p K) (C : Mat m p K) (x : Vec n K) (y tmp : Vec m K) :
    (∀ i j, matMulAcc A B C i j = C i j + matMul A B i j) ∧
    (∀ i, axPlusY A x y i = mulVec tmp A x i + y i) := by
  rw [matMulAcc_eq, matMul_eq, axPlusY_eq, mulVec_eq]
  exact ⟨fun _ _ => rfl, fun _ => add_comm _ _⟩

theorem of_matMul (A : Mat m n K) (B : Mat n p K) : of (matMul A B) = of A * of B := by
  rw [matMul_eq]; rfl

/-- **C24** Multiplication is associative, also against a vector. -/
theorem C24_associative (A : Mat m n K) (B : Mat n p K) (C : Mat p q K) (x : Vec p K) (t1 : Vec m K) (t2 : Vec n K) (t3 : Vec m K) :
    matMul (matMul A B) C = matMul A (matMul B C) ∧
    mulVec t1 (matMul A B) x = mulVec t3 A (mulVec t2 B x) := by
  constructor
  · apply of.injective; rw [of_matMul, of_matMul, of_matMul, of_matMul, Matrix.mul_assoc]
  · rw [mulVec_eq, mulVec_eq, mulVec_eq]
    have := mulVec_mulVec x (of A) (of B)
    rw [← of_matMul] at this
    exact this.symm

/-- **C24** Multiplication distributes over addition on both sides. -/
theorem C24_distributive (A A' : Mat m n K) (B B' : Mat n p K) :
    matMul (fun i j => A i j + A' i j) B = (fun i j => matMul A B i j + matMul A' B i j) ∧
    matMul A (fun i j => B i j + B' i j) = (fun i j => matMul A B i j + matMul A B' i j) := by
  simp only [matMul_eq]
  constructor
  · funext i j; simp [add_mul, Finset.sum_add_distrib]
  · funext i j; simp [mul_add, Finset.sum_add_distrib]

/-- **C24** The identity matrix is neutral on both sides. -/
theorem C24_identity (A : Mat m n K) (x tmp : Vec n K) :
    matMul (identityMatrix m) A = A ∧ matMul A (identityMatrix n) = A ∧ mulVec tmp (identityMatrix n) x = x := by
  rw [matMul_eq, matMul_eq, identityMatrix_eq, identityMatrix_eq, mulVec_eq]
  refine ⟨?_, ?_, ?_⟩
  · funext i j; simp
  · funext i j; simp
  · funext i; simp

/-- **C24** Transposing a product reverses it. -/
theorem C24_transpose (A : Mat m n K) (B : Mat n p K) (t1 t2 t3) :
    transpose t1 (matMul A B) = matMul (transpose t2 B) (transpose t3 A) := by
  rw [transpose_eq, transpose_eq, transpose_eq, matMul_eq, matMul_eq]
  funext i j
  exact Finset.sum_congr rfl fun k _ => mul_comm _ _

/-- **C24** `outer_product` and its accumulating version -/
theorem C24_outer_product (tmp c : Mat D D K) (a b : Vec D K) (f : K) :
    (∀ i j, outerProduct tmp a b i j = a i * b j) ∧
    (∀ i j, outerProductAcc a b c f i j = c i j + f * outerProduct tmp a b i j) := by
  rw [outerProduct_eq, outerProductAcc_eq]
  exact ⟨fun _ _ => rfl, fun i j => by simp only [mul_assoc]⟩

/-- **C24 (in place on itself)** `ax_plus_y(A,y,y)` does not compute `A y + y`: the updated
entries of `y` are read again. -/
theorem C24_aliased_ax_plus_y_fails :
    axPlusYAlias (![![1, 0], ![1, 0]] : Mat 2 2 Int) ![1, 0] 1 = 2 ∧
    axPlusY (![![1, 0], ![1, 0]] : Mat 2 2 Int) ![1, 0] ![1, 0] 1 = 1 := by decide

/-! ## C25 -/

/-- **C25** What `matrix_vector` computes: every inner step multiplies the running value by
`beta` again. -/
theorem C25_matrix_vector_characterisation (alpha beta : K) (A : Mat m n K) (x : Vec n K) (y : Vec m K) (i : Fin m) :
    matrixVector alpha A x beta y i
      = (∑ j : Fin n, beta ^ (n - 1 - j.1) * (alpha * A i j * x j)) + beta ^ n * y i := by
  rw [matrixVector_eq]

/-- **C25 fails** for `beta ≠ 1` on two columns: the result is not `alpha A x + beta y`. -/
theorem C25_matrix_vector_fails :
    ∃ (A : Mat 1 2 Int) (x : Vec 2 Int) (y : Vec 1 Int) (alpha beta : Int),
      matrixVector alpha A x beta y 0 ≠ alpha * (∑ j, A 0 j * x j) + beta * y 0 :=
  ⟨![![1, 1]], ![1, 1], ![1], 1, 2, by decide⟩

/-- **C25 (partial)** correct for `beta = 1` and for single-column matrices -/
theorem C25_matrix_vector_partial (alpha beta : K) (A : Mat m n K) (x : Vec n K) (y : Vec m K) (i : Fin m)
    (h : beta = 1 ∨ n = 1) :
    matrixVector alpha A x beta y i = alpha * (∑ j, A i j * x j) + beta * y i := by
  rw [matrixVector_eq, Finset.mul_sum]
  rcases h with rfl | rfl
  · simp [mul_assoc]
  · simp [mul_assoc]

example (y : Vec 2 ℚ) : matrixVector 3 ![![1, 2], ![3, 4]] ![5, 6] 1 y 1 = 3 * (3 * 5 + 4 * 6) + y 1 := by
  rw [C25_matrix_vector_partial _ _ _ _ _ _ (.inl rfl)]; simp [Fin.sum_univ_two]

/-- **C25** exactly: over a field, for a shape with at least one row, `matrix_vector` is right for
all matrices and vectors if and only if `beta` is one or there is a single column. -/
theorem C25_matrix_vector_iff (beta : K) (hm : 0 < m) :
    (∀ (alpha : K) (A : Mat m n K) (x : Vec n K) (y : Vec m K) (i : Fin m),
      matrixVector alpha A x beta y i = alpha * (∑ j, A i j * x j) + beta * y i) ↔ beta = 1 ∨ n = 1 := by
  constructor
  · intro h
    by_cases hn : n = 1
    · exact .inr hn
    · left
      rcases Nat.lt_or_ge n 1 with h0 | h2
      · have e : n = 0 := by omega
        subst e
        have := h 0 (fun _ => Fin.elim0) Fin.elim0 (fun _ => 1) ⟨0, hm⟩
        rw [matrixVector_eq] at this
        simpa using this.symm
      · have := h 1 (fun _ j => if j.1 + 2 = n then 1 else 0) (fun _ => 1) (fun _ => 0) ⟨0, hm⟩
        rw [matrixVector_eq] at this
        have hs : ∀ f : Fin n → K, (∑ j : Fin n, f j * (if j.1 + 2 = n then (1 : K) else 0)) = f ⟨n - 2, by omega⟩ := by
          intro f
          rw [Finset.sum_eq_single ⟨n - 2, by omega⟩]
          · rw [if_pos (show n - 2 + 2 = n by omega), mul_one]
          · intro b _ hb
            rw [if_neg, mul_zero]
            intro e; exact hb (Fin.ext (show b.1 = n - 2 by omega))
          · simp
        have h1 := hs (fun j => beta ^ (n - 1 - j.1))
        have h2 := hs (fun _ => 1)
        simp only [one_mul, mul_one, mul_zero, add_zero] at this h1 h2
        rw [h1, h2, show n - 1 - (n - 2) = 1 by omega, pow_one] at this
        exact this
  · intro h alpha A x y i
    exact C25_matrix_vector_partial alpha beta A x y i h

/-- on three columns, `beta = 1` is the only right value -/
example : ¬ ∀ (alpha : ℚ) (A : Mat 2 3 ℚ) (x : Vec 3 ℚ) (y : Vec 2 ℚ) (i : Fin 2),
    matrixVector alpha A x 2 y i = alpha * (∑ j, A i j * x j) + 2 * y i := by
  rw [C25_matrix_vector_iff 2 (by decide)]; norm_num

/-! ## C29 -/

/-- **C29** The trace is linear and does not see the order of a product. -/
theorem C29_trace (A B : Mat N N K) (a b : K) :
    traceMatrix (fun i j => a * A i j + b * B i j) = a * traceMatrix A + b * traceMatrix B ∧
    traceMatrix (matMul A B) = traceMatrix (matMul B A) ∧
    traceMatrix A = ∑ i, A i i := by
  refine ⟨?_, ?_, traceMatrix_eq A⟩
  · rw [traceMatrix_eq, traceMatrix_eq, traceMatrix_eq, Finset.sum_add_distrib, Finset.mul_sum, Finset.mul_sum]
  · rw [traceMatrix_eq, traceMatrix_eq, matMul_eq, matMul_eq, Finset.sum_comm]
    exact Finset.sum_congr rfl fun i _ => Finset.sum_congr rfl fun j _ => mul_comm _ _

/-- **C29** Transposing swaps the indices, and twice gives the matrix back. -/
theorem C29_transpose_involution (A : Mat m n K) (t1 : Mat n m K) (t2 : Mat m n K) :
    transpose t2 (transpose t1 A) = A ∧ ∀ i j, transpose t1 A j i = A i j := by
  rw [transpose_eq, transpose_eq]; exact ⟨rfl, fun _ _ => rfl⟩

/-- **C29** The double dot product is bilinear, symmetric and the trace of the product with the transpose. -/
theorem C29_doubledot (A B C : Mat m n K) (t : Mat n m K) (a b : K) :
    doubledot A B = traceMatrix (matMul (transpose t A) B) ∧ doubledot A B = doubledot B A ∧
    doubledot (fun i j => a * A i j + b * B i j) C = a * doubledot A C + b * doubledot B C := by
  refine ⟨?_, ?_, ?_⟩
  · rw [traceMatrix_eq, matMul_eq, transpose_eq, doubledot_eq, Finset.sum_comm]
  · rw [doubledot_eq, doubledot_eq]
    exact Finset.sum_congr rfl fun i _ => Finset.sum_congr rfl fun j _ => mul_comm _ _
  · rw [doubledot_eq, doubledot_eq, doubledot_eq, Finset.mul_sum, Finset.mul_sum, ← Finset.sum_add_distrib]
    refine Finset.sum_congr rfl fun i _ => ?_
    rw [Finset.mul_sum, Finset.mul_sum, ← Finset.sum_add_distrib]
    exact Finset.sum_congr rfl fun j _ => by ring
end

/-! ## C26 -/

section
variable {K : Type u} [CommRing K]

/-- a unit vector -/
def IsUnitVec (n : Vec D K) : Prop := ∑ i, n i * n i = 1

theorem mulVec_ident_sub (c : K) (n x tmp : Vec D K) :
    mulVec tmp (fun i j => (if i = j then 1 else 0) - c * (n i * n j)) x = fun i => x i - c * (∑ j, n j * x j) * n i := by
  rw [mulVec_eq]
  funext i
  simp only [sub_mul, Finset.sum_sub_distrib, ite_mul, one_mul, zero_mul, Finset.sum_ite_eq, Finset.mem_univ, if_true]
  rw [Finset.mul_sum, Finset.sum_mul]
  congr 1
  exact Finset.sum_congr rfl fun j _ => by ring

theorem ident_sub_mul (c d : K) (n : Vec D K) (h : IsUnitVec n) :
    matMul (fun i j => (if i = j then 1 else 0) - c * (n i * n j)) (fun i j => (if i = j then 1 else 0) - d * (n i * n j))
      = fun i j => (if i = j then 1 else 0) - (c + d - c * d) * (n i * n j) := by
  rw [matMul_eq]
  funext i j
  simp only [sub_mul, mul_sub, Finset.sum_sub_distrib, ite_mul, mul_ite, one_mul, zero_mul, mul_one, mul_zero,
    Finset.sum_ite_eq, Finset.sum_ite_eq', Finset.mem_univ, if_true]
  have : ∑ k, c * (n i * n k) * (d * (n k * n j)) = c * d * (n i * n j) * ∑ k, n k * n k := by
    rw [Finset.mul_sum]; exact Finset.sum_congr rfl fun k _ => by ring
  rw [this, h]; ring

/-- **C26** For a unit normal the reflection matrix is symmetric, its own inverse (hence
orthogonal), negates the normal and fixes every vector of the mirror plane. -/
theorem C26_reflection (tmp : Mat D D K) (n : Vec D K) (h : IsUnitVec n) :
    (∀ i j, reflectionMatrix tmp n i j = reflectionMatrix tmp n j i) ∧
    matMul (reflectionMatrix tmp n) (reflectionMatrix tmp n) = identityMatrix D ∧
    (∀ t, mulVec t (reflectionMatrix tmp n) n = fun i => - n i) ∧
    (∀ t x, (∑ j, n j * x j = 0) → mulVec t (reflectionMatrix tmp n) x = x) := by
  rw [reflectionMatrix_eq]
  refine ⟨fun i j => ?_, ?_, fun t => ?_, fun t x hx => ?_⟩
  · simp only [eq_comm (a := i), mul_comm (n i)]
  · rw [ident_sub_mul 2 2 n h, identityMatrix_eq]; funext i j; ring
  · rw [mulVec_ident_sub, h]; funext i; ring
  · rw [mulVec_ident_sub, hx]; funext i; ring

/-- **C26** For a unit normal the projection matrix is symmetric, idempotent, kills the
normal and fixes every vector of the plane. -/
theorem C26_projection (tmp : Mat D D K) (n : Vec D K) (h : IsUnitVec n) :
    (∀ i j, projectionMatrix tmp n i j = projectionMatrix tmp n j i) ∧
    matMul (projectionMatrix tmp n) (projectionMatrix tmp n) = projectionMatrix tmp n ∧
    (∀ t, mulVec t (projectionMatrix tmp n) n = fun _ => 0) ∧
    (∀ t x, (∑ j, n j * x j = 0) → mulVec t (projectionMatrix tmp n) x = x) := by
  have e : projectionMatrix tmp n = fun i j => (if i = j then 1 else 0) - 1 * (n i * n j) := by
    rw [projectionMatrix_eq]; funext i j; rw [one_mul]
  rw [e]
  refine ⟨fun i j => ?_, ?_, fun t => ?_, fun t x hx => ?_⟩
  · simp only [eq_comm (a := i), mul_comm (n i)]
  · rw [ident_sub_mul 1 1 n h]; funext i j; ring
  · rw [mulVec_ident_sub, h]; funext i; ring
  · rw [mulVec_ident_sub, hx]; funext i; ring

example : IsUnitVec (![3/5, 4/5, 0] : Vec 3 ℚ) := by
  simp [IsUnitVec, Fin.sum_univ_three]; norm_num
end

/-- **C26** Rotation matrices are orthogonal with determinant one, compose by adding angles,
and turn the first axis by the angle. -/
theorem C26_rotation (t1 t2 t3 t4 : Mat 2 2 ℝ) (a b : ℝ) (tv : Vec 2 ℝ) :
    matMul (transpose t4 (rotationMatrix t1 (Real.cos a) (Real.sin a))) (rotationMatrix t1 (Real.cos a) (Real.sin a))
      = identityMatrix 2 ∧
    determinant 1 (rotationMatrix t1 (Real.cos a) (Real.sin a)) = .ok 1 ∧
    matMul (rotationMatrix t1 (Real.cos a) (Real.sin a)) (rotationMatrix t2 (Real.cos b) (Real.sin b))
      = rotationMatrix t3 (Real.cos (a + b)) (Real.sin (a + b)) ∧
    mulVec tv (rotationMatrix t1 (Real.cos a) (Real.sin a)) ![1, 0] = ![Real.cos a, Real.sin a] := by
  have e : ∀ (t : Mat 2 2 ℝ) c s, rotationMatrix t c s = ![![c, -s], ![s, c]] := by
    intro t c s
    funext i j
    fin_cases i <;> fin_cases j <;> simp [rotationMatrix, mset]
  simp only [e]
  have p := Real.sin_sq_add_cos_sq a
  refine ⟨?_, ?_, ?_, ?_⟩
  · rw [matMul_eq, identityMatrix_eq, transpose_eq]
    funext i j
    fin_cases i <;> fin_cases j <;> simp [Fin.sum_univ_two] <;> nlinarith
  · rw [determinant_ok, det_fin_two]; congr 1; simp; nlinarith
  · rw [matMul_eq, Real.cos_add, Real.sin_add]
    funext i j
    fin_cases i <;> fin_cases j <;> simp [Fin.sum_univ_two] <;> ring
  · rw [mulVec_eq]
    funext i
    fin_cases i <;> simp [Fin.sum_univ_two]

/-! ## C27 -/

section
variable {K : Type u} [Field K] [LinearOrder K] [IsStrictOrderedRing K]

theorem maxLoop_bounds (n : Nat) (f : Fin n → K) (s : K) :
    s ≤ forLoop n (fun i m => max m (f i)) s ∧ (∀ i, f i ≤ forLoop n (fun i m => max m (f i)) s) ∧
    ∀ b, s ≤ b → (∀ i, f i ≤ b) → forLoop n (fun i m => max m (f i)) s ≤ b := by
  induction n with
  | zero => simp
  | succ n ih =>
    obtain ⟨h1, h2, h3⟩ := ih (fun i => f i.castSucc)
    rw [forLoop_succ]
    refine ⟨le_max_of_le_left h1, fun i => ?_, fun b hb hf => max_le (h3 b hb fun i => hf _) (hf _)⟩
    induction i using Fin.lastCases with
    | last => exact le_max_right _ _
    | cast i => exact le_max_of_le_left (h2 i)

theorem infinityNorm_eq (M : Mat N N K) :
    infinityNorm M = forLoop N (fun i m => max m (∑ j, |M i j|)) 0 := by
  unfold infinityNorm
  refine forLoop_congr (fun i s => ?_) 0
  rw [forLoop_sum, zero_add]

/-- the infinity norm is the least non-negative bound of the absolute row sums -/
theorem infinityNorm_isLeast (M : Mat N N K) (b : K) (hb : 0 ≤ b) :
    infinityNorm M ≤ b ↔ ∀ i, ∑ j, |M i j| ≤ b := by
  obtain ⟨_, h2, h3⟩ := maxLoop_bounds N (fun i => ∑ j, |M i j|) 0
  rw [infinityNorm_eq]
  exact ⟨fun h i => (h2 i).trans h, h3 b hb⟩

theorem infinityNorm_nonneg (M : Mat N N K) : 0 ≤ infinityNorm M := by
  rw [infinityNorm_eq]; exact (maxLoop_bounds N _ 0).1

theorem row_le (M : Mat N N K) (i : Fin N) : ∑ j, |M i j| ≤ infinityNorm M :=
  (infinityNorm_isLeast M _ (infinityNorm_nonneg M)).1 le_rfl i

theorem infinityNorm_smul_le (c : K) (M : Mat N N K) : infinityNorm (fun i j => c * M i j) ≤ |c| * infinityNorm M := by
  rw [infinityNorm_isLeast _ _ (mul_nonneg (abs_nonneg c) (infinityNorm_nonneg M))]
  intro i
  simp only [abs_mul, ← Finset.mul_sum]
  exact mul_le_mul_of_nonneg_left (row_le M i) (abs_nonneg c)

/-- **C27** `infinity_norm` is the largest absolute row sum ... -/
theorem C27_infinity_norm_value (M : Mat (N + 1) (N + 1) K) :
    (∀ i, ∑ j, |M i j| ≤ infinityNorm M) ∧ ∃ i, ∑ j, |M i j| = infinityNorm M := by
  refine ⟨row_le M, ?_⟩
  obtain ⟨i, _, hi⟩ := Finset.exists_max_image Finset.univ (fun i => ∑ j, |M i j|) ⟨0, Finset.mem_univ _⟩
  refine ⟨i, le_antisymm (row_le M i) ?_⟩
  rw [infinityNorm_isLeast _ _ (Finset.sum_nonneg fun j _ => abs_nonneg _)]
  exact fun k => hi k (Finset.mem_univ k)

/-- **C27** ... and a submultiplicative matrix norm. -/
theorem C27_infinity_norm (A B : Mat N N K) (c : K) :
    0 ≤ infinityNorm A ∧ (infinityNorm A = 0 ↔ ∀ i j, A i j = 0) ∧
    infinityNorm (fun i j => c * A i j) = |c| * infinityNorm A ∧
    infinityNorm (fun i j => A i j + B i j) ≤ infinityNorm A + infinityNorm B ∧
    infinityNorm (matMul A B) ≤ infinityNorm A * infinityNorm B := by
  refine ⟨infinityNorm_nonneg A, ⟨fun h i j => ?_, fun h => ?_⟩, ?_, ?_, ?_⟩
  · have h1 := row_le A i
    rw [h] at h1
    have h2 : |A i j| ≤ ∑ j, |A i j| := Finset.single_le_sum (f := fun j => |A i j|) (fun k _ => abs_nonneg _) (Finset.mem_univ j)
    exact abs_nonpos_iff.1 (h2.trans h1)
  · refine le_antisymm ?_ (infinityNorm_nonneg A)
    rw [infinityNorm_isLeast _ _ le_rfl]
    intro i; simp [h]
  · refine le_antisymm (infinityNorm_smul_le c A) ?_
    by_cases hc : c = 0
    · subst hc; simpa using infinityNorm_nonneg (fun i j => 0 * A i j)
    · have := infinityNorm_smul_le c⁻¹ (fun i j => c * A i j)
      have e : (fun i j => c⁻¹ * (c * A i j)) = A := by
        funext i j; rw [← mul_assoc, inv_mul_cancel₀ hc, one_mul]
      rw [e, abs_inv] at this
      have hpos : 0 < |c| := abs_pos.2 hc
      calc |c| * infinityNorm A ≤ |c| * (|c|⁻¹ * infinityNorm (fun i j => c * A i j)) :=
            mul_le_mul_of_nonneg_left this (abs_nonneg c)
        _ = infinityNorm (fun i j => c * A i j) := by
            rw [← mul_assoc, mul_inv_cancel₀ (ne_of_gt hpos), one_mul]
  · rw [infinityNorm_isLeast _ _ (add_nonneg (infinityNorm_nonneg A) (infinityNorm_nonneg B))]
    intro i
    calc ∑ j, |A i j + B i j| ≤ ∑ j, (|A i j| + |B i j|) := Finset.sum_le_sum fun j _ => abs_add_le _ _
      _ = (∑ j, |A i j|) + ∑ j, |B i j| := Finset.sum_add_distrib
      _ ≤ _ := add_le_add (row_le A i) (row_le B i)
  · rw [infinityNorm_isLeast _ _ (mul_nonneg (infinityNorm_nonneg A) (infinityNorm_nonneg B)), matMul_eq]
    intro i
    calc ∑ j, |∑ k, A i k * B k j| ≤ ∑ j, ∑ k, |A i k| * |B k j| := by
          refine Finset.sum_le_sum fun j _ => ?_
          refine (Finset.abs_sum_le_sum_abs _ _).trans (le_of_eq ?_)
          exact Finset.sum_congr rfl fun k _ => abs_mul _ _
      _ = ∑ k, |A i k| * ∑ j, |B k j| := by
          rw [Finset.sum_comm]; exact Finset.sum_congr rfl fun k _ => (Finset.mul_sum _ _ _).symm
      _ ≤ ∑ k, |A i k| * infinityNorm B :=
          Finset.sum_le_sum fun k _ => mul_le_mul_of_nonneg_left (row_le B k) (abs_nonneg _)
      _ = (∑ k, |A i k|) * infinityNorm B := (Finset.sum_mul _ _ _).symm
      _ ≤ _ := mul_le_mul_of_nonneg_right (row_le A i) (infinityNorm_nonneg B)

/-- **C27** `one_norm(A) = infinity_norm(Aᵀ)` -/
theorem C27_one_norm_transpose (A tmp : Mat N N K) : oneNorm A = infinityNorm (transpose tmp A) := by
  rw [transpose_eq]; rfl

/-- **C27** `one_norm` is a submultiplicative matrix norm: the largest absolute column sum. -/
theorem C27_one_norm (A B : Mat N N K) (c : K) :
    0 ≤ oneNorm A ∧ (oneNorm A = 0 ↔ ∀ i j, A i j = 0) ∧
    oneNorm (fun i j => c * A i j) = |c| * oneNorm A ∧
    oneNorm (fun i j => A i j + B i j) ≤ oneNorm A + oneNorm B ∧
    oneNorm (matMul A B) ≤ oneNorm A * oneNorm B ∧ (∀ j, ∑ i, |A i j| ≤ oneNorm A) := by
  have h := C27_infinity_norm (fun j i => A i j) (fun j i => B i j) c
  have h' := C27_infinity_norm (fun j i => B i j) (fun j i => A i j) c
  refine ⟨h.1, ?_, h.2.2.1, h.2.2.2.1, ?_, fun j => row_le (fun j i => A i j) j⟩
  · rw [forall_comm]; exact h.2.1
  · have := h'.2.2.2.2
    rw [mul_comm] at this
    have e : oneNorm (matMul A B) = infinityNorm (matMul (fun j i => B i j) (fun j i => A i j)) := by
      rw [C27_one_norm_transpose (matMul A B) (fun _ _ => 0), transpose_eq, matMul_eq, matMul_eq]
      congr 1
      funext i j
      exact Finset.sum_congr rfl fun k _ => mul_comm _ _
    rw [e]; exact this
end

section
attribute [local instance] Matrix.frobeniusNormedRing Matrix.frobeniusNormedSpace Matrix.frobeniusNormedAddCommGroup

theorem twoNorm_eq (A : Mat N N ℝ) : twoNorm Real.sqrt A = Real.sqrt (∑ i, ∑ j, A i j * A i j) := by
  unfold twoNorm; rw [doubleSum]

theorem twoNorm_frobenius (A : Mat N N ℝ) : twoNorm Real.sqrt A = ‖(of A : Matrix (Fin N) (Fin N) ℝ)‖ := by
  rw [twoNorm_eq, Matrix.frobenius_norm_def, ← Real.sqrt_eq_rpow]
  congr 1
  refine Finset.sum_congr rfl fun i _ => Finset.sum_congr rfl fun j _ => ?_
  rw [of_apply, Real.rpow_two, Real.norm_eq_abs, sq_abs, pow_two]

/-- **C27** `two_norm` (the Frobenius norm) is a submultiplicative matrix norm whose square
is the double-dot product with itself (also **C29**). -/
theorem C27_two_norm (A B : Mat N N ℝ) (c : ℝ) :
    0 ≤ twoNorm Real.sqrt A ∧ (twoNorm Real.sqrt A = 0 ↔ ∀ i j, A i j = 0) ∧
    twoNorm Real.sqrt (fun i j => c * A i j) = |c| * twoNorm Real.sqrt A ∧
    twoNorm Real.sqrt (fun i j => A i j + B i j) ≤ twoNorm Real.sqrt A + twoNorm Real.sqrt B ∧
    twoNorm Real.sqrt (matMul A B) ≤ twoNorm Real.sqrt A * twoNorm Real.sqrt B := by
  simp only [twoNorm_frobenius]
  refine ⟨norm_nonneg _, ?_, ?_, ?_, ?_⟩
  · rw [norm_eq_zero]
    constructor
    · intro h i j; exact congrFun (congrFun h i) j
    · intro h; ext i j; exact h i j
  · have : (of fun i j => c * A i j) = c • (of A : Matrix (Fin N) (Fin N) ℝ) := by ext i j; simp
    rw [this, norm_smul, Real.norm_eq_abs]
  · have : (of fun i j => A i j + B i j) = of A + (of B : Matrix (Fin N) (Fin N) ℝ) := by ext i j; simp
    rw [this]; exact norm_add_le _ _
  · rw [of_matMul]; exact norm_mul_le _ _

/-- **C29** The square of the (Frobenius) two-norm is the double dot product with itself. -/
theorem C29_two_norm_square (A : Mat N N ℝ) : twoNorm Real.sqrt A ^ 2 = doubledot A A := by
  rw [twoNorm_eq, doubledot_eq, Real.sq_sqrt]
  exact Finset.sum_nonneg fun i _ => Finset.sum_nonneg fun j _ => mul_self_nonneg _
end

end Verif.Mat
