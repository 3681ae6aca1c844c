import Verif.Geometry.PropsSolidMeasure
import Mathlib.MeasureTheory.Integral.Pi

/-!
# C37: the hexahedron as a trilinear cell

The solid of a hexahedral cell is the image of the unit cube under trilinear interpolation of the eight
vertices.
-/

namespace Verif.Geometry
open Verif.Vec MeasureTheory

/-- the unit cube -/
def cube : Set (Fin 3 → ℝ) := Set.univ.pi fun _ => Set.Icc 0 1

/-- trilinear interpolation between the vertices, in the numbering of hexahedron.h (0-3 the bottom
counter-clockwise, 4-7 above them) -/
def trilinear (p : Fin 8 → Vec 3 ℝ) (x : Fin 3 → ℝ) : Vec 3 ℝ :=
  ((1 - x 0) * (1 - x 1) * (1 - x 2)) • p 0 + (x 0 * (1 - x 1) * (1 - x 2)) • p 1 +
  (x 0 * x 1 * (1 - x 2)) • p 2 + ((1 - x 0) * x 1 * (1 - x 2)) • p 3 +
  ((1 - x 0) * (1 - x 1) * x 2) • p 4 + (x 0 * (1 - x 1) * x 2) • p 5 +
  (x 0 * x 1 * x 2) • p 6 + ((1 - x 0) * x 1 * x 2) • p 7

/-! ## Integrals over the cube -/

theorem integral_cube_monomial (a b c : ℕ) :
    ∫ x in cube, x 0 ^ a * x 1 ^ b * x 2 ^ c = 1 / (a + 1) * (1 / (b + 1)) * (1 / (c + 1)) := by
  have e : ∀ x : Fin 3 → ℝ, x 0 ^ a * x 1 ^ b * x 2 ^ c = ∏ i : Fin 3, (fun (i : Fin 3) (t : ℝ) => t ^ (![a, b, c] i)) i (x i) := by
    intro x; rw [Fin.prod_univ_three]; rfl
  rw [funext e, cube, volume_pi, Measure.restrict_pi_pi,
    integral_fintype_prod_eq_prod (fun (i : Fin 3) (t : ℝ) => t ^ (![a, b, c] i)), Fin.prod_univ_three]
  have h : ∀ n : ℕ, ∫ t in Set.Icc (0 : ℝ) 1, t ^ n = 1 / (n + 1) := by
    intro n
    rw [integral_Icc_eq_integral_Ioc, ← intervalIntegral.integral_of_le zero_le_one, integral_pow]
    simp
  simp only [h]
  rfl

theorem isCompact_cube : IsCompact cube := isCompact_univ_pi fun _ => isCompact_Icc

theorem measurableSet_cube : MeasurableSet cube := isCompact_cube.measurableSet

/-! ## The Jacobian -/

/-- the vertices from the coefficients of the monomials -/
def ofCoef (c : Fin 8 → Vec 3 ℝ) : Fin 8 → Vec 3 ℝ :=
  ![c 0, c 0 + c 1, c 0 + c 1 + c 2 + c 4, c 0 + c 2, c 0 + c 3, c 0 + c 1 + c 3 + c 5,
    c 0 + c 1 + c 2 + c 3 + c 4 + c 5 + c 6 + c 7, c 0 + c 2 + c 3 + c 6]

/-- the coefficients of the monomials `1, r, s, t, rs, rt, st, rst` -/
def coef (p : Fin 8 → Vec 3 ℝ) : Fin 8 → Vec 3 ℝ :=
  ![p 0, p 1 - p 0, p 3 - p 0, p 4 - p 0, p 2 - p 1 - p 3 + p 0, p 5 - p 1 - p 4 + p 0, p 7 - p 3 - p 4 + p 0,
    p 6 - p 5 - p 7 - p 2 + p 1 + p 3 + p 4 - p 0]

theorem ofCoef_coef (p : Fin 8 → Vec 3 ℝ) : ofCoef (coef p) = p := by
  funext i k
  fin_cases i <;> simp [ofCoef, coef] <;> ring

theorem trilinear_coef (c : Fin 8 → Vec 3 ℝ) (x : Fin 3 → ℝ) (k : Fin 3) :
    trilinear (ofCoef c) x k = c 0 k + c 1 k * x 0 + c 2 k * x 1 + c 3 k * x 2 + c 4 k * (x 0 * x 1) +
      c 5 k * (x 0 * x 2) + c 6 k * (x 1 * x 2) + c 7 k * (x 0 * x 1 * x 2) := by
  simp [trilinear, ofCoef]
  ring

/-- the matrix of partial derivatives -/
def jac (c : Fin 8 → Vec 3 ℝ) (x : Fin 3 → ℝ) : Matrix (Fin 3) (Fin 3) ℝ := Matrix.of fun k =>
  ![c 1 k + c 4 k * x 1 + c 5 k * x 2 + c 7 k * (x 1 * x 2), c 2 k + c 4 k * x 0 + c 6 k * x 2 + c 7 k * (x 0 * x 2),
    c 3 k + c 5 k * x 0 + c 6 k * x 1 + c 7 k * (x 0 * x 1)]

theorem trilinear_hasFDerivAt (c : Fin 8 → Vec 3 ℝ) (x : Fin 3 → ℝ) :
    HasFDerivAt (trilinear (ofCoef c)) (LinearMap.toContinuousLinearMap (Matrix.toLin' (jac c x))) x := by
  rw [hasFDerivAt_pi']
  intro k
  have h : ∀ i : Fin 3, HasFDerivAt (fun y : Fin 3 → ℝ => y i) (ContinuousLinearMap.proj i : (Fin 3 → ℝ) →L[ℝ] ℝ) x :=
    fun i => hasFDerivAt_apply i x
  have h01 := (h 0).mul (h 1)
  have h02 := (h 0).mul (h 2)
  have h12 := (h 1).mul (h 2)
  have h012 := h01.mul (h 2)
  have key := ((((((((hasFDerivAt_const (c 0 k) x).add ((h 0).const_mul (c 1 k))).add ((h 1).const_mul (c 2 k))).add
    ((h 2).const_mul (c 3 k))).add (h01.const_mul (c 4 k))).add (h02.const_mul (c 5 k))).add
    (h12.const_mul (c 6 k))).add (h012.const_mul (c 7 k)))
  have e : (fun y => trilinear (ofCoef c) y k) = fun y => c 0 k + c 1 k * y 0 + c 2 k * y 1 + c 3 k * y 2 +
      c 4 k * (y 0 * y 1) + c 5 k * (y 0 * y 2) + c 6 k * (y 1 * y 2) + c 7 k * (y 0 * y 1 * y 2) :=
    funext fun y => trilinear_coef c y k
  rw [e]
  refine key.congr_fderiv ?_
  ext v
  simp [Matrix.toLin'_apply, Matrix.mulVec, dotProduct, Fin.sum_univ_three, jac]
  ring

/-- exponents -/
def lo : Fin 4 → ℕ := ![0, 1, 0, 1]
/-- exponents -/
def hi : Fin 4 → ℕ := ![0, 0, 1, 1]

theorem jac_det (c : Fin 8 → Vec 3 ℝ) (x : Fin 3 → ℝ) :
    (jac c x).det = ∑ i : Fin 4, ∑ j : Fin 4, ∑ k : Fin 4,
      triple (![c 1, c 4, c 5, c 7] i) (![c 2, c 4, c 6, c 7] j) (![c 3, c 5, c 6, c 7] k) *
        (x 0 ^ (lo j + lo k) * x 1 ^ (lo i + hi k) * x 2 ^ (hi i + hi j)) := by
  rw [Matrix.det_fin_three]
  simp only [Fin.sum_univ_four, jac, Matrix.of_apply, triple, lo, hi]
  simp
  ring

theorem integral_jac (c : Fin 8 → Vec 3 ℝ) :
    ∫ x in cube, (jac c x).det = ((hexT (ofCoef c)).1 + (hexT (ofCoef c)).2.1 + (hexT (ofCoef c)).2.2) / 12 := by
  have hint : ∀ (t : ℝ) (a b d : ℕ), Integrable (fun x : Fin 3 → ℝ => t * (x 0 ^ a * x 1 ^ b * x 2 ^ d)) (volume.restrict cube) := by
    intro t a b d
    have hcont : Continuous fun x : Fin 3 → ℝ => t * (x 0 ^ a * x 1 ^ b * x 2 ^ d) := by fun_prop
    exact hcont.continuousOn.integrableOn_compact isCompact_cube
  simp only [jac_det]
  rw [integral_finsetSum _ fun i _ => integrable_finsetSum _ fun j _ => integrable_finsetSum _ fun k _ => hint _ _ _ _]
  simp only [integral_finsetSum _ fun j _ => integrable_finsetSum _ fun k _ => hint _ _ _ _,
    integral_finsetSum _ fun k _ => hint _ _ _ _, integral_const_mul, integral_cube_monomial]
  simp only [Fin.sum_univ_four, triple, lo, hi, hexT, ofCoef, vadd, vsub]
  simp
  ring

/-- the integral of the Jacobian over the cube -/
theorem integral_det_fderiv (p : Fin 8 → Vec 3 ℝ) :
    ∫ x in cube, (fderiv ℝ (trilinear p) x).det = ((hexT p).1 + (hexT p).2.1 + (hexT p).2.2) / 12 := by
  have h := integral_jac (coef p)
  rw [ofCoef_coef] at h
  rw [← h]
  congr 1
  funext x
  have hd := (trilinear_hasFDerivAt (coef p) x).fderiv
  rw [ofCoef_coef] at hd
  rw [hd]
  show LinearMap.det (Matrix.toLin' (jac (coef p) x)) = _
  rw [LinearMap.det_toLin']

/-- **C37** Trilinear cells: the volume enclosed by the faces (the polyhedron volume of the same six
faces) is the absolute value of the integral over the unit cube of the Jacobian determinant of the
trilinear interpolation of the eight vertices, for all positions of the vertices. -/
theorem C37_trilinear (p : Fin 8 → Vec 3 ℝ) :
    polyVolume (hexFaces p) = .ok |∫ x in cube, (fderiv ℝ (trilinear p) x).det| := by
  rw [integral_det_fderiv, polyVolume_eq, if_pos (hexFaces_ne p), hexSigned]
  congr 1
  rw [abs_div, abs_div, abs_neg, abs_of_pos (by norm_num : (0 : ℝ) < 4), abs_of_pos (by norm_num : (0 : ℝ) < 12)]
  ring

/-- **C37** When the interpolation is one-to-one on the cube and its Jacobian determinant does not
change sign, the polyhedron volume is the Lebesgue measure of the cell, and the hexahedron volume
is it exactly when the three triple products do not differ in sign; in general it is at least the
measure of the cell. -/
theorem C37_cell (p : Fin 8 → Vec 3 ℝ) (hinj : Set.InjOn (trilinear p) cube)
    (hdet : (∀ x ∈ cube, 0 ≤ (fderiv ℝ (trilinear p) x).det) ∨ (∀ x ∈ cube, (fderiv ℝ (trilinear p) x).det ≤ 0)) :
    polyVolume (hexFaces p) = .ok (volume.real (trilinear p '' cube)) ∧ volume (trilinear p '' cube) ≠ ⊤ ∧
      volume.real (trilinear p '' cube) ≤ hexVolume p ∧
      (hexVolume p = volume.real (trilinear p '' cube) ↔
        (0 ≤ (hexT p).1 ∧ 0 ≤ (hexT p).2.1 ∧ 0 ≤ (hexT p).2.2) ∨
          ((hexT p).1 ≤ 0 ∧ (hexT p).2.1 ≤ 0 ∧ (hexT p).2.2 ≤ 0)) := by
  have hD : ∀ x, HasFDerivAt (trilinear p) (fderiv ℝ (trilinear p) x) x := by
    intro x
    have hd := trilinear_hasFDerivAt (coef p) x
    rw [ofCoef_coef] at hd
    exact hd.differentiableAt.hasFDerivAt
  have hvol := integral_image_eq_integral_abs_det_fderiv_smul volume measurableSet_cube
    (fun x _ => (hD x).hasFDerivWithinAt) hinj (fun _ => (1 : ℝ))
  rw [setIntegral_const, smul_eq_mul, mul_one] at hvol
  simp only [smul_eq_mul, mul_one] at hvol
  have h1 : polyVolume (hexFaces p) = .ok (volume.real (trilinear p '' cube)) := by
    rw [C37_trilinear, hvol]
    congr 1
    rcases hdet with hdet | hdet
    · have : ∫ x in cube, |(fderiv ℝ (trilinear p) x).det| = ∫ x in cube, (fderiv ℝ (trilinear p) x).det :=
        setIntegral_congr_fun measurableSet_cube fun x hx => abs_of_nonneg (hdet x hx)
      rw [this, abs_of_nonneg (setIntegral_nonneg measurableSet_cube hdet)]
    · have : ∫ x in cube, |(fderiv ℝ (trilinear p) x).det| = ∫ x in cube, -(fderiv ℝ (trilinear p) x).det :=
        setIntegral_congr_fun measurableSet_cube fun x hx => abs_of_nonpos (hdet x hx)
      rw [this, integral_neg, abs_of_nonpos (setIntegral_nonpos measurableSet_cube hdet)]
  have hcont : Continuous (trilinear p) := continuous_iff_continuousAt.2 fun x => (hD x).continuousAt
  refine ⟨h1, (isCompact_cube.image hcont).measure_lt_top.ne, ?_, ?_⟩
  · obtain ⟨v, hv, hle⟩ := C37_enclosed_le p
    rw [h1] at hv
    injection hv with hv
    rw [hv]; exact hle
  · rw [← C37_enclosed_iff, h1]
    constructor
    · intro h; rw [h]
    · intro h; injection h with h; exact h.symm

/-- **C37** For a parallelepiped both volumes are the Lebesgue measure of the solid spanned by the
edge vectors. -/
theorem C37_parallelepiped_measure (a u v w : Vec 3 ℝ) (h : Matrix.det (Matrix.of ![u, v, w]) ≠ 0) :
    hexVolume (parallelepiped a u v w) =
        volume.real {y | ∃ r s t : ℝ, 0 ≤ r ∧ r ≤ 1 ∧ 0 ≤ s ∧ s ≤ 1 ∧ 0 ≤ t ∧ t ≤ 1 ∧ y = a + r • u + s • v + t • w} ∧
      polyVolume (hexFaces (parallelepiped a u v w)) = .ok (hexVolume (parallelepiped a u v w)) := by
  have htri : ∀ x, trilinear (parallelepiped a u v w) x = a + Matrix.vecMul x (Matrix.of ![u, v, w]) := by
    intro x
    funext k
    have e : Matrix.vecMul x (Matrix.of ![u, v, w]) k = x 0 * u k + x 1 * v k + x 2 * w k := by
      rw [Matrix.vecMul, dotProduct, Fin.sum_univ_three]; rfl
    rw [Pi.add_apply, e]
    simp [trilinear, parallelepiped]
    ring
  have hc : coef (parallelepiped a u v w) = ![a, u, v, w, 0, 0, 0, 0] := by
    funext i k
    fin_cases i <;> simp [coef, parallelepiped] <;> ring
  have hj : ∀ x, jac (coef (parallelepiped a u v w)) x = (Matrix.of ![u, v, w]).transpose := by
    intro x
    rw [hc]
    ext i j
    fin_cases j <;> simp [jac]
  have hdet : ∀ x, (fderiv ℝ (trilinear (parallelepiped a u v w)) x).det = Matrix.det (Matrix.of ![u, v, w]) := by
    intro x
    have hd := (trilinear_hasFDerivAt (coef (parallelepiped a u v w)) x).fderiv
    rw [ofCoef_coef] at hd
    rw [hd]
    show LinearMap.det (Matrix.toLin' (jac (coef (parallelepiped a u v w)) x)) = _
    rw [LinearMap.det_toLin', hj, Matrix.det_transpose]
  have hinj : Set.InjOn (trilinear (parallelepiped a u v w)) cube := by
    intro x _ y _ hxy
    rw [htri, htri] at hxy
    have hu : IsUnit (Matrix.of ![u, v, w]) := (Matrix.isUnit_iff_isUnit_det _).2 (isUnit_iff_ne_zero.2 h)
    exact Matrix.vecMul_injective_of_isUnit hu (add_left_cancel hxy)
  have key := C37_cell (parallelepiped a u v w) hinj (by
    rcases le_total 0 (Matrix.det (Matrix.of ![u, v, w])) with h' | h'
    · left; intro x _; rw [hdet]; exact h'
    · right; intro x _; rw [hdet]; exact h')
  have hT := hexT_parallelepiped a u v w
  have hsame : (0 ≤ (hexT (parallelepiped a u v w)).1 ∧ 0 ≤ (hexT (parallelepiped a u v w)).2.1 ∧ 0 ≤ (hexT (parallelepiped a u v w)).2.2) ∨
      ((hexT (parallelepiped a u v w)).1 ≤ 0 ∧ (hexT (parallelepiped a u v w)).2.1 ≤ 0 ∧ (hexT (parallelepiped a u v w)).2.2 ≤ 0) := by
    rw [hT]
    rcases le_total 0 (4 * triple u v w) with h' | h'
    · exact Or.inl ⟨h', h', h'⟩
    · exact Or.inr ⟨h', h', h'⟩
  have himg : trilinear (parallelepiped a u v w) '' cube =
      {y | ∃ r s t : ℝ, 0 ≤ r ∧ r ≤ 1 ∧ 0 ≤ s ∧ s ≤ 1 ∧ 0 ≤ t ∧ t ≤ 1 ∧ y = a + r • u + s • v + t • w} := by
    have e : ∀ r s t : ℝ, Matrix.vecMul ![r, s, t] (Matrix.of ![u, v, w]) = r • u + s • v + t • w := by
      intro r s t; funext k; simp [Matrix.vecMul, dotProduct, Fin.sum_univ_three]
    ext y
    constructor
    · rintro ⟨x, hx, rfl⟩
      have h' : ∀ i, 0 ≤ x i ∧ x i ≤ 1 := fun i => hx i trivial
      refine ⟨x 0, x 1, x 2, (h' 0).1, (h' 0).2, (h' 1).1, (h' 1).2, (h' 2).1, (h' 2).2, ?_⟩
      have hx3 : x = ![x 0, x 1, x 2] := by funext i; fin_cases i <;> rfl
      rw [htri, hx3, e]; simp only [add_assoc]; rfl
    · rintro ⟨r, s, t, h1, h2, h3, h4, h5, h6, rfl⟩
      refine ⟨![r, s, t], ?_, ?_⟩
      · intro i _
        fin_cases i
        · exact ⟨h1, h2⟩
        · exact ⟨h3, h4⟩
        · exact ⟨h5, h6⟩
      · rw [htri, e]; simp only [add_assoc]
  have heq := key.2.2.2.2 hsame
  rw [← himg]
  exact ⟨heq, by rw [key.1, heq]⟩

/-- a sheared box -/
example : hexVolume (parallelepiped ![5, 0, 0] ![2, 0, 0] ![1, 1, 0] (![0, 1, 3] : Vec 3 ℝ)) =
    volume.real {y : Vec 3 ℝ | ∃ r s t : ℝ, 0 ≤ r ∧ r ≤ 1 ∧ 0 ≤ s ∧ s ≤ 1 ∧ 0 ≤ t ∧ t ≤ 1 ∧
      y = ![5, 0, 0] + r • ![2, 0, 0] + s • ![1, 1, 0] + t • ![0, 1, 3]} :=
  (C37_parallelepiped_measure _ _ _ _ (by rw [Matrix.det_fin_three]; simp)).1

/-- a frustum: the top of the unit cube shrunk to half its width (`C37_cell`) -/
example : volume.real (trilinear ![![0, 0, 0], ![2, 0, 0], ![2, 2, 0], ![0, 2, 0], ![0, 0, 1], ![1, 0, 1], ![1, 1, 1],
    ![0, 1, 1]] '' cube) = 7 / 3 := by
  set p : Fin 8 → Vec 3 ℝ := ![![0, 0, 0], ![2, 0, 0], ![2, 2, 0], ![0, 2, 0], ![0, 0, 1], ![1, 0, 1], ![1, 1, 1],
    ![0, 1, 1]] with hp
  have htri : ∀ x, trilinear p x = ![x 0 * (2 - x 2), x 1 * (2 - x 2), x 2] := by
    intro x; funext k
    fin_cases k <;> simp [trilinear, hp] <;> ring
  have hc : coef p = ![![0, 0, 0], ![2, 0, 0], ![0, 2, 0], ![0, 0, 1], ![0, 0, 0], ![-1, 0, 0], ![0, -1, 0], ![0, 0, 0]] := by
    funext i k
    fin_cases i <;> fin_cases k <;> simp [coef, hp] <;> norm_num
  have key := C37_cell p (by
    intro x hx y hy h
    rw [htri, htri] at h
    have h2 : x 2 = y 2 := by have := congrFun h 2; simpa using this
    have hx2 : x 2 ≤ 1 := (hx 2 trivial).2
    have hne : 2 - x 2 ≠ 0 := by linarith
    have h0 : x 0 * (2 - x 2) = y 0 * (2 - x 2) := by have := congrFun h 0; simp only [← h2] at this; simpa using this
    have h1 : x 1 * (2 - x 2) = y 1 * (2 - x 2) := by have := congrFun h 1; simp only [← h2] at this; simpa using this
    funext i
    fin_cases i
    · exact mul_right_cancel₀ hne h0
    · exact mul_right_cancel₀ hne h1
    · exact h2) (by
    left
    intro x hx
    have hd := (trilinear_hasFDerivAt (coef p) x).fderiv
    rw [ofCoef_coef] at hd
    rw [hd]
    show 0 ≤ LinearMap.det (Matrix.toLin' (jac (coef p) x))
    rw [LinearMap.det_toLin', hc, Matrix.det_fin_three]
    simp [jac]
    nlinarith [sq_nonneg (2 - x 2)])
  have h1 := key.1
  rw [C37_trilinear, integral_det_fderiv] at h1
  injection h1 with h1
  rw [← h1]
  simp [hexT, hp, triple, vadd, vsub]
  norm_num

end Verif.Geometry
