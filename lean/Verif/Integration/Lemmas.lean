import Verif.Quadrature.Props
import Verif.Elements.PropsJacobian
import Verif.Elements.PropsComplete
import Mathlib.Algebra.MvPolynomial.PDeriv
import Mathlib.Algebra.MvPolynomial.CommRing
import Mathlib.Algebra.MvPolynomial.Monad
import Mathlib.Topology.Algebra.MvPolynomial
import Mathlib.MeasureTheory.Integral.Pi
import Mathlib.MeasureTheory.Function.Jacobian
import Mathlib.LinearAlgebra.Matrix.ToLin

/-! Polynomials in several variables: degrees, derivatives, integrals over the reference cube. -/

namespace Verif.Integration
open MvPolynomial MeasureTheory Verif.Elements Verif.Quadrature

variable {n : ℕ}

/-- the reference element: all coordinates between -1 and 1 -/
def refCube (n : ℕ) : Set (Fin n → ℝ) := Set.univ.pi fun _ => Set.Icc (-1) 1

theorem isCompact_refCube : IsCompact (refCube n) := isCompact_univ_pi fun _ => isCompact_Icc

theorem measurableSet_refCube : MeasurableSet (refCube n) := isCompact_refCube.measurableSet

/-! ## degrees -/

theorem degreeOf_monomial_le (i : Fin n) (s : Fin n →₀ ℕ) (a : ℝ) : degreeOf i (monomial s a) ≤ s i := by
  by_cases h : a = 0
  · simp [h]
  · rw [degreeOf_monomial_eq s i h]

theorem degreeOf_pderiv_le (i j : Fin n) (p : MvPolynomial (Fin n) ℝ) :
    degreeOf j (pderiv i p) ≤ degreeOf j p - if i = j then 1 else 0 := by
  have h : pderiv i p = ∑ s ∈ p.support, pderiv i (monomial s (coeff s p)) := by
    rw [← map_sum, ← p.as_sum]
  rw [h]
  refine (degreeOf_sum_le j _ _).trans (Finset.sup_le fun s hs => ?_)
  rw [pderiv_monomial]
  refine (degreeOf_monomial_le _ _ _).trans ?_
  have hle : s j ≤ degreeOf j p := monomial_le_degreeOf j hs
  rw [Finsupp.tsub_apply, Finsupp.single_apply]
  split <;> omega

theorem degreeOf_bind_le (i : Fin n) {m : ℕ} (X : Fin m → MvPolynomial (Fin n) ℝ) (f : MvPolynomial (Fin m) ℝ) (r : ℕ)
    (hX : ∀ k, degreeOf i (X k) ≤ r) : degreeOf i (bind₁ X f) ≤ r * f.totalDegree := by
  rw [bind₁, aeval_def, eval₂_eq']
  refine (degreeOf_sum_le i _ _).trans (Finset.sup_le fun s hs => ?_)
  refine (degreeOf_C_mul_le _ _ _).trans ((degreeOf_prod_le i _ _).trans ?_)
  calc ∑ k, degreeOf i (X k ^ s k) ≤ ∑ k, s k * r :=
        Finset.sum_le_sum fun k _ => (degreeOf_pow_le i _ _).trans (Nat.mul_le_mul_left _ (hX k))
    _ = r * ∑ k, s k := by rw [← Finset.sum_mul, mul_comm]
    _ ≤ r * f.totalDegree := by
        refine Nat.mul_le_mul_left _ ?_
        have := le_totalDegree hs
        rwa [Finsupp.sum_fintype _ _ (fun _ => rfl)] at this

/-- the Jacobian determinant of a polynomial map -/
noncomputable def detPoly (X : Fin n → MvPolynomial (Fin n) ℝ) : MvPolynomial (Fin n) ℝ :=
  (Matrix.of fun j k => pderiv j (X k)).det

theorem degreeOf_detPoly_le (i : Fin n) (X : Fin n → MvPolynomial (Fin n) ℝ) (r : ℕ) (hr : 1 ≤ r)
    (hX : ∀ i k, degreeOf i (X k) ≤ r) : degreeOf i (detPoly X) ≤ r * n - 1 := by
  rw [detPoly, Matrix.det_apply]
  refine (degreeOf_sum_le i _ _).trans (Finset.sup_le fun σ _ => ?_)
  have hs : ∀ p : MvPolynomial (Fin n) ℝ, degreeOf i (Equiv.Perm.sign σ • p) ≤ degreeOf i p := by
    intro p
    rcases Int.units_eq_one_or (Equiv.Perm.sign σ) with h | h <;> rw [h]
    · simp
    · simp [Units.smul_def, degreeOf_neg]
  refine (hs _).trans ((degreeOf_prod_le i _ _).trans ?_)
  simp only [Matrix.of_apply]
  calc ∑ k, degreeOf i (pderiv (σ k) (X k)) ≤ ∑ k, (fun j => (r - if j = i then 1 else 0)) (σ k) := by
        refine Finset.sum_le_sum fun k _ => (degreeOf_pderiv_le _ _ _).trans ?_
        have := hX i k
        show _ ≤ r - if σ k = i then 1 else 0
        split <;> omega
    _ = ∑ j, (r - if j = i then 1 else 0) := Equiv.sum_comp σ (fun j => (r - if j = i then 1 else 0))
    _ ≤ r * n - 1 := by
        have h2 : ∑ j, (r - if j = i then 1 else 0) + ∑ j : Fin n, (if j = i then 1 else 0) = ∑ _j : Fin n, r := by
          rw [← Finset.sum_add_distrib]
          refine Finset.sum_congr rfl fun j _ => ?_
          split <;> omega
        rw [Finset.sum_ite_eq' Finset.univ i (fun _ => 1), if_pos (Finset.mem_univ i), Finset.sum_const, Finset.card_univ,
          Fintype.card_fin, smul_eq_mul, mul_comm n r] at h2
        omega

/-! ## derivatives -/

theorem hasFDerivAt_eval (p : MvPolynomial (Fin n) ℝ) (x : Fin n → ℝ) :
    HasFDerivAt (fun y : Fin n → ℝ => eval y p)
      (∑ i, eval x (pderiv i p) • (ContinuousLinearMap.proj i : (Fin n → ℝ) →L[ℝ] ℝ)) x := by
  induction p using MvPolynomial.induction_on with
  | C a => simpa using hasFDerivAt_const a x
  | add p q hp hq =>
    simp only [map_add, add_smul, Finset.sum_add_distrib]
    exact hp.add hq
  | mul_X p i hp =>
    have h := hp.mul (hasFDerivAt_apply (𝕜 := ℝ) i x)
    simp only [map_mul, eval_X]
    refine h.congr_fderiv ?_
    ext v
    simp only [Derivation.leibniz, pderiv_X, smul_eq_mul, map_add, map_mul, eval_X, add_apply, smul_apply, sum_apply,
      ContinuousLinearMap.proj_apply, Finset.mul_sum,
      add_mul, Finset.sum_add_distrib]
    congr 1
    · rw [Finset.sum_eq_single i]
      · simp
      · intro j _ hj; simp [hj.symm]
      · simp
    · exact Finset.sum_congr rfl fun j _ => by ring

/-- the map given by polynomials -/
noncomputable def polyMap (X : Fin n → MvPolynomial (Fin n) ℝ) (x : Fin n → ℝ) : Fin n → ℝ := fun k => eval x (X k)

theorem hasFDerivAt_polyMap (X : Fin n → MvPolynomial (Fin n) ℝ) (x : Fin n → ℝ) :
    HasFDerivAt (polyMap X)
      (LinearMap.toContinuousLinearMap (Matrix.toLin' (Matrix.of fun k j => eval x (pderiv j (X k))))) x := by
  rw [hasFDerivAt_pi']
  intro k
  refine (hasFDerivAt_eval (X k) x).congr_fderiv ?_
  ext v
  simp [Matrix.toLin'_apply, Matrix.mulVec, dotProduct]

theorem det_polyMap (X : Fin n → MvPolynomial (Fin n) ℝ) (x : Fin n → ℝ) :
    (LinearMap.toContinuousLinearMap (Matrix.toLin' (Matrix.of fun k j => eval x (pderiv j (X k))))).det =
      eval x (detPoly X) := by
  show LinearMap.det (Matrix.toLin' (Matrix.of fun k j => eval x (pderiv j (X k)))) = _
  rw [LinearMap.det_toLin', detPoly, RingHom.map_det, ← Matrix.det_transpose]
  rfl

/-! ## integrals over the reference cube -/

theorem integral_refCube_monomial (s : Fin n → ℕ) :
    ∫ x in refCube n, ∏ i, x i ^ s i = ∏ i, ∫ t in (-1 : ℝ)..1, t ^ s i := by
  rw [refCube, volume_pi, Measure.restrict_pi_pi, integral_fintype_prod_eq_prod (fun (i : Fin n) (t : ℝ) => t ^ s i)]
  refine Finset.prod_congr rfl fun i _ => ?_
  rw [integral_Icc_eq_integral_Ioc, ← intervalIntegral.integral_of_le (by norm_num)]

theorem integrableOn_eval (p : MvPolynomial (Fin n) ℝ) : IntegrableOn (fun x => eval x p) (refCube n) :=
  (MvPolynomial.continuous_eval p).continuousOn.integrableOn_compact isCompact_refCube

theorem integral_refCube_eval (p : MvPolynomial (Fin n) ℝ) :
    ∫ x in refCube n, eval x p = ∑ s ∈ p.support, coeff s p * ∏ i, ∫ t in (-1 : ℝ)..1, t ^ s i := by
  simp only [eval_eq']
  rw [integral_finsetSum]
  · refine Finset.sum_congr rfl fun s _ => ?_
    rw [integral_const_mul, integral_refCube_monomial (fun i => s i)]
  · intro s _
    refine ContinuousOn.integrableOn_compact isCompact_refCube (Continuous.continuousOn ?_)
    fun_prop

/-- a rule that is exact on the monomials is exact -/
theorem rule_exact (M N : ℕ) (tot : ℕ → ℝ) (pts : ℕ → ℕ → ℝ)
    (h : ∀ s : Fin n → ℕ, (∀ i, s i ≤ N) →
      ∑ m ∈ Finset.range M, tot m * ∏ i, pts m i.1 ^ s i = ∏ i, ∫ t in (-1 : ℝ)..1, t ^ s i)
    (G : MvPolynomial (Fin n) ℝ) (hG : ∀ i, degreeOf i G ≤ N) :
    ∑ m ∈ Finset.range M, tot m * eval (fun i => pts m i.1) G = ∫ x in refCube n, eval x G := by
  rw [integral_refCube_eval]
  simp only [eval_eq', Finset.mul_sum]
  rw [Finset.sum_comm]
  refine Finset.sum_congr rfl fun s hs => ?_
  rw [← h s (fun i => (monomial_le_degreeOf i hs).trans (hG i)), Finset.mul_sum]
  exact Finset.sum_congr rfl fun m _ => by ring

/-- `Gauss2D` or `Gauss3D` -/
noncomputable def gaussOf (dim : ℕ) : Out → ℕ → Outcome Out :=
  fun o q => if dim = 2 then gauss2D o q else gauss3D o q

theorem gauss_monomial (hn : n = 2 ∨ n = 3) (o o' : Out) (q : ℕ) (h1 : 1 ≤ q) (h5 : q ≤ 5) (hr : gaussOf n o q = .ok o')
    (s : Fin n → ℕ) (hs : ∀ i, s i ≤ 2 * q - 1) :
    ∑ m ∈ Finset.range (q ^ n), o'.tot m * ∏ i, o'.pts m i.1 ^ s i = ∏ i, ∫ t in (-1 : ℝ)..1, t ^ s i := by
  rcases hn with rfl | rfl
  · have h := C67_gauss2d_exact o o' q h1 h5 (by simpa [gaussOf] using hr) (Polynomial.X ^ s 0) (Polynomial.X ^ s 1)
      (by simpa using hs 0) (by simpa using hs 1)
    simpa only [Fin.prod_univ_two, pow_two, Fin.val_zero, Fin.val_one, Polynomial.eval_pow, Polynomial.eval_X] using h
  · have h := C67_gauss3d_exact o o' q h1 h5 (by simpa [gaussOf] using hr) (Polynomial.X ^ s 0) (Polynomial.X ^ s 1)
      (Polynomial.X ^ s 2) (by simpa using hs 0) (by simpa using hs 1) (by simpa using hs 2)
    simpa only [Fin.prod_univ_three, Fin.val_zero, Fin.val_one, Fin.val_two, show q ^ 3 = q * q * q by ring, Polynomial.eval_pow, Polynomial.eval_X] using h

/-! ## the shape functions are polynomials -/

/-- `F` is a polynomial of degree at most `d i` in coordinate `i` -/
def IsPoly (d : Fin n → ℕ) (F : (ℕ → ℝ) → ℝ) : Prop :=
  ∃ G : MvPolynomial (Fin n) ℝ, (∀ xi, eval (fun i => xi i.1) G = F xi) ∧ ∀ i, degreeOf i G ≤ d i

theorem IsPoly.const (c : ℝ) : IsPoly (n := n) (fun _ => 0) (fun _ => c) := ⟨C c, by simp, by simp⟩

theorem IsPoly.coord (k : ℕ) (hk : k < n) : IsPoly (n := n) (fun i => if i.1 = k then 1 else 0) (fun xi => xi k) :=
  ⟨X ⟨k, hk⟩, by simp, fun i => by rw [degreeOf_X]; simp [Fin.ext_iff]⟩

theorem IsPoly.mul {d d' : Fin n → ℕ} {F F' : (ℕ → ℝ) → ℝ} (h : IsPoly d F) (h' : IsPoly d' F') :
    IsPoly (fun i => d i + d' i) (fun xi => F xi * F' xi) := by
  obtain ⟨G, e, b⟩ := h
  obtain ⟨G', e', b'⟩ := h'
  exact ⟨G * G', fun xi => by rw [map_mul, e, e'], fun i => (degreeOf_mul_le i _ _).trans (add_le_add (b i) (b' i))⟩

theorem IsPoly.add {d d' : Fin n → ℕ} {F F' : (ℕ → ℝ) → ℝ} (h : IsPoly d F) (h' : IsPoly d' F') :
    IsPoly (fun i => max (d i) (d' i)) (fun xi => F xi + F' xi) := by
  obtain ⟨G, e, b⟩ := h
  obtain ⟨G', e', b'⟩ := h'
  exact ⟨G + G', fun xi => by rw [map_add, e, e'], fun i => (degreeOf_add_le i _ _).trans (max_le_max (b i) (b' i))⟩

theorem IsPoly.sub {d d' : Fin n → ℕ} {F F' : (ℕ → ℝ) → ℝ} (h : IsPoly d F) (h' : IsPoly d' F') :
    IsPoly (fun i => max (d i) (d' i)) (fun xi => F xi - F' xi) := by
  obtain ⟨G, e, b⟩ := h
  obtain ⟨G', e', b'⟩ := h'
  exact ⟨G - G', fun xi => by rw [map_sub, e, e'], fun i => (degreeOf_sub_le i _ _).trans (max_le_max (b i) (b' i))⟩

theorem IsPoly.mono {d d' : Fin n → ℕ} {F : (ℕ → ℝ) → ℝ} (h : IsPoly d F) (hd : ∀ i, d i ≤ d' i) : IsPoly d' F := by
  obtain ⟨G, e, b⟩ := h
  exact ⟨G, e, fun i => (b i).trans (hd i)⟩

theorem IsPoly.ite {d : Fin n → ℕ} {F F' : (ℕ → ℝ) → ℝ} (c : Prop) [Decidable c] (h : c → IsPoly d F)
    (h' : ¬c → IsPoly d F') : IsPoly d (fun xi => if c then F xi else F' xi) := by
  by_cases hc : c
  · simpa only [if_pos hc] using h hc
  · simpa only [if_neg hc] using h' hc

/-- build a polynomial from its expression -/
macro "is_poly" : tactic => `(tactic| (
  apply IsPoly.mono
  · repeat' first
      | exact IsPoly.coord _ (by decide)
      | exact IsPoly.const _
      | apply IsPoly.mul
      | apply IsPoly.sub
      | apply IsPoly.add
  · decide))

theorem shape_isPoly (e : Kind) (tmp : ℕ → ℝ) (v : ℕ) (hv : v < e.nodes) :
    IsPoly (n := e.dim) (fun _ => e.order) (fun xi => e.shape tmp xi v) := by
  cases e
  all_goals simp only [Kind.nodes] at hv
  all_goals simp only [Kind.shape, Kind.dim, Kind.order, quad4Shape, quad8Shape, quad12Shape, hex8Shape, hex20Shape, hex32Shape,
    fill_apply]
  all_goals repeat' refine IsPoly.ite _ (fun _ => ?_) (fun _ => ?_)
  all_goals first
    | (exfalso; interval_cases v <;> simp_all [steps, List.range']; done)
    | is_poly

end Verif.Integration
