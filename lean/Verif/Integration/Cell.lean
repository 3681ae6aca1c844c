import Verif.Integration.Lemmas
import Verif.Geometry.PropsTrilinear
import Mathlib.Analysis.Calculus.Deriv.Pi

/-! The cell of an element as a polynomial map of the reference cube. -/

namespace Verif.Integration
open MvPolynomial MeasureTheory Verif.Elements Verif.Quadrature

/-- a point of the reference cube as the array the element functions read -/
def coords {n : ℕ} (x : Fin n → ℝ) : ℕ → ℝ := fun i => if h : i < n then x ⟨i, h⟩ else 0

/-- `physical_position` as a map of the reference element -/
noncomputable def cell (e : Kind) (vertices : ℕ → ℕ → ℝ) (x : Fin e.dim → ℝ) : Fin e.dim → ℝ :=
  fun k => e.position (fun _ => 0) (fun _ => 0) (coords x) vertices k.1

theorem shape_tmp (e : Kind) (tmp tmp' xi : ℕ → ℝ) (v : ℕ) (hv : v < e.nodes) :
    e.shape tmp xi v = e.shape tmp' xi v := by
  cases e
  all_goals simp only [Kind.nodes] at hv
  all_goals simp only [Kind.shape, quad4Shape, quad8Shape, quad12Shape, hex8Shape, hex20Shape, hex32Shape,
    fill_apply]
  all_goals split_ifs
  all_goals first
    | rfl
    | (exfalso; interval_cases v <;> simp_all [steps, List.range'])

theorem position_polys (e : Kind) (vertices : ℕ → ℕ → ℝ) :
    ∃ X : Fin e.dim → MvPolynomial (Fin e.dim) ℝ,
      (∀ tmp x xi k, eval (fun i => xi i.1) (X k) = e.position tmp x xi vertices k.1) ∧
      ∀ i k, degreeOf i (X k) ≤ e.order := by
  have h : ∀ v : Fin e.nodes, ∃ G : MvPolynomial (Fin e.dim) ℝ,
      (∀ xi, eval (fun i => xi i.1) G = e.shape (fun _ => 0) xi v.1) ∧ ∀ i, degreeOf i G ≤ e.order :=
    fun v => shape_isPoly e (fun _ => 0) v.1 v.2
  choose G hG hd using h
  refine ⟨fun k => ∑ v : Fin e.nodes, C (vertices v.1 k.1) * G v, fun tmp x xi k => ?_, fun i k => ?_⟩
  · rw [position_eq e tmp x xi vertices k.1 k.2, Finset.sum_range, map_sum]
    refine Finset.sum_congr rfl fun v _ => ?_
    rw [map_mul, eval_C, hG, shape_tmp e tmp (fun _ => 0) xi v.1 v.2]
  · exact (degreeOf_sum_le i _ _).trans (Finset.sup_le fun v _ => (degreeOf_C_mul_le _ _ _).trans (hd v i))

theorem coords_val {n : ℕ} (x : Fin n → ℝ) : (fun i : Fin n => coords x i.1) = x := by
  funext i; simp [coords]

theorem cell_eq_polyMap {e : Kind} {vertices : ℕ → ℕ → ℝ} {X : Fin e.dim → MvPolynomial (Fin e.dim) ℝ}
    (hX : ∀ tmp x xi k, eval (fun i => xi i.1) (X k) = e.position tmp x xi vertices k.1) :
    cell e vertices = polyMap X := by
  funext x k
  rw [cell, ← hX, coords_val]
  rfl

theorem position_cell (e : Kind) (vertices : ℕ → ℕ → ℝ) (tmp x xi : ℕ → ℝ) :
    (fun k : Fin e.dim => e.position tmp x xi vertices k.1) = cell e vertices (fun i => xi i.1) := by
  obtain ⟨X, hX, -⟩ := position_polys e vertices
  rw [cell_eq_polyMap hX]
  funext k
  rw [← hX]
  rfl

theorem fderiv_cell_det {e : Kind} {vertices : ℕ → ℕ → ℝ} {X : Fin e.dim → MvPolynomial (Fin e.dim) ℝ}
    (hX : ∀ tmp x xi k, eval (fun i => xi i.1) (X k) = e.position tmp x xi vertices k.1) (x : Fin e.dim → ℝ) :
    (fderiv ℝ (cell e vertices) x).det = eval x (detPoly X) := by
  rw [cell_eq_polyMap hX, (hasFDerivAt_polyMap X x).fderiv, det_polyMap]

theorem pderiv_partials {e : Kind} {vertices : ℕ → ℕ → ℝ} {X : Fin e.dim → MvPolynomial (Fin e.dim) ℝ}
    (hX : ∀ tmp x xi k, eval (fun i => xi i.1) (X k) = e.position tmp x xi vertices k.1) (out xi : ℕ → ℝ)
    (j k : Fin e.dim) :
    eval (fun i => xi i.1) (pderiv j (X k)) = ∑ v ∈ Finset.range e.nodes, vertices v k.1 * e.partials j.1 out xi v := by
  have h1 := C61_position e (fun _ => 0) (fun _ => 0) out xi vertices j.1 k.1 j.2 k.2
  simp only [← hX] at h1
  have e1 : ∀ t : ℝ, (fun i : Fin e.dim => Function.update xi j.1 t i.1) =
      Function.update (fun i : Fin e.dim => xi i.1) j t := by
    intro t
    funext i
    simp only [Function.update_apply, Fin.ext_iff]
  simp only [e1] at h1
  have hu := hasDerivAt_update (𝕜 := ℝ) (fun i : Fin e.dim => xi i.1) j (xi j.1)
  have hp : (fun i : Fin e.dim => xi i.1) = Function.update (fun i : Fin e.dim => xi i.1) j (xi j.1) :=
    (Function.update_eq_self j (fun i : Fin e.dim => xi i.1)).symm
  have h2 := (hasFDerivAt_eval (X k) (Function.update (fun i : Fin e.dim => xi i.1) j (xi j.1))).comp_hasDerivAt
    (xi j.1) hu
  have h3 := h1.unique h2
  rw [h3, ← hp, sum_apply, Finset.sum_eq_single j]
  · simp
  · intro i _ hi; simp [hi]
  · simp

/-- what the Jacobian function returns is the determinant of the derivative of the cell map -/
theorem jacobian_det (e : Kind) (J : Matrix2 ℝ) (vertices : ℕ → ℕ → ℝ) (xi : ℕ → ℝ) (out : ℕ → ℕ → ℝ)
    (hr : 3 ≤ J.rows) (hc : 3 ≤ J.cols) :
    ∃ J', jacobian J vertices (fun v j => e.partials j (out j) xi v) e.nodes e.dim =
      .ok (J', (fderiv ℝ (cell e vertices) (fun i => xi i.1)).det) := by
  obtain ⟨X, hX, -⟩ := position_polys e vertices
  obtain ⟨J', h, hj, -⟩ := C63_determinant J vertices (fun v j => e.partials j (out j) xi v) e.nodes e.dim
    (by cases e <;> simp [Kind.dim]) hr hc
  refine ⟨J', h.trans ?_⟩
  rw [fderiv_cell_det hX, detPoly, RingHom.map_det]
  congr 3
  ext a b
  simp only [mat, Matrix.of_apply, RingHom.mapMatrix_apply, Matrix.map_apply]
  rw [hj a.1 b.1 a.2 b.2, pderiv_partials hX (out a.1)]

theorem totalDegree_bound {r d n q : ℕ} (hr : 1 ≤ r) (hn : 1 ≤ n) (h : r * (d + n) ≤ q + 1) :
    r * d + (r * n - 1) ≤ q := by
  have : 1 ≤ r * n := Nat.mul_pos hr hn
  rw [mul_add] at h
  omega

/-- a rule that is exact on the monomials integrates `f` along the cell map times the determinant -/
theorem rule_cell (e : Kind) (vertices : ℕ → ℕ → ℝ) (f : MvPolynomial (Fin e.dim) ℝ) (M N : ℕ) (tot : ℕ → ℝ)
    (pts : ℕ → ℕ → ℝ)
    (h : ∀ s : Fin e.dim → ℕ, (∀ i, s i ≤ N) →
      ∑ m ∈ Finset.range M, tot m * ∏ i, pts m i.1 ^ s i = ∏ i, ∫ t in (-1 : ℝ)..1, t ^ s i)
    (hf : e.order * (f.totalDegree + e.dim) ≤ N + 1) :
    ∑ m ∈ Finset.range M, tot m * (eval (cell e vertices (fun i => pts m i.1)) f *
        (fderiv ℝ (cell e vertices) (fun i => pts m i.1)).det) =
      ∫ y in refCube e.dim, eval (cell e vertices y) f * (fderiv ℝ (cell e vertices) y).det := by
  obtain ⟨X, hX, hd⟩ := position_polys e vertices
  have hdim : 1 ≤ e.dim := by cases e <;> simp [Kind.dim]
  have hord : 1 ≤ e.order := by cases e <;> simp [Kind.order]
  have hdeg : ∀ i, degreeOf i (bind₁ X f * detPoly X) ≤ N := fun i =>
    (degreeOf_mul_le i _ _).trans ((add_le_add (degreeOf_bind_le i X f e.order (hd i))
      (degreeOf_detPoly_le i X e.order hord hd)).trans (totalDegree_bound hord hdim hf))
  have hev : ∀ y, eval y (bind₁ X f * detPoly X) = eval (cell e vertices y) f * (fderiv ℝ (cell e vertices) y).det := by
    intro y
    rw [map_mul, fderiv_cell_det hX, cell_eq_polyMap hX]
    congr 1
    exact eval₂Hom_bind₁ (RingHom.id ℝ) y X f
  have h := rule_exact M N tot pts h _ hdeg
  simpa only [hev] using h

theorem differentiable_cell (e : Kind) (vertices : ℕ → ℕ → ℝ) : Differentiable ℝ (cell e vertices) := by
  obtain ⟨X, hX, hd⟩ := position_polys e vertices
  rw [cell_eq_polyMap hX]
  exact fun y => (hasFDerivAt_polyMap X y).differentiableAt

theorem cell_det_eq (e : Kind) (vertices : ℕ → ℕ → ℝ) (xi : ℕ → ℝ) :
    (fderiv ℝ (cell e vertices) (fun i => xi i.1)).det =
      (mat e.dim fun j k => ∑ v ∈ Finset.range e.nodes, vertices v k * e.partials j (fun _ => 0) xi v).det := by
  obtain ⟨X, hX, -⟩ := position_polys e vertices
  rw [fderiv_cell_det hX, detPoly, RingHom.map_det]
  congr 1
  ext a b
  simp only [mat, Matrix.of_apply, RingHom.mapMatrix_apply, Matrix.map_apply]
  rw [pderiv_partials hX (fun _ => 0)]

end Verif.Integration
