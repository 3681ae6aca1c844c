import Verif.Geometry.Simplex
import Verif.Geometry.PropsHex

/-!
# C33, C34, C36, C38: areas, volumes and centroids against Lebesgue measure

`volume` is Lebesgue measure on `Fin n → ℝ`, `⨍` the mean value over a set: the right hand sides
below do not mention any formula of the code.
-/

namespace Verif.Geometry
open Verif.Vec MeasureTheory

/-! ## Triangles -/

theorem det_edgeRows2 (a b c : Vec 2 ℝ) : (edgeRows ![a, b, c]).det = triCross2 a b c := by
  rw [Matrix.det_fin_two]
  simp [edgeRows, triCross2, cross2]

theorem range3 {α : Type} (a b c : α) : Set.range ![a, b, c] = {a, b, c} := by
  simp only [Matrix.range_cons, Matrix.range_empty, Set.union_empty, Set.singleton_union]

theorem range4 {α : Type} (a b c d : α) : Set.range ![a, b, c, d] = {a, b, c, d} := by
  simp only [Matrix.range_cons, Matrix.range_empty, Set.union_empty, Set.singleton_union]

theorem volume_tri (a b c : Vec 2 ℝ) : volume (convexHull ℝ {a, b, c}) = ENNReal.ofReal (|triCross2 a b c| / 2) := by
  have := volume_simplex ![a, b, c]
  rw [range3, det_edgeRows2] at this
  simpa using this

theorem moment_tri (a b c : Vec 2 ℝ) (k : Fin 2) :
    ∫ x in convexHull ℝ {a, b, c}, x k = |triCross2 a b c| / 2 * ((a k + b k + c k) / 3) := by
  have := moment_simplex ![a, b, c] k
  rw [range3, det_edgeRows2] at this
  have e : ∑ j : Fin (2 + 1), (![a, b, c] : Fin 3 → Vec 2 ℝ) j k = a k + b k + c k := Fin.sum_univ_three _
  rw [this, e]
  norm_num

/-- **C33** The area of a triangle is the Lebesgue measure of the convex hull of its vertices. -/
theorem C33_triangle_measure (a b c : Vec 2 ℝ) :
    volume (convexHull ℝ {a, b, c}) = ENNReal.ofReal (triArea2 a b c) := by
  rw [volume_tri, triArea2]
  congr 1
  ring

example : volume (convexHull ℝ {![0, 0], ![1, 0], (![0, 1] : Vec 2 ℝ)}) = ENNReal.ofReal (1 / 2) := by
  rw [C33_triangle_measure]; norm_num [triArea2, triCross2, cross2]

/-- **C34** The centroid (and midpoint) of a triangle is its centre of mass: each coordinate is the
mean of that coordinate over the triangle. -/
theorem C34_triangle_mass (a b c : Vec 2 ℝ) (h : volume (convexHull ℝ {a, b, c}) ≠ 0) :
    triMid a b c = fun k => ⨍ x in convexHull ℝ {a, b, c}, x k := by
  funext k
  rw [setAverage_eq, measureReal_def, moment_tri, volume_tri, ENNReal.toReal_ofReal (by positivity)]
  rw [volume_tri] at h
  have h0 : |triCross2 a b c| / 2 ≠ 0 := fun h0 => h (by rw [h0]; simp)
  rw [smul_eq_mul, inv_mul_cancel_left₀ h0, triMid]
  ring

example : triMid ![0, 0] ![3, 0] (![0, 6] : Vec 2 ℝ) = fun k => ⨍ x in convexHull ℝ {![0, 0], ![3, 0], ![0, 6]}, x k := by
  apply C34_triangle_mass
  rw [C33_triangle_measure]; norm_num [triArea2, triCross2, cross2]

/-! ## Tetrahedra -/

theorem det_edgeRows3 (a b c d : Vec 3 ℝ) :
    (edgeRows ![a, b, c, d]).det = Matrix.det (Matrix.of ![b - a, c - a, d - a]) := by
  congr 1
  ext i j
  fin_cases i <;> simp [edgeRows]

/-- **C36** The volume of a tetrahedron is the Lebesgue measure of the convex hull of its vertices. -/
theorem C36_measure (a b c d : Vec 3 ℝ) :
    volume (convexHull ℝ {a, b, c, d}) = ENNReal.ofReal (tetVolume a b c d) := by
  have h := volume_simplex ![a, b, c, d]
  rw [range4, det_edgeRows3] at h
  have h' := (C36_volume ![a, b, c, d] 0).1
  have e : (edgeMatrix ![a, b, c, d]).det = Matrix.det (Matrix.of ![b - a, c - a, d - a]) := by
    congr 1
  have h'' : tetVolume a b c d = |(edgeMatrix ![a, b, c, d]).det| / 6 := h'
  rw [h, h'', e]
  congr 2

example : volume (convexHull ℝ {![0, 0, 0], ![1, 0, 0], ![0, 1, 0], (![0, 0, 1] : Vec 3 ℝ)}) = ENNReal.ofReal (1 / 6) := by
  rw [C36_measure]; simp [tetVolume, tetDet]

/-- **C36** The centroid (and midpoint) of a tetrahedron is its centre of mass. -/
theorem C36_mass (a b c d : Vec 3 ℝ) (h : volume (convexHull ℝ {a, b, c, d}) ≠ 0) :
    tetMid a b c d = fun k => ⨍ x in convexHull ℝ {a, b, c, d}, x k := by
  have hv := volume_simplex ![a, b, c, d]
  rw [range4] at hv
  have h0 : |(edgeRows ![a, b, c, d]).det| / (Nat.factorial 3 : ℝ) ≠ 0 := fun h0 => h (by rw [hv, h0]; simp)
  funext k
  have hm := moment_simplex ![a, b, c, d] k
  rw [range4] at hm
  rw [setAverage_eq, measureReal_def, hm, hv, ENNReal.toReal_ofReal (by positivity), smul_eq_mul,
    inv_mul_cancel_left₀ h0, tetMid]
  have e : ∑ j : Fin (3 + 1), (![a, b, c, d] : Fin 4 → Vec 3 ℝ) j k = a k + b k + c k + d k := Fin.sum_univ_four _
  rw [e]
  norm_num
  ring

example : tetMid ![0, 0, 0] ![1, 0, 0] ![0, 1, 0] (![0, 0, 1] : Vec 3 ℝ) =
    fun k => ⨍ x in convexHull ℝ {![0, 0, 0], ![1, 0, 0], ![0, 1, 0], ![0, 0, 1]}, x k := by
  apply C36_mass
  rw [C36_measure]; simp [tetVolume, tetDet]

/-! ## Polygons: winding numbers -/

/-- How often the closed polygon winds around `x`: the signed count of the triangles `o p q`, for
the edges `p q`, that contain `x`. -/
noncomputable def winding (o : Vec 2 ℝ) (pts : List (Vec 2 ℝ)) (x : Vec 2 ℝ) : ℝ :=
  ((edges pts).map fun e => signedSimplex ![o, e.1, e.2] x).sum

theorem integral_winding (o : Vec 2 ℝ) (pts : List (Vec 2 ℝ)) : ∫ x, winding o pts x = shoelace pts := by
  unfold winding
  rw [(integral_list_sum (edges pts) (fun e => signedSimplex ![o, e.1, e.2]) fun e _ => by
    simpa using integrable_signedSimplex ![o, e.1, e.2] (fun _ => 1) continuous_const).2, C33_fan pts o]
  congr 1
  refine List.map_congr_left fun e _ => ?_
  rw [integral_signedSimplex, det_edgeRows2]
  simp [triNormal2]
  ring

theorem moment_winding (o : Vec 2 ℝ) (pts : List (Vec 2 ℝ)) (k : Fin 2) :
    ∫ x, winding o pts x * x k = cyc moment pts k / 6 := by
  unfold winding
  have e : ∀ x : Vec 2 ℝ, ((edges pts).map fun e => signedSimplex ![o, e.1, e.2] x).sum * x k =
      ((edges pts).map fun e => signedSimplex ![o, e.1, e.2] x * x k).sum := by
    intro x; rw [List.sum_map_mul_right]
  simp only [e]
  rw [(integral_list_sum (edges pts) (fun e x => signedSimplex ![o, e.1, e.2] x * x k) fun e _ =>
    integrable_signedSimplex ![o, e.1, e.2] (fun x => x k) (continuous_apply k)).2]
  simp only [moment_signedSimplex, det_edgeRows2]
  rw [← cyc_edges (fun p q : Vec 2 ℝ => triCross2 o p q / (Nat.factorial 2 : ℝ) * ((∑ j, (![o, p, q] : Fin 3 → Vec 2 ℝ) j k) / ((2 : ℕ) + 1)))]
  rw [cyc_apply, ← cyc_add_telescope (fun p q : Vec 2 ℝ => moment p q k) (fun p => -(wedge o p * (o k + p k))) pts,
    div_eq_inv_mul, ← cyc_mul_left]
  refine cyc_congr pts fun p _ q _ => ?_
  simp only [Fin.sum_univ_three]
  fin_cases k <;> simp [triCross2, cross2, moment, wedge, Nat.factorial] <;> ring

/-- **C33** Any polygon, crossing itself or not, convex or not: `normal` returns the integral of its
winding number over the plane and `area` the absolute value of it, whatever the point the winding
is counted from. -/
theorem C33_winding (o : Vec 2 ℝ) (pts : List (Vec 2 ℝ)) (h : 2 < pts.length) :
    normalIter2 pts = .ok ![0, ∫ x, winding o pts x] ∧ areaIter pts = .ok |∫ x, winding o pts x| := by
  rw [integral_winding, normalIter2_eq, areaIter_eq, if_pos h, if_pos h]
  exact ⟨rfl, rfl⟩

/-- **C34** Any polygon with non-zero area: the centroid is the mean position weighted by the winding
number. -/
theorem C34_winding (o : Vec 2 ℝ) (pts : List (Vec 2 ℝ)) (h : 2 < pts.length) (ha : areaIter pts ≠ .ok 0) :
    centroidIter2 pts = .ok fun k => (∫ x, winding o pts x * x k) / ∫ x, winding o pts x := by
  have h0 : shoelace pts ≠ 0 := by
    intro e; apply ha; rw [areaIter_eq, if_pos h, e]; simp
  obtain ⟨c, h1, h2⟩ := centroid_of pts h h0
  rw [h1]
  congr 1
  funext k
  have := congrFun h2 k
  rw [integral_winding, moment_winding, ← this]
  simp only [Pi.smul_apply, smul_eq_mul]
  field_simp

/-- **C33** A polygon that winds once around the points of a set `S` (in either direction) and not
around the others has the Lebesgue measure of `S` as its area. -/
theorem C33_region (o : Vec 2 ℝ) (pts : List (Vec 2 ℝ)) (h : 2 < pts.length) (S : Set (Vec 2 ℝ)) (hS : MeasurableSet S)
    (hw : (winding o pts =ᵐ[volume] S.indicator 1) ∨ (winding o pts =ᵐ[volume] fun x => -S.indicator 1 x)) :
    areaIter pts = .ok (volume.real S) := by
  rw [(C33_winding o pts h).2]
  rcases hw with hw | hw
  · rw [integral_congr_ae hw, integral_indicator_one hS, abs_of_nonneg measureReal_nonneg]
  · rw [integral_congr_ae hw, integral_neg, integral_indicator_one hS, abs_neg, abs_of_nonneg measureReal_nonneg]

/-- **C34** In that case the centroid is the centre of mass of `S`. -/
theorem C34_region (o : Vec 2 ℝ) (pts : List (Vec 2 ℝ)) (h : 2 < pts.length) (S : Set (Vec 2 ℝ)) (hS : MeasurableSet S)
    (hw : (winding o pts =ᵐ[volume] S.indicator 1) ∨ (winding o pts =ᵐ[volume] fun x => -S.indicator 1 x))
    (h0 : volume.real S ≠ 0) : centroidIter2 pts = .ok fun k => ⨍ x in S, x k := by
  have ha : areaIter pts ≠ .ok 0 := by
    rw [C33_region o pts h S hS hw]; simpa using h0
  rw [C34_winding o pts h ha]
  congr 1
  funext k
  have e : ∀ x : Vec 2 ℝ, S.indicator 1 x * x k = S.indicator (fun x => x k) x := by
    intro x; by_cases hx : x ∈ S <;> simp [hx]
  rw [setAverage_eq, smul_eq_mul, div_eq_inv_mul]
  rcases hw with hw | hw
  · have hw' : (fun x => winding o pts x * x k) =ᵐ[volume] S.indicator (fun x => x k) := by
      filter_upwards [hw] with x hx
      rw [hx, e]
    rw [integral_congr_ae hw, integral_congr_ae hw', integral_indicator_one hS, integral_indicator hS]
  · have hw' : (fun x => winding o pts x * x k) =ᵐ[volume] fun x => -S.indicator (fun x => x k) x := by
      filter_upwards [hw] with x hx
      rw [hx, neg_mul, e]
    rw [integral_congr_ae hw, integral_congr_ae hw', integral_neg, integral_neg, integral_indicator_one hS,
      integral_indicator hS, inv_neg, neg_mul_neg]

/-- a triangle run through clockwise, and a polygon that crosses itself -/
example : areaIter [![0, 0], ![0, 1], (![1, 0] : Vec 2 ℝ)] = .ok |∫ x, winding 0 [![0, 0], ![0, 1], ![1, 0]] x| :=
  (C33_winding 0 _ (by simp)).2

example : centroidIter2 [![0, 0], ![2, 2], ![2, 0], (![0, 1] : Vec 2 ℝ)] =
    .ok fun k => (∫ x, winding 0 [![0, 0], ![2, 2], ![2, 0], ![0, 1]] x * x k) /
      ∫ x, winding 0 [![0, 0], ![2, 2], ![2, 0], ![0, 1]] x := by
  apply C34_winding 0 _ (by simp)
  rw [areaIter_eq, if_pos (by simp), shoelace_eq]
  norm_num [cyc, wedge]

/-- the regions of triangles, seen from a vertex -/
theorem winding_triangle (a b c : Vec 2 ℝ) (h : 0 < triCross2 a b c) :
    winding a [a, b, c] = (convexHull ℝ {a, b, c}).indicator 1 := by
  funext x
  have h1 : signedSimplex ![a, a, b] x = 0 := by
    rw [signedSimplex, det_edgeRows2]; simp [triCross2, cross2]
  have h2 : signedSimplex ![a, c, a] x = 0 := by
    rw [signedSimplex, det_edgeRows2]; simp [triCross2, cross2]
  simp [winding, edges, h1, h2]
  rw [signedSimplex, det_edgeRows2, sign_pos h, range3]
  simp

example : areaIter [![0, 0], ![1, 0], (![0, 1] : Vec 2 ℝ)] = .ok (volume.real (convexHull ℝ {![0, 0], ![1, 0], (![0, 1] : Vec 2 ℝ)})) :=
  C33_region ![0, 0] _ (by simp) _ (by
    have := (isCompact_simplex ![![0, 0], ![1, 0], (![0, 1] : Vec 2 ℝ)]).measurableSet
    rwa [range3] at this)
    (Or.inl (by rw [winding_triangle _ _ _ (by norm_num [triCross2, cross2])]))

end Verif.Geometry
