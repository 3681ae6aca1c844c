import Verif.Integration.Cell

/-!
# C94: quadrature of the Jacobian determinant integrates over the cell

elements.h supplies the map of the reference element (`physical_position`), its Jacobian and the Gauss rules.
Used together, the sum over the points of weight times `f` at the physical position times the determinant is
the integral of `f` over the cell.
-/

namespace Verif.Integration
open MvPolynomial MeasureTheory Verif.Elements Verif.Quadrature Verif.Geometry Verif.Vec

/-- **C94** For every element, any vertices and any polynomial `f`, with enough Gauss points: the Jacobian function
succeeds at each of them, and the weighted sum of `f` at the physical positions times the determinants it
returns is the integral over the reference element of `f` along the cell map times the true Jacobian
determinant; if the cell map is one-to-one with determinant ≥ 0 it is the integral of `f` over the cell -/
theorem C94_integral (e : Kind) (o o' : Out) (q : ℕ) (h1 : 1 ≤ q) (h5 : q ≤ 5)
    (hq : (if e.dim = 2 then gauss2D o q else gauss3D o q) = .ok o') (vertices : ℕ → ℕ → ℝ)
    (f : MvPolynomial (Fin e.dim) ℝ) (hf : e.order * (f.totalDegree + e.dim) ≤ 2 * q)
    (J : ℕ → Matrix2 ℝ) (hr : ∀ m, 3 ≤ (J m).rows) (hc : ∀ m, 3 ≤ (J m).cols) (out : ℕ → ℕ → ℕ → ℝ)
    (tmp x : ℕ → ℕ → ℝ) :
    ∃ det : ℕ → ℝ,
      (∀ m, ∃ J', jacobian (J m) vertices (fun v j => e.partials j (out m j) (o'.pts m) v) e.nodes e.dim =
        .ok (J', det m)) ∧
      ∑ m ∈ Finset.range (q ^ e.dim),
          o'.tot m * (eval (fun k => e.position (tmp m) (x m) (o'.pts m) vertices k.1) f * det m) =
        ∫ y in refCube e.dim, eval (cell e vertices y) f * (fderiv ℝ (cell e vertices) y).det ∧
      (Set.InjOn (cell e vertices) (refCube e.dim) →
        (∀ y ∈ refCube e.dim, 0 ≤ (fderiv ℝ (cell e vertices) y).det) →
        ∑ m ∈ Finset.range (q ^ e.dim),
            o'.tot m * (eval (fun k => e.position (tmp m) (x m) (o'.pts m) vertices k.1) f * det m) =
          ∫ z in cell e vertices '' refCube e.dim, eval z f) := by
  have hdim : e.dim = 2 ∨ e.dim = 3 := by cases e <;> simp [Kind.dim]
  have hsum : ∑ m ∈ Finset.range (q ^ e.dim),
          o'.tot m * (eval (fun k => e.position (tmp m) (x m) (o'.pts m) vertices k.1) f *
            (fderiv ℝ (cell e vertices) (fun i => o'.pts m i.1)).det) =
        ∫ y in refCube e.dim, eval (cell e vertices y) f * (fderiv ℝ (cell e vertices) y).det := by
    rw [← rule_cell e vertices f _ (2 * q - 1) o'.tot o'.pts
      (gauss_monomial hdim o o' q h1 h5 hq) (by omega)]
    refine Finset.sum_congr rfl fun m _ => ?_
    rw [position_cell]
  refine ⟨fun m => (fderiv ℝ (cell e vertices) (fun i => o'.pts m i.1)).det, fun m => ?_, hsum, fun hinj hpos => ?_⟩
  · exact jacobian_det e (J m) vertices (o'.pts m) (out m) (hr m) (hc m)
  · rw [hsum, integral_image_eq_integral_abs_det_fderiv_smul volume measurableSet_refCube
      (f' := fderiv ℝ (cell e vertices))
      (fun y _ => (differentiable_cell e vertices y).hasFDerivAt.hasFDerivWithinAt) hinj]
    refine setIntegral_congr_fun measurableSet_refCube fun y hy => ?_
    simp only [abs_of_nonneg (hpos y hy), smul_eq_mul, mul_comm]


/-! ## Quad_4_2D: area and centroid of the quadrilateral -/

/-- a node of a 2D element as a point -/
def node2 (vertices : ℕ → ℕ → ℝ) (v : ℕ) : Vec 2 ℝ := ![vertices v 0, vertices v 1]

/-- exact for degree one in each variable -/
theorem midpoint_rule (s : Fin 2 → ℕ) (hs : ∀ i, s i ≤ 1) :
    ∑ m ∈ Finset.range 1, (fun _ : ℕ => (4 : ℝ)) m * ∏ i : Fin 2, (fun _ _ : ℕ => (0 : ℝ)) m i.1 ^ s i =
      ∏ i, ∫ t in (-1 : ℝ)..1, t ^ s i := by
  have h0 := hs 0
  have h1 := hs 1
  simp only [Finset.range_one, Finset.sum_singleton, Fin.prod_univ_two, integral_pow]
  interval_cases s 0 <;> interval_cases s 1 <;> norm_num

/-- the left Radau rule in each variable: exact for degree two -/
noncomputable def radauPt (m i : ℕ) : ℝ := if (m / 2 ^ i) % 2 = 0 then -1 else 1 / 3
/-- its weights -/
noncomputable def radauWt (m : ℕ) : ℝ := (if m % 2 = 0 then 1 / 2 else 3 / 2) * (if (m / 2) % 2 = 0 then 1 / 2 else 3 / 2)

theorem radau_rule (s : Fin 2 → ℕ) (hs : ∀ i, s i ≤ 2) :
    ∑ m ∈ Finset.range 4, radauWt m * ∏ i : Fin 2, radauPt m i.1 ^ s i = ∏ i, ∫ t in (-1 : ℝ)..1, t ^ s i := by
  have h0 := hs 0
  have h1 := hs 1
  simp only [Finset.sum_range_succ, Finset.sum_range_zero, Fin.prod_univ_two, integral_pow, radauWt, radauPt]
  interval_cases s 0 <;> interval_cases s 1 <;> norm_num

theorem quad4_det (vertices : ℕ → ℕ → ℝ) (xi : ℕ → ℝ) :
    (fderiv ℝ (cell .quad4 vertices) (fun i => xi i.1)).det =
      ((vertices 1 0 - vertices 0 0) * (1 - xi 1) + (vertices 2 0 - vertices 3 0) * (1 + xi 1)) / 4 *
        (((vertices 3 1 - vertices 0 1) * (1 - xi 0) + (vertices 2 1 - vertices 1 1) * (1 + xi 0)) / 4) -
      ((vertices 1 1 - vertices 0 1) * (1 - xi 1) + (vertices 2 1 - vertices 3 1) * (1 + xi 1)) / 4 *
        (((vertices 3 0 - vertices 0 0) * (1 - xi 0) + (vertices 2 0 - vertices 1 0) * (1 + xi 0)) / 4) := by
  rw [cell_det_eq]
  show (mat 2 _).det = _
  rw [Matrix.det_fin_two]
  simp only [mat, Matrix.of_apply, Fin.val_zero, Fin.val_one, Kind.nodes, Kind.partials, Finset.sum_range_succ,
    Finset.sum_range_zero, quad4Xi, quad4Eta, fill_apply]
  simp [steps, List.range', row, quad4Ref]
  ring

theorem quad4_pos (vertices : ℕ → ℕ → ℝ) (xi : ℕ → ℝ) (k : Fin Kind.quad4.dim) :
    cell .quad4 vertices (fun i => xi i.1) k =
      (vertices 0 k.1 * ((1 - xi 0) * (1 - xi 1)) + vertices 1 k.1 * ((1 + xi 0) * (1 - xi 1)) +
        vertices 2 k.1 * ((1 + xi 0) * (1 + xi 1)) + vertices 3 k.1 * ((1 - xi 0) * (1 + xi 1))) / 4 := by
  rw [← congrFun (position_cell .quad4 vertices (fun _ => 0) (fun _ => 0) xi) k, position_eq _ _ _ _ _ _ k.2]
  simp only [Kind.nodes, Kind.shape, Finset.sum_range_succ, Finset.sum_range_zero, quad4Shape, fill_apply]
  simp [steps, List.range', row, quad4Ref]
  ring

theorem quad4_area_integral (vertices : ℕ → ℕ → ℝ) :
    ∫ y in refCube Kind.quad4.dim, (fderiv ℝ (cell .quad4 vertices) y).det =
      shoelace [node2 vertices 0, node2 vertices 1, node2 vertices 2, node2 vertices 3] := by
  have h := rule_cell .quad4 vertices 1 1 1 (fun _ => 4) (fun _ _ => 0) midpoint_rule
    (by rw [totalDegree_one]; decide)
  simp only [map_one, one_mul] at h
  rw [← h, Finset.sum_range_one, quad4_det vertices (fun _ => 0)]
  simp [shoelace, edges, node2]
  ring

/-- **C94** Quad_4_2D: for any four vertices and any of the Gauss rules with 1 to 5 points per direction, the sum of
weight times determinant is the signed area of the quadrilateral, whose absolute value the polygon area
functions return -/
theorem C94_quad4_area (o o' : Out) (q : ℕ) (h1 : 1 ≤ q) (h5 : q ≤ 5) (hq : gauss2D o q = .ok o')
    (vertices : ℕ → ℕ → ℝ) (J : ℕ → Matrix2 ℝ) (hr : ∀ m, 3 ≤ (J m).rows) (hc : ∀ m, 3 ≤ (J m).cols)
    (out : ℕ → ℕ → ℕ → ℝ) :
    ∃ det : ℕ → ℝ,
      (∀ m, ∃ J', jacobian (J m) vertices (fun v j => Kind.quad4.partials j (out m j) (o'.pts m) v) 4 2 =
        .ok (J', det m)) ∧
      ∑ m ∈ Finset.range (q ^ 2), o'.tot m * det m =
        shoelace [node2 vertices 0, node2 vertices 1, node2 vertices 2, node2 vertices 3] ∧
      area2d [node2 vertices 0, node2 vertices 1, node2 vertices 2, node2 vertices 3] =
        .ok |∑ m ∈ Finset.range (q ^ 2), o'.tot m * det m| := by
  obtain ⟨det, hdet, hsum, -⟩ := C94_integral .quad4 o o' q h1 h5 (by simpa [Kind.dim] using hq) vertices 1
    (by rw [totalDegree_one]; simp only [Kind.order, Kind.dim]; omega) J hr hc out (fun _ _ => 0) (fun _ _ => 0)
  simp only [map_one, one_mul, quad4_area_integral] at hsum
  have h2 : ∑ m ∈ Finset.range (q ^ 2), o'.tot m * det m =
      shoelace [node2 vertices 0, node2 vertices 1, node2 vertices 2, node2 vertices 3] := hsum
  refine ⟨det, hdet, h2, ?_⟩
  have h := C33_shoelace [node2 vertices 0, node2 vertices 1, node2 vertices 2, node2 vertices 3] 0 []
  rw [h.2.1, h.1, h2]
  simp

/-- the unit square, with four points -/
example (o : Out) : (∃ o', gauss2D o 2 = .ok o') ∧
    shoelace [(![0, 0] : Vec 2 ℝ), ![1, 0], ![1, 1], ![0, 1]] = 1 := by
  refine ⟨⟨_, rfl⟩, ?_⟩
  norm_num [shoelace, edges, List.rotate]

/-- cross product of two nodes times the sum of a coordinate -/
def edgeMoment (vertices : ℕ → ℕ → ℝ) (k a b : ℕ) : ℝ :=
  (vertices a 0 * vertices b 1 - vertices b 0 * vertices a 1) * (vertices a k + vertices b k)

/-- summed over the sides -/
def quadMoment (vertices : ℕ → ℕ → ℝ) (k : ℕ) : ℝ :=
  edgeMoment vertices k 0 1 + edgeMoment vertices k 1 2 + edgeMoment vertices k 2 3 + edgeMoment vertices k 3 0

theorem quadMoment_eq (vertices : ℕ → ℕ → ℝ) (k : Fin 2) :
    cyc moment [node2 vertices 0, node2 vertices 1, node2 vertices 2, node2 vertices 3] k = quadMoment vertices k.1 := by
  fin_cases k <;> simp [cyc, pathSum, moment, wedge, node2, quadMoment, edgeMoment] <;> ring

set_option maxHeartbeats 1000000 in
theorem quad4_moment_integral (vertices : ℕ → ℕ → ℝ) (k : Fin Kind.quad4.dim) :
    ∫ y in refCube Kind.quad4.dim, cell .quad4 vertices y k * (fderiv ℝ (cell .quad4 vertices) y).det =
      quadMoment vertices k.1 / 6 := by
  have h := rule_cell .quad4 vertices (X k) 4 2 radauWt radauPt radau_rule
    (by rw [totalDegree_X]; decide)
  simp only [eval_X] at h
  rw [← h]
  obtain ⟨k, hk⟩ := k
  have hk' : k < 2 := hk
  simp only [quad4_det vertices (radauPt _), quad4_pos vertices (radauPt _), Finset.sum_range_succ, Finset.sum_range_zero]
  simp only [radauWt, radauPt, quadMoment, edgeMoment]
  norm_num
  interval_cases k <;> ring

/-- **C94** Quad_4_2D: with 2 to 5 points per direction, the sums of weight times physical position times determinant are
the area times the centroid the polygon functions return -/
theorem C94_quad4_centroid (o o' : Out) (q : ℕ) (h2 : 2 ≤ q) (h5 : q ≤ 5) (hq : gauss2D o q = .ok o')
    (vertices : ℕ → ℕ → ℝ) (J : ℕ → Matrix2 ℝ) (hr : ∀ m, 3 ≤ (J m).rows) (hc : ∀ m, 3 ≤ (J m).cols)
    (out : ℕ → ℕ → ℕ → ℝ) (tmp x : ℕ → ℕ → ℝ)
    (hne : shoelace [node2 vertices 0, node2 vertices 1, node2 vertices 2, node2 vertices 3] ≠ 0) :
    ∃ (det : ℕ → ℝ) (c : Vec 2 ℝ),
      (∀ m, ∃ J', jacobian (J m) vertices (fun v j => Kind.quad4.partials j (out m j) (o'.pts m) v) 4 2 =
        .ok (J', det m)) ∧
      centroidIter2 [node2 vertices 0, node2 vertices 1, node2 vertices 2, node2 vertices 3] = .ok c ∧
      ∀ k : Fin 2, ∑ m ∈ Finset.range (q ^ 2),
          o'.tot m * (quad4Position (tmp m) (x m) (o'.pts m) vertices k.1 * det m) =
        c k * ∑ m ∈ Finset.range (q ^ 2), o'.tot m * det m := by
  refine ⟨fun m => (fderiv ℝ (cell .quad4 vertices) (fun i => o'.pts m i.1)).det, ?_⟩
  obtain ⟨det, hdet, hsum, -⟩ := C94_quad4_area o o' q (by omega) h5 hq vertices J hr hc out
  have hd : ∀ m, det m = (fderiv ℝ (cell .quad4 vertices) (fun i => o'.pts m i.1)).det := by
    intro m
    obtain ⟨J', e1⟩ := hdet m
    obtain ⟨J'', e2⟩ := jacobian_det .quad4 (J m) vertices (o'.pts m) (out m) (hr m) (hc m)
    exact congrArg Prod.snd (Outcome.ok.inj (e1.symm.trans e2))
  simp only [hd] at hdet hsum
  set pts := [node2 vertices 0, node2 vertices 1, node2 vertices 2, node2 vertices 3] with hpts
  have hW : 3 * cyc wedge pts ≠ 0 := by
    rw [shoelace_eq] at hne
    intro h0
    exact hne (by linarith)
  refine ⟨divBy (cyc moment pts) (3 * cyc wedge pts), hdet, ?_, fun k => ?_⟩
  · rw [centroidIter2_eq, if_pos (by simp [hpts]), divOrNaN, if_neg hW]
  · obtain ⟨det', hdet', hsum', -⟩ := C94_integral .quad4 o o' q (by omega) h5 (by simpa [Kind.dim] using hq) vertices
      (X ⟨k.1, k.2⟩) (by rw [totalDegree_X]; simp only [Kind.order, Kind.dim]; omega) J hr hc out tmp x
    have hd' : ∀ m, det' m = (fderiv ℝ (cell .quad4 vertices) (fun i => o'.pts m i.1)).det := by
      intro m
      obtain ⟨J', e1⟩ := hdet' m
      obtain ⟨J'', e2⟩ := jacobian_det .quad4 (J m) vertices (o'.pts m) (out m) (hr m) (hc m)
      exact congrArg Prod.snd (Outcome.ok.inj (e1.symm.trans e2))
    simp only [hd', eval_X, quad4_moment_integral] at hsum'
    rw [hsum]
    refine Eq.trans hsum' ?_
    have hm : cyc moment pts k = quadMoment vertices k.1 := quadMoment_eq vertices k
    rw [shoelace_eq]
    show _ = cyc moment pts k * (1 / (3 * cyc wedge pts)) * _
    rw [hm]
    have hW' : cyc wedge pts ≠ 0 := fun h0 => hW (by rw [h0, mul_zero])
    field_simp
    ring

/-! ## Hex8: the volume of the hexahedron -/

/-- a node of a 3D element as a point -/
def node3 (vertices : ℕ → ℕ → ℝ) (v : Fin 8) : Vec 3 ℝ := fun k => vertices v.1 k.1

/-- the point of the unit cube belonging to a point of the reference element: the second and third
direction of Hex8 are the third and second of hexahedron.h -/
noncomputable def unitPoint (y : Fin 3 → ℝ) : Fin 3 → ℝ := ![(1 + y 0) / 2, (1 + y 2) / 2, (1 + y 1) / 2]

/-- its derivative -/
noncomputable def unitLin : (Fin 3 → ℝ) →L[ℝ] (Fin 3 → ℝ) :=
  LinearMap.toContinuousLinearMap (Matrix.toLin' !![1 / 2, 0, 0; 0, 0, 1 / 2; 0, 1 / 2, 0])

theorem unitPoint_hasFDerivAt (y : Fin 3 → ℝ) : HasFDerivAt unitPoint unitLin y := by
  have e : unitPoint = fun y => unitLin y + fun _ => 1 / 2 := by
    funext y i
    fin_cases i <;>
      simp [unitPoint, unitLin, Matrix.toLin'_apply, dotProduct, Fin.sum_univ_three] <;> ring
  rw [e]
  exact unitLin.hasFDerivAt.add_const _

theorem unitLin_det : unitLin.det = -(1 / 8) := by
  show LinearMap.det (Matrix.toLin' !![(1 : ℝ) / 2, 0, 0; 0, 0, 1 / 2; 0, 1 / 2, 0]) = _
  rw [LinearMap.det_toLin', Matrix.det_fin_three]
  simp
  norm_num

theorem unitPoint_image : unitPoint '' refCube 3 = Geometry.cube := by
  ext z
  simp only [Set.mem_image, refCube, Geometry.cube, Set.mem_pi, Set.mem_univ, true_implies, Set.mem_Icc]
  constructor
  · rintro ⟨y, hy, rfl⟩ i
    have h0 := hy 0; have h1 := hy 1; have h2 := hy 2
    fin_cases i <;> simp [unitPoint] <;> constructor <;> linarith
  · intro hz
    have h0 := hz 0; have h1 := hz 1; have h2 := hz 2
    refine ⟨![2 * z 0 - 1, 2 * z 2 - 1, 2 * z 1 - 1], ?_, ?_⟩
    · intro i
      fin_cases i <;> simp <;> constructor <;> linarith
    · funext i
      fin_cases i <;> simp [unitPoint]

theorem unitPoint_injective : Function.Injective unitPoint := by
  intro a b h
  have h0 := congrFun h 0; have h1 := congrFun h 1; have h2 := congrFun h 2
  simp [unitPoint] at h0 h1 h2
  funext i
  fin_cases i <;> assumption

theorem hex8_cell (vertices : ℕ → ℕ → ℝ) (y : Fin 3 → ℝ) :
    cell .hex8 vertices y = trilinear (node3 vertices) (unitPoint y) := by
  suffices h : ∀ k : Fin 3, Kind.hex8.position (fun _ => 0) (fun _ => 0) (coords y) vertices k.1 =
      trilinear (node3 vertices) (unitPoint y) k from funext h
  intro k
  rw [position_eq _ _ _ _ _ _ k.2]
  simp only [Kind.nodes, Kind.shape, Finset.sum_range_succ, Finset.sum_range_zero, hex8Shape, fill_apply]
  simp [steps, List.range', row, hex8Ref, trilinear, unitPoint, node3, coords]
  ring

theorem trilinear_differentiable (p : Fin 8 → Vec 3 ℝ) : Differentiable ℝ (trilinear p) := by
  intro x
  rw [← ofCoef_coef p]
  exact (trilinear_hasFDerivAt (coef p) x).differentiableAt

theorem comp_unitPoint_det (F : (Fin 3 → ℝ) → Fin 3 → ℝ) (p : Fin 8 → Vec 3 ℝ) (e : F = trilinear p ∘ unitPoint)
    (y : Fin 3 → ℝ) : (fderiv ℝ F y).det = -((fderiv ℝ (trilinear p) (unitPoint y)).det / 8) := by
  have h : HasFDerivAt F ((fderiv ℝ (trilinear p) (unitPoint y)).comp unitLin) y := by
    rw [e]
    exact (trilinear_differentiable _ _).hasFDerivAt.comp y (unitPoint_hasFDerivAt y)
  rw [h.fderiv]
  have hc : ∀ A B : (Fin 3 → ℝ) →L[ℝ] (Fin 3 → ℝ), (A.comp B).det = A.det * B.det :=
    fun A B => LinearMap.det_comp (A : (Fin 3 → ℝ) →ₗ[ℝ] (Fin 3 → ℝ)) B
  rw [hc, unitLin_det]
  ring

theorem hex8_det (vertices : ℕ → ℕ → ℝ) (y : Fin 3 → ℝ) :
    (fderiv ℝ (cell .hex8 vertices) y).det = -((fderiv ℝ (trilinear (node3 vertices)) (unitPoint y)).det / 8) :=
  comp_unitPoint_det (cell .hex8 vertices) (node3 vertices) (funext (hex8_cell vertices)) y

theorem hex8_volume_integral (vertices : ℕ → ℕ → ℝ) :
    ∫ y in refCube Kind.hex8.dim, (fderiv ℝ (cell .hex8 vertices) y).det =
      -∫ x in Geometry.cube, (fderiv ℝ (trilinear (node3 vertices)) x).det := by
  rw [← unitPoint_image, integral_image_eq_integral_abs_det_fderiv_smul volume measurableSet_refCube
    (fun y _ => (unitPoint_hasFDerivAt y).hasFDerivWithinAt) unitPoint_injective.injOn, ← integral_neg]
  show ∫ y in refCube 3, _ = _
  refine setIntegral_congr_fun measurableSet_refCube fun y _ => ?_
  rw [hex8_det, unitLin_det]
  norm_num
  ring

/-- **C94** Hex8: for any eight vertices and 2 to 5 points per direction, the sum of weight times determinant is minus
the integral of the Jacobian determinant of the trilinear interpolation of hexahedron.h, and the polyhedron
volume of the six faces is its absolute value -/
theorem C94_hex8_volume (o o' : Out) (q : ℕ) (h2 : 2 ≤ q) (h5 : q ≤ 5) (hq : gauss3D o q = .ok o')
    (vertices : ℕ → ℕ → ℝ) (J : ℕ → Matrix2 ℝ) (hr : ∀ m, 3 ≤ (J m).rows) (hc : ∀ m, 3 ≤ (J m).cols)
    (out : ℕ → ℕ → ℕ → ℝ) :
    ∃ det : ℕ → ℝ,
      (∀ m, ∃ J', jacobian (J m) vertices (fun v j => Kind.hex8.partials j (out m j) (o'.pts m) v) 8 3 =
        .ok (J', det m)) ∧
      ∑ m ∈ Finset.range (q ^ 3), o'.tot m * det m =
        -∫ x in Geometry.cube, (fderiv ℝ (trilinear (node3 vertices)) x).det ∧
      polyVolume (hexFaces (node3 vertices)) = .ok |∑ m ∈ Finset.range (q ^ 3), o'.tot m * det m| := by
  obtain ⟨det, hdet, hsum, -⟩ := C94_integral .hex8 o o' q (by omega) h5 (by simpa [Kind.dim] using hq) vertices 1
    (by rw [totalDegree_one]; simp only [Kind.order, Kind.dim]; omega) J hr hc out (fun _ _ => 0) (fun _ _ => 0)
  simp only [map_one, one_mul, hex8_volume_integral] at hsum
  have h2 : ∑ m ∈ Finset.range (q ^ 3), o'.tot m * det m =
      -∫ x in Geometry.cube, (fderiv ℝ (trilinear (node3 vertices)) x).det := hsum
  refine ⟨det, hdet, h2, ?_⟩
  rw [h2, abs_neg, C37_trilinear]

example (o : Out) : ∃ o', gauss3D o 2 = .ok o' := ⟨_, rfl⟩

/-- **C94** Hex8 numbers its vertices the other way round than hexahedron.h: for the vertices of a parallelepiped in the
numbering of hexahedron.h the determinant is minus an eighth of the triple product of its edges, at every
point, so a right-handed cell has negative Jacobians -/
theorem C94_hex8_orientation (a u v w : Vec 3 ℝ) (J : Matrix2 ℝ) (hr : 3 ≤ J.rows) (hc : 3 ≤ J.cols)
    (out : ℕ → ℕ → ℝ) (xi : ℕ → ℝ) :
    ∃ J', jacobian J (fun i k => if h : i < 8 ∧ k < 3 then Geometry.parallelepiped a u v w ⟨i, h.1⟩ ⟨k, h.2⟩ else 0)
        (fun i j => Kind.hex8.partials j (out j) xi i) 8 3 =
      .ok (J', -(Matrix.det (Matrix.of ![u, v, w]) / 8)) := by
  obtain ⟨J', h⟩ := jacobian_det .hex8 J
    (fun i k => if h : i < 8 ∧ k < 3 then Geometry.parallelepiped a u v w ⟨i, h.1⟩ ⟨k, h.2⟩ else 0) xi out hr hc
  refine ⟨J', h.trans ?_⟩
  congr 2
  refine (hex8_det _ _).trans ?_
  have hn : node3 (fun i k => if h : i < 8 ∧ k < 3 then Geometry.parallelepiped a u v w ⟨i, h.1⟩ ⟨k, h.2⟩ else 0) =
      ofCoef ![a, u, v, w, 0, 0, 0, 0] := by
    funext i k
    have hik : i.1 < 8 ∧ k.1 < 3 := ⟨i.2, k.2⟩
    simp only [node3, dif_pos hik]
    fin_cases i <;> simp [Geometry.parallelepiped, ofCoef]
  rw [hn, (trilinear_hasFDerivAt _ _).fderiv]
  congr 2
  show LinearMap.det (Matrix.toLin' (jac ![a, u, v, w, 0, 0, 0, 0] _)) = _
  rw [LinearMap.det_toLin', ← Matrix.det_transpose]
  congr 1
  ext i k
  fin_cases i <;> simp [jac]

end Verif.Integration
