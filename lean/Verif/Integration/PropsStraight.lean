import Verif.Integration.Props

/-!
# C94: elements of higher order with straight sides; how many points are needed
-/

namespace Verif.Integration
open MvPolynomial MeasureTheory Verif.Elements Verif.Quadrature Verif.Geometry Verif.Vec

/-- the linear element on the same corners -/
def Kind.linear : Kind → Kind
  | .quad4 | .quad8 | .quad12 => .quad4
  | .hex8 | .hex20 | .hex32 => .hex8

/-- every node lies where the linear element on the corners puts its reference point: straight sides, nodes
evenly spaced -/
def Straight (e : Kind) (vertices : ℕ → ℕ → ℝ) : Prop :=
  ∀ v < e.nodes, ∀ k < e.dim, ∀ tmp x, vertices v k = (Kind.linear e).position tmp x (e.ref v) vertices k

theorem position_straight (e : Kind) (vertices : ℕ → ℕ → ℝ) (h : Straight e vertices) (tmp x xi : ℕ → ℝ) (k : ℕ)
    (hk : k < e.dim) : e.position tmp x xi vertices k = (Kind.linear e).position tmp x xi vertices k := by
  have hdim : (Kind.linear e).dim = e.dim := by cases e <;> rfl
  obtain ⟨X, hX, hd⟩ := position_polys (Kind.linear e) vertices
  have hp : IsPoly (n := (Kind.linear e).dim) (fun _ => 1) (fun xi => (Kind.linear e).position tmp x xi vertices k) :=
    ⟨X ⟨k, hdim ▸ hk⟩, fun xi => hX tmp x xi _, fun i => (hd i _).trans (by cases e <;> exact le_refl 1)⟩
  rw [hdim] at hp
  obtain ⟨G, hG, hGd⟩ := hp
  simp only at hG hGd
  have hs : ∀ a ∈ G.support, superlinear a ≤ e.order := by
    intro a ha
    have : superlinear a = 0 := by
      rw [superlinear]
      refine Finset.sum_eq_zero fun i _ => if_neg ?_
      have := (monomial_le_degreeOf i ha).trans (hGd i)
      omega
    omega
  rw [position_eq e tmp x xi vertices k hk, ← hG, ← shape_complete e tmp xi G hs]
  refine Finset.sum_congr rfl fun v hv => ?_
  rw [hG, ← h v (Finset.mem_range.mp hv) k hk tmp x]

theorem cell_straight2 (e : Kind) (he : e = .quad8 ∨ e = .quad12) (vertices : ℕ → ℕ → ℝ) (h : Straight e vertices)
    (xi : ℕ → ℝ) :
    (fderiv ℝ (cell e vertices) (fun i => xi i.1)).det = (fderiv ℝ (cell .quad4 vertices) (fun i => xi i.1)).det := by
  rcases he with rfl | rfl
  · have hc : cell .quad8 vertices = cell .quad4 vertices :=
      funext fun y => funext fun k => position_straight .quad8 vertices h _ _ _ k.1 k.2
    exact congrArg (fun F : (Fin 2 → ℝ) → Fin 2 → ℝ => (fderiv ℝ F (fun i => xi i.1)).det) hc
  · have hc : cell .quad12 vertices = cell .quad4 vertices :=
      funext fun y => funext fun k => position_straight .quad12 vertices h _ _ _ k.1 k.2
    exact congrArg (fun F : (Fin 2 → ℝ) → Fin 2 → ℝ => (fderiv ℝ F (fun i => xi i.1)).det) hc

theorem cell_straight3 (e : Kind) (he : e = .hex20 ∨ e = .hex32) (vertices : ℕ → ℕ → ℝ) (h : Straight e vertices)
    (xi : ℕ → ℝ) :
    (fderiv ℝ (cell e vertices) (fun i => xi i.1)).det = (fderiv ℝ (cell .hex8 vertices) (fun i => xi i.1)).det := by
  rcases he with rfl | rfl
  · have hc : cell .hex20 vertices = cell .hex8 vertices :=
      funext fun y => funext fun k => position_straight .hex20 vertices h _ _ _ k.1 k.2
    exact congrArg (fun F : (Fin 3 → ℝ) → Fin 3 → ℝ => (fderiv ℝ F (fun i => xi i.1)).det) hc
  · have hc : cell .hex32 vertices = cell .hex8 vertices :=
      funext fun y => funext fun k => position_straight .hex32 vertices h _ _ _ k.1 k.2
    exact congrArg (fun F : (Fin 3 → ℝ) → Fin 3 → ℝ => (fderiv ℝ F (fun i => xi i.1)).det) hc

/-- **C94** Quad_8_2D and Quad_12_2D with straight sides: any of the rules with 1 to 5 points per direction gives the
area of the quadrilateral of the corners -/
theorem C94_straight_quad (e : Kind) (he : e = .quad8 ∨ e = .quad12) (o o' : Out) (q : ℕ) (h1 : 1 ≤ q) (h5 : q ≤ 5)
    (hq : gauss2D o q = .ok o') (vertices : ℕ → ℕ → ℝ) (hs : Straight e vertices) (J : ℕ → Matrix2 ℝ)
    (hr : ∀ m, 3 ≤ (J m).rows) (hc : ∀ m, 3 ≤ (J m).cols) (out : ℕ → ℕ → ℕ → ℝ) :
    ∃ det : ℕ → ℝ,
      (∀ m, ∃ J', jacobian (J m) vertices (fun v j => e.partials j (out m j) (o'.pts m) v) e.nodes e.dim =
        .ok (J', det m)) ∧
      ∑ m ∈ Finset.range (q ^ 2), o'.tot m * det m =
        shoelace [node2 vertices 0, node2 vertices 1, node2 vertices 2, node2 vertices 3] := by
  obtain ⟨det, hdet, hsum, -⟩ := C94_quad4_area o o' q h1 h5 hq vertices J hr hc out
  refine ⟨det, fun m => ?_, hsum⟩
  obtain ⟨J', e1⟩ := hdet m
  obtain ⟨J'', e2⟩ := jacobian_det .quad4 (J m) vertices (o'.pts m) (out m) (hr m) (hc m)
  obtain ⟨J3, e3⟩ := jacobian_det e (J m) vertices (o'.pts m) (out m) (hr m) (hc m)
  refine ⟨J3, e3.trans ?_⟩
  rw [cell_straight2 e he vertices hs]
  congr 2
  exact (congrArg Prod.snd (Outcome.ok.inj (e1.symm.trans e2))).symm

/-- **C94** Hex20 and Hex32 with straight edges: any of the rules with 2 to 5 points per direction gives the volume of
the hexahedron of the corners -/
theorem C94_straight_hex (e : Kind) (he : e = .hex20 ∨ e = .hex32) (o o' : Out) (q : ℕ) (h2 : 2 ≤ q) (h5 : q ≤ 5)
    (hq : gauss3D o q = .ok o') (vertices : ℕ → ℕ → ℝ) (hs : Straight e vertices) (J : ℕ → Matrix2 ℝ)
    (hr : ∀ m, 3 ≤ (J m).rows) (hc : ∀ m, 3 ≤ (J m).cols) (out : ℕ → ℕ → ℕ → ℝ) :
    ∃ det : ℕ → ℝ,
      (∀ m, ∃ J', jacobian (J m) vertices (fun v j => e.partials j (out m j) (o'.pts m) v) e.nodes e.dim =
        .ok (J', det m)) ∧
      polyVolume (hexFaces (node3 vertices)) = .ok |∑ m ∈ Finset.range (q ^ 3), o'.tot m * det m| := by
  obtain ⟨det, hdet, -, hsum⟩ := C94_hex8_volume o o' q h2 h5 hq vertices J hr hc out
  refine ⟨det, fun m => ?_, hsum⟩
  obtain ⟨J', e1⟩ := hdet m
  obtain ⟨J'', e2⟩ := jacobian_det .hex8 (J m) vertices (o'.pts m) (out m) (hr m) (hc m)
  obtain ⟨J3, e3⟩ := jacobian_det e (J m) vertices (o'.pts m) (out m) (hr m) (hc m)
  refine ⟨J3, e3.trans ?_⟩
  rw [cell_straight3 e he vertices hs]
  congr 2
  exact (congrArg Prod.snd (Outcome.ok.inj (e1.symm.trans e2))).symm

/-- the reference nodes themselves are straight -/
theorem straight_ref (e : Kind) : Straight e e.ref := by
  intro v hv k hk tmp x
  have hdim : (Kind.linear e).dim = e.dim := by cases e <;> rfl
  have hl : ∀ w < (Kind.linear e).nodes, e.ref (R := ℝ) w k = (Kind.linear e).ref w k := by
    cases e <;> intro w hw <;> simp only [Kind.linear, Kind.nodes] at hw <;> simp only [Kind.dim] at hk <;>
      interval_cases w <;> interval_cases k <;> rfl
  rw [position_eq _ _ _ _ _ _ (hdim ▸ hk), ← shape_linear (Kind.linear e) tmp (e.ref v) k (hdim ▸ hk)]
  exact Finset.sum_congr rfl fun w hw => by rw [hl w (Finset.mem_range.mp hw)]

/-- on the reference nodes the cell map is the identity -/
theorem cell_ref (e : Kind) : cell e e.ref = id := by
  funext y k
  rw [cell, position_eq e _ _ _ _ k.1 k.2, shape_linear e _ _ k.1 k.2]
  simp [coords]

/-- a frustum: the section halfway up has side 2, the bottom side 1, the top side 3 -/
noncomputable def frustum (v k : ℕ) : ℝ := if k = 1 then hex8Ref v 1 else hex8Ref v k * (1 + hex8Ref v 1 / 2)

/-- **C94** One point is not enough for Hex8: for a frustum of volume 26/3 the one-point rule gives 8 -/
theorem C94_hex8_one_point (o o' : Out) (hq : gauss3D o 1 = .ok o') (J : ℕ → Matrix2 ℝ) (hr : ∀ m, 3 ≤ (J m).rows)
    (hc : ∀ m, 3 ≤ (J m).cols) (out : ℕ → ℕ → ℕ → ℝ) :
    ∃ det : ℕ → ℝ,
      (∀ m, ∃ J', jacobian (J m) frustum (fun v j => Kind.hex8.partials j (out m j) (o'.pts m) v) 8 3 =
        .ok (J', det m)) ∧
      ∑ m ∈ Finset.range 1, o'.tot m * det m = 8 ∧ polyVolume (hexFaces (node3 frustum)) = .ok (26 / 3) := by
  have hex := fun P Q S => C67_gauss3d_exact o o' 1 le_rfl (by decide) hq P Q S
  have h0 := hex 1 1 1 (by simp) (by simp) (by simp)
  have hx := hex Polynomial.X 1 1 (by simp) (by simp) (by simp)
  have hy := hex 1 Polynomial.X 1 (by simp) (by simp) (by simp)
  have hz := hex 1 1 Polynomial.X (by simp) (by simp) (by simp)
  simp only [mul_one, Finset.range_one, Finset.sum_singleton, Polynomial.eval_one, Polynomial.eval_X,
    intervalIntegral.integral_const, integral_id, one_mul, smul_eq_mul] at h0 hx hy hz
  norm_num at h0
  rw [h0] at hx hy hz
  norm_num at hx hy hz
  refine ⟨fun m => (fderiv ℝ (cell .hex8 frustum) (fun i => o'.pts m i.1)).det,
    fun m => jacobian_det .hex8 (J m) frustum (o'.pts m) (out m) (hr m) (hc m), ?_, ?_⟩
  · rw [Finset.sum_range_one, h0]
    refine (congrArg (8 * ·) (cell_det_eq .hex8 frustum (o'.pts 0))).trans ?_
    have hd : (mat 3 fun j k => ∑ v ∈ Finset.range 8, frustum v k * Kind.hex8.partials j (fun _ => 0) (o'.pts 0) v).det = 1 := by
      rw [Matrix.det_fin_three]
      simp only [mat, Matrix.of_apply, Fin.val_zero, Fin.val_one, Fin.val_two, Kind.partials,
        Finset.sum_range_succ, Finset.sum_range_zero, hex8Xi, hex8Eta, hex8Mu, fill_apply, hx, hy, hz, frustum]
      simp [steps, List.range', row, hex8Ref]
      norm_num
    exact (congrArg (8 * ·) hd).trans (by norm_num)
  · rw [C37_trilinear, integral_det_fderiv]
    congr 1
    simp only [hexT, vadd, vsub, triple, node3, frustum]
    simp [row, hex8Ref]
    norm_num

/-! ## concrete cases -/

/-- arrays as the caller might pass them -/
def anyJ : ℕ → Matrix2 ℝ := fun m => ⟨3, 3, fun a b => m + a + b⟩

theorem gauss2D_runs (o : Out) (q : ℕ) (h1 : 1 ≤ q) (h8 : q ≤ 8) : ∃ o', gauss2D o q = .ok o' := by
  obtain ⟨o1, e1, -⟩ := rule2_ok (q := q) (gives_gauss q h1 h8) o
  exact ⟨totals 2 (q * q) o1, by rw [gauss2D, e1]; rfl⟩

theorem gauss3D_runs (o : Out) (q : ℕ) (h1 : 1 ≤ q) (h8 : q ≤ 8) : ∃ o', gauss3D o q = .ok o' := by
  obtain ⟨o1, e1, -⟩ := rule3_ok (q := q) (gives_gauss q h1 h8) o
  exact ⟨totals 3 (q * q * q) o1, by rw [gauss3D, e1]; rfl⟩

/-- a quadratic function over the 20-node element on the reference cube, with five points -/
example (o : Out) : ∃ (o' : Out) (det : ℕ → ℝ),
    ∑ m ∈ Finset.range (5 ^ 3), o'.tot m * (eval (fun k => Kind.hex20.position (fun _ => 0) (fun _ => 0) (o'.pts m)
        Kind.hex20.ref k.1) (X ⟨0, by decide⟩ * X ⟨1, by decide⟩ : MvPolynomial (Fin Kind.hex20.dim) ℝ) * det m) =
      ∫ z in cell .hex20 Kind.hex20.ref '' refCube Kind.hex20.dim,
        eval z (X ⟨0, by decide⟩ * X ⟨1, by decide⟩ : MvPolynomial (Fin Kind.hex20.dim) ℝ) := by
  obtain ⟨o', h⟩ := gauss3D_runs o 5 (by decide) (by decide)
  obtain ⟨det, -, -, h3⟩ := C94_integral .hex20 o o' 5 (by decide) (by decide) (by simpa [Kind.dim] using h) Kind.hex20.ref
    (X ⟨0, by decide⟩ * X ⟨1, by decide⟩)
    ((Nat.mul_le_mul_left _ (Nat.add_le_add_right
      ((totalDegree_mul _ _).trans (by rw [totalDegree_X, totalDegree_X])) _)).trans (by decide : 2 * (2 + 3) ≤ 2 * 5))
    anyJ (fun _ => le_refl 3) (fun _ => le_refl 3) (fun _ _ _ => 0) (fun _ _ => 0) (fun _ _ => 0)
  refine ⟨o', det, h3 ?_ ?_⟩
  · rw [cell_ref]; exact Set.injOn_id _
  · intro y _
    rw [cell_ref, fderiv_id]
    show 0 ≤ LinearMap.det LinearMap.id
    simp

/-- a quadrilateral of area 6: sum and `area_2d` agree -/
example (o : Out) : ∃ (o' : Out) (det : ℕ → ℝ), ∑ m ∈ Finset.range (3 ^ 2), o'.tot m * det m = 6 := by
  obtain ⟨o', h⟩ := gauss2D_runs o 3 (by decide) (by decide)
  obtain ⟨det, -, h2, -⟩ := C94_quad4_area o o' 3 (by decide) (by decide) h
    (row [[0, 0], [4, 0], [3, 2], [1, 2]]) anyJ (fun _ => le_refl 3) (fun _ => le_refl 3) (fun _ _ _ => 0)
  refine ⟨o', det, h2.trans ?_⟩
  simp [shoelace, edges, node2, row]
  norm_num

/-- its centroid -/
example (o : Out) : ∃ (o' : Out) (det : ℕ → ℝ) (c : Vec 2 ℝ),
    centroidIter2 [node2 (row [[0, 0], [4, 0], [3, 2], [1, 2]]) 0, node2 (row [[0, 0], [4, 0], [3, 2], [1, 2]]) 1,
      node2 (row [[0, 0], [4, 0], [3, 2], [1, 2]]) 2, node2 (row [[0, 0], [4, 0], [3, 2], [1, 2]]) 3] = .ok c ∧
    ∑ m ∈ Finset.range (2 ^ 2), o'.tot m * (quad4Position (fun _ => 0) (fun _ => 0) (o'.pts m)
      (row [[0, 0], [4, 0], [3, 2], [1, 2]]) 0 * det m) = c 0 * ∑ m ∈ Finset.range (2 ^ 2), o'.tot m * det m := by
  obtain ⟨o', h⟩ := gauss2D_runs o 2 (by decide) (by decide)
  obtain ⟨det, c, hdet, hc, h3⟩ := C94_quad4_centroid o o' 2 (by decide) (by decide) h
    (row [[0, 0], [4, 0], [3, 2], [1, 2]]) anyJ (fun _ => le_refl 3) (fun _ => le_refl 3) (fun _ _ _ => 0)
    (fun _ _ => 0) (fun _ _ => 0) (by simp [shoelace, edges, node2, row]; norm_num)
  exact ⟨o', det, c, hc, h3 0⟩

/-- the frustum with two points per direction -/
example (o : Out) : ∃ (o' : Out) (det : ℕ → ℝ), |∑ m ∈ Finset.range (2 ^ 3), o'.tot m * det m| = 26 / 3 := by
  obtain ⟨o1, h1⟩ := gauss3D_runs o 1 (by decide) (by decide)
  obtain ⟨-, -, -, hv⟩ := C94_hex8_one_point o o1 h1 anyJ (fun _ => le_refl 3) (fun _ => le_refl 3) (fun _ _ _ => 0)
  obtain ⟨o', h⟩ := gauss3D_runs o 2 (by decide) (by decide)
  obtain ⟨det, -, -, h2⟩ := C94_hex8_volume o o' 2 (by decide) (by decide) h frustum anyJ (fun _ => le_refl 3)
    (fun _ => le_refl 3) (fun _ _ _ => 0)
  exact ⟨o', det, (Outcome.ok.inj (h2.symm.trans hv))⟩

/-- a unit cube in the numbering of hexahedron.h has Jacobian -1/8 -/
example : ∃ J', jacobian (anyJ 0) (fun i k => if h : i < 8 ∧ k < 3 then
      Geometry.parallelepiped ![0, 0, 0] ![1, 0, 0] ![0, 1, 0] ![0, 0, 1] ⟨i, h.1⟩ ⟨k, h.2⟩ else 0)
      (fun i j => Kind.hex8.partials j (fun _ => 0) (fun _ => 1 / 2) i) 8 3 = .ok (J', -(1 / 8)) := by
  obtain ⟨J', h⟩ := C94_hex8_orientation ![0, 0, 0] ![1, 0, 0] ![0, 1, 0] ![0, 0, 1] (anyJ 0) (le_refl 3) (le_refl 3)
    (fun _ _ => 0) (fun _ => 1 / 2)
  refine ⟨J', h.trans ?_⟩
  rw [Matrix.det_fin_three]
  simp

/-- the 12-node square and the 32-node cube -/
example (o : Out) : ∃ (o' : Out) (det : ℕ → ℝ), ∑ m ∈ Finset.range (1 ^ 2), o'.tot m * det m = 4 := by
  obtain ⟨o', h⟩ := gauss2D_runs o 1 (by decide) (by decide)
  obtain ⟨det, -, h2⟩ := C94_straight_quad .quad12 (.inr rfl) o o' 1 (by decide) (by decide) h _ (straight_ref .quad12)
    anyJ (fun _ => le_refl 3) (fun _ => le_refl 3) (fun _ _ _ => 0)
  refine ⟨o', det, h2.trans ?_⟩
  simp [shoelace, edges, node2, row, Kind.ref, quad12Ref]
  norm_num

example (o : Out) : ∃ (o' : Out) (det : ℕ → ℝ),
    polyVolume (hexFaces (node3 Kind.hex32.ref)) = .ok |∑ m ∈ Finset.range (2 ^ 3), o'.tot m * det m| := by
  obtain ⟨o', h⟩ := gauss3D_runs o 2 (by decide) (by decide)
  obtain ⟨det, -, h2⟩ := C94_straight_hex .hex32 (.inr rfl) o o' 2 (by decide) (by decide) h _ (straight_ref .hex32)
    anyJ (fun _ => le_refl 3) (fun _ => le_refl 3) (fun _ _ _ => 0)
  exact ⟨o', det, h2⟩

end Verif.Integration
