import Verif.Elements.Shapes
import Mathlib.Algebra.BigOperators.Field

/-!
# C59 - C62: shape functions of the fixed-order elements
-/

namespace Verif.Elements

variable {R : Type} [Field R] [CharZero R]

/-! ## C59 -/

/-- C59, the sums of `basis`, as far as it holds: every element but the 12-node one, every point
(also outside the element), whatever the output vector held.  (Missing: Quad_12_2D, see
`C59_quad12_fails`.) -/
theorem C59_basis_partial (e : Kind) (he : e ≠ .quad12) (out xi : Nat → R) :
    ∑ v ∈ Finset.range e.nodes, e.basis out xi v = 1 := by
  rw [basis_eq_shape e he]; exact shape_sum e out xi

/-- C59 is false for Quad_12_2D: its `basis` leaves four entries as they were, so the sum is one
only if those happened to add up to zero -/
theorem C59_quad12_fails :
    (∀ xi out : Nat → R, ∑ v ∈ Finset.range 12, Kind.quad12.basis out xi v = 1 + out 8 + out 9 + out 10 + out 11) ∧
    ∃ out : Nat → R, ∀ xi : Nat → R, ∑ v ∈ Finset.range 12, Kind.quad12.basis out xi v ≠ 1 := by
  have h : ∀ xi out : Nat → R,
      ∑ v ∈ Finset.range 12, Kind.quad12.basis out xi v = 1 + out 8 + out 9 + out 10 + out 11 := by
    intro xi out
    simp only [Kind.basis, quad12Basis, fill_apply, Finset.sum_range_succ, Finset.sum_range_zero]
    simp [steps, List.range', row, quad12Ref]
    ring
  refine ⟨h, fun _ => 1, fun xi => ?_⟩
  rw [h]
  norm_num

/-- C59: the partials sum to zero, for every element -/
theorem C59_partials (e : Kind) (out xi : Nat → R) (j : Nat) (hj : j < e.dim) :
    ∑ v ∈ Finset.range e.nodes, e.partials j out xi v = 0 := partial_sum e out xi j hj

/-- C59: `physical_position` of every element is an average: vertices all at `c` map every point
to `c` -/
theorem C59_position (e : Kind) (tmp x xi c : Nat → R) (k : Nat) (hk : k < e.dim) :
    e.position tmp x xi (fun _ => c) k = c k := by
  rw [position_eq e _ _ _ _ k hk, ← Finset.mul_sum, shape_sum, mul_one]

/-- a point inside the 32-node element -/
example : ∑ v ∈ Finset.range 32, Kind.hex32.basis (fun _ => 0) (row [[1/2, -1/3, 1/5]] 0 : Nat → ℚ) v = 1 :=
  C59_basis_partial .hex32 (by decide) _ _

/-! ### the tesseract -/

/-- C59 is false for Tess16: the member table is never set, and e.g. if it holds zeros the
position of every point is the mean of the vertices -/
theorem C59_tess16_fails :
    (∀ (tmp x xi : Nat → R) (vertices : Nat → Nat → R) (k : Nat), k < 4 →
      tess16Position (fun _ _ => 0) tmp x xi vertices k = (∑ v ∈ Finset.range 16, vertices v k) / 16) ∧
    ∃ (member : Nat → Nat → R) (xi : Nat → R), ∀ tmp x, tess16Position member tmp x xi (fun _ _ => 1) 0 ≠ 1 := by
  constructor
  · intro tmp x xi vertices k hk
    rw [tess16Position, accumulate_apply, if_pos hk, Finset.sum_div]
    apply Finset.sum_congr rfl
    intro v hv
    have hm : v ∈ steps 0 16 1 := by simpa [steps_zero_one] using hv
    simp only [tess16Shape, fill_apply, hm, if_true]
    ring
  · refine ⟨fun _ _ => 1, fun _ => 1, fun tmp x => ?_⟩
    rw [tess16Position, accumulate_apply, if_pos (by decide)]
    simp only [tess16Shape, fill_apply, Finset.sum_range_succ, Finset.sum_range_zero]
    simp [steps, List.range']
    norm_num

/-- C59 for Tess16 with the member set as intended -/
theorem C59_tess16_partial (tmp xi : Nat → R) :
    ∑ v ∈ Finset.range 16, tess16Shape tess16Ref tmp xi v = 1 ∧
    ∀ j < 4, ∑ v ∈ Finset.range 16, tess16Partials tess16Ref j tmp xi v = 0 := by
  constructor
  · node_sums
  · intro j hj
    interval_cases j <;> node_sums

/-! ## C60 -/

/-- C60, as far as it holds for `basis`: one at the own node, zero at the others.  (Missing:
Quad_12_2D, see `C60_quad12_fails`.) -/
theorem C60_kronecker_partial (e : Kind) (he : e ≠ .quad12) (out : Nat → R) (i j : Nat) (hi : i < e.nodes)
    (hj : j < e.nodes) : e.basis out (e.ref i) j = if i = j then 1 else 0 := by
  rw [basis_eq_shape e he]; exact shape_node e out i j hi hj

example : Kind.hex20.basis (fun _ => (0 : ℚ)) (Kind.hex20.ref 17) 17 = 1 ∧ Kind.hex20.basis (fun _ => (0 : ℚ)) (Kind.hex20.ref 3) 17 = 0 :=
  ⟨C60_kronecker_partial .hex20 (by decide) _ 17 17 (by decide) (by decide),
    C60_kronecker_partial .hex20 (by decide) _ 3 17 (by decide) (by decide)⟩

/-- C60 is false for Quad_12_2D: at node 4, no entry of the basis that is written is one -/
theorem C60_quad12_fails (out : Nat → R) : Kind.quad12.basis out (quad12Ref 4) 4 = 8 / 9 ∧
    Kind.quad12.basis out (quad12Ref 4) 0 ≠ 0 := by
  simp only [Kind.basis, quad12Basis, fill_apply]
  simp [steps, List.range', row, quad12Ref]
  norm_num

/-- C60: for every element and all vertices, the position of a node's reference point is the
node's vertex -/
theorem C60_nodes (e : Kind) (tmp x : Nat → R) (vertices : Nat → Nat → R) (i k : Nat) (hi : i < e.nodes)
    (hk : k < e.dim) : e.position tmp x (e.ref i) vertices k = vertices i k := by
  rw [position_eq e _ _ _ _ k hk, Finset.sum_eq_single i]
  · rw [shape_node e tmp i i hi hi]; simp
  · intro v hv hne
    rw [shape_node e tmp i v hi (Finset.mem_range.mp hv), if_neg (Ne.symm hne), mul_zero]
  · intro h; exact absurd (Finset.mem_range.mpr hi) h

/-- node 5 of a bent quadrilateral -/
example : Kind.quad8.position (fun _ => 7) (fun _ => 7) (Kind.quad8.ref 5) (fun v k => ((v : ℚ) ^ 2 + k)) 1 = 26 :=
  (C60_nodes .quad8 _ _ _ 5 1 (by decide) (by decide)).trans (by norm_num)

theorem tess_node_rat : ∀ i < 16, ∀ j < 16,
    tess16Shape tess16Ref (fun _ => 0) (tess16Ref (R := ℚ) i) j = if i = j then 1 else 0 := by
  decide +kernel

/-- C60 for Tess16 with the member set as intended -/
theorem C60_tess16_partial (tmp x : Nat → R) (vertices : Nat → Nat → R) (i k : Nat) (hi : i < 16) (hk : k < 4) :
    tess16Position tess16Ref tmp x (tess16Ref i) vertices k = vertices i k := by
  have hc : ∀ v d, ((tess16Ref v d : ℚ) : R) = tess16Ref v d := by
    intro v d; simp only [tess16Ref]; rw [← row_cast]; simp
  have hs : ∀ v < 16, tess16Shape tess16Ref tmp (tess16Ref i) v = if i = v then (1 : R) else 0 := by
    intro v hv
    have h := congrArg (Rat.cast : ℚ → R) (tess_node_rat i hi v hv)
    have hm : v ∈ steps 0 16 1 := by simpa [steps_zero_one] using hv
    simp only [tess16Shape, fill_apply, hm, if_true, ← hc] at h ⊢
    push_cast at h
    rw [h]
    split <;> simp
  rw [tess16Position, accumulate_apply, if_pos hk, Finset.sum_eq_single i]
  · rw [hs i hi]; simp
  · intro v hv hne
    rw [hs v (Finset.mem_range.mp hv), if_neg (Ne.symm hne), mul_zero]
  · intro h; exact absurd (Finset.mem_range.mpr hi) h

example : tess16Position tess16Ref (fun _ => 7) (fun _ => 7) (tess16Ref 9) (fun v k => ((v : ℚ) ^ 2 + k)) 3 = 84 :=
  (C60_tess16_partial _ _ _ 9 3 (by decide) (by decide)).trans (by norm_num)

/-- C60 is false for Tess16 with the member as it is: zeros map node 0 elsewhere -/
theorem C60_tess16_fails (tmp x : Nat → R) :
    tess16Position (fun _ _ => 0) tmp x (tess16Ref 0) (fun v _ => if v = 0 then 16 else 0) 0 ≠ (16 : R) := by
  rw [(C59_tess16_fails (R := R)).1 _ _ _ _ _ (by decide)]
  simp

/-- C60: the nodes of each element are different points, so the statements above are about
different nodes -/
theorem C60_distinct (e : Kind) (i j : Nat) (hi : i < e.nodes) (hj : j < e.nodes)
    (h : ∀ k < e.dim, e.ref (R := R) i k = e.ref j k) : i = j := by
  by_contra hne
  have h0 : ∀ (v k : Nat), e.dim ≤ k → v < e.nodes → e.ref (R := ℚ) v k = 0 := by
    intro v k hk hv
    cases e <;> simp only [Kind.nodes] at hv <;> simp only [Kind.dim] at hk <;> interval_cases v <;>
      (obtain ⟨k', rfl⟩ := Nat.exists_eq_add_of_le' hk; rfl)
  have heq : e.ref (R := R) i = e.ref j := by
    funext k
    by_cases hk : k < e.dim
    · exact h k hk
    · have e1 := ref_cast (R := R) e i k
      have e2 := ref_cast (R := R) e j k
      rw [h0 i k (by omega) hi] at e1
      rw [h0 j k (by omega) hj] at e2
      rw [← e1, ← e2]
  have h1 := shape_node (R := R) e (fun _ => 0) i j hi hj
  rw [heq, shape_node e _ j j hj hj, if_neg hne] at h1
  simp at h1

example : ∃ k < Kind.hex32.dim, Kind.hex32.ref (R := ℚ) 16 k ≠ Kind.hex32.ref 17 k := by
  by_contra h
  push Not at h
  exact absurd (C60_distinct (R := ℚ) .hex32 16 17 (by decide) (by decide) h) (by decide)

/-! ## C61 -/

/-- C61 as far as it holds for `basis`: the coded partials are the partial derivatives, at every
point.  (Missing: Quad_12_2D, see `C61_quad12_fails`.) -/
theorem C61_basis_partial (e : Kind) (he : e ≠ .quad12) (out out' xi : Nat → ℝ) (j : Nat) (hj : j < e.dim) (v : Nat)
    (hv : v < e.nodes) :
    HasDerivAt (fun t => e.basis out (Function.update xi j t) v) (e.partials j out' xi v) (xi j) := by
  simp only [basis_eq_shape e he]
  exact shape_deriv e out out' xi j hj v hv

example : HasDerivAt (fun t => Kind.hex20.basis (fun _ => (0 : ℝ)) (Function.update (fun _ => 1 / 2) 1 t) 9)
    (Kind.hex20.partials 1 (fun _ => 0) (fun _ => 1 / 2) 9) (1 / 2) :=
  C61_basis_partial .hex20 (by decide) (fun _ => 0) (fun _ => 0) (fun _ => 1 / 2) 1 (by decide) 9 (by decide)

/-- C61: for every element, the coded partials give the partial derivatives of the position -/
theorem C61_position (e : Kind) (tmp x out xi : Nat → ℝ) (vertices : Nat → Nat → ℝ) (j k : Nat) (hj : j < e.dim)
    (hk : k < e.dim) :
    HasDerivAt (fun t => e.position tmp x (Function.update xi j t) vertices k)
      (∑ v ∈ Finset.range e.nodes, vertices v k * e.partials j out xi v) (xi j) := by
  simp only [position_eq e _ _ _ _ k hk]
  apply HasDerivAt.fun_sum
  intro v hv
  exact (shape_deriv e tmp out xi j hj v (Finset.mem_range.mp hv)).const_mul _

example : HasDerivAt (fun t => Kind.quad12.position (fun _ => 0) (fun _ => 0) (Function.update (fun _ => 1 / 2) 1 t)
      (fun v k => (v : ℝ) ^ 2 + k) 0)
    (∑ v ∈ Finset.range 12, ((v : ℝ) ^ 2 + (0 : ℕ)) * Kind.quad12.partials 1 (fun _ => 0) (fun _ => 1 / 2) v) (1 / 2) :=
  C61_position .quad12 _ _ _ _ (fun v k => (v : ℝ) ^ 2 + k) 1 0 (by decide) (by decide)

/-- C61 is false for `basis` of Quad_12_2D: at the centre, the derivative of the first basis
function is not the partial -/
theorem C61_quad12_fails (out : Nat → ℝ) :
    HasDerivAt (fun t => Kind.quad12.basis out (Function.update (fun _ => 0) 0 t) 0) 0 0 ∧
    Kind.quad12.partials 0 out (fun _ => 0) 0 = (5 / 16 : ℝ) := by
  constructor
  · have h : (fun t => Kind.quad12.basis out (Function.update (fun _ => 0) 0 t) 0) = fun t => 1 / 4 * (t * t) - 1 / 4 := by
      funext t
      simp only [Kind.basis, quad12Basis, fill_apply]
      simp [steps, List.range', row, quad12Ref]
      ring
    rw [h]
    poly_deriv
  · simp only [Kind.partials, quad12Xi, fill_apply]
    simp [steps, List.range', row, quad12Ref]
    norm_num

/-- C61 for Tess16, whatever the member table holds: the partials are the derivatives of the
position -/
theorem C61_tess16 (member : Nat → Nat → ℝ) (tmp x out xi : Nat → ℝ) (vertices : Nat → Nat → ℝ) (j k : Nat)
    (hj : j < 4) (hk : k < 4) :
    HasDerivAt (fun t => tess16Position member tmp x (Function.update xi j t) vertices k)
      (∑ v ∈ Finset.range 16, vertices v k * tess16Partials member j out xi v) (xi j) := by
  simp only [tess16Position, accumulate_apply, hk, if_true]
  apply HasDerivAt.fun_sum
  intro v hv
  apply HasDerivAt.const_mul
  have hm : v ∈ steps 0 16 1 := by simpa [steps_zero_one] using hv
  interval_cases j <;>
    simp only [tess16Shape, tess16Partials, tess16Xi, tess16Eta, tess16Mu, tess16Tau, fill_apply, hm, if_true,
      Function.update_self, Function.update_of_ne, ne_eq, OfNat.zero_ne_ofNat, OfNat.ofNat_ne_zero, OfNat.ofNat_ne_one,
      zero_ne_one, one_ne_zero, OfNat.one_ne_ofNat, not_false_eq_true, Nat.reduceEqDiff] <;>
    poly_deriv

example : HasDerivAt (fun t => tess16Position tess16Ref (fun _ => 0) (fun _ => 0) (Function.update (fun _ => 1 / 2) 3 t)
      (fun v k => (v : ℝ) ^ 2 + k) 0)
    (∑ v ∈ Finset.range 16, ((v : ℝ) ^ 2 + (0 : ℕ)) * tess16Partials tess16Ref 3 (fun _ => 0) (fun _ => 1 / 2) v) (1 / 2) :=
  C61_tess16 _ _ _ _ _ (fun v k => (v : ℝ) ^ 2 + k) 3 0 (by decide) (by decide)

/-! ## C62 -/

/-- C62: if the vertices are an affine image of the reference nodes, every point has the affine
image as its position -/
theorem C62_affine (e : Kind) (tmp x xi b : Nat → R) (A : Nat → Nat → R) (k : Nat) (hk : k < e.dim) :
    e.position tmp x xi (fun v k => b k + ∑ j ∈ Finset.range e.dim, A k j * e.ref v j) k =
      b k + ∑ j ∈ Finset.range e.dim, A k j * xi j := by
  rw [position_eq e _ _ _ _ k hk]
  simp only [add_mul, Finset.sum_add_distrib, ← Finset.mul_sum, shape_sum, mul_one, Finset.sum_mul]
  congr 1
  rw [Finset.sum_comm]
  apply Finset.sum_congr rfl
  intro j hj
  simp only [mul_assoc]
  rw [← Finset.mul_sum, shape_linear e tmp xi j (Finset.mem_range.mp hj)]

/-- C62: and the Jacobian is the constant matrix of the affine map (row: reference direction) -/
theorem C62_jacobian (e : Kind) (xi b : Nat → R) (A : Nat → Nat → R) (out : Nat → Nat → R) (J : Nat → Nat → R)
    (j k : Nat) (hj : j < e.dim) (hk : k < e.dim) :
    jacobianEntries (fun v k => b k + ∑ j ∈ Finset.range e.dim, A k j * e.ref v j)
      (fun v j => e.partials j (out j) xi v) e.nodes e.dim J j k = A k j := by
  rw [jacobianEntries_apply, if_pos ⟨hj, hk⟩]
  simp only [add_mul, Finset.sum_add_distrib, ← Finset.mul_sum, partial_sum e _ xi j hj, mul_zero, Finset.sum_mul,
    zero_add]
  rw [Finset.sum_comm, Finset.sum_eq_single j]
  · simp only [mul_assoc]
    rw [← Finset.mul_sum, partial_linear e _ xi j j hj hj, if_pos rfl, mul_one]
  · intro i hi hne
    simp only [mul_assoc]
    rw [← Finset.mul_sum, partial_linear e _ xi j i hj (Finset.mem_range.mp hi), if_neg (Ne.symm hne), mul_zero]
  · intro h; exact absurd (Finset.mem_range.mpr hj) h

/-- a sheared hexahedron -/
example : jacobianEntries (fun v k => 1 + ∑ j ∈ Finset.range 3, (if k = 0 ∧ j = 1 then 5 else if k = j then 2 else 0) * Kind.hex8.ref v j)
    (fun v j => Kind.hex8.partials j (fun _ => 0) (fun _ => (1 / 3 : ℚ)) v) 8 3 (fun _ _ => 9) 1 0 = 5 :=
  (C62_jacobian .hex8 (fun _ => (1 / 3 : ℚ)) (fun _ => 1) (fun k j => if k = 0 ∧ j = 1 then 5 else if k = j then 2 else 0)
    (fun _ _ => 0) (fun _ _ => 9) 1 0 (by decide) (by decide)).trans (by simp)

/-- C62 for Tess16 with the member set as intended -/
theorem C62_tess16_partial (tmp x xi b : Nat → R) (A : Nat → Nat → R) (k : Nat) (hk : k < 4) :
    tess16Position tess16Ref tmp x xi (fun v k => b k + ∑ j ∈ Finset.range 4, A k j * tess16Ref v j) k =
      b k + ∑ j ∈ Finset.range 4, A k j * xi j := by
  have hl : ∀ j < 4, ∑ v ∈ Finset.range 16, tess16Ref v j * tess16Shape tess16Ref tmp xi v = xi j := by
    intro j hj; interval_cases j <;> node_sums
  rw [tess16Position, accumulate_apply, if_pos hk]
  simp only [add_mul, Finset.sum_add_distrib, ← Finset.mul_sum, (C59_tess16_partial tmp xi).1, mul_one, Finset.sum_mul]
  congr 1
  rw [Finset.sum_comm]
  apply Finset.sum_congr rfl
  intro j hj
  simp only [mul_assoc]
  rw [← Finset.mul_sum, hl j (Finset.mem_range.mp hj)]

/-- C62 is false for Tess16 as it is: with zeros in the member every point of the reference
tesseract itself maps to its centre -/
theorem C62_tess16_fails : ∃ xi : Nat → R, ∀ tmp x, tess16Position (fun _ _ => 0) tmp x xi tess16Ref 0 ≠ xi 0 := by
  refine ⟨fun _ => 1, fun tmp x => ?_⟩
  rw [(C59_tess16_fails (R := R)).1 _ _ _ _ _ (by decide)]
  simp [Finset.sum_range_succ, tess16Ref, row]

/-- a stretched and shifted 20-node element -/
example : (Kind.hex20.position (fun _ => 0) (fun _ => 7) (row [[1/2, 1/3, 1/4]] 0)
    (fun v k => 1 + ∑ j ∈ Finset.range 3, (if k = j then 2 else 0) * Kind.hex20.ref v j) 0 : ℚ) = 2 := by
  rw [show (fun (v k : Nat) => 1 + ∑ j ∈ Finset.range 3, (if k = j then (2 : ℚ) else 0) * Kind.hex20.ref v j) =
    fun v k => (fun _ => (1 : ℚ)) k + ∑ j ∈ Finset.range Kind.hex20.dim, (fun k j => if k = j then (2 : ℚ) else 0) k j *
      Kind.hex20.ref v j from rfl, C62_affine .hex20 _ _ _ _ _ 0 (by decide)]
  simp [Kind.dim, row]
  norm_num

end Verif.Elements
