import Verif.Geometry.Props
import Mathlib.LinearAlgebra.Matrix.Determinant.Basic
import Mathlib.LinearAlgebra.Matrix.ToLinearEquiv
import Mathlib.LinearAlgebra.Matrix.NonsingularInverse

/-!
# C35 (3D polygon normal, area, centroid)
-/

namespace Verif.Geometry
open Verif.Vec

/-! ## C35 -/

section
variable {K : Type} [Field K]

/-- Half the sum of the cross products of consecutive vertices. -/
def vectorArea (pts : List (Vec 3 K)) : Vec 3 K :=
  (1 / 2 : K) • ((edges pts).map fun e => cross3 e.1 e.2).sum

theorem vectorArea_eq (pts : List (Vec 3 K)) : vectorArea pts = (1 / 2 : K) • cyc cross3 pts := by
  unfold vectorArea; rw [cyc_edges]

theorem ne_nil_of_three {P : Type} {pts : List P} (h : 3 < pts.length) : pts ≠ [] := by
  rintro rfl; simp at h

/-- **C35** Both versions of the normal are the vector area of the polygon; the iterator version
demands at least four vertices. -/
theorem C35_normal (pts : List (Vec 3 K)) (t : Vec 3 K) (args : List (Vec 3 K)) :
    (normalIter3 pts = if 3 < pts.length then .ok (vectorArea pts) else .assertFail) ∧
      normalPack3 t args = vectorArea (t :: args) := by
  constructor
  · unfold normalIter3
    by_cases h : 3 < pts.length
    · have hw := walk_sum (fun p q => triNormal3 p q (vmean pts)) 0 pts (ne_nil_of_three h)
      have e0 : (fun _ => 0 : Vec 3 K) = 0 := rfl
      simp only [gt_iff_lt, h, decide_true, Outcome.assert_true, Outcome.bind_ok, if_true,
        averageRange_eq pts (ne_nil_of_three h), e0, addTo_eq]
      rw [hw, zero_add, cyc_triNormal3, vectorArea_eq]
    · simp [h]
  · unfold normalPack3
    have e0 : (fun _ => 0 : Vec 3 K) = 0 := rfl
    simp only [normalRec_eq, e0, zero_add]
    rw [vectorArea_eq, ← cyc_triNormal3 (averagePackPts t args)]
    rfl

/-- **C35 fails** for triangles: the run-time versions of normal, area and centroid stop on an
assertion for every three vertices (and the variadic versions are not enabled for three). -/
theorem C35_three_vertices_fails (a b c : Vec 3 K) (a' b' c' : Vec 3 ℝ) :
    normalIter3 [a, b, c] = .assertFail ∧ areaIter3 [a', b', c'] = .assertFail ∧
      centroidIter3 [a', b', c'] = .assertFail := by
  refine ⟨?_, ?_, ?_⟩
  · rw [(C35_normal [a, b, c] a []).1]; simp
  · simp [areaIter3]
  · simp [centroidIter3]

/-- the formula would nevertheless be right for three vertices -/
theorem vectorArea_triangle (a b c : Vec 3 K) : vectorArea [a, b, c] = triNormal3 a b c := by
  rw [vectorArea_eq, ← cyc_triNormal3 c]
  simp only [cyc, List.cons_append, List.nil_append, pathSum_cons_cons, pathSum_single, add_zero]
  funext i
  fin_cases i <;> simp [triNormal3, cross3] <;> exact Or.inl (by ring)

/-- **C35** Translation invariance. -/
theorem C35_translation (pts : List (Vec 3 K)) (t : Vec 3 K) :
    normalIter3 (pts.map (· + t)) = normalIter3 pts := by
  have h : cyc cross3 (pts.map (· + t)) = cyc cross3 pts := by
    rw [cyc_map, ← cyc_add_telescope (cross3 (K := K)) (fun p => cross3 t p) pts]
    exact cyc_congr pts fun p _ q _ => by
      funext i; fin_cases i <;> simp [cross3] <;> ring
  rw [(C35_normal _ t []).1, (C35_normal _ t []).1, vectorArea_eq, vectorArea_eq, h, List.length_map]

/-- **C35** Independence of the starting vertex. -/
theorem C35_renumbering (pts : List (Vec 3 K)) (k : Nat) : normalIter3 (pts.rotate k) = normalIter3 pts := by
  rw [(C35_normal _ 0 []).1, (C35_normal _ 0 []).1, vectorArea_eq, vectorArea_eq, cyc_rotate,
    List.length_rotate]

theorem cross3_anti (p q : Vec 3 K) : cross3 p q = -cross3 q p := by
  funext i; fin_cases i <;> simp [cross3] <;> ring

/-- **C35** Reversing the vertex order flips the normal. -/
theorem C35_reversal (pts : List (Vec 3 K)) (h : 3 < pts.length) :
    ∃ n, normalIter3 pts = .ok n ∧ normalIter3 pts.reverse = .ok (-n) := by
  refine ⟨vectorArea pts, by rw [(C35_normal _ 0 []).1, if_pos h], ?_⟩
  rw [(C35_normal _ 0 []).1, List.length_reverse, if_pos h, vectorArea_eq, vectorArea_eq, cyc_reverse]
  have : cyc (fun p q => cross3 q p) pts = -cyc cross3 pts := by
    rw [← cyc_neg]; exact cyc_congr pts fun p _ q _ => cross3_anti q p
  rw [this, smul_neg]

example : ∃ n, normalIter3 [![0, 0, 3], ![1, 0, 3], ![1, 1, 3], (![0, 1, 3] : Vec 3 ℚ)] = .ok n ∧
    normalIter3 [![0, 1, 3], ![1, 1, 3], ![1, 0, 3], ![0, 0, 3]] = .ok (-n) :=
  C35_reversal [![0, 0, 3], ![1, 0, 3], ![1, 1, 3], (![0, 1, 3] : Vec 3 ℚ)] (by simp)

/-- a vector whose cross product with a non-zero `w` vanishes is a multiple of `w` -/
theorem parallel_of_cross (n w : Vec 3 K) (hw : w ≠ 0) (h : cross3 n w = 0) : ∃ s : K, n = s • w := by
  have h0 : n 1 * w 2 - n 2 * w 1 = 0 := congrFun h 0
  have h1 : n 2 * w 0 - n 0 * w 2 = 0 := congrFun h 1
  have h2 : n 0 * w 1 - n 1 * w 0 = 0 := congrFun h 2
  by_cases w0 : w 0 = 0
  · by_cases w1 : w 1 = 0
    · have w2 : w 2 ≠ 0 := by
        intro w2; apply hw; funext i; fin_cases i
        · exact w0
        · exact w1
        · exact w2
      refine ⟨n 2 / w 2, ?_⟩
      funext i; fin_cases i
      · simp only [Pi.smul_apply, smul_eq_mul]; field_simp
        show n 0 * w 2 = n 2 * w 0; linear_combination -h1
      · simp only [Pi.smul_apply, smul_eq_mul]; field_simp
        show n 1 * w 2 = n 2 * w 1; linear_combination h0
      · simp only [Pi.smul_apply, smul_eq_mul]; field_simp
        rfl
    · refine ⟨n 1 / w 1, ?_⟩
      funext i; fin_cases i
      · simp only [Pi.smul_apply, smul_eq_mul]; field_simp
        show n 0 * w 1 = n 1 * w 0; linear_combination h2
      · simp only [Pi.smul_apply, smul_eq_mul]; field_simp
        rfl
      · simp only [Pi.smul_apply, smul_eq_mul]; field_simp
        show n 2 * w 1 = n 1 * w 2; linear_combination -h0
  · refine ⟨n 0 / w 0, ?_⟩
    funext i; fin_cases i
    · simp only [Pi.smul_apply, smul_eq_mul]; field_simp
      rfl
    · simp only [Pi.smul_apply, smul_eq_mul]; field_simp
      show n 1 * w 0 = n 0 * w 1; linear_combination -h2
    · simp only [Pi.smul_apply, smul_eq_mul]; field_simp
      show n 2 * w 0 = n 0 * w 2; linear_combination h1

/-- **C35** For a planar polygon (all vertices in the plane `w·x = c`) the normal is a multiple of
`w`, hence orthogonal to every edge and every diagonal. -/
theorem C35_planar (pts : List (Vec 3 K)) (h : 3 < pts.length) (w : Vec 3 K) (c : K) (hw : w ≠ 0)
    (hp : ∀ p ∈ pts, dot w p = c) :
    ∃ n, normalIter3 pts = .ok n ∧ (∃ s : K, n = s • w) ∧ ∀ p ∈ pts, ∀ q ∈ pts, dot n (q - p) = 0 := by
  refine ⟨vectorArea pts, by rw [(C35_normal _ 0 []).1, if_pos h], ?_⟩
  have hpar : ∃ s : K, vectorArea pts = s • w := by
    apply parallel_of_cross _ _ hw
    have h1 : cross3 (vectorArea pts) w = (1 / 2 : K) • cross3 (cyc cross3 pts) w := by
      rw [vectorArea_eq]; exact (C30_cross _ w w _).2.2.2.2.2.1
    have h2 : cross3 (cyc cross3 pts) w = cyc (fun p q => cross3 (cross3 p q) w) pts := by
      let φ : Vec 3 K →+ Vec 3 K :=
        { toFun := fun x => cross3 x w
          map_zero' := by funext i; fin_cases i <;> simp [cross3]
          map_add' := fun x y => (C30_cross x y w 0).2.2.2.2.1 }
      exact (cyc_hom φ cross3 pts).symm
    have h3 : cyc (fun p q => cross3 (cross3 p q) w) pts = cyc (fun p q => c • q - c • p) pts :=
      cyc_congr pts fun p hp' q hq' => by
        have e1 := hp p hp'
        have e2 := hp q hq'
        rw [dot3] at e1 e2
        funext i
        fin_cases i
        · simp [cross3]; linear_combination -(p 0) * e2 + (q 0) * e1
        · simp [cross3]; linear_combination -(p 1) * e2 + (q 1) * e1
        · simp [cross3]; linear_combination -(p 2) * e2 + (q 2) * e1
    rw [h1, h2, h3, cyc_telescope (fun x => c • x), smul_zero]
  obtain ⟨s, hs⟩ := hpar
  refine ⟨⟨s, hs⟩, fun p hp' q hq' => ?_⟩
  have e1 := hp p hp'
  have e2 := hp q hq'
  rw [dot3] at e1 e2
  rw [hs, dot3]
  simp only [Pi.smul_apply, Pi.sub_apply, smul_eq_mul]
  linear_combination s * e2 - s * e1

/-- a quadrilateral in the plane `x + z = 3` -/
example : ∃ n, normalIter3 [![0, 0, 3], ![1, 0, 2], ![2, 5, 1], (![0, 1, 3] : Vec 3 ℚ)] = .ok n ∧
    ∃ s : ℚ, n = s • ![1, 0, 1] := by
  obtain ⟨n, h, h', -⟩ := C35_planar [![0, 0, 3], ![1, 0, 2], ![2, 5, 1], (![0, 1, 3] : Vec 3 ℚ)] (by simp) ![1, 0, 1] 3
    (fun h => by simpa using congrFun h 0) (by
      intro p hp
      simp only [List.mem_cons, List.not_mem_nil, or_false] at hp
      rcases hp with rfl | rfl | rfl | rfl <;> simp [dot_eq, Fin.sum_univ_three] <;> norm_num)
  exact ⟨n, h, h'⟩

/-- **C35** A polygon in the plane `z = c` has the normal `(0, 0, signed area)`. -/
theorem C35_embedded (pts : List (Vec 2 K)) (c : K) (h : 3 < pts.length) :
    normalIter3 (pts.map fun p => ![p 0, p 1, c]) = .ok ![0, 0, shoelace pts] := by
  rw [(C35_normal _ 0 []).1, List.length_map, if_pos h, vectorArea_eq, cyc_map, shoelace_eq]
  congr 1
  have h0 : cyc (fun p q : Vec 2 K => cross3 ![p 0, p 1, c] ![q 0, q 1, c] 0) pts = 0 := by
    rw [← cyc_telescope (fun p : Vec 2 K => -(c * p 1)) pts]
    exact cyc_congr pts fun p _ q _ => by simp [cross3]; ring
  have h1 : cyc (fun p q : Vec 2 K => cross3 ![p 0, p 1, c] ![q 0, q 1, c] 1) pts = 0 := by
    rw [← cyc_telescope (fun p : Vec 2 K => (c * p 0)) pts]
    exact cyc_congr pts fun p _ q _ => by simp [cross3]; ring
  have h2 : cyc (fun p q : Vec 2 K => cross3 ![p 0, p 1, c] ![q 0, q 1, c] 2) pts = cyc wedge pts :=
    cyc_congr pts fun p _ q _ => by simp [cross3, wedge]; ring
  funext i
  rw [Pi.smul_apply, cyc_apply]
  revert i
  rw [Fin.forall_fin_succ, Fin.forall_fin_two]
  refine ⟨?_, ?_, ?_⟩
  · rw [h0]; simp
  · show (1 / 2 : K) • cyc (fun p q : Vec 2 K => cross3 ![p 0, p 1, c] ![q 0, q 1, c] 1) pts = 0
    rw [h1]; simp
  · show (1 / 2 : K) • cyc (fun p q : Vec 2 K => cross3 ![p 0, p 1, c] ![q 0, q 1, c] 2) pts = _
    rw [h2]; simp; ring

/-- **C35** The triangle normal is orthogonal to its edges and its orientation is that of the
vertex order. -/
theorem C35_triangle (a b c : Vec 3 K) :
    dot (triNormal3 a b c) (b - a) = 0 ∧ dot (triNormal3 a b c) (c - a) = 0 ∧
      triNormal3 a b c = triNormal3 b c a ∧ triNormal3 a b c = -triNormal3 b a c := by
  refine ⟨?_, ?_, ?_, ?_⟩
  · rw [dot3]; simp [triNormal3, cross3]; ring
  · rw [dot3]; simp [triNormal3, cross3]; ring
  · funext i; fin_cases i <;> simp [triNormal3, cross3] <;> exact Or.inl (by ring)
  · funext i; fin_cases i <;> simp [triNormal3, cross3] <;> ring

/-- a unit square at height 3 -/
example : normalIter3 [![0, 0, 3], ![1, 0, 3], ![1, 1, 3], (![0, 1, 3] : Vec 3 ℚ)] = .ok ![0, 0, 1] := by
  have := C35_embedded [![0, 0], ![1, 0], ![1, 1], (![0, 1] : Vec 2 ℚ)] 3 (by simp)
  have hs : shoelace [![0, 0], ![1, 0], ![1, 1], (![0, 1] : Vec 2 ℚ)] = 1 := by
    rw [shoelace_eq]; norm_num [cyc, wedge]
  rw [hs] at this
  simpa using this

end

section Real

theorem magnitude_smul (c : ℝ) (v : Vec n ℝ) : magnitude (c • v) = |c| * magnitude v := (C32_magnitude v v c).2.2.2.1

theorem triArea3_eq (a b c : Vec 3 ℝ) : triArea3 a b c = magnitude (triNormal3 a b c) := by
  have : triNormal3 a b c = (1 / 2 : ℝ) • cross3 ![b 0 - a 0, b 1 - a 1, b 2 - a 2] ![c 0 - a 0, c 1 - a 1, c 2 - a 2] := by
    funext i; simp [triNormal3, mul_comm]
  rw [this, magnitude_smul, triArea3, abs_of_pos (by norm_num : (0 : ℝ) < 1 / 2)]

theorem magnitude_add_le (v w : Vec n ℝ) : magnitude (v + w) ≤ magnitude v + magnitude w := by
  have hv := (C32_magnitude v w 0).2.1
  have hw := (C32_magnitude w v 0).2.1
  apply le_of_sq_le_sq₀ _ (by positivity)
  have e1 := (C32_magnitude (v + w) w 0).1
  have e2 := (C32_magnitude v w 0).1
  have e3 := (C32_magnitude w v 0).1
  have hcs : dot v w ≤ magnitude v * magnitude w := by
    apply le_of_sq_le_sq₀ _ (by positivity)
    rw [mul_pow, e2, e3, dot_eq, dot_eq, dot_eq]
    have := Finset.sum_mul_sq_le_sq_mul_sq Finset.univ v w
    simpa [sq] using this
  rw [e1, (C30_dot v w (v + w) 0).2.2.1, (C30_dot v v w 0).2.2.2.1, (C30_dot w v w 0).2.2.2.1,
    (C30_dot w v 0 0).2.1]
  nlinarith [e2, e3]
where
  le_of_sq_le_sq₀ {a b : ℝ} (h : a ^ 2 ≤ b ^ 2) (hb : 0 ≤ b) : a ≤ b := abs_le_of_sq_le_sq' h hb |>.2

theorem magnitude_zero : magnitude (0 : Vec n ℝ) = 0 := (C32_magnitude 0 0 0).2.2.1.2 rfl

theorem areaIter3_eq (pts : List (Vec 3 ℝ)) :
    areaIter3 pts = if 3 < pts.length then .ok (cyc (fun p q => triArea3 p q (vmean pts)) pts) else .assertFail := by
  unfold areaIter3
  by_cases h : 3 < pts.length
  · have hw := walk_sum (fun p q => triArea3 p q (vmean pts)) 0 pts (ne_nil_of_three h)
    simp only [gt_iff_lt, h, decide_true, Outcome.assert_true, Outcome.bind_ok, if_true,
      averageRange_eq pts (ne_nil_of_three h), hw, zero_add]
  · simp [h]

theorem areaRec3_eq (s : ℝ) (m : Vec 3 ℝ) (l : List (Vec 3 ℝ)) :
    areaRec3 s m l = s + pathSum (fun p q => triArea3 p q m) l := by
  induction l generalizing s with
  | nil => simp [areaRec3]
  | cons a l ih =>
    cases l with
    | nil => simp [areaRec3]
    | cons b l => rw [areaRec3, ih, pathSum_cons_cons, add_assoc]

theorem magnitude_pathSum_le (f : P → P → Vec 3 ℝ) (l : List P) :
    magnitude (pathSum f l) ≤ pathSum (fun p q => magnitude (f p q)) l := by
  induction l with
  | nil => simp [magnitude_zero]
  | cons a l ih =>
    cases l with
    | nil => simp [magnitude_zero]
    | cons b l =>
      rw [pathSum_cons_cons, pathSum_cons_cons]
      exact (magnitude_add_le _ _).trans (by linarith)

theorem triArea3_translate (a b c t : Vec 3 ℝ) : triArea3 (a + t) (b + t) (c + t) = triArea3 a b c := by
  rw [triArea3_eq, triArea3_eq]
  congr 1
  funext i; fin_cases i <;> simp [triNormal3, cross3]

theorem triArea3_swap (a b c : Vec 3 ℝ) : triArea3 a b c = triArea3 b a c := by
  rw [triArea3_eq, triArea3_eq, (C35_triangle a b c).2.2.2]
  have := magnitude_smul (-1) (triNormal3 b a c)
  simpa using this

/-- **C35** The area of a 3D polygon: the two versions agree, it is invariant under translation,
renumbering and reversal, and it is at least the length of the normal. -/
theorem C35_area (pts : List (Vec 3 ℝ)) (h : 3 < pts.length) (t : Vec 3 ℝ) (k : Nat) :
    areaIter3 (pts.map (· + t)) = areaIter3 pts ∧ areaIter3 (pts.rotate k) = areaIter3 pts ∧
      areaIter3 pts.reverse = areaIter3 pts ∧
      (∀ p r, pts = p :: r → areaIter3 pts = .ok (areaPack3 p r)) ∧
      ∃ A n, areaIter3 pts = .ok A ∧ normalIter3 pts = .ok n ∧ magnitude n ≤ A := by
  refine ⟨?_, ?_, ?_, ?_, ?_⟩
  · rw [areaIter3_eq, areaIter3_eq, List.length_map, if_pos h, if_pos h, cyc_map,
      vmean_map_add pts (ne_nil_of_three h) t]
    simp only [triArea3_translate]
  · rw [areaIter3_eq, areaIter3_eq, List.length_rotate, cyc_rotate, vmean_perm (List.rotate_perm pts k)]
  · rw [areaIter3_eq, areaIter3_eq, List.length_reverse, cyc_reverse, vmean_perm (List.reverse_perm pts)]
    simp only [if_pos h]
    congr 1
    exact cyc_congr pts fun p _ q _ => triArea3_swap q p _
  · rintro p r rfl
    rw [areaIter3_eq, if_pos h, areaPack3, areaRec3_eq, averagePack_eq, zero_add]
    rfl
  · refine ⟨_, _, by rw [areaIter3_eq, if_pos h], by rw [(C35_normal pts 0 []).1, if_pos h], ?_⟩
    rw [vectorArea_eq, ← cyc_triNormal3 (vmean pts)]
    simp only [triArea3_eq]
    cases pts with
    | nil => simp at h
    | cons a l => exact magnitude_pathSum_le (fun p q => triNormal3 p q (vmean (a :: l))) _

/-- a quadrilateral that is not planar -/
example : ∃ A n, areaIter3 [![0, 0, 0], ![1, 0, 1], ![1, 1, 0], (![0, 1, 1] : Vec 3 ℝ)] = .ok A ∧
    normalIter3 [![0, 0, 0], ![1, 0, 1], ![1, 1, 0], ![0, 1, 1]] = .ok n ∧ magnitude n ≤ A :=
  (C35_area _ (by simp) 0 0).2.2.2.2

/-- **C35** When all triangles of the fan about the vertex mean have the same orientation (any
planar polygon that is star shaped about it, so every convex one) the area is the length of the
normal. -/
theorem C35_area_eq_normal (pts : List (Vec 3 ℝ)) (h : 3 < pts.length) (w : Vec 3 ℝ)
    (hw : magnitude w = 1)
    (hfan : ∀ p ∈ pts, ∀ q ∈ pts, (p, q) ∈ edges pts → ∃ s : ℝ, 0 ≤ s ∧ triNormal3 p q (vmean pts) = s • w) :
    ∃ A n, areaIter3 pts = .ok A ∧ normalIter3 pts = .ok n ∧ n = A • w ∧ magnitude n = A := by
  have e : vectorArea pts = (cyc (fun p q => triArea3 p q (vmean pts)) pts) • w := by
    rw [vectorArea_eq, ← cyc_triNormal3 (vmean pts), cyc_edges, cyc_edges]
    have : ∀ l : List (Vec 3 ℝ × Vec 3 ℝ), (∀ e ∈ l, ∃ s : ℝ, 0 ≤ s ∧ triNormal3 e.1 e.2 (vmean pts) = s • w) →
        (l.map fun e => triNormal3 e.1 e.2 (vmean pts)).sum =
          (l.map fun e => triArea3 e.1 e.2 (vmean pts)).sum • w := by
      intro l
      induction l with
      | nil => intro _; simp
      | cons x l ih =>
        intro hl
        obtain ⟨s, hs, hx⟩ := hl x (by simp)
        have ha : triArea3 x.1 x.2 (vmean pts) = s := by
          rw [triArea3_eq, hx, magnitude_smul, hw, abs_of_nonneg hs, mul_one]
        simp only [List.map_cons, List.sum_cons, ih fun e he => hl e (by simp [he]), hx, ha, add_smul]
    apply this
    rintro ⟨p, q⟩ he
    have hm := List.of_mem_zip he
    exact hfan p hm.1 q (List.mem_rotate.1 hm.2) he
  have hA : 0 ≤ cyc (fun p q => triArea3 p q (vmean pts)) pts := by
    rw [cyc_edges]
    apply List.sum_nonneg
    intro x hx
    obtain ⟨e, _, rfl⟩ := List.mem_map.1 hx
    rw [triArea3_eq]; exact (C32_magnitude _ 0 0).2.1
  refine ⟨_, _, by rw [areaIter3_eq, if_pos h], by rw [(C35_normal pts 0 []).1, if_pos h], e, ?_⟩
  rw [e, magnitude_smul, hw, abs_of_nonneg hA, mul_one]

/-- the unit square -/
example : ∃ A n, areaIter3 [![0, 0, 0], ![1, 0, 0], ![1, 1, 0], (![0, 1, 0] : Vec 3 ℝ)] = .ok A ∧
    normalIter3 [![0, 0, 0], ![1, 0, 0], ![1, 1, 0], ![0, 1, 0]] = .ok n ∧ n = A • ![0, 0, 1] ∧ magnitude n = A := by
  refine C35_area_eq_normal _ (by simp) ![0, 0, 1] (by simp [magnitude, forLoop_sum, Fin.sum_univ_three]) ?_
  intro p _ q _ hpq
  simp only [edges, List.rotate_cons_succ, List.rotate_zero, List.cons_append, List.nil_append, List.zip_cons_cons,
    List.zip_nil_right, List.mem_cons, Prod.mk.injEq, List.not_mem_nil, or_false] at hpq
  refine ⟨1 / 4, by norm_num, ?_⟩
  rcases hpq with ⟨rfl, rfl⟩ | ⟨rfl, rfl⟩ | ⟨rfl, rfl⟩ | ⟨rfl, rfl⟩ <;>
  · funext i
    fin_cases i <;> simp [triNormal3, cross3, vmean] <;> norm_num

theorem centroidIter3_eq (pts : List (Vec 3 ℝ)) (h : 3 < pts.length) :
    centroidIter3 pts =
      if cyc (fun p q => triArea3 p q (vmean pts)) pts = 0 then .throws "NaN" else
        .ok (divBy (cyc (fun p q => triArea3 p q (vmean pts) • triMid p q (vmean pts)) pts)
          (cyc (fun p q => triArea3 p q (vmean pts)) pts)) := by
  unfold centroidIter3
  have hw := walk_sum (fun p q : Vec 3 ℝ => (triArea3 p q (vmean pts) • triMid p q (vmean pts), triArea3 p q (vmean pts)))
    (0, 0) pts (ne_nil_of_three h)
  have e : (fun (st : Vec 3 ℝ × ℝ) (po pn : Vec 3 ℝ) =>
      let tmpA := triArea3 po pn (vmean pts)
      let tmpC := triMid po pn (vmean pts)
      ((fun d => st.1 d + tmpA * tmpC d, st.2 + tmpA) : Vec 3 ℝ × ℝ)) =
      fun st p q => st + (triArea3 p q (vmean pts) • triMid p q (vmean pts), triArea3 p q (vmean pts)) := by
    funext st p q; rfl
  have e0 : ((fun _ => 0, 0) : Vec 3 ℝ × ℝ) = (0, 0) := rfl
  simp only [gt_iff_lt, h, decide_true, Outcome.assert_true, Outcome.bind_ok,
    averageRange_eq pts (ne_nil_of_three h), e0]
  rw [e, hw]
  have c1 := (cyc_hom (AddMonoidHom.fst (Vec 3 ℝ) ℝ)
    (fun p q : Vec 3 ℝ => (triArea3 p q (vmean pts) • triMid p q (vmean pts), triArea3 p q (vmean pts))) pts).symm
  have c2 := (cyc_hom (AddMonoidHom.snd (Vec 3 ℝ) ℝ)
    (fun p q : Vec 3 ℝ => (triArea3 p q (vmean pts) • triMid p q (vmean pts), triArea3 p q (vmean pts))) pts).symm
  simp only [AddMonoidHom.coe_fst, AddMonoidHom.coe_snd] at c1 c2
  simp only [Outcome.bind_ok, Prod.fst_add, Prod.snd_add, zero_add, c1, c2]

/-- **C35** The centroid of a 3D polygon of non-zero area moves with translations and does not
depend on the starting vertex. -/
theorem C35_centroid (pts : List (Vec 3 ℝ)) (h : 3 < pts.length) (t : Vec 3 ℝ) (k : Nat)
    (hA : areaIter3 pts ≠ .ok 0) :
    centroidIter3 (pts.rotate k) = centroidIter3 pts ∧
      ∃ c, centroidIter3 pts = .ok c ∧ centroidIter3 (pts.map (· + t)) = .ok (c + t) := by
  have hA' : cyc (fun p q => triArea3 p q (vmean pts)) pts ≠ 0 := by
    intro e; apply hA; rw [areaIter3_eq, if_pos h, e]
  constructor
  · rw [centroidIter3_eq _ (by simpa using h), centroidIter3_eq _ h, cyc_rotate, cyc_rotate,
      vmean_perm (List.rotate_perm pts k)]
  · refine ⟨_, by rw [centroidIter3_eq _ h, if_neg hA'], ?_⟩
    rw [centroidIter3_eq _ (by simpa using h), cyc_map, cyc_map, vmean_map_add pts (ne_nil_of_three h) t]
    simp only [triArea3_translate]
    rw [if_neg hA']
    congr 1
    have e1 : cyc (fun p q => triArea3 p q (vmean pts) • triMid (p + t) (q + t) (vmean pts + t)) pts =
        cyc (fun p q => triArea3 p q (vmean pts) • triMid p q (vmean pts)) pts +
          cyc (fun p q => triArea3 p q (vmean pts)) pts • t := by
      have e2 : cyc (fun p q => triArea3 p q (vmean pts)) pts • t =
          cyc (fun p q => triArea3 p q (vmean pts) • t) pts := by
        let φ : ℝ →+ Vec 3 ℝ :=
          { toFun := fun x => x • t, map_zero' := zero_smul _ _, map_add' := fun x y => add_smul x y t }
        exact (cyc_hom φ _ pts).symm
      rw [e2, ← cyc_add]
      refine cyc_congr pts fun p _ q _ => ?_
      funext i
      simp only [triMid, Pi.smul_apply, Pi.add_apply, smul_eq_mul]
      ring
    rw [e1, divBy_eq, divBy_eq, smul_add, smul_smul, inv_mul_cancel₀ hA', one_smul]

/-- the unit square, moved -/
example (t : Vec 3 ℝ) : ∃ c, centroidIter3 [![0, 0, 0], ![1, 0, 0], ![1, 1, 0], (![0, 1, 0] : Vec 3 ℝ)] = .ok c ∧
    centroidIter3 ([![0, 0, 0], ![1, 0, 0], ![1, 1, 0], (![0, 1, 0] : Vec 3 ℝ)].map (· + t)) = .ok (c + t) := by
  refine (C35_centroid _ (by simp) t 0 ?_).2
  obtain ⟨A, n, h, h', h''⟩ := (C35_area [![0, 0, 0], ![1, 0, 0], ![1, 1, 0], (![0, 1, 0] : Vec 3 ℝ)] (by simp) 0 0).2.2.2.2
  rw [(C35_normal _ 0 []).1, if_pos (by simp)] at h'
  have e : vectorArea [![0, 0, 0], ![1, 0, 0], ![1, 1, 0], (![0, 1, 0] : Vec 3 ℝ)] = ![0, 0, 1] := by
    rw [vectorArea_eq]
    funext i
    fin_cases i <;> simp [cyc, cross3] <;> norm_num
  rw [e] at h'
  rw [← Outcome.ok.inj h'] at h''
  rw [h]
  intro e
  rw [Outcome.ok.inj e] at h''
  simp [magnitude, forLoop_sum, Fin.sum_univ_three] at h''
  exact absurd h'' (by norm_num)

end Real

end Verif.Geometry
