import Verif.Geometry.PropsHex

/-!
# C38: the midpoint of a polyhedron, C30: the magnitude of the cross product
-/

namespace Verif.Geometry
open Verif.Vec

section
variable {K : Type} [Field K] [DecidableEq K]

omit [DecidableEq K] in
theorem midLoop_eq (faces : List (List (Vec 3 K))) (hf : ∀ f ∈ faces, f ≠ []) (c : Vec 3 K) :
    faces.foldl (fun (cx : Outcome (Vec 3 K)) points => do
      let cx ← cx
      let xm ← averageRangePts points
      .ok (addTo cx xm)) (.ok c) = .ok (c + (faces.map vmean).sum) := by
  induction faces generalizing c with
  | nil => simp
  | cons f faces ih =>
    rw [List.foldl_cons]
    simp only [Outcome.bind_ok, averageRange_eq f (hf f (by simp))]
    rw [addTo_eq, ih (fun g hg => hf g (List.mem_cons_of_mem _ hg)), List.map_cons, List.sum_cons, add_assoc]

theorem polyMidpoint_eq [CharZero K] (faces : List (List (Vec 3 K))) (h0 : faces ≠ []) (hf : ∀ f ∈ faces, f ≠ []) :
    polyMidpoint faces = .ok (vmean (faces.map vmean)) := by
  have e : (fun _ => 0 : Vec 3 K) = 0 := rfl
  have hn : (faces.length : K) ≠ 0 := by
    have := List.length_pos_iff.2 h0
    exact Nat.cast_ne_zero.2 (by omega)
  unfold polyMidpoint
  rw [e, midLoop_eq faces hf 0]
  simp only [Outcome.bind_ok, zero_add, divOrNaN, if_neg hn, divBy_eq, vmean, List.length_map]

/-- **C38** The midpoint of a polyhedron is the mean over the faces of the means over their
vertices: in each coordinate, for every number of faces and vertices. -/
theorem C38_midpoint [CharZero K] (faces : List (List (Vec 3 K))) (h0 : faces ≠ []) (hf : ∀ f ∈ faces, f ≠ []) :
    polyMidpoint faces = .ok fun d =>
      ((faces.map fun f => (f.map fun p => p d).sum / (f.length : K)).sum) / (faces.length : K) := by
  have hsum : ∀ (l : List (Vec 3 K)) (d : Fin 3), l.sum d = (l.map fun p => p d).sum := by
    intro l d
    induction l with
    | nil => rfl
    | cons a l ih => rw [List.sum_cons, List.map_cons, List.sum_cons, Pi.add_apply, ih]
  rw [polyMidpoint_eq faces h0 hf]
  congr 1
  funext d
  rw [vmean, Pi.smul_apply, smul_eq_mul, hsum, List.map_map, List.length_map, div_eq_inv_mul]
  congr 3
  funext f
  simp only [Function.comp, vmean, Pi.smul_apply, smul_eq_mul, hsum, div_eq_inv_mul]

/-- two triangles sharing an edge -/
example : polyMidpoint [[![0, 0, 0], ![3, 0, 0], ![0, 3, 0]], [![0, 0, 0], ![0, 3, 0], (![0, 0, 6] : Vec 3 ℚ)]] =
    .ok ![1 / 2, 1, 1] := by
  rw [C38_midpoint _ (by simp) (by simp)]
  congr 1
  funext d
  fin_cases d <;> norm_num

/-- **C38** It exists exactly if there is a face and every face has a vertex. -/
theorem C38_midpoint_iff [CharZero K] (faces : List (List (Vec 3 K))) :
    (∃ c, polyMidpoint faces = .ok c) ↔ faces ≠ [] ∧ ∀ f ∈ faces, f ≠ [] := by
  constructor
  · rintro ⟨c, hc⟩
    have bad : ∀ (l : List (List (Vec 3 K))), l.foldl (fun (cx : Outcome (Vec 3 K)) points => do
        let cx ← cx
        let xm ← averageRangePts points
        .ok (addTo cx xm)) .assertFail = .assertFail := by
      intro l
      induction l with
      | nil => rfl
      | cons f l ih => rw [List.foldl_cons]; simpa using ih
    have loop : ∀ (l : List (List (Vec 3 K))) (x : Vec 3 K) {c : Vec 3 K}, l.foldl (fun (cx : Outcome (Vec 3 K)) points => do
        let cx ← cx
        let xm ← averageRangePts points
        .ok (addTo cx xm)) (.ok x) = .ok c → ∀ f ∈ l, f ≠ [] := by
      intro l
      induction l with
      | nil => intro x c _ f hf; cases hf
      | cons g l ih =>
        intro x c h f hf
        rw [List.foldl_cons] at h
        by_cases hg : g = []
        · subst hg
          have e : averageRangePts ([] : List (Vec 3 K)) = .assertFail := by simp [averageRangePts]
          simp only [Outcome.bind_ok, e, Outcome.bind_assertFail] at h
          rw [bad] at h
          cases h
        · simp only [Outcome.bind_ok, averageRange_eq g hg] at h
          rcases List.mem_cons.mp hf with rfl | hf
          · exact hg
          · exact ih _ h f hf
    constructor
    · rintro rfl
      simp [polyMidpoint, divOrNaN] at hc
    · unfold polyMidpoint at hc
      cases hl : (faces.foldl (fun (cx : Outcome (Vec 3 K)) points => do
        let cx ← cx
        let xm ← averageRangePts points
        .ok (addTo cx xm)) (.ok (fun _ => 0)) : Outcome (Vec 3 K)) with
      | ok x => exact loop faces _ hl
      | _ => rw [hl] at hc; cases hc
  · rintro ⟨h0, hf⟩
    exact ⟨_, polyMidpoint_eq faces h0 hf⟩

/-- a face without vertices -/
example : ¬ ∃ c, polyMidpoint [[![0, 0, 0]], ([] : List (Vec 3 ℚ))] = .ok c := by
  rw [C38_midpoint_iff]; simp

/-- **C38** The midpoint depends on no order of the faces and of the vertices in each face, and
moves with the polyhedron under every affine map. -/
theorem C38_midpoint_order [CharZero K] (faces faces' : List (List (Vec 3 K))) (h0 : faces ≠ []) (hf : ∀ f ∈ faces, f ≠ [])
    (h : faces.Perm faces') (g : List (Vec 3 K) → List (Vec 3 K)) (hg : ∀ f, (g f).Perm f)
    (A : Vec 3 K →ₗ[K] Vec 3 K) (t : Vec 3 K) :
    ∃ c, polyMidpoint faces = .ok c ∧ polyMidpoint faces' = .ok c ∧ polyMidpoint (faces.map g) = .ok c ∧
      polyMidpoint (faces.map (List.map fun p => A p + t)) = .ok (A c + t) := by
  have hf' : ∀ f ∈ faces', f ≠ [] := fun f hm => hf f (h.mem_iff.2 hm)
  have h0' : faces' ≠ [] := fun e => h0 (by subst e; exact h.eq_nil)
  have vmean_affine : ∀ (l : List (Vec 3 K)), l ≠ [] → vmean (l.map fun p => A p + t) = A (vmean l) + t := by
    intro l hl
    have hn : (l.length : K) ≠ 0 := by
      have := List.length_pos_iff.2 hl
      exact Nat.cast_ne_zero.2 (by omega)
    have : (l.map fun p => A p + t).sum = A l.sum + (l.length : K) • t := by
      clear hl hn
      induction l with
      | nil => simp
      | cons a l ih =>
        rw [List.map_cons, List.sum_cons, ih, List.sum_cons, map_add, List.length_cons, Nat.cast_succ, add_smul, one_smul]
        abel
    rw [vmean, this, List.length_map, smul_add, smul_smul, inv_mul_cancel₀ hn, one_smul, vmean, map_smul]
  refine ⟨_, polyMidpoint_eq faces h0 hf, ?_, ?_, ?_⟩
  · rw [polyMidpoint_eq faces' h0' hf', vmean_perm ((h.map vmean).symm)]
  · rw [polyMidpoint_eq (faces.map g) (by simpa using h0)]
    · rw [List.map_map]
      congr 3
      funext f
      exact vmean_perm (hg f)
    · intro f hm
      obtain ⟨f', hm', rfl⟩ := List.mem_map.mp hm
      intro e
      have := hg f'
      rw [e] at this
      exact hf f' hm' this.symm.eq_nil
  · rw [polyMidpoint_eq _ (by simpa using h0)]
    · rw [← vmean_affine (faces.map vmean) (by simpa using h0), List.map_map, List.map_map]
      congr 2
      refine List.map_congr_left fun f hm => ?_
      exact vmean_affine f (hf f hm)
    · intro f hm
      obtain ⟨f', hm', rfl⟩ := List.mem_map.mp hm
      simpa using hf f' hm'

example : ∃ c, polyMidpoint [[![0, 0, 0]], [(![2, 0, 0] : Vec 3 ℚ)]] = .ok c ∧
    polyMidpoint [[![2, 0, 0]], [(![0, 0, 0] : Vec 3 ℚ)]] = .ok c := by
  obtain ⟨c, h1, h2, -⟩ := C38_midpoint_order [[![0, 0, 0]], [(![2, 0, 0] : Vec 3 ℚ)]] [[![2, 0, 0]], [![0, 0, 0]]]
    (by simp) (by simp) (List.Perm.swap _ _ _) id (fun _ => .refl _) LinearMap.id 0
  exact ⟨c, h1, h2⟩

/-- **C38** For every hexahedron and every tetrahedron given by its faces the midpoint is the mean of
the vertices: what the hexahedron's and the tetrahedron's own midpoint give. -/
theorem C38_midpoint_cells [CharZero K] (p : Fin 8 → Vec 3 K) (q : Fin 4 → Vec 3 K) :
    polyMidpoint (hexFaces p) = .ok (hexMid p) ∧ polyMidpoint (tetFaces q) = .ok (tetMid (q 0) (q 1) (q 2) (q 3)) := by
  constructor
  · rw [C38_midpoint _ (by simp [hexFaces]) (hexFaces_ne p)]
    congr 1
    funext d
    simp [hexFaces, hexMid]
    ring
  · rw [C38_midpoint _ (by simp [tetFaces]) (by simp [tetFaces])]
    congr 1
    funext d
    simp [tetFaces, tetMid]
    ring

end

/-- **C30** In one, two and three dimensions the square of `cross_magnitude` is what is left of the
product of the squared magnitudes after taking away the squared dot product, and `cross_magnitude`
is not negative: it is the area of the parallelogram, whatever the uninitialised temporary held. -/
theorem C30_cross_magnitude (a b : Vec 1 ℝ) (p q : Vec 2 ℝ) (tmp u v : Vec 3 ℝ) :
    (0 ≤ crossMagnitude1 a b ∧ crossMagnitude1 a b ^ 2 = magnitude a ^ 2 * magnitude b ^ 2 - dot a b ^ 2) ∧
    (0 ≤ crossMagnitude2 p q ∧ crossMagnitude2 p q ^ 2 = magnitude p ^ 2 * magnitude q ^ 2 - dot p q ^ 2) ∧
    (0 ≤ crossMagnitude3 tmp u v ∧ crossMagnitude3 tmp u v ^ 2 = magnitude u ^ 2 * magnitude v ^ 2 - dot u v ^ 2) := by
  have hm : ∀ {n : Nat} (x : Vec n ℝ), magnitude x ^ 2 = dot x x := fun x => (C32_magnitude x x 0).1
  obtain ⟨-, -, h3, h2⟩ := C30_space_vector tmp u v p q
  refine ⟨⟨le_refl _, ?_⟩, ⟨by rw [h2]; exact abs_nonneg _, ?_⟩, ⟨by rw [h3]; exact (C32_magnitude _ u 0).2.1, ?_⟩⟩
  · simp only [hm, dot_eq, crossMagnitude1, Fin.sum_univ_one]; ring
  · rw [h2, sq_abs]; simp only [hm, dot_eq, cross2, Fin.sum_univ_two]; ring
  · rw [h3]; simp only [hm, dot_eq, Fin.sum_univ_three]; simp [cross3]; ring

/-- a parallelogram -/
example : crossMagnitude2 ![3, 0] ![(1 : ℝ), 2] ^ 2 = 36 := by
  rw [(C30_cross_magnitude 0 0 ![3, 0] ![1, 2] 0 0 0).2.1.2, (C32_magnitude _ 0 0).1, (C32_magnitude _ 0 0).1]
  simp only [dot_eq, Fin.sum_univ_two]
  norm_num

/-- **C30** Space vectors: a vector made from a point has the coordinates of the point whatever was in
memory, scaling multiplies every coordinate, the dot product is symmetric, linear and positive, the
square of the magnitude is the dot product with itself, and scaling scales the magnitude. -/
theorem C30_space_vector_algebra {n : Nat} (m p q r : Vec n ℝ) (s : ℝ) :
    (∀ i, pointToVector m p i = p i) ∧ (∀ i, svScale p s i = s * p i) ∧
      svDot p q = ∑ i, p i * q i ∧ svDot p q = svDot q p ∧ svDot (svScale p s) q = s * svDot p q ∧
      svDot (p + r) q = svDot p q + svDot r q ∧ 0 ≤ svMagnitude p ∧ svMagnitude p ^ 2 = svDot p p ∧
      svMagnitude (svScale p s) = |s| * svMagnitude p ∧ (svMagnitude p = 0 ↔ ∀ i, p i = 0) := by
  have hd : ∀ x y : Vec n ℝ, svDot x y = ∑ i, x i * y i := fun x y => dot_eq x y
  have hsc : ∀ x : Vec n ℝ, svScale x s = s • x := fun x => forLoop_fill _ _
  have hm : ∀ x : Vec n ℝ, svMagnitude x = Real.sqrt (∑ i, x i * x i) := fun x => congrArg Real.sqrt (dot_eq x x)
  have hp : ∀ x : Vec n ℝ, 0 ≤ ∑ i, x i * x i := fun x => Finset.sum_nonneg fun i _ => mul_self_nonneg _
  refine ⟨fun i => congrFun (forLoop_fill p m) i, fun i => by rw [hsc]; rfl, hd p q, ?_, ?_, ?_, ?_, ?_, ?_, ?_⟩
  · rw [hd, hd]; exact Finset.sum_congr rfl fun i _ => mul_comm _ _
  · rw [hsc, hd, hd, Finset.mul_sum]; exact Finset.sum_congr rfl fun i _ => by simp [mul_assoc]
  · rw [hd, hd, hd, ← Finset.sum_add_distrib]; exact Finset.sum_congr rfl fun i _ => by simp [add_mul]
  · rw [hm]; exact Real.sqrt_nonneg _
  · rw [hm, Real.sq_sqrt (hp p), hd]
  · rw [hsc, hm, hm, ← Real.sqrt_sq_eq_abs, ← Real.sqrt_mul (sq_nonneg s), Finset.mul_sum]
    congr 1
    exact Finset.sum_congr rfl fun i _ => by simp; ring
  · rw [hm, Real.sqrt_eq_zero (hp p), Finset.sum_eq_zero_iff_of_nonneg fun i _ => mul_self_nonneg _]
    simp

example : svMagnitude (svScale ![3, (4 : ℝ)] (-2)) = 2 * svMagnitude ![3, (4 : ℝ)] := by
  rw [(C30_space_vector_algebra 0 ![3, (4 : ℝ)] 0 0 (-2)).2.2.2.2.2.2.2.2.1]; norm_num

end Verif.Geometry
