import Verif.Geometry.PropsMeasure

/-!
# C37, C38: volumes and centroids of solids against Lebesgue measure
-/

namespace Verif.Geometry
open Verif.Vec MeasureTheory

/-! ## Polyhedra: winding numbers -/

/-- How often the surface winds around `x`: the signed count of the tetrahedra spanned by `o` and the
triangles `p q m` of the surface, `m` the mean of the vertices of the face of the edge `p q`. -/
noncomputable def solidWinding (o : Vec 3 ℝ) (faces : List (List (Vec 3 ℝ))) (x : Vec 3 ℝ) : ℝ :=
  (faces.map fun f => ((edges f).map fun e => signedSimplex ![o, e.1, e.2, vmean f] x).sum).sum

theorem det_cone (o p q m : Vec 3 ℝ) :
    (edgeRows ![o, p, q, m]).det = 2 * dot (triNormal3 (p + -o) (q + -o) (m + -o)) (m + -o) := by
  rw [det_edgeRows3, Matrix.det_fin_three, dot3]
  simp [triNormal3, cross3]
  ring

theorem cone_face (o : Vec 3 ℝ) (f : List (Vec 3 ℝ)) (hf : f ≠ []) :
    cyc (fun p q => dot (triNormal3 (p + -o) (q + -o) (vmean f + -o)) (vmean f + -o)) f =
      faceVol (f.map (· + -o)) := by
  rw [faceVol, vmean_map_add f hf, vectorArea_eq, ← cyc_triNormal3 (vmean f + -o) (f.map (· + -o)), ← cyc_dot, cyc_map]

theorem faceSum_congr {M : Type} [AddCommMonoid M] {g h : List (Vec 3 ℝ) → M} (faces : List (List (Vec 3 ℝ)))
    (H : ∀ f ∈ faces, g f = h f) : faceSum g faces = faceSum h faces := by
  unfold faceSum; rw [List.map_congr_left H]

theorem faceSum_mul_left (c : ℝ) (g : List (Vec 3 ℝ) → ℝ) (faces : List (List (Vec 3 ℝ))) :
    faceSum (fun f => c * g f) faces = c * faceSum g faces := by
  unfold faceSum; rw [List.sum_map_mul_left]

theorem faceSum_add {M : Type} [AddCommMonoid M] (g h : List (Vec 3 ℝ) → M) (faces : List (List (Vec 3 ℝ))) :
    faceSum (fun f => g f + h f) faces = faceSum g faces + faceSum h faces := by
  unfold faceSum; rw [List.sum_map_add]

theorem faceSum_map {M : Type} [AddCommMonoid M] (g : List (Vec 3 ℝ) → M) (φ : List (Vec 3 ℝ) → List (Vec 3 ℝ))
    (faces : List (List (Vec 3 ℝ))) : faceSum g (faces.map φ) = faceSum (fun f => g (φ f)) faces := by
  unfold faceSum; rw [List.map_map]; rfl

theorem integrable_cone (o : Vec 3 ℝ) (f : List (Vec 3 ℝ)) (φ : Vec 3 ℝ → ℝ) (hφ : Continuous φ) :
    Integrable (fun x => ((edges f).map fun e => signedSimplex ![o, e.1, e.2, vmean f] x * φ x).sum) ∧
      ∫ x, ((edges f).map fun e => signedSimplex ![o, e.1, e.2, vmean f] x * φ x).sum =
        ((edges f).map fun e => ∫ x, signedSimplex ![o, e.1, e.2, vmean f] x * φ x).sum :=
  integral_list_sum (edges f) (fun e x => signedSimplex ![o, e.1, e.2, vmean f] x * φ x) fun e _ =>
    integrable_signedSimplex ![o, e.1, e.2, vmean f] φ hφ

theorem integral_solidWinding_mul (o : Vec 3 ℝ) (faces : List (List (Vec 3 ℝ))) (φ : Vec 3 ℝ → ℝ) (hφ : Continuous φ) :
    ∫ x, solidWinding o faces x * φ x =
      faceSum (fun f => cyc (fun p q => ∫ x, signedSimplex ![o, p, q, vmean f] x * φ x) f) faces := by
  have e : ∀ x : Vec 3 ℝ, solidWinding o faces x * φ x =
      (faces.map fun f => ((edges f).map fun e => signedSimplex ![o, e.1, e.2, vmean f] x * φ x).sum).sum := by
    intro x
    rw [solidWinding, ← List.sum_map_mul_right faces _ (φ x)]
    congr 1
    refine List.map_congr_left fun f _ => ?_
    exact (List.sum_map_mul_right (edges f) _ (φ x)).symm
  let g : List (Vec 3 ℝ) → (Fin 3 → ℝ) → ℝ := fun f x =>
    ((edges f).map fun e => signedSimplex ![o, e.1, e.2, vmean f] x * φ x).sum
  have hg : ∀ f ∈ faces, Integrable (g f) := fun f _ => (integrable_cone o f φ hφ).1
  have key := (integral_list_sum faces g hg).2
  have e' : (fun x => solidWinding o faces x * φ x) = fun x => (faces.map fun f => g f x).sum := funext e
  rw [e', key]
  unfold faceSum
  congr 1
  refine List.map_congr_left fun f _ => ?_
  rw [(integrable_cone o f φ hφ).2, cyc_edges]

theorem integral_solidWinding (o : Vec 3 ℝ) (faces : List (List (Vec 3 ℝ))) (hf : ∀ f ∈ faces, f ≠ []) (hc : Closed faces) :
    ∫ x, solidWinding o faces x = faceSum faceVol faces / 3 := by
  have h := integral_solidWinding_mul o faces (fun _ => 1) continuous_const
  simp only [mul_one, integral_signedSimplex] at h
  rw [h, ← faceSum_translate faces hf hc (-o), faceSum_map, div_eq_inv_mul, ← faceSum_mul_left]
  refine faceSum_congr faces fun f hff => ?_
  rw [← cone_face o f (hf f hff), ← cyc_mul_left]
  refine cyc_congr f fun p _ q _ => ?_
  rw [det_cone]
  simp [Nat.factorial]
  ring

/-- circulation along one edge of a vector potential of `x_d (x_d, -x_{d+1}, -x_{d+2}) / 4`, times 24 -/
def circ2 (d : Fin 3) (p q : Vec 3 ℝ) : ℝ :=
  (p (d + 1) * q (d + 2) - p (d + 2) * q (d + 1)) * (p d * p d + p d * q d + q d * q d)

theorem circ2_anti (d : Fin 3) (p q : Vec 3 ℝ) : circ2 d p q = -circ2 d q p := by
  unfold circ2; ring

theorem cone_moment (p q m : Vec 3 ℝ) (d : Fin 3) :
    2 * dot (triNormal3 p q m) m * (p d + q d + m d) =
      (centTri p q m d + -circ2 d p q) + (-circ2 d q m - -circ2 d p m) := by
  fin_cases d <;> simp [triNormal3, cross3, circ2, dot3, centTri] <;> ring

theorem cyc_neg' (g : Vec 3 ℝ → Vec 3 ℝ → ℝ) (f : List (Vec 3 ℝ)) : cyc (fun p q => -g p q) f = -1 * cyc g f := by
  rw [← cyc_mul_left]
  exact cyc_congr f fun p _ q _ => by ring

theorem moment_solidWinding (o : Vec 3 ℝ) (faces : List (List (Vec 3 ℝ))) (hf : ∀ f ∈ faces, f ≠ []) (hc : Closed faces)
    (d : Fin 3) : ∫ x, solidWinding o faces x * x d = faceSum faceCent faces d / 24 := by
  rw [integral_solidWinding_mul o faces (fun x => x d) (continuous_apply d)]
  simp only [moment_signedSimplex]
  have hface : ∀ f ∈ faces, cyc (fun p q : Vec 3 ℝ => (edgeRows ![o, p, q, vmean f]).det / (Nat.factorial 3 : ℝ) *
        ((∑ j, (![o, p, q, vmean f] : Fin 4 → Vec 3 ℝ) j d) / ((3 : ℕ) + 1))) f =
      (1 / 24) * (faceCent (f.map (· + -o)) d) +
        ((-1 / 24) * cyc (fun p q => circ2 d (p + -o) (q + -o)) f + (o d / 3) * faceVol (f.map (· + -o))) := by
    intro f hff
    rw [← cone_face o f (hf f hff), faceCent, vmean_map_add f (hf f hff), cyc_map, cyc_apply]
    have e : ∀ p q : Vec 3 ℝ, (edgeRows ![o, p, q, vmean f]).det / (Nat.factorial 3 : ℝ) *
        ((∑ j, (![o, p, q, vmean f] : Fin 4 → Vec 3 ℝ) j d) / ((3 : ℕ) + 1)) =
        ((1 / 24) * centTri (p + -o) (q + -o) (vmean f + -o) d + (-1 / 24) * circ2 d (p + -o) (q + -o) +
          (o d / 3) * dot (triNormal3 (p + -o) (q + -o) (vmean f + -o)) (vmean f + -o)) +
        ((-1 / 24) * circ2 d (q + -o) (vmean f + -o) - (-1 / 24) * circ2 d (p + -o) (vmean f + -o)) := by
      intro p q
      have h := cone_moment (p + -o) (q + -o) (vmean f + -o) d
      have hs : ∑ j, (![o, p, q, vmean f] : Fin 4 → Vec 3 ℝ) j d = o d + p d + q d + vmean f d := Fin.sum_univ_four _
      rw [det_cone, hs]
      simp only [Pi.add_apply, Pi.neg_apply] at h
      norm_num [Nat.factorial]
      linear_combination (1 / 24) * h
    simp only [e]
    rw [cyc_add_telescope _ (fun x => (-1 / 24) * circ2 d (x + -o) (vmean f + -o)), cyc_add, cyc_add, cyc_mul_left,
      cyc_mul_left, cyc_mul_left, add_assoc]
  have hface' : faceSum (fun f => cyc (fun p q : Vec 3 ℝ => (edgeRows ![o, p, q, vmean f]).det / (Nat.factorial 3 : ℝ) *
        ((∑ j, (![o, p, q, vmean f] : Fin 4 → Vec 3 ℝ) j d) / ((3 : ℕ) + 1))) f) faces = _ := faceSum_congr faces hface
  refine hface'.trans ?_
  rw [faceSum_add, faceSum_add, faceSum_mul_left, faceSum_mul_left, faceSum_mul_left,
    closed_sum faces hc (fun p q => circ2 d (p + -o) (q + -o)) (fun p q => circ2_anti d _ _),
    ← faceSum_map faceVol (List.map (· + -o)), faceSum_translate faces hf hc]
  have h1 : faceSum (fun f => faceCent (f.map (· + -o)) d) faces = faceSum faceCent (faces.map (List.map (· + -o))) d := by
    rw [faceSum_map]
    unfold faceSum
    clear hc hf hface hface'
    induction faces with
    | nil => rfl
    | cons f faces ih => simp only [List.map_cons, List.sum_cons, ih, Pi.add_apply]
  rw [h1, faceSum_cent_translate faces hf hc]
  simp only [Pi.add_apply, Pi.smul_apply, smul_eq_mul, Pi.neg_apply]
  ring

/-- **C38** Any closed polyhedron, convex or not, with faces of any number of vertices, planar or not:
the volume is the absolute value of the integral over space of the winding number of its surface,
whatever the point the winding is counted from. -/
theorem C38_winding (o : Vec 3 ℝ) (faces : List (List (Vec 3 ℝ))) (hf : ∀ f ∈ faces, f ≠ []) (hc : Closed faces) :
    polyVolume faces = .ok |∫ x, solidWinding o faces x| := by
  rw [integral_solidWinding o faces hf hc, polyVolume_eq, if_pos hf, abs_div, abs_of_pos (three_pos : (0 : ℝ) < 3)]

/-- **C38** The centroid of any closed polyhedron of non-zero volume is the mean position weighted by
the winding number. -/
theorem C38_winding_centroid (o : Vec 3 ℝ) (faces : List (List (Vec 3 ℝ))) (hf : ∀ f ∈ faces, f ≠ []) (hc : Closed faces)
    (hv : polyVolume faces ≠ .ok 0) :
    polyCentroid faces = .ok fun k => (∫ x, solidWinding o faces x * x k) / ∫ x, solidWinding o faces x := by
  have h0 : faceSum faceVol faces ≠ 0 := by
    intro e; apply hv; rw [polyVolume_eq, if_pos hf, e]; simp
  have h8 : 8 * faceSum faceVol faces ≠ 0 := mul_ne_zero (by norm_num) h0
  rw [polyCentroid_eq, if_pos hf, divOrNaN, if_neg h8, divBy_eq]
  congr 1
  funext k
  rw [integral_solidWinding o faces hf hc, moment_solidWinding o faces hf hc, Pi.smul_apply, smul_eq_mul]
  field_simp
  ring

/-- a tetrahedron seen from any point (`C38_winding`, `C38_winding_centroid`) -/
example (o : Vec 3 ℝ) : polyVolume (tetFaces ![![0, 0, 0], ![1, 0, 0], ![0, 1, 0], (![0, 0, 1] : Vec 3 ℝ)]) =
      .ok |∫ x, solidWinding o (tetFaces ![![0, 0, 0], ![1, 0, 0], ![0, 1, 0], (![0, 0, 1] : Vec 3 ℝ)]) x| ∧
    ∃ c, polyCentroid (tetFaces ![![0, 0, 0], ![1, 0, 0], ![0, 1, 0], (![0, 0, 1] : Vec 3 ℝ)]) = .ok c :=
  ⟨C38_winding o _ (by simp [tetFaces]) (tetFaces_closed _), _, C38_winding_centroid o _ (by simp [tetFaces])
    (tetFaces_closed _) (by rw [C38_tetrahedron]; simp [tetVolume, tetDet])⟩

/-- **C38** A closed surface that winds once around the points of a set `S` (inwards or outwards) and
not around the others has the Lebesgue measure of `S` as its volume. -/
theorem C38_region (o : Vec 3 ℝ) (faces : List (List (Vec 3 ℝ))) (hf : ∀ f ∈ faces, f ≠ []) (hc : Closed faces)
    (S : Set (Vec 3 ℝ)) (hS : MeasurableSet S)
    (hw : (solidWinding o faces =ᵐ[volume] S.indicator 1) ∨ (solidWinding o faces =ᵐ[volume] fun x => -S.indicator 1 x)) :
    polyVolume faces = .ok (volume.real S) := by
  rw [C38_winding o faces hf hc]
  rcases hw with hw | hw
  · rw [integral_congr_ae hw, integral_indicator_one hS, abs_of_nonneg measureReal_nonneg]
  · rw [integral_congr_ae hw, integral_neg, integral_indicator_one hS, abs_neg, abs_of_nonneg measureReal_nonneg]

/-- **C38** In that case the centroid is the centre of mass of `S`. -/
theorem C38_region_centroid (o : Vec 3 ℝ) (faces : List (List (Vec 3 ℝ))) (hf : ∀ f ∈ faces, f ≠ []) (hc : Closed faces)
    (S : Set (Vec 3 ℝ)) (hS : MeasurableSet S)
    (hw : (solidWinding o faces =ᵐ[volume] S.indicator 1) ∨ (solidWinding o faces =ᵐ[volume] fun x => -S.indicator 1 x))
    (h0 : volume.real S ≠ 0) : polyCentroid faces = .ok fun k => ⨍ x in S, x k := by
  have hv : polyVolume faces ≠ .ok 0 := by
    rw [C38_region o faces hf hc S hS hw]; simpa using h0
  rw [C38_winding_centroid o faces hf hc hv]
  congr 1
  funext k
  have e : ∀ x : Vec 3 ℝ, S.indicator 1 x * x k = S.indicator (fun x => x k) x := by
    intro x; by_cases hx : x ∈ S <;> simp [hx]
  rw [setAverage_eq, smul_eq_mul, div_eq_inv_mul]
  rcases hw with hw | hw
  · have hw' : (fun x => solidWinding o faces x * x k) =ᵐ[volume] S.indicator (fun x => x k) := by
      filter_upwards [hw] with x hx
      rw [hx, e]
    rw [integral_congr_ae hw, integral_congr_ae hw', integral_indicator_one hS, integral_indicator hS]
  · have hw' : (fun x => solidWinding o faces x * x k) =ᵐ[volume] fun x => -S.indicator (fun x => x k) x := by
      filter_upwards [hw] with x hx
      rw [hx, neg_mul, e]
    rw [integral_congr_ae hw, integral_congr_ae hw', integral_neg, integral_neg, integral_indicator_one hS,
      integral_indicator hS, inv_neg, neg_mul_neg]

/-- the tetrahedra spanned by `o` and the triangles of the surface -/
noncomputable def cones (o : Vec 3 ℝ) (faces : List (List (Vec 3 ℝ))) : List (Fin 4 → Vec 3 ℝ) :=
  faces.flatMap fun f => (edges f).map fun e => ![o, e.1, e.2, vmean f]

theorem solidWinding_eq (o : Vec 3 ℝ) (faces : List (List (Vec 3 ℝ))) :
    solidWinding o faces = fun x => ((cones o faces).map fun p => signedSimplex p x).sum := by
  funext x
  unfold solidWinding cones
  induction faces with
  | nil => rfl
  | cons f faces ih =>
    rw [List.map_cons, List.sum_cons, ih, List.flatMap_cons, List.map_append, List.sum_append, List.map_map]
    rfl

theorem measurableSet_union {n : ℕ} (l : List (Fin (n + 1) → Fin n → ℝ)) :
    MeasurableSet (⋃ p ∈ l, convexHull ℝ (Set.range p)) :=
  MeasurableSet.biUnion (List.finite_toSet l).countable fun p _ => (isCompact_simplex p).measurableSet

/-- Star-shaped solids below (`C38_star`) are cases of `C38_region` and `C38_region_centroid`. -/
example (o : Vec 3 ℝ) (faces : List (List (Vec 3 ℝ))) (h : cones o faces = []) (hf : ∀ f ∈ faces, f ≠ []) (hc : Closed faces) :
    polyVolume faces = .ok 0 := by
  rw [C38_region o faces hf hc ∅ MeasurableSet.empty (Or.inl (by rw [solidWinding_eq, h]; simp))]
  simp

/-- **C38** Star-shaped closed polyhedra: when the tetrahedra spanned by a point `o` and the triangles
of the surface are numbered the same way round and overlap in null sets only, the volume is the
Lebesgue measure of the solid they fill and the centroid is its centre of mass. -/
theorem C38_star (o : Vec 3 ℝ) (faces : List (List (Vec 3 ℝ))) (hf : ∀ f ∈ faces, f ≠ []) (hc : Closed faces)
    (hpos : ∀ p ∈ cones o faces, 0 ≤ Matrix.det (Matrix.of ![p 1 - p 0, p 2 - p 0, p 3 - p 0]))
    (hd : (cones o faces).Pairwise fun p q => AEDisjoint volume (convexHull ℝ (Set.range p)) (convexHull ℝ (Set.range q))) :
    polyVolume faces = .ok (volume.real (⋃ p ∈ cones o faces, convexHull ℝ (Set.range p))) ∧
      (volume.real (⋃ p ∈ cones o faces, convexHull ℝ (Set.range p)) ≠ 0 →
        polyCentroid faces = .ok fun k => ⨍ x in ⋃ p ∈ cones o faces, convexHull ℝ (Set.range p), x k) := by
  have hpos' : ∀ p ∈ cones o faces, 0 ≤ (edgeRows p).det := by
    intro p hp
    have e : p = ![p 0, p 1, p 2, p 3] := by
      funext i; fin_cases i <;> rfl
    rw [e, det_edgeRows3]
    exact hpos p hp
  have hw : solidWinding o faces =ᵐ[volume] (⋃ p ∈ cones o faces, convexHull ℝ (Set.range p)).indicator 1 := by
    rw [solidWinding_eq]
    exact signed_union (cones o faces) hpos' hd
  exact ⟨C38_region o faces hf hc _ (measurableSet_union _) (Or.inl hw),
    C38_region_centroid o faces hf hc _ (measurableSet_union _) (Or.inl hw)⟩

/-! ### The unit tetrahedron, seen from its corner at the origin -/

/-- its vertices -/
def unitTet : Fin 4 → Vec 3 ℝ := ![![0, 0, 0], ![1, 0, 0], ![0, 1, 0], ![0, 0, 1]]

theorem volume_plane (i j : Fin 3) (h : i ≠ j) : volume {x : Fin 3 → ℝ | x i = x j} = 0 := by
  let φ : (Fin 3 → ℝ) →ₗ[ℝ] ℝ :=
    (LinearMap.proj i : (Fin 3 → ℝ) →ₗ[ℝ] ℝ) - (LinearMap.proj j : (Fin 3 → ℝ) →ₗ[ℝ] ℝ)
  have : {x : Fin 3 → ℝ | x i = x j} = ((LinearMap.ker φ : Submodule ℝ (Fin 3 → ℝ)) : Set (Fin 3 → ℝ)) := by
    ext x
    simp [φ, sub_eq_zero]
  rw [this]
  apply Measure.addHaar_submodule
  intro htop
  have hx : (Pi.single i 1 : Fin 3 → ℝ) ∈ LinearMap.ker φ := by rw [htop]; trivial
  simp [φ, Pi.single_eq_of_ne (Ne.symm h)] at hx

theorem unitTet_sides (i j : Fin 3) (l : Fin 4 → Vec 3 ℝ) (h : ∀ a, l a i ≤ l a j) :
    convexHull ℝ (Set.range l) ⊆ {x | x i ≤ x j} := by
  apply convexHull_min
  · rintro _ ⟨a, rfl⟩
    exact h a
  · intro x hx y hy s t hs ht hst
    show s * x i + t * y i ≤ s * x j + t * y j
    exact add_le_add (mul_le_mul_of_nonneg_left hx hs) (mul_le_mul_of_nonneg_left hy ht)

theorem aedisjoint_of_sides (i j : Fin 3) (hij : i ≠ j) (l r : Fin 4 → Vec 3 ℝ) (hl : ∀ a, l a i ≤ l a j)
    (hr : ∀ a, r a j ≤ r a i) : AEDisjoint volume (convexHull ℝ (Set.range l)) (convexHull ℝ (Set.range r)) := by
  refine measure_mono_null ?_ (volume_plane i j hij)
  rintro x ⟨h1, h2⟩
  exact le_antisymm (unitTet_sides i j l hl h1) (unitTet_sides j i r hr h2)

/-- six times the signed volume -/
noncomputable def det4 (p : Fin 4 → Vec 3 ℝ) : ℝ := Matrix.det (Matrix.of ![p 1 - p 0, p 2 - p 0, p 3 - p 0])

theorem aedisjoint_of_det {l r : Fin 4 → Vec 3 ℝ} (h : det4 r = 0) :
    AEDisjoint volume (convexHull ℝ (Set.range l)) (convexHull ℝ (Set.range r)) := by
  refine measure_mono_null Set.inter_subset_right ?_
  have e : r = ![r 0, r 1, r 2, r 3] := by
    funext i; fin_cases i <;> rfl
  have e2 : (edgeRows r).det = det4 r := by
    conv_lhs => rw [e]
    rw [det_edgeRows3]; rfl
  rw [volume_simplex, e2, h]; simp

theorem pairwise_of_det {R : (Fin 4 → Vec 3 ℝ) → (Fin 4 → Vec 3 ℝ) → Prop} (hR : ∀ l r, det4 l = 0 ∨ det4 r = 0 → R l r)
    (A B C : List (Fin 4 → Vec 3 ℝ)) (hA : ∀ p ∈ A, det4 p = 0) (hC : ∀ p ∈ C, det4 p = 0) (hB : B.Pairwise R) :
    (A ++ (B ++ C)).Pairwise R := by
  rw [List.pairwise_append, List.pairwise_append]
  refine ⟨List.pairwise_of_forall_mem_list fun a ha b _ => hR a b (Or.inl (hA a ha)), ⟨hB,
    List.pairwise_of_forall_mem_list fun a ha b _ => hR a b (Or.inl (hC a ha)), fun a _ b hb => hR a b (Or.inr (hC b hb))⟩,
    fun a ha b _ => hR a b (Or.inl (hA a ha))⟩

theorem unitTet_cones : cones 0 (tetFaces unitTet) =
    [![0, ![0, 0, 0], ![0, 1, 0], ![1 / 3, 1 / 3, 0]], ![0, ![0, 1, 0], ![1, 0, 0], ![1 / 3, 1 / 3, 0]],
      ![0, ![1, 0, 0], ![0, 0, 0], ![1 / 3, 1 / 3, 0]], ![0, ![0, 0, 0], ![1, 0, 0], ![1 / 3, 0, 1 / 3]],
      ![0, ![1, 0, 0], ![0, 0, 1], ![1 / 3, 0, 1 / 3]], ![0, ![0, 0, 1], ![0, 0, 0], ![1 / 3, 0, 1 / 3]]] ++
    ([![0, ![1, 0, 0], ![0, 1, 0], ![1 / 3, 1 / 3, 1 / 3]], ![0, ![0, 1, 0], ![0, 0, 1], ![1 / 3, 1 / 3, 1 / 3]],
      ![0, ![0, 0, 1], ![1, 0, 0], ![1 / 3, 1 / 3, 1 / 3]]] ++
    [![0, ![0, 0, 0], ![0, 0, 1], ![0, 1 / 3, 1 / 3]], ![0, ![0, 0, 1], ![0, 1, 0], ![0, 1 / 3, 1 / 3]],
      ![0, ![0, 1, 0], ![0, 0, 0], ![0, 1 / 3, 1 / 3]]]) := by
  have m1 : vmean [![0, 0, 0], ![0, 1, 0], (![1, 0, 0] : Vec 3 ℝ)] = ![1 / 3, 1 / 3, 0] := by
    funext i; fin_cases i <;> norm_num [vmean]
  have m2 : vmean [![0, 0, 0], ![1, 0, 0], (![0, 0, 1] : Vec 3 ℝ)] = ![1 / 3, 0, 1 / 3] := by
    funext i; fin_cases i <;> norm_num [vmean]
  have m3 : vmean [![1, 0, 0], ![0, 1, 0], (![0, 0, 1] : Vec 3 ℝ)] = ![1 / 3, 1 / 3, 1 / 3] := by
    funext i; fin_cases i <;> norm_num [vmean]
  have m4 : vmean [![0, 0, 0], ![0, 0, 1], (![0, 1, 0] : Vec 3 ℝ)] = ![0, 1 / 3, 1 / 3] := by
    funext i; fin_cases i <;> norm_num [vmean]
  have t : tetFaces unitTet = [[![0, 0, 0], ![0, 1, 0], ![1, 0, 0]], [![0, 0, 0], ![1, 0, 0], ![0, 0, 1]],
      [![1, 0, 0], ![0, 1, 0], ![0, 0, 1]], [![0, 0, 0], ![0, 0, 1], ![0, 1, 0]]] := rfl
  simp only [cones, t, List.flatMap_cons, List.flatMap_nil, m1, m2, m3, m4, edges, List.rotate_cons_succ, List.rotate_zero,
    List.cons_append, List.nil_append, List.append_nil, List.zip_cons_cons, List.zip_nil_left, List.map_cons, List.map_nil]

example : ∃ S : Set (Vec 3 ℝ), polyVolume (tetFaces unitTet) = .ok (volume.real S) ∧
    polyCentroid (tetFaces unitTet) = .ok fun k => ⨍ x in S, x k := by
  have h0 : ∀ p ∈ [![0, ![0, 0, 0], ![0, 1, 0], ![1 / 3, 1 / 3, 0]], ![0, ![0, 1, 0], ![1, 0, 0], ![1 / 3, 1 / 3, 0]],
      ![0, ![1, 0, 0], ![0, 0, 0], ![1 / 3, 1 / 3, 0]], ![0, ![0, 0, 0], ![1, 0, 0], ![1 / 3, 0, 1 / 3]],
      ![0, ![1, 0, 0], ![0, 0, 1], ![1 / 3, 0, 1 / 3]], (![0, ![0, 0, 1], ![0, 0, 0], ![1 / 3, 0, 1 / 3]] : Fin 4 → Vec 3 ℝ)],
      det4 p = 0 := by
    simp only [List.mem_cons, List.not_mem_nil, or_false]
    rintro p (rfl | rfl | rfl | rfl | rfl | rfl) <;> simp [det4, Matrix.det_fin_three]
  have h1 : ∀ p ∈ [![0, ![0, 0, 0], ![0, 0, 1], ![0, 1 / 3, 1 / 3]], ![0, ![0, 0, 1], ![0, 1, 0], ![0, 1 / 3, 1 / 3]],
      (![0, ![0, 1, 0], ![0, 0, 0], ![0, 1 / 3, 1 / 3]] : Fin 4 → Vec 3 ℝ)], det4 p = 0 := by
    simp only [List.mem_cons, List.not_mem_nil, or_false]
    rintro p (rfl | rfl | rfl) <;> simp [det4, Matrix.det_fin_three]
  have h := C38_star 0 (tetFaces unitTet) (by simp [tetFaces]) (tetFaces_closed _) (by
    rw [unitTet_cones]
    intro p hp
    rcases List.mem_append.1 hp with hp | hp
    · exact (h0 p hp).ge
    rcases List.mem_append.1 hp with hp | hp
    · simp only [List.mem_cons, List.not_mem_nil, or_false] at hp
      rcases hp with rfl | rfl | rfl <;> simp [Matrix.det_fin_three]
    · exact (h1 p hp).ge) (by
    rw [unitTet_cones]
    apply pairwise_of_det _ _ _ _ h0 h1
    · simp only [List.pairwise_cons, List.mem_cons, List.not_mem_nil, or_false, forall_eq_or_imp, forall_eq,
        IsEmpty.forall_iff, implies_true, List.Pairwise.nil, and_true]
      refine ⟨⟨?_, ?_⟩, ?_⟩
      · exact aedisjoint_of_sides 2 0 (by decide) _ _ (by intro a; fin_cases a <;> simp) (by intro a; fin_cases a <;> simp)
      · exact aedisjoint_of_sides 2 1 (by decide) _ _ (by intro a; fin_cases a <;> simp) (by intro a; fin_cases a <;> simp)
      · exact aedisjoint_of_sides 0 1 (by decide) _ _ (by intro a; fin_cases a <;> simp) (by intro a; fin_cases a <;> simp)
    · intro l r hlr
      rcases hlr with h | h
      · exact (aedisjoint_of_det h).symm
      · exact aedisjoint_of_det h)
  refine ⟨_, h.1, h.2 ?_⟩
  have h2 := h.1
  rw [C38_tetrahedron] at h2
  injection h2 with h2
  rw [← h2]
  simp [tetVolume, tetDet, unitTet]

end Verif.Geometry
