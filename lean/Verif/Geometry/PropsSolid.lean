import Verif.Geometry.Props3D
import Mathlib.LinearAlgebra.Matrix.Determinant.Basic
import Mathlib.LinearAlgebra.Matrix.ToLinearEquiv

/-!
# C36 (tetrahedron), C37 (hexahedron), C38 (polyhedron)
-/

namespace Verif.Geometry
open Verif.Vec

/-! ## C36 -/

section
variable {K : Type} [Field K]

/-- the matrix of the edge vectors from the first vertex -/
def edgeMatrix (p : Fin 4 → Vec 3 K) : Matrix (Fin 3) (Fin 3) K := Matrix.of ![p 1 - p 0, p 2 - p 0, p 3 - p 0]

theorem tetDet_eq (p0 p1 p2 p3 : Vec 3 K) :
    tetDet p0 p1 p2 p3 = -triple (p1 - p0) (p2 - p0) (p3 - p0) := by
  simp only [tetDet, triple, Pi.sub_apply]; ring

theorem tetDet_edge (p : Fin 4 → Vec 3 K) : tetDet (p 0) (p 1) (p 2) (p 3) = -(edgeMatrix p).det := by
  rw [tetDet_eq, (C30_triple _ _ _).1]; rfl

/-- rows `(p_i, 1)` -/
def homMatrix (p : Fin 4 → Vec 3 K) : Matrix (Fin 4) (Fin 4) K :=
  Matrix.of fun i => ![p i 0, p i 1, p i 2, 1]

theorem tetDet_hom (p : Fin 4 → Vec 3 K) : tetDet (p 0) (p 1) (p 2) (p 3) = (homMatrix p).det := by
  simp only [homMatrix, Matrix.det_succ_row_zero, Fin.sum_univ_succ, Fin.sum_univ_zero, tetDet]
  simp [Fin.succAbove, Fin.lt_def]
  ring

variable [LinearOrder K] [IsStrictOrderedRing K]

/-- **C36** The volume is a sixth of the absolute determinant of the edge vectors, so it is
non-negative and translation invariant. -/
theorem C36_volume (p : Fin 4 → Vec 3 K) (t : Vec 3 K) :
    tetVolume (p 0) (p 1) (p 2) (p 3) = |(edgeMatrix p).det| / 6 ∧ 0 ≤ tetVolume (p 0) (p 1) (p 2) (p 3) ∧
      tetVolume (p 0 + t) (p 1 + t) (p 2 + t) (p 3 + t) = tetVolume (p 0) (p 1) (p 2) (p 3) := by
  refine ⟨?_, ?_, ?_⟩
  · rw [tetVolume, tetDet_edge, abs_neg]
  · unfold tetVolume; positivity
  · unfold tetVolume
    rw [tetDet_eq, tetDet_eq]
    simp

/-- **C36** Invariance under all permutations of the vertices. -/
theorem C36_permutation (p : Fin 4 → Vec 3 K) (σ : Equiv.Perm (Fin 4)) :
    tetVolume (p (σ 0)) (p (σ 1)) (p (σ 2)) (p (σ 3)) = tetVolume (p 0) (p 1) (p 2) (p 3) := by
  unfold tetVolume
  rw [tetDet_hom p, show tetDet (p (σ 0)) (p (σ 1)) (p (σ 2)) (p (σ 3)) = _ from tetDet_hom (p ∘ σ)]
  have : homMatrix (p ∘ σ) = (homMatrix p).submatrix σ id := by
    ext i j; rfl
  rw [this, Matrix.det_permute, abs_mul]
  have : |((Equiv.Perm.sign σ : ℤ) : K)| = 1 := by
    rcases Int.units_eq_one_or (Equiv.Perm.sign σ) with h | h <;> simp [h]
  rw [this, one_mul]

/-- **C36** A linear map multiplies the volume by the absolute value of its determinant. -/
theorem C36_linear (p : Fin 4 → Vec 3 K) (L : Matrix (Fin 3) (Fin 3) K) :
    tetVolume (L.mulVec (p 0)) (L.mulVec (p 1)) (L.mulVec (p 2)) (L.mulVec (p 3)) =
      |L.det| * tetVolume (p 0) (p 1) (p 2) (p 3) := by
  rw [(C36_volume p 0).1, (C36_volume (fun i => L.mulVec (p i)) 0).1]
  have : edgeMatrix (fun i => L.mulVec (p i)) = edgeMatrix p * L.transpose := by
    ext i j
    have e : ∀ x y : Vec 3 K, (L.mulVec x - L.mulVec y) j = ∑ k, (x - y) k * L j k := by
      intro x y
      rw [← Matrix.mulVec_sub]
      simp only [Matrix.mulVec, dotProduct]
      exact Finset.sum_congr rfl fun k _ => mul_comm _ _
    rw [Matrix.mul_apply]
    simp only [Matrix.transpose_apply]
    fin_cases i
    · exact e _ _
    · exact e _ _
    · exact e _ _
  rw [this, Matrix.det_mul, Matrix.det_transpose, abs_mul]
  ring

/-- **C36** The volume vanishes exactly for coplanar vertices. -/
theorem C36_coplanar (p : Fin 4 → Vec 3 K) :
    tetVolume (p 0) (p 1) (p 2) (p 3) = 0 ↔ ∃ w : Vec 3 K, w ≠ 0 ∧ ∃ c, ∀ i, dot w (p i) = c := by
  rw [(C36_volume p 0).1]
  have h6 : |(edgeMatrix p).det| / 6 = 0 ↔ (edgeMatrix p).det = 0 := by simp
  rw [h6, ← Matrix.exists_mulVec_eq_zero_iff]
  have hr : ∀ w : Vec 3 K, (edgeMatrix p).mulVec w = 0 ↔
      dot w (p 1) = dot w (p 0) ∧ dot w (p 2) = dot w (p 0) ∧ dot w (p 3) = dot w (p 0) := by
    intro w
    have e : ∀ i : Fin 3, (edgeMatrix p).mulVec w i = dot w (p i.succ) - dot w (p 0) := by
      intro i
      simp only [Matrix.mulVec, dotProduct, edgeMatrix, Fin.sum_univ_three, dot3]
      fin_cases i <;> simp <;> ring
    constructor
    · intro h
      refine ⟨?_, ?_, ?_⟩
      · have := e 0; rw [h] at this; exact (sub_eq_zero.1 this.symm)
      · have := e 1; rw [h] at this; exact (sub_eq_zero.1 this.symm)
      · have := e 2; rw [h] at this; exact (sub_eq_zero.1 this.symm)
    · rintro ⟨h1, h2, h3⟩
      funext i
      rw [e]
      fin_cases i
      · exact sub_eq_zero.2 h1
      · exact sub_eq_zero.2 h2
      · exact sub_eq_zero.2 h3
  constructor
  · rintro ⟨w, hw, h⟩
    obtain ⟨h1, h2, h3⟩ := (hr w).1 h
    refine ⟨w, hw, dot w (p 0), fun i => ?_⟩
    fin_cases i
    · rfl
    · exact h1
    · exact h2
    · exact h3
  · rintro ⟨w, hw, c, h⟩
    exact ⟨w, hw, (hr w).2 ⟨(h 1).trans (h 0).symm, (h 2).trans (h 0).symm, (h 3).trans (h 0).symm⟩⟩

omit [LinearOrder K] [IsStrictOrderedRing K] in
/-- **C36** The centroid is the vertex mean and it is equivariant under affine maps. -/
theorem C36_centroid [CharZero K] (p : Fin 4 → Vec 3 K) (L : Matrix (Fin 3) (Fin 3) K) (t : Vec 3 K) :
    tetMid (p 0) (p 1) (p 2) (p 3) = vmean [p 0, p 1, p 2, p 3] ∧
      tetMid (L.mulVec (p 0) + t) (L.mulVec (p 1) + t) (L.mulVec (p 2) + t) (L.mulVec (p 3) + t) =
        L.mulVec (tetMid (p 0) (p 1) (p 2) (p 3)) + t := by
  constructor
  · funext i; simp [tetMid, vmean]; ring
  · funext i
    simp only [tetMid, Pi.add_apply, Matrix.mulVec, dotProduct, Fin.sum_univ_three]
    field_simp
    ring

example : tetVolume ![0, 0, 0] ![1, 0, 0] ![0, 1, 0] (![0, 0, 1] : Vec 3 ℚ) = 1 / 6 := by
  simp [tetVolume, tetDet]

end

/-! ## C38 -/

section
variable {K : Type} [Field K]

/-- Consistently oriented closed surface: every directed edge of a face is matched by the reversed
edge of a face. -/
def Closed (faces : List (List (Vec 3 K))) : Prop :=
  (faces.flatMap edges).Perm ((faces.flatMap edges).map Prod.swap)

/-- sums over faces -/
def faceSum {M : Type} [AddCommMonoid M] (g : List (Vec 3 K) → M) (faces : List (List (Vec 3 K))) : M :=
  (faces.map g).sum

/-- antisymmetric edge sums vanish on a closed surface -/
theorem closed_sum [CharZero K] (faces : List (List (Vec 3 K))) (hc : Closed faces)
    (g : Vec 3 K → Vec 3 K → K) (hg : ∀ p q, g p q = -g q p) : faceSum (cyc g) faces = 0 := by
  have h1 : faceSum (cyc g) faces = ((faces.flatMap edges).map fun e => g e.1 e.2).sum := by
    unfold faceSum
    clear hc
    induction faces with
    | nil => simp
    | cons f faces ih => simp [ih, cyc_edges]
  have h2 : ((faces.flatMap edges).map fun e => g e.1 e.2).sum =
      -((faces.flatMap edges).map fun e => g e.1 e.2).sum := by
    have := (hc.map fun e => g e.1 e.2).sum_eq
    rw [List.map_map] at this
    have h3 : ((fun e : Vec 3 K × Vec 3 K => g e.1 e.2) ∘ Prod.swap) = fun e => -(g e.1 e.2) := by
      funext e; exact hg _ _
    rw [h3] at this
    refine this.trans ?_
    generalize faces.flatMap edges = l
    induction l with
    | nil => simp
    | cons x l ih => simp only [List.map_cons, List.sum_cons, ih]; ring
  rw [h1]
  exact self_eq_neg.1 h2

/-- six times the volume of the cone from the origin over one face, by vertex mean -/
def faceVol (f : List (Vec 3 K)) : K := dot (vectorArea f) (vmean f)

theorem dot_add_left (a b c : Vec n K) : dot (a + b) c = dot a c + dot b c := (C30_dot a b c 0).2.2.1

/-- `dot · c` as an additive map -/
def dotHom (c : Vec n K) : Vec n K →+ K where
  toFun a := dot a c
  map_zero' := by rw [dot_eq]; simp
  map_add' a b := dot_add_left a b c

theorem cyc_dot (f : P → P → Vec 3 K) (c : Vec 3 K) (l : List P) :
    cyc (fun p q => dot (f p q) c) l = dot (cyc f l) c := cyc_hom (dotHom c) f l

theorem volFace_eq (v : K) (f : List (Vec 3 K)) :
    volFace (.ok v) f = if f = [] then .assertFail else .ok (v + faceVol f) := by
  by_cases h : f = []
  · subst h; simp [volFace, averageRangePts]
  · rw [if_neg h]
    simp only [volFace, Outcome.bind_ok, averageRange_eq f h]
    rw [walk_sum (fun p q => dot (triNormal3 p q (vmean f)) (vmean f)) v f h, cyc_dot, cyc_triNormal3]
    unfold faceVol
    rw [vectorArea_eq]

theorem foldl_assertFail (faces : List (List (Vec 3 K))) :
    faces.foldl volFace .assertFail = (.assertFail : Outcome K) := by
  induction faces with
  | nil => rfl
  | cons f faces ih => rw [List.foldl_cons]; simpa [volFace] using ih

theorem volLoop_eq (faces : List (List (Vec 3 K))) (v : K) :
    faces.foldl volFace (.ok v) =
      if (∀ f ∈ faces, f ≠ []) then .ok (v + faceSum faceVol faces) else .assertFail := by
  induction faces generalizing v with
  | nil => simp [faceSum]
  | cons f faces ih =>
    rw [List.foldl_cons, volFace_eq]
    by_cases h : f = []
    · rw [if_pos h, foldl_assertFail, if_neg (by simp [h])]
    · rw [if_neg h, ih]
      simp [h, faceSum, add_assoc]

theorem polyVolume_eq [LinearOrder K] (faces : List (List (Vec 3 K))) :
    polyVolume faces = if (∀ f ∈ faces, f ≠ []) then .ok (|faceSum faceVol faces| / 3) else .assertFail := by
  unfold polyVolume
  rw [volLoop_eq]
  split <;> simp

theorem vectorArea_rotate (f : List (Vec 3 K)) (k : Nat) : vectorArea (f.rotate k) = vectorArea f := by
  rw [vectorArea_eq, vectorArea_eq, cyc_rotate]

theorem vectorArea_reverse (f : List (Vec 3 K)) : vectorArea f.reverse = -vectorArea f := by
  rw [vectorArea_eq, vectorArea_eq, cyc_reverse, ← smul_neg, ← cyc_neg]
  congr 1
  exact cyc_congr f fun p _ q _ => cross3_anti q p

theorem vectorArea_translate (f : List (Vec 3 K)) (t : Vec 3 K) : vectorArea (f.map (· + t)) = vectorArea f := by
  rw [vectorArea_eq, vectorArea_eq, cyc_map, ← cyc_add_telescope (cross3 (K := K)) (fun p => cross3 t p) f]
  congr 1
  exact cyc_congr f fun p _ q _ => by
    funext i; fin_cases i <;> simp [cross3] <;> ring

/-- the vector areas of a closed surface cancel -/
theorem closed_vectorArea [CharZero K] (faces : List (List (Vec 3 K))) (hc : Closed faces) :
    faceSum vectorArea faces = 0 := by
  funext i
  have h := closed_sum faces hc (fun p q => cross3 p q i) (fun p q => by rw [cross3_anti]; rfl)
  have : faceSum vectorArea faces i = (1 / 2 : K) * faceSum (cyc fun p q => cross3 p q i) faces := by
    unfold faceSum
    clear hc h
    induction faces with
    | nil => simp
    | cons f faces ih =>
      simp only [List.map_cons, List.sum_cons, Pi.add_apply, ih, vectorArea_eq, Pi.smul_apply, smul_eq_mul,
        cyc_apply]
      ring
  rw [this, h, mul_zero]; rfl

theorem faceVol_translate [CharZero K] (f : List (Vec 3 K)) (hf : f ≠ []) (t : Vec 3 K) :
    faceVol (f.map (· + t)) = faceVol f + dot (vectorArea f) t := by
  unfold faceVol
  rw [vectorArea_translate, vmean_map_add f hf, (C30_dot (vectorArea f) (vmean f) t 0).2.2.2.1]

theorem faceSum_translate [CharZero K] (faces : List (List (Vec 3 K))) (hf : ∀ f ∈ faces, f ≠ [])
    (hc : Closed faces) (t : Vec 3 K) :
    faceSum faceVol (faces.map (List.map (· + t))) = faceSum faceVol faces := by
  have : faceSum faceVol (faces.map (List.map (· + t))) =
      faceSum faceVol faces + dot (faceSum vectorArea faces) t := by
    unfold faceSum
    clear hc
    induction faces with
    | nil => simp [dot_eq]
    | cons f faces ih =>
      simp only [List.map_cons, List.sum_cons, ih fun g hg => hf g (by simp [hg]),
        faceVol_translate f (hf f (by simp)) t, dot_add_left]
      ring
  rw [this, closed_vectorArea faces hc, dot_eq]; simp

section Volume
variable [LinearOrder K] [IsStrictOrderedRing K]

/-- **C38** The volume of a closed polyhedron does not depend on the origin, for any number of
faces with any number of vertices. -/
theorem C38_volume_origin (faces : List (List (Vec 3 K))) (hc : Closed faces) (t : Vec 3 K) :
    polyVolume (faces.map (List.map (· + t))) = polyVolume faces := by
  rw [polyVolume_eq, polyVolume_eq]
  by_cases hf : ∀ f ∈ faces, f ≠ []
  · rw [if_pos hf, if_pos (by simpa using hf), faceSum_translate faces hf hc t]
  · rw [if_neg hf, if_neg (by simpa using hf)]

/-- **C38** The volume does not depend on the order in which faces were inserted. -/
theorem C38_volume_face_order (faces faces' : List (List (Vec 3 K))) (h : faces.Perm faces') :
    polyVolume faces = polyVolume faces' := by
  rw [polyVolume_eq, polyVolume_eq]
  have : faceSum faceVol faces = faceSum faceVol faces' := (h.map faceVol).sum_eq
  rw [this]
  have : (∀ f ∈ faces, f ≠ []) ↔ (∀ f ∈ faces', f ≠ []) :=
    ⟨fun h' f hf => h' f (h.mem_iff.2 hf), fun h' f hf => h' f (h.mem_iff.1 hf)⟩
  simp only [this]

/-- **C38** The volume does not depend on the starting vertex of each face. -/
theorem C38_volume_start_vertex (faces : List (List (Vec 3 K))) (k : List (Vec 3 K) → Nat) :
    polyVolume (faces.map fun f => f.rotate (k f)) = polyVolume faces := by
  rw [polyVolume_eq, polyVolume_eq]
  have e : faceSum faceVol (faces.map fun f => f.rotate (k f)) = faceSum faceVol faces := by
    unfold faceSum
    rw [List.map_map]
    congr 2
    funext f
    simp only [Function.comp, faceVol, vectorArea_rotate, vmean_perm (List.rotate_perm f (k f))]
  rw [e]
  have : (∀ f ∈ faces.map fun f => f.rotate (k f), f ≠ []) ↔ (∀ f ∈ faces, f ≠ []) := by simp
  simp only [this]

/-- **C38** Reversing all faces (turning the surface inside out) does not change the volume. -/
theorem C38_volume_inside_out (faces : List (List (Vec 3 K))) :
    polyVolume (faces.map List.reverse) = polyVolume faces := by
  rw [polyVolume_eq, polyVolume_eq]
  have e : faceSum faceVol (faces.map List.reverse) = -faceSum faceVol faces := by
    unfold faceSum
    induction faces with
    | nil => simp
    | cons f faces ih =>
      have hneg : ∀ a b : Vec 3 K, dot (-a) b = -dot a b := fun a b => by simp [dot_eq]
      simp only [List.map_cons, List.sum_cons, ih, faceVol, vectorArea_reverse,
        vmean_perm (List.reverse_perm f), hneg]
      ring
  rw [e, abs_neg]
  have : (∀ f ∈ faces.map List.reverse, f ≠ []) ↔ (∀ f ∈ faces, f ≠ []) := by
    simp only [List.forall_mem_map, ne_eq, List.reverse_eq_nil_iff]
  simp only [this]

/-- **C38** Gluing: when two bodies share a face (seen with opposite orientations) and are oriented
alike (their signed volumes `faceSum faceVol` have the same sign), the volume of the union, whose
surface is made of the remaining faces, is the sum of the volumes. -/
theorem C38_gluing (A B : List (List (Vec 3 K))) (f : List (Vec 3 K)) (hA : ∀ g ∈ A, g ≠ [])
    (hB : ∀ g ∈ B, g ≠ []) (hf : f ≠ []) (h1 : 0 ≤ faceSum faceVol (A ++ [f]))
    (h2 : 0 ≤ faceSum faceVol (B ++ [f.reverse])) :
    ∃ v v1 v2, polyVolume (A ++ B) = .ok v ∧ polyVolume (A ++ [f]) = .ok v1 ∧
      polyVolume (B ++ [f.reverse]) = .ok v2 ∧ v = v1 + v2 := by
  have hneg : ∀ a b : Vec 3 K, dot (-a) b = -dot a b := fun a b => by simp [dot_eq]
  have e : faceSum faceVol (A ++ B) = faceSum faceVol (A ++ [f]) + faceSum faceVol (B ++ [f.reverse]) := by
    simp only [faceSum, List.map_append, List.sum_append, List.map_cons, List.map_nil, List.sum_cons,
      List.sum_nil, faceVol, vectorArea_reverse, vmean_perm (List.reverse_perm f), hneg]
    ring
  have hAB : ∀ g ∈ A ++ B, g ≠ [] := by
    intro g hg
    rcases List.mem_append.1 hg with h | h
    · exact hA g h
    · exact hB g h
  have hAf : ∀ g ∈ A ++ [f], g ≠ [] := by
    intro g hg
    rcases List.mem_append.1 hg with h | h
    · exact hA g h
    · simp at h; rw [h]; exact hf
  have hBf : ∀ g ∈ B ++ [f.reverse], g ≠ [] := by
    intro g hg
    rcases List.mem_append.1 hg with h | h
    · exact hB g h
    · simp at h; rw [h]; simpa using hf
  refine ⟨_, _, _, by rw [polyVolume_eq, if_pos hAB], by rw [polyVolume_eq, if_pos hAf],
    by rw [polyVolume_eq, if_pos hBf], ?_⟩
  rw [e, abs_of_nonneg h1, abs_of_nonneg h2, abs_of_nonneg (by linarith)]; ring

/-- the four faces of a tetrahedron, consistently oriented -/
def tetFaces (p : Fin 4 → Vec 3 K) : List (List (Vec 3 K)) :=
  [[p 0, p 2, p 1], [p 0, p 1, p 3], [p 1, p 2, p 3], [p 0, p 3, p 2]]

/-- **C38** For a tetrahedron given by its four faces the volume is the tetrahedron formula. -/
theorem C38_tetrahedron (p : Fin 4 → Vec 3 K) :
    polyVolume (tetFaces p) = .ok (tetVolume (p 0) (p 1) (p 2) (p 3)) := by
  have h : faceSum faceVol (tetFaces p) = -(tetDet (p 0) (p 1) (p 2) (p 3) / 2) := by
    simp only [faceSum, tetFaces, List.map_cons, List.map_nil, List.sum_cons, List.sum_nil, faceVol,
      vectorArea_triangle, add_zero, dot3, vmean, List.length_cons, List.length_nil]
    simp [triNormal3, cross3, tetDet]
    ring
  rw [polyVolume_eq, if_pos (by simp [tetFaces]), h, abs_neg, abs_div, abs_of_pos (two_pos : (0 : K) < 2), tetVolume]
  congr 1
  ring

omit [Field K] [LinearOrder K] [IsStrictOrderedRing K] in
/-- two tetrahedra glued along a face (`C38_gluing`) -/
example : ∃ v v1 v2 : ℚ, polyVolume ([[![0, 0, 0], ![1, 0, 0], ![0, 0, 1]], [![0, 0, 0], ![0, 0, 1], ![0, 1, 0]],
      [![1, 0, 0], ![0, 1, 0], ![0, 0, 1]]] ++ [[![0, 0, 0], ![0, 0, -1], ![1, 0, 0]], [![0, 0, 0], ![0, 1, 0], ![0, 0, -1]],
      [![1, 0, 0], ![0, 0, -1], ![0, 1, 0]]]) = .ok v ∧ v = v1 + v2 := by
  obtain ⟨v, v1, v2, h, -, -, h'⟩ := C38_gluing (K := ℚ) [[![0, 0, 0], ![1, 0, 0], ![0, 0, 1]],
    [![0, 0, 0], ![0, 0, 1], ![0, 1, 0]], [![1, 0, 0], ![0, 1, 0], ![0, 0, 1]]]
    [[![0, 0, 0], ![0, 0, -1], ![1, 0, 0]], [![0, 0, 0], ![0, 1, 0], ![0, 0, -1]], [![1, 0, 0], ![0, 0, -1], ![0, 1, 0]]]
    [![0, 0, 0], ![0, 1, 0], ![1, 0, 0]] (by simp) (by simp) (by simp)
    (by simp [faceSum, faceVol, vectorArea_eq, cyc, cross3, dot_eq, vmean, Fin.sum_univ_three]; norm_num)
    (by simp [faceSum, faceVol, vectorArea_eq, cyc, cross3, dot_eq, vmean, Fin.sum_univ_three]; norm_num)
  exact ⟨v, v1, v2, h, h'⟩

/-- tetrahedra are closed, so the theorems above apply to them -/
theorem tetFaces_closed (p : Fin 4 → Vec 3 K) : Closed (tetFaces p) := by
  classical
  unfold Closed
  rw [List.perm_iff_count]
  intro e
  simp only [tetFaces, List.flatMap_cons, List.flatMap_nil, edges, List.rotate_cons_succ, List.rotate_zero,
    List.cons_append, List.nil_append, List.append_nil, List.zip_cons_cons, List.zip_nil_left, List.map_cons,
    List.map_nil, Prod.swap_prod_mk, List.count_cons, List.count_nil]
  ring

/-- `C38_volume_origin` -/
example (t : Vec 3 ℚ) : polyVolume ((tetFaces ![![0, 0, 0], ![1, 0, 0], ![0, 1, 0], (![0, 0, 1] : Vec 3 ℚ)]).map (List.map (· + t))) =
    polyVolume (tetFaces ![![0, 0, 0], ![1, 0, 0], ![0, 1, 0], ![0, 0, 1]]) :=
  C38_volume_origin _ (tetFaces_closed _) t

/-- the order of the faces of a tetrahedron (`C38_volume_face_order`) -/
example : polyVolume (tetFaces ![![0, 0, 0], ![1, 0, 0], ![0, 1, 0], (![0, 0, 1] : Vec 3 ℚ)]) =
    polyVolume (tetFaces ![![0, 0, 0], ![1, 0, 0], ![0, 1, 0], (![0, 0, 1] : Vec 3 ℚ)]).reverse :=
  C38_volume_face_order _ _ (List.reverse_perm _).symm

end Volume

/-! ### Centroids of polyhedra -/

/-- contribution of one triangle to the centroid sum -/
def centTri (p q m : Vec 3 K) : Vec 3 K := fun d =>
  ((p d + q d) * (p d + q d) + (q d + m d) * (q d + m d) + (m d + p d) * (m d + p d)) * triNormal3 p q m d

/-- contribution of one face -/
def faceCent (f : List (Vec 3 K)) : Vec 3 K := cyc (fun p q => centTri p q (vmean f)) f

theorem centFace_eq (st : Vec 3 K × K) (f : List (Vec 3 K)) :
    centFace (.ok st) f = if f = [] then .assertFail else .ok (st.1 + faceCent f, st.2 + faceVol f) := by
  by_cases h : f = []
  · subst h; simp [centFace, averageRangePts]
  · rw [if_neg h]
    simp only [centFace, Outcome.bind_ok, averageRange_eq f h]
    have e : polyEdge (vmean f) = fun st p q => st + (centTri p q (vmean f), dot (triNormal3 p q (vmean f)) (vmean f)) := by
      funext st p q; rfl
    rw [e, walk_sum (fun p q => (centTri p q (vmean f), dot (triNormal3 p q (vmean f)) (vmean f))) st f h]
    have c1 := (cyc_hom (AddMonoidHom.fst (Vec 3 K) K)
      (fun p q => (centTri p q (vmean f), dot (triNormal3 p q (vmean f)) (vmean f))) f).symm
    have c2 := (cyc_hom (AddMonoidHom.snd (Vec 3 K) K)
      (fun p q => (centTri p q (vmean f), dot (triNormal3 p q (vmean f)) (vmean f))) f).symm
    simp only [AddMonoidHom.coe_fst, AddMonoidHom.coe_snd] at c1 c2
    rw [cyc_dot, cyc_triNormal3, ← vectorArea_eq] at c2
    congr 1
    exact Prod.ext (by rw [Prod.fst_add, c1]; rfl) (by rw [Prod.snd_add, c2]; rfl)

theorem centLoop_eq (faces : List (List (Vec 3 K))) (st : Vec 3 K × K) :
    faces.foldl centFace (.ok st) =
      if (∀ f ∈ faces, f ≠ []) then .ok (st.1 + faceSum faceCent faces, st.2 + faceSum faceVol faces)
      else .assertFail := by
  have hbad : ∀ faces : List (List (Vec 3 K)), faces.foldl centFace .assertFail = (.assertFail : Outcome (Vec 3 K × K)) := by
    intro faces
    induction faces with
    | nil => rfl
    | cons f faces ih => rw [List.foldl_cons]; simpa [centFace] using ih
  induction faces generalizing st with
  | nil => simp [faceSum]
  | cons f faces ih =>
    rw [List.foldl_cons, centFace_eq]
    by_cases h : f = []
    · rw [if_pos h, hbad, if_neg (by simp [h])]
    · rw [if_neg h, ih]
      simp [h, faceSum, add_assoc]

theorem polyCentroid_eq [DecidableEq K] (faces : List (List (Vec 3 K))) :
    polyCentroid faces =
      if (∀ f ∈ faces, f ≠ []) then divOrNaN (faceSum faceCent faces) (8 * faceSum faceVol faces) else .assertFail := by
  have e0 : ((fun _ => 0, 0) : Vec 3 K × K) = (0, 0) := rfl
  unfold polyCentroid
  rw [e0, centLoop_eq]
  split <;> simp

/-- circulation along one edge of a vector potential of the field `(2x, -y, -z)` (and its cyclic
versions), times six -/
def circ (i j k : Fin 3) (p q : Vec 3 K) : K :=
  (q k - p k) * (2 * p i * p j + 2 * q i * q j + p i * q j + q i * p j)
    - (q j - p j) * (2 * p i * p k + 2 * q i * q k + p i * q k + q i * p k)

theorem circ_anti (i j k : Fin 3) (p q : Vec 3 K) : circ i j k p q = -circ i j k q p := by
  unfold circ; ring

/-- the divergence theorem for one triangle -/
theorem tri_flux [CharZero K] (p q m : Vec 3 K) (d : Fin 3) :
    triNormal3 p q m d * (p d + q d + m d) =
      dot (triNormal3 p q m) m +
        (1 / 6) * (circ d (d + 1) (d + 2) p q + (circ d (d + 1) (d + 2) q m - circ d (d + 1) (d + 2) p m)) := by
  fin_cases d <;> simp [triNormal3, cross3, circ, dot3] <;> ring

theorem faceFlux [CharZero K] (f : List (Vec 3 K)) (m : Vec 3 K) (d : Fin 3) :
    cyc (fun p q => triNormal3 p q m d * (p d + q d + m d)) f =
      dot (vectorArea f) m + (1 / 6) * cyc (circ d (d + 1) (d + 2)) f := by
  have : cyc (fun p q => triNormal3 p q m d * (p d + q d + m d)) f =
      cyc (fun p q => (dot (triNormal3 p q m) m + (1 / 6) * circ d (d + 1) (d + 2) p q) +
        ((1 / 6) * circ d (d + 1) (d + 2) q m - (1 / 6) * circ d (d + 1) (d + 2) p m)) f :=
    cyc_congr f fun p _ q _ => by rw [tri_flux]; ring
  rw [this, cyc_add_telescope _ (fun x => (1 / 6) * circ d (d + 1) (d + 2) x m), cyc_add, cyc_dot, cyc_triNormal3,
    ← vectorArea_eq, cyc_mul_left]

theorem triNormal3_translate (p q m t : Vec 3 K) : triNormal3 (p + t) (q + t) (m + t) = triNormal3 p q m := by
  funext i; fin_cases i <;> simp [triNormal3, cross3]

theorem faceCent_translate [CharZero K] (f : List (Vec 3 K)) (hf : f ≠ []) (t : Vec 3 K) (d : Fin 3) :
    faceCent (f.map (· + t)) d = faceCent f d
      + 8 * t d * (faceVol f + (1 / 6) * cyc (circ d (d + 1) (d + 2)) f) + 12 * t d ^ 2 * vectorArea f d := by
  unfold faceCent
  rw [vmean_map_add f hf, cyc_map, cyc_apply, cyc_apply]
  have e : cyc (fun p q => centTri (p + t) (q + t) (vmean f + t) d) f =
      cyc (fun p q => (centTri p q (vmean f) d + 8 * t d * (triNormal3 p q (vmean f) d * (p d + q d + vmean f d)))
        + 12 * t d ^ 2 * triNormal3 p q (vmean f) d) f :=
    cyc_congr f fun p _ q _ => by
      simp only [centTri, triNormal3_translate, Pi.add_apply]; ring
  rw [e, cyc_add, cyc_add, cyc_mul_left, cyc_mul_left, faceFlux, ← cyc_apply (fun p q => triNormal3 p q (vmean f)),
    cyc_triNormal3, ← vectorArea_eq]
  rfl

theorem faceSum_cent_translate [CharZero K] (faces : List (List (Vec 3 K))) (hf : ∀ f ∈ faces, f ≠ [])
    (hc : Closed faces) (t : Vec 3 K) :
    faceSum faceCent (faces.map (List.map (· + t))) = faceSum faceCent faces + (8 * faceSum faceVol faces) • t := by
  funext d
  have h1 := closed_sum faces hc (circ d (d + 1) (d + 2)) (circ_anti d (d + 1) (d + 2))
  have h2 := congrFun (closed_vectorArea faces hc) d
  have : faceSum faceCent (faces.map (List.map (· + t))) d = faceSum faceCent faces d
      + 8 * t d * (faceSum faceVol faces + (1 / 6) * faceSum (cyc (circ d (d + 1) (d + 2))) faces)
      + 12 * t d ^ 2 * faceSum vectorArea faces d := by
    unfold faceSum
    clear hc h1 h2
    induction faces with
    | nil => simp
    | cons f faces ih =>
      simp only [List.map_cons, List.sum_cons, Pi.add_apply, ih fun g hg => hf g (by simp [hg]),
        faceCent_translate f (hf f (by simp))]
      ring
  rw [this, h1, h2]
  simp only [Pi.add_apply, Pi.smul_apply, smul_eq_mul, Pi.zero_apply]
  ring

section Cent
variable [LinearOrder K] [IsStrictOrderedRing K]

/-- **C38** The centroid of a closed polyhedron of non-zero volume moves with translations: it does
not depend on the origin. -/
theorem C38_centroid_origin (faces : List (List (Vec 3 K))) (hf : ∀ f ∈ faces, f ≠ []) (hc : Closed faces)
    (hv : polyVolume faces ≠ .ok 0) (t : Vec 3 K) :
    ∃ c, polyCentroid faces = .ok c ∧ polyCentroid (faces.map (List.map (· + t))) = .ok (c + t) := by
  have h0 : faceSum faceVol faces ≠ 0 := by
    intro e; apply hv; rw [polyVolume_eq, if_pos hf, e]; simp
  have h8 : 8 * faceSum faceVol faces ≠ 0 := mul_ne_zero (by norm_num) h0
  refine ⟨_, by rw [polyCentroid_eq, if_pos hf, divOrNaN, if_neg h8], ?_⟩
  rw [polyCentroid_eq, if_pos (by simpa using hf), faceSum_translate faces hf hc, divOrNaN, if_neg h8,
    faceSum_cent_translate faces hf hc, divBy_eq, divBy_eq, smul_add, smul_smul, inv_mul_cancel₀ h8, one_smul]

omit [IsStrictOrderedRing K] in
example (t : Vec 3 ℚ) : ∃ c, polyCentroid (tetFaces ![![0, 0, 0], ![1, 0, 0], ![0, 1, 0], (![0, 0, 1] : Vec 3 ℚ)]) = .ok c ∧
    polyCentroid ((tetFaces ![![0, 0, 0], ![1, 0, 0], ![0, 1, 0], (![0, 0, 1] : Vec 3 ℚ)]).map (List.map (· + t))) = .ok (c + t) :=
  C38_centroid_origin _ (by simp [tetFaces]) (tetFaces_closed _)
    (by rw [C38_tetrahedron]; simp [tetVolume, tetDet]) t

/-- **C38** The centroid depends neither on the insertion order of the faces nor on the starting
vertex of each face. -/
theorem C38_centroid_order (faces faces' : List (List (Vec 3 K))) (h : faces.Perm faces')
    (k : List (Vec 3 K) → Nat) :
    polyCentroid faces = polyCentroid faces' ∧
      polyCentroid (faces.map fun f => f.rotate (k f)) = polyCentroid faces := by
  constructor
  · rw [polyCentroid_eq, polyCentroid_eq]
    have e1 : faceSum faceVol faces = faceSum faceVol faces' := (h.map faceVol).sum_eq
    have e2 : faceSum faceCent faces = faceSum faceCent faces' := (h.map faceCent).sum_eq
    have : (∀ f ∈ faces, f ≠ []) ↔ (∀ f ∈ faces', f ≠ []) :=
      ⟨fun h' f hf => h' f (h.mem_iff.2 hf), fun h' f hf => h' f (h.mem_iff.1 hf)⟩
    simp only [this, e1, e2]
  · rw [polyCentroid_eq, polyCentroid_eq]
    have e1 : faceSum faceVol (faces.map fun f => f.rotate (k f)) = faceSum faceVol faces := by
      unfold faceSum
      rw [List.map_map]
      congr 2
      funext f
      simp only [Function.comp, faceVol, vectorArea_rotate, vmean_perm (List.rotate_perm f (k f))]
    have e2 : faceSum faceCent (faces.map fun f => f.rotate (k f)) = faceSum faceCent faces := by
      unfold faceSum
      rw [List.map_map]
      congr 2
      funext f
      simp only [Function.comp, faceCent, cyc_rotate, vmean_perm (List.rotate_perm f (k f))]
    have : (∀ f ∈ faces.map fun f => f.rotate (k f), f ≠ []) ↔ (∀ f ∈ faces, f ≠ []) := by simp
    simp only [this, e1, e2]

/-- **C38** For a non-degenerate tetrahedron given by its faces the centroid is the vertex mean. -/
theorem C38_tetrahedron_centroid (p : Fin 4 → Vec 3 K) (hv : tetVolume (p 0) (p 1) (p 2) (p 3) ≠ 0) :
    polyCentroid (tetFaces p) = .ok (tetMid (p 0) (p 1) (p 2) (p 3)) := by
  have hne : ∀ f ∈ tetFaces p, f ≠ [] := by simp [tetFaces]
  have h0 : faceSum faceVol (tetFaces p) ≠ 0 := by
    intro e
    have := C38_tetrahedron p
    rw [polyVolume_eq, if_pos hne, e] at this
    apply hv
    injection this with h
    rw [← h]; simp
  have h8 : 8 * faceSum faceVol (tetFaces p) ≠ 0 := mul_ne_zero (by norm_num) h0
  rw [polyCentroid_eq, if_pos hne, divOrNaN, if_neg h8, divBy_eq]
  congr 1
  apply smul_cancel h8
  rw [smul_smul, mul_inv_cancel₀ h8, one_smul]
  funext d
  simp only [faceSum, tetFaces, List.map_cons, List.map_nil, List.sum_cons, List.sum_nil, faceVol, faceCent,
      vectorArea_triangle, add_zero, dot3, vmean, List.length_cons, List.length_nil, cyc, List.cons_append,
      List.nil_append, pathSum_cons_cons, pathSum_single, Pi.add_apply, Pi.smul_apply, smul_eq_mul, centTri, tetMid]
  fin_cases d <;> simp [triNormal3, cross3] <;> ring

end Cent

end

/-- the unit tetrahedron -/
example : polyVolume (tetFaces ![![0, 0, 0], ![1, 0, 0], ![0, 1, 0], (![0, 0, 1] : Vec 3 ℚ)]) = .ok (1 / 6) := by
  rw [C38_tetrahedron]; simp [tetVolume, tetDet]

end Verif.Geometry
