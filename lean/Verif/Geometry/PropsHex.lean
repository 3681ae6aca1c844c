import Verif.Geometry.PropsSolid

/-!
# C37 (hexahedron), and `space_vector.h`/`point.h`/`normal.h` (C30, C31)
-/

namespace Verif.Geometry
open Verif.Vec

section
variable {K : Type} [Field K]

/-- the six faces of a hexahedron in the usual numbering, consistently oriented -/
def hexFaces (p : Fin 8 → Vec 3 K) : List (List (Vec 3 K)) :=
  [[p 0, p 1, p 2, p 3], [p 4, p 7, p 6, p 5], [p 0, p 4, p 5, p 1], [p 1, p 5, p 6, p 2],
    [p 2, p 6, p 7, p 3], [p 3, p 7, p 4, p 0]]

/-- they close up for all coordinates -/
theorem hexFaces_closed (p : Fin 8 → Vec 3 K) : Closed (hexFaces p) := by
  classical
  unfold Closed
  rw [List.perm_iff_count]
  intro e
  simp only [hexFaces, List.flatMap_cons, List.flatMap_nil, edges, List.rotate_cons_succ, List.rotate_zero,
    List.cons_append, List.nil_append, List.append_nil, List.zip_cons_cons, List.zip_nil_left, List.map_cons,
    List.map_nil, Prod.swap_prod_mk, List.count_cons, List.count_nil]
  ring

theorem hexFaces_ne (p : Fin 8 → Vec 3 K) : ∀ f ∈ hexFaces p, f ≠ [] := by simp [hexFaces]

/-- the signed volume of the faces is minus a quarter of the sum of the triple products -/
theorem hexSigned [CharZero K] (p : Fin 8 → Vec 3 K) :
    faceSum faceVol (hexFaces p) = -((hexT p).1 + (hexT p).2.1 + (hexT p).2.2) / 4 := by
  have hv : ∀ a b c d : Vec 3 K, vectorArea [a, b, c, d] = (1 / 2 : K) • (cross3 a b + (cross3 b c + (cross3 c d + cross3 d a))) := by
    intro a b c d
    rw [vectorArea_eq]; simp [cyc]
  simp only [faceSum, hexFaces, List.map_cons, List.map_nil, List.sum_cons, List.sum_nil, faceVol, hv, add_zero,
    dot3, vmean, List.length_cons, List.length_nil, hexT, triple, vadd, vsub]
  simp [cross3]
  ring

theorem quadMid_eq [CharZero K] (a b c d : Vec 3 K) : quadMid a b c d = vmean [a, b, c, d] := by
  funext i; simp [quadMid, vmean]; ring

theorem hexCentRec_eq (m : Vec 3 K) (st : CentAcc K) (l : List (Vec 3 K)) :
    (hexCentRec m st l).cx = st.cx + pathSum (fun p q => centTri p q m) l ∧
      (hexCentRec m st l).vol = st.vol + pathSum (fun p q => dot (triNormal3 p q m) m) l ∧
      (hexCentRec m st l).nsum = st.nsum + pathSum (fun p q => triNormal3 p q m) l := by
  induction l generalizing st with
  | nil => simp [hexCentRec]
  | cons a l ih =>
    cases l with
    | nil => simp [hexCentRec]
    | cons b l =>
      obtain ⟨h1, h2, h3⟩ := ih (hexEdge m st a b)
      refine ⟨?_, ?_, ?_⟩
      · rw [hexCentRec, h1, pathSum_cons_cons, ← add_assoc]; rfl
      · rw [hexCentRec, h2, pathSum_cons_cons, ← add_assoc]; rfl
      · rw [hexCentRec, h3, pathSum_cons_cons, ← add_assoc]; rfl

theorem hexFace_eq [CharZero K] (st : CentAcc K) (a b c d : Vec 3 K) :
    (hexFace st a b c d).cx = st.cx + faceCent [a, b, c, d] ∧
      (hexFace st a b c d).vol = st.vol + faceVol [a, b, c, d] ∧
      (hexFace st a b c d).nsum = st.nsum + vectorArea [a, b, c, d] := by
  obtain ⟨h1, h2, h3⟩ := hexCentRec_eq (vmean [a, b, c, d]) st [a, b, c, d, a]
  unfold hexFace
  rw [quadMid_eq]
  refine ⟨h1, ?_, ?_⟩
  · rw [h2]
    congr 1
    show cyc (fun p q => dot (triNormal3 p q (vmean [a, b, c, d])) (vmean [a, b, c, d])) [a, b, c, d] = _
    rw [cyc_dot, cyc_triNormal3, ← vectorArea_eq]; rfl
  · rw [h3]
    congr 1
    show cyc (fun p q => triNormal3 p q (vmean [a, b, c, d])) [a, b, c, d] = _
    rw [cyc_triNormal3, ← vectorArea_eq]

theorem hexCentAcc_eq [CharZero K] (p : Fin 8 → Vec 3 K) :
    (hexCentAcc p).cx = faceSum faceCent (hexFaces p) ∧ (hexCentAcc p).vol = faceSum faceVol (hexFaces p) ∧
      (hexCentAcc p).nsum = faceSum vectorArea (hexFaces p) := by
  have e0 : (fun _ => 0 : Vec 3 K) = 0 := rfl
  unfold hexCentAcc
  simp only [(hexFace_eq _ _ _ _ _).1, (hexFace_eq _ _ _ _ _).2.1, (hexFace_eq _ _ _ _ _).2.2, faceSum, hexFaces,
    List.map_cons, List.map_nil, List.sum_cons, List.sum_nil, e0, zero_add, add_zero, add_assoc, and_self]

section Order
variable [LinearOrder K] [IsStrictOrderedRing K]

/-- **C37** The centroid of a hexahedron is the centroid of the polyhedron with its six faces. -/
theorem C37_centroid_polyhedron (p : Fin 8 → Vec 3 K) : hexCentroid p = polyCentroid (hexFaces p) := by
  rw [polyCentroid_eq, if_pos (hexFaces_ne p)]
  unfold hexCentroid
  simp only [(hexCentAcc_eq p).1, (hexCentAcc_eq p).2.1]

/-- **C37** The centroid moves with translations whenever the faces enclose a non-zero volume, and
the normals of the faces add up to zero. -/
theorem C37_centroid_translation (p : Fin 8 → Vec 3 K) (hv : polyVolume (hexFaces p) ≠ .ok 0) (t : Vec 3 K) :
    (∃ c, hexCentroid p = .ok c ∧ hexCentroid (fun i => p i + t) = .ok (c + t)) ∧ (hexCentAcc p).nsum = 0 := by
  constructor
  · rw [C37_centroid_polyhedron, C37_centroid_polyhedron]
    exact C38_centroid_origin (hexFaces p) (hexFaces_ne p) (hexFaces_closed p) hv t
  · rw [(hexCentAcc_eq p).2.2, closed_vectorArea _ (hexFaces_closed p)]

/-- **C37** The volume formula is translation invariant. -/
theorem C37_volume_translation (p : Fin 8 → Vec 3 K) (t : Vec 3 K) :
    hexVolume (fun i => p i + t) = hexVolume p := by
  have : hexT (fun i => p i + t) = hexT p := by
    simp [hexT, vsub]
  unfold hexVolume; rw [this]

/-- the parallelepiped with corner `a` and edge vectors `u`, `v`, `w` -/
def parallelepiped (a u v w : Vec 3 K) : Fin 8 → Vec 3 K :=
  ![a, a + u, a + u + v, a + v, a + w, a + u + w, a + u + v + w, a + v + w]

omit [LinearOrder K] [IsStrictOrderedRing K] in
theorem hexT_parallelepiped (a u v w : Vec 3 K) :
    hexT (parallelepiped a u v w) = (4 * triple u v w, 4 * triple u v w, 4 * triple u v w) := by
  have e0 : parallelepiped a u v w 0 = a := rfl
  have e1 : parallelepiped a u v w 1 = a + u := rfl
  have e2 : parallelepiped a u v w 2 = a + u + v := rfl
  have e3 : parallelepiped a u v w 3 = a + v := rfl
  have e4 : parallelepiped a u v w 4 = a + w := rfl
  have e5 : parallelepiped a u v w 5 = a + u + w := rfl
  have e6 : parallelepiped a u v w 6 = a + u + v + w := rfl
  have e7 : parallelepiped a u v w 7 = a + v + w := rfl
  simp only [hexT, e0, e1, e2, e3, e4, e5, e6, e7]
  refine Prod.ext ?_ (Prod.ext ?_ ?_) <;> simp [triple, vadd, vsub] <;> ring

/-- a sheared box, moved (`C37_centroid_translation`) -/
example (t : Vec 3 ℚ) : ∃ c, hexCentroid (parallelepiped ![5, 0, 0] ![2, 0, 0] ![1, 1, 0] (![0, 1, 3] : Vec 3 ℚ)) = .ok c ∧
    hexCentroid (fun i => parallelepiped ![5, 0, 0] ![2, 0, 0] ![1, 1, 0] ![0, 1, 3] i + t) = .ok (c + t) := by
  refine (C37_centroid_translation _ ?_ t).1
  rw [polyVolume_eq, if_pos (hexFaces_ne _), hexSigned, hexT_parallelepiped]
  simp [triple]
  norm_num

/-- **C37** For a parallelepiped the volume is the absolute determinant of the edge vectors. -/
theorem C37_parallelepiped (a u v w : Vec 3 K) :
    hexVolume (parallelepiped a u v w) = |Matrix.det (Matrix.of ![u, v, w])| := by
  unfold hexVolume
  rw [hexT_parallelepiped, ← (C30_triple u v w).1]
  simp only [abs_mul]
  rw [abs_of_pos (by norm_num : (0 : K) < 4)]
  ring

omit [LinearOrder K] [IsStrictOrderedRing K] in
theorem faceCent_rotate (f : List (Vec 3 K)) (k : Nat) : faceCent (f.rotate k) = faceCent f := by
  simp only [faceCent, cyc_rotate, vmean_perm (List.rotate_perm f k)]

omit [LinearOrder K] [IsStrictOrderedRing K] in
theorem faceCent_reverse (f : List (Vec 3 K)) : faceCent f.reverse = -faceCent f := by
  simp only [faceCent, cyc_reverse, vmean_perm (List.reverse_perm f)]
  rw [← cyc_neg]
  refine cyc_congr f fun p _ q _ => ?_
  funext d
  have := congrFun ((C35_triangle p q (vmean f)).2.2.2) d
  simp only [centTri, Pi.neg_apply] at this ⊢
  rw [this]; ring

omit [LinearOrder K] [IsStrictOrderedRing K] in
theorem faceCent_neg (f : List (Vec 3 K)) : faceCent (f.map (- ·)) = faceCent f := by
  have hm : vmean (f.map (- ·)) = -vmean f := by
    have hs : (f.map (- ·)).sum = -f.sum := by
      induction f with
      | nil => simp
      | cons a f ih => simp only [List.map_cons, List.sum_cons, ih]; abel
    unfold vmean; rw [hs, List.length_map, smul_neg]
  have hn : ∀ p q m : Vec 3 K, triNormal3 (-p) (-q) (-m) = triNormal3 p q m := by
    intro p q m; funext i; fin_cases i <;> simp [triNormal3, cross3] <;> exact Or.inl (by ring)
  unfold faceCent
  rw [hm, cyc_map]
  refine cyc_congr f fun p _ q _ => ?_
  funext d
  simp only [centTri, hn, Pi.neg_apply]; ring

omit [LinearOrder K] [IsStrictOrderedRing K] in
theorem faceCent_opposite (a b c d : Vec 3 K) : faceCent [-c, -b, -a, -d] = -faceCent [a, b, c, d] := by
  have e : [-c, -b, -a, -d] = ([a, b, c, d].map (- ·)).reverse.rotate 1 := by simp
  rw [e, faceCent_rotate, faceCent_reverse, faceCent_neg]

omit [LinearOrder K] [IsStrictOrderedRing K] in
theorem faceCent_symmetric (q : Fin 8 → Vec 3 K) (h6 : q 6 = -q 0) (h7 : q 7 = -q 1) (h4 : q 4 = -q 2)
    (h5 : q 5 = -q 3) : faceSum faceCent (hexFaces q) = 0 := by
  have e2 : faceCent [q 4, q 7, q 6, q 5] = -faceCent [q 0, q 1, q 2, q 3] := by
    rw [h4, h7, h6, h5]; exact faceCent_opposite _ _ _ _
  have e3 : faceCent [q 2, q 6, q 7, q 3] = -faceCent [q 0, q 4, q 5, q 1] := by
    rw [← faceCent_opposite, h4, h5, h6, h7, neg_neg, neg_neg]
    exact faceCent_rotate [q 3, q 2, -q 0, -q 1] 1
  have e4 : faceCent [q 3, q 7, q 4, q 0] = -faceCent [q 1, q 5, q 6, q 2] := by
    rw [← faceCent_opposite, h4, h5, h6, h7, neg_neg, neg_neg]
    exact faceCent_rotate [q 0, q 3, -q 1, -q 2] 1
  simp only [faceSum, hexFaces, List.map_cons, List.map_nil, List.sum_cons, List.sum_nil, e2, e3, e4]
  abel

theorem hexCentroid_symmetric (q : Fin 8 → Vec 3 K) (h6 : q 6 = -q 0) (h7 : q 7 = -q 1) (h4 : q 4 = -q 2)
    (h5 : q 5 = -q 3) (hv : polyVolume (hexFaces q) ≠ .ok 0) : hexCentroid q = .ok 0 := by
  have h0 : faceSum faceVol (hexFaces q) ≠ 0 := by
    intro e; apply hv; rw [polyVolume_eq, if_pos (hexFaces_ne q), e]; simp
  have h8 : 8 * faceSum faceVol (hexFaces q) ≠ 0 := mul_ne_zero (by norm_num) h0
  rw [C37_centroid_polyhedron, polyCentroid_eq, if_pos (hexFaces_ne _), divOrNaN, if_neg h8, divBy_eq,
    faceCent_symmetric q h6 h7 h4 h5, smul_zero]

/-- **C37** The centroid of every centrally symmetric hexahedron enclosing a non-zero volume is its
centre. -/
theorem C37_centroid_symmetric (p : Fin 8 → Vec 3 K) (c : Vec 3 K)
    (hsym : p 0 + p 6 = c + c ∧ p 1 + p 7 = c + c ∧ p 2 + p 4 = c + c ∧ p 3 + p 5 = c + c)
    (hv : polyVolume (hexFaces p) ≠ .ok 0) : hexCentroid p = .ok c := by
  obtain ⟨s06, s17, s24, s35⟩ := hsym
  have neg : ∀ a b : Vec 3 K, a + b = c + c → b + -c = -(a + -c) := by
    intro a b h
    have : b = c + c - a := by rw [← h]; abel
    rw [this]; abel
  have hv' : polyVolume (hexFaces fun i => p i + -c) ≠ .ok 0 := by
    have : hexFaces (fun i => p i + -c) = (hexFaces p).map (List.map (· + -c)) := by
      simp only [hexFaces, List.map_cons, List.map_nil]
    rw [this, C38_volume_origin _ (hexFaces_closed p)]; exact hv
  have hb := hexCentroid_symmetric (fun i => p i + -c) (neg _ _ s06) (neg _ _ s17) (neg _ _ s24) (neg _ _ s35) hv'
  obtain ⟨⟨x, h1, h2⟩, _⟩ := C37_centroid_translation (fun i => p i + -c) hv' c
  have h1 := Outcome.ok.inj (hb.symm.trans h1)
  have e : (fun i => p i + -c + c) = p := by funext i; rw [add_assoc, neg_add_cancel, add_zero]
  rw [e] at h2
  rw [h2, ← h1, zero_add]

/-- **C37** The centroid of a non-degenerate parallelepiped is its vertex mean. -/
theorem C37_parallelepiped_centroid (a u v w : Vec 3 K) (h : Matrix.det (Matrix.of ![u, v, w]) ≠ 0) :
    hexCentroid (parallelepiped a u v w) = .ok (hexMid (parallelepiped a u v w)) := by
  have hT := hexT_parallelepiped a u v w
  have hs0 : faceSum faceVol (hexFaces (parallelepiped a u v w)) ≠ 0 := by
    rw [hexSigned, hT]
    rw [← (C30_triple u v w).1] at h
    have : -(4 * triple u v w + 4 * triple u v w + 4 * triple u v w) / 4 = -(3 * triple u v w) := by ring
    rw [this]
    exact neg_ne_zero.2 (mul_ne_zero three_ne_zero h)
  apply C37_centroid_symmetric
  · have e : ∀ i : Fin 3, hexMid (parallelepiped a u v w) i = a i + (u i + v i + w i) / 2 := by
      intro i; simp [hexMid, parallelepiped]; ring
    refine ⟨?_, ?_, ?_, ?_⟩ <;> funext i <;> simp only [Pi.add_apply, e] <;> simp [parallelepiped] <;> ring
  · rw [polyVolume_eq, if_pos (hexFaces_ne _)]
    intro e
    injection e with e
    rcases div_eq_zero_iff.1 e with e | e
    · exact hs0 (abs_eq_zero.1 e)
    · norm_num at e

/-- a sheared box -/
example : hexCentroid (parallelepiped ![5, 0, 0] ![2, 0, 0] ![1, 1, 0] (![0, 1, 3] : Vec 3 ℚ)) =
    .ok (hexMid (parallelepiped ![5, 0, 0] ![2, 0, 0] ![1, 1, 0] ![0, 1, 3])) :=
  C37_parallelepiped_centroid _ _ _ _ (by rw [Matrix.det_fin_three]; simp)

/-- **C37** The volume is the volume enclosed by the six faces (each face taken as the fan about its
vertex mean) whenever the three triple products have the same sign, as they have for every
parallelepiped and for hexahedra close to one. -/
theorem C37_enclosed_partial (p : Fin 8 → Vec 3 K)
    (h : (0 ≤ (hexT p).1 ∧ 0 ≤ (hexT p).2.1 ∧ 0 ≤ (hexT p).2.2) ∨
      ((hexT p).1 ≤ 0 ∧ (hexT p).2.1 ≤ 0 ∧ (hexT p).2.2 ≤ 0)) :
    polyVolume (hexFaces p) = .ok (hexVolume p) := by
  rw [polyVolume_eq, if_pos (hexFaces_ne p), hexSigned, hexVolume]
  congr 1
  rcases h with ⟨h1, h2, h3⟩ | ⟨h1, h2, h3⟩
  · rw [abs_of_nonneg h1, abs_of_nonneg h2, abs_of_nonneg h3, abs_of_nonpos (by linarith)]; ring
  · rw [abs_of_nonpos h1, abs_of_nonpos h2, abs_of_nonpos h3, abs_of_nonneg (by linarith)]; ring

/-- a sheared box -/
example : polyVolume (hexFaces (parallelepiped ![5, 0, 0] ![2, 0, 0] ![1, 1, 0] (![0, 1, 3] : Vec 3 ℚ))) =
    .ok (hexVolume (parallelepiped ![5, 0, 0] ![2, 0, 0] ![1, 1, 0] ![0, 1, 3])) :=
  C37_enclosed_partial _ (.inl (by rw [hexT_parallelepiped]; simp [triple]))

/-- **C37** (exactly when).  The volume is the enclosed one if and only if no two of the three triple
products have opposite signs. -/
theorem C37_enclosed_iff (p : Fin 8 → Vec 3 K) : polyVolume (hexFaces p) = .ok (hexVolume p) ↔
    (0 ≤ (hexT p).1 ∧ 0 ≤ (hexT p).2.1 ∧ 0 ≤ (hexT p).2.2) ∨
      ((hexT p).1 ≤ 0 ∧ (hexT p).2.1 ≤ 0 ∧ (hexT p).2.2 ≤ 0) := by
  refine ⟨fun h => ?_, C37_enclosed_partial p⟩
  rw [polyVolume_eq, if_pos (hexFaces_ne p), hexSigned, hexVolume] at h
  have h := Outcome.ok.inj h
  rw [abs_div, abs_neg, abs_of_pos (by norm_num : (0 : K) < 4)] at h
  generalize (hexT p).1 = a at h ⊢
  generalize (hexT p).2.1 = b at h ⊢
  generalize (hexT p).2.2 = c at h ⊢
  have h : |a + b + c| = |a| + |b| + |c| := by
    have : |a + b + c| / 12 = (|a| + |b| + |c|) / 12 := by rw [← h]; ring
    linarith
  rcases abs_cases (a + b + c) with ⟨e, -⟩ | ⟨e, -⟩ <;> rw [e] at h
  · left
    have := le_abs_self a; have := le_abs_self b; have := le_abs_self c
    exact ⟨by rw [← abs_eq_self]; linarith, by rw [← abs_eq_self]; linarith, by rw [← abs_eq_self]; linarith⟩
  · right
    have := neg_abs_le a; have := neg_abs_le b; have := neg_abs_le c
    exact ⟨by rw [← abs_eq_neg_self]; linarith, by rw [← abs_eq_neg_self]; linarith, by rw [← abs_eq_neg_self]; linarith⟩

/-- **C37** In general the computed volume is never less than the enclosed one. -/
theorem C37_enclosed_le (p : Fin 8 → Vec 3 K) : ∃ v, polyVolume (hexFaces p) = .ok v ∧ v ≤ hexVolume p := by
  refine ⟨_, by rw [polyVolume_eq, if_pos (hexFaces_ne p)], ?_⟩
  rw [hexSigned, hexVolume, abs_div, abs_neg, abs_of_pos (by norm_num : (0 : K) < 4)]
  have := (abs_add_le ((hexT p).1 + (hexT p).2.1) (hexT p).2.2).trans
    (add_le_add (abs_add_le (hexT p).1 (hexT p).2.1) le_rfl)
  rw [div_div, div_le_div_iff₀ (by norm_num) (by norm_num)]
  linarith

end Order

end

/-- a hexahedron with positive corner Jacobians -/
def badHex : Fin 8 → Vec 3 ℚ :=
  ![![-1, 2, -3], ![5, -2, 1], ![6, 6, 0], ![-1, 7, 2], ![-3, 1, 1], ![4, -2, 4], ![6, 7, 2], ![0, 6, 2]]

theorem badHex_T : hexT badHex = (-105, 698, 856) := by
  have e0 : badHex 0 = ![-1, 2, -3] := rfl
  have e1 : badHex 1 = ![5, -2, 1] := rfl
  have e2 : badHex 2 = ![6, 6, 0] := rfl
  have e3 : badHex 3 = ![-1, 7, 2] := rfl
  have e4 : badHex 4 = ![-3, 1, 1] := rfl
  have e5 : badHex 5 = ![4, -2, 4] := rfl
  have e6 : badHex 6 = ![6, 7, 2] := rfl
  have e7 : badHex 7 = ![0, 6, 2] := rfl
  simp only [hexT, e0, e1, e2, e3, e4, e5, e6, e7]
  refine Prod.ext ?_ (Prod.ext ?_ ?_) <;> simp [triple, vadd, vsub] <;> norm_num

/-- **C37 fails** in general: the absolute values are taken term by term, so for a hexahedron whose
triple products differ in sign (here one with all corner Jacobians positive) the result is not the
enclosed volume: `553/4` instead of `483/4`. -/
theorem C37_enclosed_fails :
    hexVolume badHex = 553 / 4 ∧ polyVolume (hexFaces badHex) = .ok (483 / 4) ∧
      (∀ i j k l : Fin 8, (i, j, k, l) ∈ [((0 : Fin 8), (1 : Fin 8), (3 : Fin 8), (4 : Fin 8)), (1, 2, 0, 5), (2, 3, 1, 6),
        (3, 0, 2, 7), (4, 7, 5, 0), (5, 4, 6, 1), (6, 5, 7, 2), (7, 6, 4, 3)] →
        0 < triple (badHex j - badHex i) (badHex k - badHex i) (badHex l - badHex i)) := by
  refine ⟨?_, ?_, ?_⟩
  · rw [hexVolume, badHex_T]; norm_num [abs_of_pos, abs_of_neg]
  · rw [polyVolume_eq, if_pos (hexFaces_ne _), hexSigned, badHex_T]; norm_num [abs_of_pos, abs_of_neg]
  · intro i j k l h
    simp only [List.mem_cons, List.not_mem_nil, or_false, Prod.mk.injEq] at h
    rcases h with ⟨rfl, rfl, rfl, rfl⟩ | ⟨rfl, rfl, rfl, rfl⟩ | ⟨rfl, rfl, rfl, rfl⟩ | ⟨rfl, rfl, rfl, rfl⟩ |
      ⟨rfl, rfl, rfl, rfl⟩ | ⟨rfl, rfl, rfl, rfl⟩ | ⟨rfl, rfl, rfl, rfl⟩ | ⟨rfl, rfl, rfl, rfl⟩ <;>
    · simp [badHex, triple]; try norm_num

/-- the unit cube -/
example : hexVolume (parallelepiped 0 ![1, 0, 0] ![0, 1, 0] (![0, 0, 1] : Vec 3 ℚ)) = 1 := by
  rw [C37_parallelepiped, Matrix.det_fin_three]; simp

/-! ## Remaining helpers -/

/-- **C30** `space_vector.h` and `normal.h`: the line normal in 2D is `math::normal`, the 3D one is
the cross product, and `cross_magnitude` is the magnitude of the cross product. -/
theorem C30_space_vector (tmp a b : Vec 3 ℝ) (p q : Vec 2 ℝ) :
    normalLine2 p q = normal2 p q ∧ normalLine3 a b = cross3 a b ∧
      crossMagnitude3 tmp a b = magnitude (cross3 a b) ∧ crossMagnitude2 p q = |cross2 p q| := by
  refine ⟨rfl, rfl, ?_, rfl⟩
  unfold crossMagnitude3
  dsimp only
  congr 1
  funext i
  fin_cases i <;> simp [upd, cross3]
  ring

/-- **C32** `distance` is the magnitude of the difference; it is symmetric, zero exactly on equal
points, and satisfies the triangle inequality. -/
theorem C32_distance (a b c : Vec d ℝ) :
    distance a b = magnitude (a - b) ∧ distance a b = distance b a ∧ (distance a b = 0 ↔ a = b) ∧
      distance a c ≤ distance a b + distance b c := by
  have h : ∀ x y : Vec d ℝ, distance x y = magnitude (x - y) := fun x y => rfl
  refine ⟨h a b, ?_, ?_, ?_⟩
  · rw [h, h, ← neg_sub b a]
    have := magnitude_smul (-1) (b - a)
    simpa using this
  · rw [h, (C32_magnitude (a - b) 0 0).2.2.1, sub_eq_zero]
  · rw [h, h, h]
    have := magnitude_add_le (a - b) (b - c)
    simpa using this

/-- **C31** The list centroid and the two-point midpoint of `point.h` are means, and the midpoint is
equidistant from the end points; the centroid of no points is not a number (zero divided by zero). -/
theorem C31_point_means {K : Type} [Field K] [CharZero K] (pts : List (Vec d K)) (h : pts ≠ []) (a b : Vec d K) :
    centroidList pts = .ok (vmean pts) ∧ midpoint2 a b = vmean [a, b] ∧ b - midpoint2 a b = midpoint2 a b - a ∧
    centroidList ([] : List (Vec d K)) = .throws "NaN" := by
  refine ⟨?_, ?_, ?_, by simp [centroidList]⟩
  · have h0 : pts.length ≠ 0 := (List.length_pos_iff.2 h).ne'
    have e0 : (fun _ => 0 : Vec d K) = 0 := rfl
    unfold centroidList
    simp only [h0, if_false]
    rw [e0, foldl_addTo, zero_add, divBy_eq]; rfl
  · funext i; simp [midpoint2, vmean, divBy, addTo]; ring
  · funext i; simp [midpoint2, divBy, addTo]; ring

example : centroidList [![0, 0], ![1, 5], (![3, 3] : Vec 2 ℚ)] = .ok (vmean [![0, 0], ![1, 5], ![3, 3]]) :=
  (C31_point_means _ (by simp) ![0, 0] ![0, 0]).1

end Verif.Geometry
