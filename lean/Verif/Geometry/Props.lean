import Verif.Geometry.Lemmas
import Mathlib.Tactic.FieldSimp

/-!
# C33 (polygon area), C34 (polygon centroid), C35 (3D polygon normal), C36 (tetrahedron)
-/

namespace Verif.Geometry
open Verif.Vec

section
variable {K : Type} [Field K]

/-- The shoelace formula over the edges of the polygon (each vertex with its successor). -/
def shoelace (pts : List (Vec 2 K)) : K :=
  ((edges pts).map fun e => e.1 0 * e.2 1 - e.2 0 * e.1 1).sum / 2

theorem shoelace_eq (pts : List (Vec 2 K)) : shoelace pts = cyc wedge pts / 2 := by
  unfold shoelace; rw [cyc_edges]; rfl


theorem ne_nil_of_two {P : Type} {pts : List P} (h : 2 < pts.length) : pts ≠ [] := by
  rintro rfl; simp at h

theorem normalIter2_eq (pts : List (Vec 2 K)) :
    normalIter2 pts = if 2 < pts.length then .ok ![0, shoelace pts] else .assertFail := by
  unfold normalIter2
  by_cases h : 2 < pts.length
  · have hw := walk_sum (wedge (K := K)) 0 pts (ne_nil_of_two h)
    simp only [wedge] at hw
    simp only [gt_iff_lt, h, decide_true, Outcome.assert_true, Outcome.bind_ok, hw, if_true, zero_add,
      shoelace_eq]
  · simp [h]

variable [LinearOrder K]

theorem areaIter_eq (pts : List (Vec 2 K)) :
    areaIter pts = if 2 < pts.length then .ok |shoelace pts| else .assertFail := by
  unfold areaIter
  by_cases h : 2 < pts.length
  · have hw := walk_sum (wedge (K := K)) 0 pts (ne_nil_of_two h)
    simp only [wedge] at hw
    simp only [gt_iff_lt, h, decide_true, Outcome.assert_true, Outcome.bind_ok, hw, if_true, zero_add,
      shoelace_eq]
  · simp [h]

theorem area2d_eq (pts : List (Vec 2 K)) : area2d pts = areaIter pts := by
  by_cases h : 2 < pts.length
  · obtain ⟨b, hb⟩ : ∃ b, pts.getLast? = some b := ⟨_, List.getLast?_eq_some_getLast (ne_nil_of_two h)⟩
    have key : ∀ (k : Nat) (st : Vec 2 K × K), k ≤ pts.length →
        (List.range k).foldl (fun (st : Outcome (Vec 2 K × K)) i => do
          let (po, a) ← st
          let pn ← rd pts i
          .ok (pn, a + (po 0 * pn 1 - pn 0 * po 1))) (.ok st) =
        .ok ((pts.take k).foldl (fun (st : Vec 2 K × K) pn =>
          (pn, st.2 + (st.1 0 * pn 1 - pn 0 * st.1 1))) st) := by
      intro k
      induction k with
      | zero => intro st _; simp
      | succ k ih =>
        intro st hk
        have hk' : k < pts.length := by omega
        rw [List.range_succ, List.foldl_append, ih st (by omega), List.take_succ_eq_append_getElem hk',
          List.foldl_append]
        simp [rd, hk']
    unfold area2d areaIter walk
    simp only [gt_iff_lt, h, decide_true, Outcome.assert_true, Outcome.bind_ok, hb]
    rw [key pts.length (b, 0) le_rfl, List.take_length]
    simp
  · simp [area2d, areaIter, h]

/-- **C33** All versions of the area (iterators, container by index, argument pack) are the
absolute value of the shoelace formula, for any number of vertices; with fewer than three
vertices the run-time versions stop on an assertion.  `normal` carries the signed area. -/
theorem C33_shoelace (pts : List (Vec 2 K)) (t : Vec 2 K) (args : List (Vec 2 K)) :
    (areaIter pts = if 2 < pts.length then .ok |shoelace pts| else .assertFail) ∧
      area2d pts = areaIter pts ∧ areaPack t args = |shoelace (t :: args)| ∧
      (normalIter2 pts = if 2 < pts.length then .ok ![0, shoelace pts] else .assertFail) ∧
      normalPack2 t args = ![0, shoelace (t :: args)] := by
  refine ⟨areaIter_eq pts, area2d_eq pts, ?_, normalIter2_eq pts, ?_⟩
  · rw [shoelace_eq, areaPack, areaRec_cyc]
  · rw [shoelace_eq, normalPack2, areaRec_cyc]

/-- **C33** Translation invariance. -/
theorem C33_translation (pts : List (Vec 2 K)) (t : Vec 2 K) : areaIter (pts.map (· + t)) = areaIter pts := by
  have h : cyc wedge (pts.map (· + t)) = cyc wedge pts := by
    rw [cyc_map, ← cyc_add_telescope (wedge (K := K)) (fun p => wedge t p) pts]
    exact cyc_congr pts fun p _ q _ => by simp only [wedge, Pi.add_apply]; ring
  rw [areaIter_eq, areaIter_eq, shoelace_eq, shoelace_eq, h, List.length_map]

/-- **C33** Independence of the first vertex. -/
theorem C33_renumbering (pts : List (Vec 2 K)) (k : Nat) : areaIter (pts.rotate k) = areaIter pts := by
  rw [areaIter_eq, areaIter_eq, shoelace_eq, shoelace_eq, cyc_rotate, List.length_rotate]

/-- **C33** Independence of the orientation; the signed area changes sign. -/
theorem C33_reversal [IsStrictOrderedRing K] (pts : List (Vec 2 K)) :
    areaIter pts.reverse = areaIter pts ∧ shoelace pts.reverse = -shoelace pts := by
  have h : cyc wedge pts.reverse = -cyc wedge pts := by
    rw [cyc_reverse, ← cyc_neg]
    exact cyc_congr pts fun p _ q _ => wedge_anti q p
  refine ⟨?_, ?_⟩
  · rw [areaIter_eq, areaIter_eq, shoelace_eq, shoelace_eq, h, List.length_reverse, neg_div, abs_neg]
  · rw [shoelace_eq, shoelace_eq, h, neg_div]

/-- the linear map with rows `(a, b)` and `(c, d)` -/
def lin2 (a b c d : K) (p : Vec 2 K) : Vec 2 K := ![a * p 0 + b * p 1, c * p 0 + d * p 1]

/-- **C33** Under a linear map the area is multiplied by the absolute value of the determinant;
in particular scaling by `s` multiplies it by `s²`, and rotations and reflections keep it. -/
theorem C33_linear [IsStrictOrderedRing K] (pts : List (Vec 2 K)) (a b c d : K) (h : 2 < pts.length) :
    ∃ A, areaIter pts = .ok A ∧ areaIter (pts.map (lin2 a b c d)) = .ok (|a * d - b * c| * A) := by
  refine ⟨|shoelace pts|, by rw [areaIter_eq, if_pos h], ?_⟩
  have hc : cyc wedge (pts.map (lin2 a b c d)) = (a * d - b * c) * cyc wedge pts := by
    rw [cyc_map, ← cyc_mul_left]
    exact cyc_congr pts fun p _ q _ => by simp only [wedge, lin2]; simp; ring
  rw [areaIter_eq, List.length_map, if_pos h, shoelace_eq, hc, mul_div_assoc, ← shoelace_eq, abs_mul]

/-- a triangle sheared and stretched -/
example : ∃ A, areaIter [![0, 0], ![2, 0], (![0, 1] : Vec 2 ℚ)] = .ok A ∧
    areaIter ([![0, 0], ![2, 0], ![0, 1]].map (lin2 3 1 0 2)) = .ok (|3 * 2 - 1 * 0| * A) :=
  C33_linear _ 3 1 0 2 (by simp)

/-- **C33** Scaling. -/
theorem C33_scaling [IsStrictOrderedRing K] (pts : List (Vec 2 K)) (s : K) (h : 2 < pts.length) :
    ∃ A, areaIter pts = .ok A ∧ areaIter (pts.map (s • ·)) = .ok (s ^ 2 * A) := by
  obtain ⟨A, h1, h2⟩ := C33_linear pts s 0 0 s h
  refine ⟨A, h1, ?_⟩
  have : (lin2 s 0 0 s : Vec 2 K → Vec 2 K) = (s • ·) := by
    funext p i; fin_cases i <;> simp [lin2]
  rw [this] at h2
  rw [h2]
  congr 2
  rw [mul_zero, sub_zero, abs_mul_self, sq]

example : ∃ A, areaIter [![0, 0], ![2, 0], (![0, 1] : Vec 2 ℚ)] = .ok A ∧
    areaIter ([![0, 0], ![2, 0], (![0, 1] : Vec 2 ℚ)].map ((-3 : ℚ) • ·)) = .ok ((-3) ^ 2 * A) := C33_scaling _ (-3) (by simp)

/-- **C33** For three vertices the polygon area is the triangle area, and the triangle area is
half the absolute determinant of the edge vectors. -/
theorem C33_triangle [IsStrictOrderedRing K] (a b c : Vec 2 K) :
    areaIter [a, b, c] = .ok (triArea2 a b c) ∧ areaPack a [b, c] = triArea2 a b c ∧
      triArea2 a b c = |Matrix.det (Matrix.of ![b - a, c - a])| / 2 := by
  have h : shoelace [a, b, c] = (1 / 2) * triCross2 a b c := by
    rw [shoelace_eq]
    simp [cyc, wedge, triCross2, cross2]; ring
  have h2 : |(1 / 2 : K)| = 1 / 2 := abs_of_pos (by norm_num)
  refine ⟨?_, ?_, ?_⟩
  · rw [areaIter_eq, if_pos (by simp), h, abs_mul, h2, triArea2]
  · rw [(C33_shoelace [] a [b, c]).2.2.1, h, abs_mul, h2, triArea2]
  · rw [Matrix.det_fin_two, triArea2]
    simp [triCross2, cross2]; ring

/-- **C33** Additivity: cutting a polygon along the diagonal from `a` to `b` splits the signed
area (second component of `normal`) into the signed areas of the two parts. -/
theorem C33_additive [IsStrictOrderedRing K] (a b : Vec 2 K) (l r : List (Vec 2 K)) (hl : l ≠ []) (hr : r ≠ []) :
    ∃ n n1 n2, normalIter2 (a :: (l ++ b :: r)) = .ok n ∧ normalIter2 (a :: (l ++ [b])) = .ok n1 ∧
      normalIter2 (b :: (r ++ [a])) = .ok n2 ∧ n 1 = n1 1 + n2 1 ∧
      areaIter (a :: (l ++ b :: r)) = .ok |n 1| := by
  have h1 : 0 < l.length := List.length_pos_iff.2 hl
  have h2 : 0 < r.length := List.length_pos_iff.2 hr
  refine ⟨_, _, _, by rw [normalIter2_eq, if_pos (by simp; omega)],
    by rw [normalIter2_eq, if_pos (by simp; omega)], by rw [normalIter2_eq, if_pos (by simp; omega)], ?_, ?_⟩
  · simp only [shoelace_eq]
    rw [cyc_cut _ wedge_anti]
    simp; ring
  · rw [areaIter_eq, if_pos (by simp; omega)]; rfl

/-- **C33** Triangulation: the signed area is the sum of the signed areas of the triangles formed
by the edges and any point `m`. -/
theorem C33_fan [IsStrictOrderedRing K] (pts : List (Vec 2 K)) (m : Vec 2 K) :
    shoelace pts = ((edges pts).map fun e => triNormal2 m e.1 e.2 1).sum := by
  rw [← cyc_edges (fun p q => triNormal2 m p q 1), shoelace_eq,
    ← cyc_add_telescope (wedge (K := K)) (fun p => -wedge m p) pts]
  have : cyc (fun p q => triNormal2 m p q 1) pts =
      cyc (fun p q => (1 / 2 : K) * (wedge p q + (-wedge m q - -wedge m p))) pts :=
    cyc_congr pts fun p _ q _ => by simp [triNormal2, triCross2, cross2, wedge]; ring
  rw [this, cyc_mul_left]; ring

/-- the unit square and an L-shaped hexagon -/
example : areaIter [![0, 0], ![1, 0], ![1, 1], (![0, 1] : Vec 2 ℚ)] = .ok 1 := by
  rw [areaIter_eq, shoelace_eq]; norm_num [cyc, wedge]
example : areaIter [![0, 0], ![2, 0], ![2, 1], ![1, 1], ![1, 2], (![0, 2] : Vec 2 ℚ)] = .ok 3 := by
  rw [areaIter_eq, shoelace_eq]; norm_num [cyc, wedge]
example : areaIter [![0, 0], (![2, 0] : Vec 2 ℚ)] = .assertFail := by rw [areaIter_eq]; simp

/-! ## C34 -/

omit [LinearOrder K] in
theorem centroidIter2_eq [DecidableEq K] (pts : List (Vec 2 K)) :
    centroidIter2 pts = if 2 < pts.length then divOrNaN (cyc moment pts) (3 * cyc wedge pts) else .assertFail := by
  unfold centroidIter2
  by_cases h : 2 < pts.length
  · have hw := walk_sum (fun p q : Vec 2 K => (moment p q, wedge p q)) (0, 0) pts (ne_nil_of_two h)
    have e : (fun (st : Vec 2 K × K) (po pn : Vec 2 K) =>
        let tmp := po 0 * pn 1 - pn 0 * po 1
        let a := st.2 + tmp
        ((![st.1 0 + tmp * (po 0 + pn 0), st.1 1 + tmp * (po 1 + pn 1)], a) : Vec 2 K × K)) =
        fun st p q => st + (moment p q, wedge p q) := by
      funext st p q
      refine Prod.ext ?_ rfl
      funext i
      fin_cases i <;> rfl
    have e0 : ((fun _ => 0, 0) : Vec 2 K × K) = (0, 0) := rfl
    simp only [gt_iff_lt, h, decide_true, Outcome.assert_true, Outcome.bind_ok, if_true, e0]
    rw [e, hw]
    have c1 : (cyc (fun p q : Vec 2 K => (moment p q, wedge p q)) pts).1 = cyc moment pts :=
      (cyc_hom (AddMonoidHom.fst (Vec 2 K) K) _ pts).symm
    have c2 : (cyc (fun p q : Vec 2 K => (moment p q, wedge p q)) pts).2 = cyc wedge pts :=
      (cyc_hom (AddMonoidHom.snd (Vec 2 K) K) _ pts).symm
    simp only [Outcome.bind_ok, Prod.fst_add, Prod.snd_add, zero_add, c1, c2]
  · simp [h]

omit [LinearOrder K] in
theorem centroidPack2_eq [DecidableEq K] (t : Vec 2 K) (args : List (Vec 2 K)) :
    centroidPack2 t args = divOrNaN (cyc moment (t :: args)) (3 * cyc wedge (t :: args)) := by
  unfold centroidPack2
  have e0 : (fun _ => 0 : Vec 2 K) = 0 := rfl
  simp only [centroidRec_eq, e0, zero_add]
  rfl

/-- the centroid of a polygon as the point whose multiple by the signed area is the moment -/
theorem centroid_of [IsStrictOrderedRing K] (pts : List (Vec 2 K)) (hn : 2 < pts.length) (ha : shoelace pts ≠ 0) :
    ∃ c, centroidIter2 pts = .ok c ∧ (6 * shoelace pts) • c = cyc moment pts := by
  have hw : cyc wedge pts ≠ 0 := fun h => ha (by rw [shoelace_eq, h, zero_div])
  have h3 : 3 * cyc wedge pts ≠ 0 := mul_ne_zero three_ne_zero hw
  refine ⟨_, by rw [centroidIter2_eq, if_pos hn, divOrNaN, if_neg h3], ?_⟩
  rw [divBy_eq, smul_smul, shoelace_eq]
  have : 6 * (cyc wedge pts / 2) * (3 * cyc wedge pts)⁻¹ = 1 := by field_simp; norm_num
  rw [this, one_smul]

omit [LinearOrder K] in
theorem smul_cancel {a : K} (ha : a ≠ 0) {x y : Vec d K} (h : a • x = a • y) : x = y := by
  funext i
  have := congrFun h i
  simpa [ha] using this

/-- two polygons whose moments are related have related centroids -/
theorem centroid_transfer [IsStrictOrderedRing K] (pts pts' : List (Vec 2 K)) (hn : 2 < pts.length)
    (hn' : 2 < pts'.length) (ha : shoelace pts ≠ 0) (c' : Vec 2 K → Vec 2 K) (ha' : shoelace pts' ≠ 0)
    (h : ∀ c, (6 * shoelace pts) • c = cyc moment pts → (6 * shoelace pts') • c' c = cyc moment pts') :
    ∃ c, centroidIter2 pts = .ok c ∧ centroidIter2 pts' = .ok (c' c) := by
  obtain ⟨c, h1, h2⟩ := centroid_of pts hn ha
  obtain ⟨d, h3, h4⟩ := centroid_of pts' hn' ha'
  refine ⟨c, h1, ?_⟩
  rw [h3, smul_cancel (mul_ne_zero (by norm_num) ha') (h4.trans (h c h2).symm)]

/-- **C34** The argument pack and the iterator versions agree, and a vanishing area gives NaN. -/
theorem C34_versions [IsStrictOrderedRing K] (t u v : Vec 2 K) (args : List (Vec 2 K)) :
    centroidPack2 t (u :: v :: args) = centroidIter2 (t :: u :: v :: args) ∧
      (shoelace (t :: u :: v :: args) = 0 → centroidIter2 (t :: u :: v :: args) = .throws "NaN") := by
  refine ⟨?_, fun h => ?_⟩
  · rw [centroidPack2_eq, centroidIter2_eq, if_pos (by simp)]
  · rw [centroidIter2_eq, if_pos (by simp), divOrNaN, if_pos]
    rw [shoelace_eq] at h
    have : cyc wedge (t :: u :: v :: args) = 0 := by
      rcases div_eq_zero_iff.1 h with h | h
      · exact h
      · norm_num at h
    rw [this, mul_zero]

/-- **C34** Affine equivariance: applying an invertible linear map and a translation to all
vertices applies it to the centroid.  Translations and scalings are special cases. -/
theorem C34_affine [IsStrictOrderedRing K] (pts : List (Vec 2 K)) (hn : 2 < pts.length) (ha : shoelace pts ≠ 0)
    (a b c d : K) (hdet : a * d - b * c ≠ 0) (t : Vec 2 K) :
    ∃ x, centroidIter2 pts = .ok x ∧
      centroidIter2 (pts.map fun p => lin2 a b c d p + t) = .ok (lin2 a b c d x + t) := by
  have hw : cyc wedge (pts.map fun p => lin2 a b c d p + t) = (a * d - b * c) * cyc wedge pts := by
    rw [cyc_map, ← cyc_mul_left,
      ← cyc_add_telescope (fun p q => (a * d - b * c) * wedge p q) (fun p => wedge t (lin2 a b c d p)) pts]
    exact cyc_congr pts fun p _ q _ => by simp only [wedge, lin2, Pi.add_apply]; simp; ring
  have hs : shoelace (pts.map fun p => lin2 a b c d p + t) = (a * d - b * c) * shoelace pts := by
    rw [shoelace_eq, shoelace_eq, hw, mul_div_assoc]
  have hm : cyc moment (pts.map fun p => lin2 a b c d p + t) =
      (a * d - b * c) • (lin2 a b c d (cyc moment pts)) + (3 * (a * d - b * c) * cyc wedge pts) • t := by
    funext i
    have h0 := cyc_apply (moment (K := K)) pts 0
    have h1 := cyc_apply (moment (K := K)) pts 1
    rw [cyc_map, cyc_apply]
    simp only [Pi.add_apply, Pi.smul_apply, smul_eq_mul]
    revert i
    rw [Fin.forall_fin_two]
    constructor
    · have e : cyc (fun p q => moment (lin2 a b c d p + t) (lin2 a b c d q + t) 0) pts =
          cyc (fun p q => ((a * d - b * c) * (a * moment p q 0 + b * moment p q 1)
            + 3 * (a * d - b * c) * t 0 * wedge p q)
            + ((t 0 * lin2 a b c d q 1 * (lin2 a b c d q 0 + 2 * t 0) - t 1 * lin2 a b c d q 0 * (lin2 a b c d q 0 + 2 * t 0))
              - (t 0 * lin2 a b c d p 1 * (lin2 a b c d p 0 + 2 * t 0) - t 1 * lin2 a b c d p 0 * (lin2 a b c d p 0 + 2 * t 0)))) pts :=
        cyc_congr pts fun p _ q _ => by simp only [moment, wedge, lin2, Pi.add_apply]; simp; ring
      rw [e, cyc_add_telescope _ (fun q : Vec 2 K => t 0 * lin2 a b c d q 1 * (lin2 a b c d q 0 + 2 * t 0) - t 1 * lin2 a b c d q 0 * (lin2 a b c d q 0 + 2 * t 0)), cyc_add, cyc_mul_left, cyc_mul_left, cyc_add, cyc_mul_left, cyc_mul_left, ← h0, ← h1]
      simp [lin2]; ring
    · have e : cyc (fun p q => moment (lin2 a b c d p + t) (lin2 a b c d q + t) 1) pts =
          cyc (fun p q => ((a * d - b * c) * (c * moment p q 0 + d * moment p q 1)
            + 3 * (a * d - b * c) * t 1 * wedge p q)
            + ((t 0 * lin2 a b c d q 1 * (lin2 a b c d q 1 + 2 * t 1) - t 1 * lin2 a b c d q 0 * (lin2 a b c d q 1 + 2 * t 1))
              - (t 0 * lin2 a b c d p 1 * (lin2 a b c d p 1 + 2 * t 1) - t 1 * lin2 a b c d p 0 * (lin2 a b c d p 1 + 2 * t 1)))) pts :=
        cyc_congr pts fun p _ q _ => by simp only [moment, wedge, lin2, Pi.add_apply]; simp; ring
      rw [e, cyc_add_telescope _ (fun q : Vec 2 K => t 0 * lin2 a b c d q 1 * (lin2 a b c d q 1 + 2 * t 1) - t 1 * lin2 a b c d q 0 * (lin2 a b c d q 1 + 2 * t 1)), cyc_add, cyc_mul_left, cyc_mul_left, cyc_add, cyc_mul_left, cyc_mul_left, ← h0, ← h1]
      simp [lin2]; ring
  refine centroid_transfer pts _ hn (by simpa using hn) ha (fun x => lin2 a b c d x + t) (by rw [hs]; exact mul_ne_zero hdet ha) ?_
  intro x hx
  rw [hs, hm, ← hx]
  have hsh : cyc wedge pts = 2 * shoelace pts := by rw [shoelace_eq]; ring
  rw [hsh]
  funext i
  revert i
  rw [Fin.forall_fin_two]
  constructor <;>
    simp only [lin2, Pi.add_apply, Pi.smul_apply, smul_eq_mul, Matrix.cons_val_zero, Matrix.cons_val_one] <;> ring

example (t : Vec 2 ℚ) : ∃ x, centroidIter2 [![0, 0], ![2, 0], ![2, 1], (![0, 2] : Vec 2 ℚ)] = .ok x ∧
    centroidIter2 ([![0, 0], ![2, 0], ![2, 1], ![0, 2]].map fun p => lin2 3 1 0 2 p + t) = .ok (lin2 3 1 0 2 x + t) :=
  C34_affine _ (by simp) (by rw [shoelace_eq]; simp [cyc, wedge]; norm_num) 3 1 0 2 (by norm_num) t

/-- **C34** Translations move the centroid along; scalings scale it. -/
theorem C34_translation_scaling [IsStrictOrderedRing K] (pts : List (Vec 2 K)) (hn : 2 < pts.length)
    (ha : shoelace pts ≠ 0) (s : K) (hs : s ≠ 0) (t : Vec 2 K) :
    ∃ x, centroidIter2 pts = .ok x ∧ centroidIter2 (pts.map fun p => s • p + t) = .ok (s • x + t) := by
  obtain ⟨x, h1, h2⟩ := C34_affine pts hn ha s 0 0 s (by simpa using hs) t
  have : (lin2 s 0 0 s : Vec 2 K → Vec 2 K) = (s • ·) := by
    funext p i; fin_cases i <;> simp [lin2]
  rw [this] at h2
  exact ⟨x, h1, h2⟩

example (t : Vec 2 ℚ) : ∃ x, centroidIter2 [![0, 0], ![2, 0], ![2, 1], (![0, 2] : Vec 2 ℚ)] = .ok x ∧
    centroidIter2 ([![0, 0], ![2, 0], ![2, 1], (![0, 2] : Vec 2 ℚ)].map fun p => (5 : ℚ) • p + t) = .ok ((5 : ℚ) • x + t) :=
  C34_translation_scaling _ (by simp) (by rw [shoelace_eq]; simp [cyc, wedge]; norm_num) 5 (by norm_num) t

/-- **C34** The centroid does not depend on which vertex comes first or on the orientation. -/
theorem C34_renumbering [IsStrictOrderedRing K] (pts : List (Vec 2 K)) (k : Nat) :
    centroidIter2 (pts.rotate k) = centroidIter2 pts ∧ centroidIter2 pts.reverse = centroidIter2 pts := by
  refine ⟨?_, ?_⟩
  · rw [centroidIter2_eq, centroidIter2_eq, cyc_rotate, cyc_rotate, List.length_rotate]
  · have h1 : cyc wedge pts.reverse = -cyc wedge pts := by
      rw [cyc_reverse, ← cyc_neg]; exact cyc_congr pts fun p _ q _ => wedge_anti q p
    have h2 : cyc moment pts.reverse = -cyc moment pts := by
      rw [cyc_reverse, ← cyc_neg]
      exact cyc_congr pts fun p _ q _ => by
        funext i; simp only [moment, Pi.neg_apply]; rw [wedge_anti]; ring
    rw [centroidIter2_eq, centroidIter2_eq, h1, h2, List.length_reverse]
    unfold divOrNaN
    simp only [mul_neg, neg_eq_zero, divBy_eq, inv_neg, neg_smul, smul_neg, neg_neg]

/-- **C34** The centroid of a triangle is its vertex mean, also by the triangle formula. -/
theorem C34_triangle [IsStrictOrderedRing K] (a b c : Vec 2 K) (h : shoelace [a, b, c] ≠ 0) :
    centroidIter2 [a, b, c] = .ok (triMid a b c) := by
  obtain ⟨x, h1, h2⟩ := centroid_of [a, b, c] (by simp) h
  rw [h1]
  congr 1
  apply smul_cancel (mul_ne_zero (by norm_num : (6 : K) ≠ 0) h)
  rw [h2, shoelace_eq]
  funext i
  simp only [cyc, List.cons_append, List.nil_append, pathSum_cons_cons, pathSum_single, add_zero,
    Pi.add_apply, moment, wedge, Pi.smul_apply, smul_eq_mul, triMid]
  fin_cases i <;> simp <;> field_simp <;> ring

example : centroidIter2 [![0, 0], ![3, 0], (![0, 3] : Vec 2 ℚ)] = .ok (triMid ![0, 0] ![3, 0] ![0, 3]) :=
  C34_triangle _ _ _ (by rw [shoelace_eq]; simp [cyc, wedge])

/-- **C34** The centroid of a parallelogram is its vertex mean. -/
theorem C34_parallelogram [IsStrictOrderedRing K] (a u v : Vec 2 K) (h : shoelace [a, a + u, a + u + v, a + v] ≠ 0) :
    centroidIter2 [a, a + u, a + u + v, a + v] = .ok (quadMid a (a + u) (a + u + v) (a + v)) := by
  obtain ⟨x, h1, h2⟩ := centroid_of [a, a + u, a + u + v, a + v] (by simp) h
  rw [h1]
  congr 1
  apply smul_cancel (mul_ne_zero (by norm_num : (6 : K) ≠ 0) h)
  rw [h2, shoelace_eq]
  funext i
  simp only [cyc, List.cons_append, List.nil_append, pathSum_cons_cons, pathSum_single, add_zero,
    Pi.add_apply, moment, wedge, Pi.smul_apply, smul_eq_mul, quadMid]
  fin_cases i <;> simp <;> field_simp <;> ring

/-- **C34** Composite centroids: cutting along a diagonal, the centroid of the whole is the mean of
the centroids of the parts weighted by signed area. -/
theorem C34_additive [IsStrictOrderedRing K] (a b : Vec 2 K) (l r : List (Vec 2 K)) (hl : l ≠ []) (hr : r ≠ [])
    (h : shoelace (a :: (l ++ b :: r)) ≠ 0) (h1 : shoelace (a :: (l ++ [b])) ≠ 0)
    (h2 : shoelace (b :: (r ++ [a])) ≠ 0) :
    ∃ x x1 x2, centroidIter2 (a :: (l ++ b :: r)) = .ok x ∧ centroidIter2 (a :: (l ++ [b])) = .ok x1 ∧
      centroidIter2 (b :: (r ++ [a])) = .ok x2 ∧
      shoelace (a :: (l ++ b :: r)) • x = shoelace (a :: (l ++ [b])) • x1 + shoelace (b :: (r ++ [a])) • x2 := by
  have hl' : 0 < l.length := List.length_pos_iff.2 hl
  have hr' : 0 < r.length := List.length_pos_iff.2 hr
  obtain ⟨x, e, f⟩ := centroid_of _ (by simp; omega) h
  obtain ⟨x1, e1, f1⟩ := centroid_of _ (by simp; omega) h1
  obtain ⟨x2, e2, f2⟩ := centroid_of _ (by simp; omega) h2
  refine ⟨x, x1, x2, e, e1, e2, ?_⟩
  apply smul_cancel (by norm_num : (6 : K) ≠ 0)
  rw [smul_add, smul_smul, smul_smul, smul_smul, f, f1, f2]
  exact cyc_cut _ (fun p q => by funext i; simp only [moment, Pi.neg_apply]; rw [wedge_anti]; ring) a b l r

example : shoelace [![0, 0], ![2, 0], ![2, 1], ![1, 1], ![1, 2], (![0, 2] : Vec 2 ℚ)] ≠ 0 := by
  rw [shoelace_eq]; simp [cyc, wedge]; norm_num
example : centroidIter2 [![0, 0], ![2, 0], ![2, 1], ![1, 1], ![1, 2], (![0, 2] : Vec 2 ℚ)] =
    .ok ![5 / 6, 5 / 6] := by
  rw [centroidIter2_eq, if_pos (by simp)]
  have hw : cyc wedge [![0, 0], ![2, 0], ![2, 1], ![1, 1], ![1, 2], (![0, 2] : Vec 2 ℚ)] = 6 := by
    simp [cyc, wedge]; norm_num
  rw [hw, divOrNaN, if_neg (by norm_num)]
  congr 1
  funext i
  fin_cases i <;> simp [cyc, wedge, moment, divBy] <;> norm_num

end

end Verif.Geometry
