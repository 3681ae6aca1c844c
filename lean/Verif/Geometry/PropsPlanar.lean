import Verif.Geometry.Props3D
import Verif.Geometry.PropsConvex
import Mathlib.Analysis.Convex.Combination
import Mathlib.Tactic.Positivity

/-!
# C103: 3D polygons that are flat, moved, scaled

The area and the centroid of a 3D polygon are sums over the triangles between its edges and the
mean of its vertices.  `L` is the linear part of the map that puts the polygon in place; that it
multiplies scalar products by `s²` is what makes it a similarity of ratio `s`.
-/

namespace Verif.Geometry
open Verif.Vec

/-! ## sums over edges -/

theorem vmean_map_affine {m n : Nat} (L : Vec m ℝ →ₗ[ℝ] Vec n ℝ) (t : Vec n ℝ) (l : List (Vec m ℝ)) (hl : l ≠ []) :
    vmean (l.map fun p => L p + t) = L (vmean l) + t := by
  have h0 : (l.length : ℝ) ≠ 0 := by
    have := List.length_pos_iff.2 hl
    exact_mod_cast this.ne'
  have hs : (l.map fun p => L p + t).sum = L l.sum + (l.length : ℝ) • t := by
    clear hl h0
    induction l with
    | nil => simp
    | cons a l ih => simp only [List.map_cons, List.sum_cons, ih, List.length_cons, map_add]; push_cast; module
  unfold vmean
  rw [hs, List.length_map, smul_add, smul_smul, inv_mul_cancel₀ h0, one_smul, map_smul]

/-- twice the area of a triangle, squared, from the scalar products of its edges -/
theorem sq_triArea3 (a b c : Vec 3 ℝ) :
    (2 * triArea3 a b c) ^ 2 = dot (b - a) (b - a) * dot (c - a) (c - a) - dot (b - a) (c - a) ^ 2 := by
  have e : 2 * triArea3 a b c = magnitude (cross3 ![b 0 - a 0, b 1 - a 1, b 2 - a 2] ![c 0 - a 0, c 1 - a 1, c 2 - a 2]) := by
    rw [triArea3]; ring
  rw [e, (C32_magnitude _ 0 0).1]
  simp only [dot3, cross3, Pi.sub_apply]
  simp
  ring

theorem sq_triCross2 (a b c : Vec 2 ℝ) :
    triCross2 a b c ^ 2 = dot (b - a) (b - a) * dot (c - a) (c - a) - dot (b - a) (c - a) ^ 2 := by
  simp only [dot2, triCross2, cross2, Pi.sub_apply]
  simp
  ring

theorem triArea3_nonneg (a b c : Vec 3 ℝ) : 0 ≤ triArea3 a b c := by
  rw [triArea3_eq]; exact (C32_magnitude _ 0 0).2.1

theorem triArea3_similar (L : Vec 3 ℝ →ₗ[ℝ] Vec 3 ℝ) (t : Vec 3 ℝ) (s : ℝ)
    (hL : ∀ u v, dot (L u) (L v) = s ^ 2 * dot u v) (a b c : Vec 3 ℝ) :
    triArea3 (L a + t) (L b + t) (L c + t) = s ^ 2 * triArea3 a b c := by
  have h1 := sq_triArea3 (L a + t) (L b + t) (L c + t)
  have h2 := sq_triArea3 a b c
  rw [add_sub_add_right_eq_sub, add_sub_add_right_eq_sub, ← map_sub, ← map_sub, hL, hL, hL] at h1
  have h3 : (2 * triArea3 (L a + t) (L b + t) (L c + t)) ^ 2 = (s ^ 2 * (2 * triArea3 a b c)) ^ 2 := by
    rw [mul_pow (s ^ 2), h2, h1]; ring
  have h4 := (sq_eq_sq₀ (by have := triArea3_nonneg (L a + t) (L b + t) (L c + t); positivity)
    (by have := triArea3_nonneg a b c; positivity)).1 h3
  linarith

theorem triArea3_flat (L : Vec 2 ℝ →ₗ[ℝ] Vec 3 ℝ) (t : Vec 3 ℝ) (hL : ∀ u v, dot (L u) (L v) = dot u v)
    (a b c : Vec 2 ℝ) : triArea3 (L a + t) (L b + t) (L c + t) = |triCross2 a b c| / 2 := by
  have h1 := sq_triArea3 (L a + t) (L b + t) (L c + t)
  rw [add_sub_add_right_eq_sub, add_sub_add_right_eq_sub, ← map_sub, ← map_sub, hL, hL, hL, ← sq_triCross2,
    ← sq_abs (triCross2 a b c)] at h1
  have h4 := (sq_eq_sq₀ (by have := triArea3_nonneg (L a + t) (L b + t) (L c + t); positivity) (abs_nonneg _)).1 h1
  linarith

theorem triMid_affine {m n : Nat} (L : Vec m ℝ →ₗ[ℝ] Vec n ℝ) (t : Vec n ℝ) (a b c : Vec m ℝ) :
    triMid (L a + t) (L b + t) (L c + t) = L (triMid a b c) + t := by
  have e : ∀ {k : Nat} (x y z : Vec k ℝ), triMid x y z = (1 / 3 : ℝ) • (x + y + z) := by
    intro k x y z; funext i; simp [triMid]
  rw [e, e, map_smul, map_add, map_add]
  module

theorem cyc_smul_vec {P : Type} {n : Nat} (f : P → P → ℝ) (t : Vec n ℝ) (l : List P) :
    cyc (fun p q => f p q • t) l = cyc f l • t := by
  let φ : ℝ →+ Vec n ℝ :=
    { toFun := fun x => x • t, map_zero' := zero_smul _ _, map_add' := fun x y => add_smul x y t }
  exact cyc_hom φ f l

theorem cyc_linear {P : Type} {m n : Nat} (L : Vec m ℝ →ₗ[ℝ] Vec n ℝ) (f : P → P → Vec m ℝ) (l : List P) :
    cyc (fun p q => L (f p q)) l = L (cyc f l) := cyc_hom L.toAddMonoidHom f l

theorem cyc_congr_edges {P M : Type} [AddCommMonoid M] {f g : P → P → M} (l : List P)
    (h : ∀ e ∈ edges l, f e.1 e.2 = g e.1 e.2) : cyc f l = cyc g l := by
  rw [cyc_edges, cyc_edges]
  congr 1
  exact List.map_congr_left h

/-! ## the two forms -/

theorem centroidRec3_eq (m cx : Vec 3 ℝ) (v : ℝ) (l : List (Vec 3 ℝ)) :
    centroidRec3 m cx v l =
      (cx + pathSum (fun p q => triArea3 p q m • triMid p q m) l, v + pathSum (fun p q => triArea3 p q m) l) := by
  induction l generalizing cx v with
  | nil => simp [centroidRec3]
  | cons a l ih =>
    cases l with
    | nil => simp [centroidRec3]
    | cons b l =>
      simp only [centroidRec3]
      rw [ih, pathSum_cons_cons, pathSum_cons_cons]
      refine Prod.ext ?_ ?_
      · funext i; simp [add_assoc]
      · simp [add_assoc]

/-- **C103** The centroid from an argument list (which needs four points) is the centroid from a
range. -/
theorem C103_versions (t u v w : Vec 3 ℝ) (args : List (Vec 3 ℝ)) :
    centroidPack3 t (u :: v :: w :: args) = centroidIter3 (t :: u :: v :: w :: args) := by
  rw [centroidIter3_eq _ (by simp)]
  have e0 : (fun _ => 0 : Vec 3 ℝ) = 0 := rfl
  simp only [centroidPack3, centroidRec3_eq, averagePack_eq, e0, zero_add]
  rfl

example : centroidPack3 ![0, 0, 1] [![4, 0, 1], ![4, 2, 3], ![0, 2, 1], ![-1, 1, 0]] =
    centroidIter3 [![0, 0, 1], ![4, 0, 1], ![4, 2, 3], ![0, 2, 1], ![-1, 1, 0]] := C103_versions _ _ _ _ _

/-! ## similarities of space -/

/-- **C103** Under a similarity of ratio `s` (rotations, reflections, translations, scalings and
what they compose to) the area is multiplied by `s²` and the centroid goes along. -/
theorem C103_similarity (pts : List (Vec 3 ℝ)) (h : 3 < pts.length) (L : Vec 3 ℝ →ₗ[ℝ] Vec 3 ℝ) (t : Vec 3 ℝ) (s : ℝ)
    (hs : s ≠ 0) (hL : ∀ u v, dot (L u) (L v) = s ^ 2 * dot u v) :
    (∃ A, areaIter3 pts = .ok A ∧ areaIter3 (pts.map fun p => L p + t) = .ok (s ^ 2 * A)) ∧
      ∀ c, centroidIter3 pts = .ok c → centroidIter3 (pts.map fun p => L p + t) = .ok (L c + t) := by
  have hne := ne_nil_of_three h
  have hm := vmean_map_affine L t pts hne
  have hA : cyc (fun p q => triArea3 p q (vmean (pts.map fun p => L p + t))) (pts.map fun p => L p + t) =
      s ^ 2 * cyc (fun p q => triArea3 p q (vmean pts)) pts := by
    rw [cyc_map, hm]
    simp only [triArea3_similar L t s hL]
    exact cyc_mul_left _ _ _
  constructor
  · exact ⟨_, by rw [areaIter3_eq, if_pos h], by rw [areaIter3_eq, if_pos (by simpa using h), hA]⟩
  · intro c hc
    rw [centroidIter3_eq _ h] at hc
    split at hc
    · simp at hc
    · rename_i h0
      have hc' := (Outcome.ok.inj hc).symm
      have hs2 : s ^ 2 ≠ 0 := pow_ne_zero 2 hs
      rw [centroidIter3_eq _ (by simpa using h), hA, if_neg (mul_ne_zero hs2 h0), hc']
      congr 1
      have hM : cyc (fun p q => triArea3 p q (vmean (pts.map fun p => L p + t)) •
            triMid p q (vmean (pts.map fun p => L p + t))) (pts.map fun p => L p + t) =
          s ^ 2 • (L (cyc (fun p q => triArea3 p q (vmean pts) • triMid p q (vmean pts)) pts) +
            cyc (fun p q => triArea3 p q (vmean pts)) pts • t) := by
        rw [cyc_map, hm, ← cyc_linear, ← cyc_smul_vec, ← cyc_add]
        refine Eq.trans ?_ (cyc_hom (DistribSMul.toAddMonoidHom (Vec 3 ℝ) (s ^ 2)) _ pts)
        refine cyc_congr pts fun p _ q _ => ?_
        rw [triArea3_similar L t s hL, triMid_affine]
        show _ = s ^ 2 • (L (triArea3 p q (vmean pts) • triMid p q (vmean pts)) + triArea3 p q (vmean pts) • t)
        rw [map_smul]
        module
      rw [hM, divBy_eq, divBy_eq, map_smul, smul_smul, mul_inv, mul_comm (s ^ 2)⁻¹, mul_assoc, inv_mul_cancel₀ hs2, mul_one,
        smul_add, smul_smul, inv_mul_cancel₀ h0, one_smul]

/-- twice a quarter turn about the third axis -/
def turn2 : Vec 3 ℝ →ₗ[ℝ] Vec 3 ℝ where
  toFun p := ![-2 * p 1, 2 * p 0, 2 * p 2]
  map_add' p q := by funext i; fin_cases i <;> simp <;> ring
  map_smul' a p := by funext i; fin_cases i <;> simp <;> ring

example : ∃ A, areaIter3 [![0, 0, 1], ![4, 0, 1], ![4, 2, 3], (![0, 2, 1] : Vec 3 ℝ)] = .ok A ∧
    areaIter3 ([![0, 0, 1], ![4, 0, 1], ![4, 2, 3], ![0, 2, 1]].map fun p => turn2 p + ![5, 6, 7]) = .ok (2 ^ 2 * A) :=
  (C103_similarity _ (by simp) turn2 ![5, 6, 7] 2 (by norm_num) fun u v => by
    rw [dot3, dot3]; simp [turn2]; ring).1

/-! ## flat polygons -/

/-- twice the signed area from the triangles about `m` -/
theorem cyc_triCross2 (pts : List (Vec 2 ℝ)) (m : Vec 2 ℝ) :
    cyc (fun p q => triCross2 p q m) pts = 2 * shoelace pts := by
  rw [shoelace_eq, ← cyc_add_telescope (wedge (K := ℝ)) (fun p => wedge p m) pts]
  have : cyc (fun p q => triCross2 p q m) pts = cyc (fun p q => wedge p q + (wedge q m - wedge p m)) pts :=
    cyc_congr pts fun p _ q _ => by simp [triCross2, cross2, wedge]; ring
  rw [this]; ring

/-- six times the first moment from the triangles about `m` -/
theorem cyc_moment2 (pts : List (Vec 2 ℝ)) (m : Vec 2 ℝ) :
    cyc (fun p q => triCross2 p q m • triMid p q m) pts = (1 / 3 : ℝ) • cyc moment pts := by
  have : cyc (fun p q => triCross2 p q m • triMid p q m) pts =
      cyc (fun p q => (1 / 3 : ℝ) • moment p q + ((1 / 3 : ℝ) • (wedge q m • (q + m)) - (1 / 3 : ℝ) • (wedge p m • (p + m)))) pts := by
    refine cyc_congr pts fun p _ q _ => ?_
    funext i
    fin_cases i <;> simp [triCross2, cross2, wedge, triMid, moment] <;> ring
  rw [this, cyc_add_telescope _ fun x => (1 / 3 : ℝ) • (wedge x m • (x + m))]
  exact cyc_hom (DistribSMul.toAddMonoidHom (Vec 2 ℝ) (1 / 3 : ℝ)) _ pts

theorem abs_sum_le {P : Type} (f : P → ℝ) (l : List P) : |(l.map f).sum| ≤ (l.map fun e => |f e|).sum := by
  induction l with
  | nil => simp
  | cons a l ih =>
    simp only [List.map_cons, List.sum_cons]
    exact (abs_add_le _ _).trans (by linarith)

theorem sum_abs_of_nonneg {P : Type} (f : P → ℝ) (l : List P) (h : ∀ e ∈ l, 0 ≤ f e) :
    (l.map fun e => |f e|).sum = (l.map f).sum := by
  congr 1
  exact List.map_congr_left fun e he => abs_of_nonneg (h e he)

theorem nonneg_of_sum_abs {P : Type} (f : P → ℝ) (l : List P) (h : (l.map fun e => |f e|).sum = (l.map f).sum) :
    ∀ e ∈ l, 0 ≤ f e := by
  induction l with
  | nil => simp
  | cons a l ih =>
    simp only [List.map_cons, List.sum_cons] at h
    have h1 := le_abs_self (f a)
    have h2 : (l.map f).sum ≤ (l.map fun e => |f e|).sum := (le_abs_self _).trans (abs_sum_le f l)
    intro e he
    rcases List.mem_cons.1 he with rfl | he
    · exact abs_eq_self.1 (by linarith)
    · exact ih (by linarith) e he

theorem sum_map_neg {P : Type} (f : P → ℝ) (l : List P) : (l.map fun x => -f x).sum = -(l.map f).sum := by
  induction l with
  | nil => simp
  | cons a l ih => simp only [List.map_cons, List.sum_cons, ih]; ring

theorem sum_abs_eq_iff {P : Type} (f : P → ℝ) (l : List P) :
    (l.map fun e => |f e|).sum = |(l.map f).sum| ↔ (∀ e ∈ l, 0 ≤ f e) ∨ (∀ e ∈ l, f e ≤ 0) := by
  constructor
  · intro h
    rcases abs_cases (l.map f).sum with ⟨e, _⟩ | ⟨e, _⟩
    · exact Or.inl (nonneg_of_sum_abs f l (h.trans e))
    · right
      have h' : (l.map fun e => |(fun x => -f x) e|).sum = (l.map fun x => -f x).sum := by
        simp only [abs_neg]
        rw [h, e, sum_map_neg]
      intro e he
      have := nonneg_of_sum_abs _ l h' e he
      linarith
  · rintro (h | h)
    · rw [sum_abs_of_nonneg f l h, abs_of_nonneg]
      exact List.sum_nonneg fun x hx => by obtain ⟨e, he, rfl⟩ := List.mem_map.1 hx; exact h e he
    · have h2 := sum_abs_of_nonneg (fun x => -f x) l fun e he => by have := h e he; linarith
      simp only [abs_neg] at h2
      have h3 := sum_map_neg f l
      have h4 : 0 ≤ (l.map fun x => -f x).sum :=
        List.sum_nonneg fun x hx => by obtain ⟨e, he, rfl⟩ := List.mem_map.1 hx; have := h e he; linarith
      rw [h2, h3, abs_of_nonpos (by linarith)]

theorem flat_area (pts : List (Vec 2 ℝ)) (hne : pts ≠ []) (L : Vec 2 ℝ →ₗ[ℝ] Vec 3 ℝ) (t : Vec 3 ℝ)
    (hL : ∀ u v, dot (L u) (L v) = dot u v) :
    cyc (fun p q => triArea3 p q (vmean (pts.map fun p => L p + t))) (pts.map fun p => L p + t) =
      ((edges pts).map fun e => |triCross2 e.1 e.2 (vmean pts)|).sum / 2 := by
  rw [cyc_map, vmean_map_affine L t pts hne]
  simp only [triArea3_flat L t hL]
  rw [← cyc_edges (fun p q => |triCross2 p q (vmean pts)|)]
  have : cyc (fun p q => |triCross2 p q (vmean pts)| / 2) pts = cyc (fun p q => (1 / 2) * |triCross2 p q (vmean pts)|) pts :=
    cyc_congr pts fun p _ q _ => by ring
  rw [this, cyc_mul_left]; ring

/-- **C103** A flat polygon put anywhere in space has at least its plane area, and exactly its plane
area if and only if the mean of its vertices sees every edge in the same orientation. -/
theorem C103_flat_area_iff (pts : List (Vec 2 ℝ)) (h : 3 < pts.length) (L : Vec 2 ℝ →ₗ[ℝ] Vec 3 ℝ) (t : Vec 3 ℝ)
    (hL : ∀ u v, dot (L u) (L v) = dot u v) :
    ∃ A B, areaIter3 (pts.map fun p => L p + t) = .ok A ∧ areaIter pts = .ok B ∧ B ≤ A ∧
      (A = B ↔ (∀ e ∈ edges pts, 0 ≤ triCross2 e.1 e.2 (vmean pts)) ∨ (∀ e ∈ edges pts, triCross2 e.1 e.2 (vmean pts) ≤ 0)) := by
  have hne := ne_nil_of_three h
  have hB : shoelace pts = ((edges pts).map fun e => triCross2 e.1 e.2 (vmean pts)).sum / 2 := by
    rw [← cyc_edges (fun p q => triCross2 p q (vmean pts)), cyc_triCross2]; ring
  refine ⟨_, _, by rw [areaIter3_eq, if_pos (by simpa using h), flat_area pts hne L t hL],
    by rw [areaIter_eq, if_pos (by omega), hB], ?_, ?_⟩
  · rw [abs_div, abs_of_pos (by norm_num : (0 : ℝ) < 2)]
    have := abs_sum_le (fun e : Vec 2 ℝ × Vec 2 ℝ => triCross2 e.1 e.2 (vmean pts)) (edges pts)
    linarith
  · rw [abs_div, abs_of_pos (by norm_num : (0 : ℝ) < 2), div_left_inj' (by norm_num)]
    exact sum_abs_eq_iff (fun e : Vec 2 ℝ × Vec 2 ℝ => triCross2 e.1 e.2 (vmean pts)) (edges pts)

/-- **C103** When the mean of the vertices sees every edge in the same orientation, the centroid of
the flat polygon in space is the plane centroid, put in place. -/
theorem C103_flat_centroid_partial (pts : List (Vec 2 ℝ)) (h : 3 < pts.length) (L : Vec 2 ℝ →ₗ[ℝ] Vec 3 ℝ) (t : Vec 3 ℝ)
    (hL : ∀ u v, dot (L u) (L v) = dot u v) (hA : areaIter pts ≠ .ok 0)
    (ho : (∀ e ∈ edges pts, 0 ≤ triCross2 e.1 e.2 (vmean pts)) ∨ (∀ e ∈ edges pts, triCross2 e.1 e.2 (vmean pts) ≤ 0)) :
    ∃ c, centroidIter2 pts = .ok c ∧ centroidIter3 (pts.map fun p => L p + t) = .ok (L c + t) := by
  have hne := ne_nil_of_three h
  have ha : shoelace pts ≠ 0 := by
    intro e; apply hA; rw [areaIter_eq, if_pos (by omega), e, abs_zero]
  obtain ⟨c, hc, hm⟩ := centroid_of pts (by omega) ha
  refine ⟨c, hc, ?_⟩
  -- the sign of the orientation
  obtain ⟨g, hg, hgo⟩ : ∃ g : ℝ, (g = 1 ∨ g = -1) ∧ ∀ e ∈ edges pts, |triCross2 e.1 e.2 (vmean pts)| = g * triCross2 e.1 e.2 (vmean pts) := by
    rcases ho with ho | ho
    · exact ⟨1, Or.inl rfl, fun e he => by rw [one_mul, abs_of_nonneg (ho e he)]⟩
    · exact ⟨-1, Or.inr rfl, fun e he => by rw [abs_of_nonpos (ho e he)]; ring⟩
  have hg0 : g ≠ 0 := by rcases hg with rfl | rfl <;> norm_num
  have hAr : cyc (fun p q => triArea3 p q (vmean (pts.map fun p => L p + t))) (pts.map fun p => L p + t) =
      g * shoelace pts := by
    rw [flat_area pts hne L t hL, ← cyc_edges (fun p q => |triCross2 p q (vmean pts)|),
      cyc_congr_edges (g := fun p q => g * triCross2 p q (vmean pts)) pts hgo, cyc_mul_left, cyc_triCross2]
    ring
  have hMo : cyc (fun p q => triArea3 p q (vmean (pts.map fun p => L p + t)) •
        triMid p q (vmean (pts.map fun p => L p + t))) (pts.map fun p => L p + t) =
      (g * shoelace pts) • (L c + t) := by
    have e1 : cyc (fun p q => triArea3 (L p + t) (L q + t) (L (vmean pts) + t) •
        triMid (L p + t) (L q + t) (L (vmean pts) + t)) pts =
        cyc (fun p q => L ((g / 2) • (triCross2 p q (vmean pts) • triMid p q (vmean pts))) +
          ((g / 2) * triCross2 p q (vmean pts)) • t) pts := by
      apply cyc_congr_edges
      intro e he
      rw [triArea3_flat L t hL, triMid_affine, hgo e he, map_smul, map_smul]
      module
    rw [cyc_map, vmean_map_affine L t pts hne, e1, cyc_add, cyc_linear, cyc_smul_vec, cyc_mul_left, cyc_triCross2]
    have e2 : cyc (fun p q => (g / 2) • (triCross2 p q (vmean pts) • triMid p q (vmean pts))) pts =
        (g / 2) • cyc (fun p q => triCross2 p q (vmean pts) • triMid p q (vmean pts)) pts :=
      cyc_hom (DistribSMul.toAddMonoidHom (Vec 2 ℝ) (g / 2)) _ pts
    rw [e2, cyc_moment2, ← hm, smul_smul, smul_smul, map_smul]
    module
  have h0 : g * shoelace pts ≠ 0 := mul_ne_zero hg0 ha
  rw [centroidIter3_eq _ (by simpa using h), hAr, if_neg h0, hMo, divBy_eq, smul_smul, inv_mul_cancel₀ h0, one_smul]

/-- the inclusion of the plane `z = 0` -/
def flatten : Vec 2 ℝ →ₗ[ℝ] Vec 3 ℝ where
  toFun p := ![p 0, p 1, 0]
  map_add' p q := by funext i; fin_cases i <;> simp
  map_smul' a p := by funext i; fin_cases i <;> simp

theorem flatten_dot (u v : Vec 2 ℝ) : dot (flatten u) (flatten v) = dot u v := by
  rw [dot3, dot2]; simp [flatten]

/-- the dart `(0,0) (4,0) (4,4) (3,1)`; its vertex mean `(11/4, 5/4)` sees the last two edges from
behind -/
def dart : List (Vec 2 ℝ) := [![0, 0], ![4, 0], ![4, 4], ![3, 1]]

theorem vmean_dart : vmean dart = ![11 / 4, 5 / 4] := by
  funext i; fin_cases i <;> simp [vmean, dart] <;> norm_num

/-- **C103 fails** for polygons that are not star shaped about their vertex mean: the plane area of
the dart is 4, its area as a polygon in space is 6, and the two centroids differ. -/
theorem C103_flat_fails :
    areaIter dart = .ok 4 ∧ areaIter3 (dart.map fun p => flatten p + 0) = .ok 6 ∧
      ∃ c c', centroidIter2 dart = .ok c ∧ centroidIter3 (dart.map fun p => flatten p + 0) = .ok c' ∧ flatten c + 0 ≠ c' := by
  have h3 : 3 < dart.length := by simp [dart]
  have hne := ne_nil_of_three h3
  have hs : shoelace dart = 4 := by rw [shoelace_eq]; norm_num [dart, cyc, wedge]
  have hA : cyc (fun p q => triArea3 p q (vmean (dart.map fun p => flatten p + 0))) (dart.map fun p => flatten p + 0) = 6 := by
    rw [flat_area dart hne flatten 0 flatten_dot, vmean_dart]
    norm_num [dart, edges, triCross2, cross2, List.rotate_cons_succ]
  refine ⟨by rw [areaIter_eq, if_pos (by omega), hs]; norm_num, by rw [areaIter3_eq, if_pos (by simpa using h3), hA], ?_⟩
  obtain ⟨c, hc, hm⟩ := centroid_of dart (by omega) (by rw [hs]; norm_num)
  refine ⟨c, _, hc, by rw [centroidIter3_eq _ (by simpa using h3), hA, if_neg (by norm_num)], ?_⟩
  intro he
  have h0 := congrFun he 0
  have hc0 := congrFun hm 0
  have e1 : cyc moment dart 0 = 72 := by
    norm_num [dart, cyc, moment, wedge]
  rw [e1, hs] at hc0
  have e2 : cyc (fun p q => triArea3 p q (vmean (dart.map fun p => flatten p + 0)) •
        triMid p q (vmean (dart.map fun p => flatten p + 0))) (dart.map fun p => flatten p + 0) 0 = 103 / 6 := by
    rw [cyc_map, vmean_map_affine flatten 0 dart hne, vmean_dart]
    simp only [triArea3_flat flatten 0 flatten_dot, triMid_affine]
    norm_num [dart, cyc, triCross2, cross2, triMid, flatten]
  rw [divBy_eq, Pi.smul_apply, e2] at h0
  simp [flatten] at h0
  simp at hc0
  norm_num at h0
  linarith

example : ∃ A B, areaIter3 (dart.map fun p => flatten p + 0) = .ok A ∧ areaIter dart = .ok B ∧ B ≤ A := by
  obtain ⟨A, B, h1, h2, h3, -⟩ := C103_flat_area_iff dart (by simp [dart]) flatten 0 flatten_dot
  exact ⟨A, B, h1, h2, h3⟩

/-! ## the convex hull -/

theorem convex_weighted {n : Nat} (S : Set (Vec n ℝ)) (hS : Convex ℝ S) {P : Type} (w : P → ℝ) (x : P → Vec n ℝ) (l : List P)
    (hw : ∀ e ∈ l, 0 ≤ w e) (hx : ∀ e ∈ l, x e ∈ S) (hne : S.Nonempty) :
    ∃ y ∈ S, (l.map fun e => w e • x e).sum = (l.map w).sum • y ∧ 0 ≤ (l.map w).sum := by
  induction l with
  | nil => obtain ⟨y, hy⟩ := hne; exact ⟨y, hy, by simp, by simp⟩
  | cons a l ih =>
    obtain ⟨y, hy, e, hW⟩ := ih (fun e he => hw e (by simp [he])) (fun e he => hx e (by simp [he]))
    simp only [List.map_cons, List.sum_cons, e]
    have ha := hw a (by simp)
    rcases eq_or_lt_of_le (add_nonneg ha hW) with h0 | h0
    · have h1 : w a = 0 := by linarith
      have h2 : (l.map w).sum = 0 := by linarith
      exact ⟨y, hy, by rw [h1, h2]; simp, by linarith⟩
    · refine ⟨(w a / (w a + (l.map w).sum)) • x a + ((l.map w).sum / (w a + (l.map w).sum)) • y,
        hS (hx a (by simp)) hy (by positivity) (by positivity) (by field_simp), ?_, h0.le⟩
      rw [smul_add, smul_smul, smul_smul, mul_div_cancel₀ _ h0.ne', mul_div_cancel₀ _ h0.ne']

theorem vmean_mem {n : Nat} (l : List (Vec n ℝ)) (hl : l ≠ []) : vmean l ∈ convexHull ℝ {p | p ∈ l} := by
  obtain ⟨a, ha⟩ := List.exists_mem_of_ne_nil l hl
  obtain ⟨y, hy, e, _⟩ := convex_weighted (convexHull ℝ {p | p ∈ l}) (convex_convexHull ℝ _) (fun _ => (1 : ℝ)) id l
    (fun _ _ => zero_le_one) (fun e he => subset_convexHull ℝ _ he) ⟨a, subset_convexHull ℝ _ ha⟩
  have h0 : (l.length : ℝ) ≠ 0 := by
    have := List.length_pos_iff.2 hl
    exact_mod_cast this.ne'
  simp only [one_smul, id_eq, List.map_id', List.map_const', List.sum_replicate, nsmul_eq_mul, mul_one] at e
  have : vmean l = y := by
    rw [vmean, e, smul_smul, inv_mul_cancel₀ h0, one_smul]
  rw [this]; exact hy

/-- **C103** For a convex polygon, one that has all vertices on the same side of every edge, put
anywhere in space, area and centroid are those in the plane. -/
theorem C103_convex (pts : List (Vec 2 ℝ)) (h : 3 < pts.length) (L : Vec 2 ℝ →ₗ[ℝ] Vec 3 ℝ) (t : Vec 3 ℝ)
    (hL : ∀ u v, dot (L u) (L v) = dot u v) (hA : areaIter pts ≠ .ok 0)
    (ho : (∀ e ∈ edges pts, ∀ p ∈ pts, 0 ≤ triCross2 e.1 e.2 p) ∨ (∀ e ∈ edges pts, ∀ p ∈ pts, triCross2 e.1 e.2 p ≤ 0)) :
    areaIter3 (pts.map fun p => L p + t) = areaIter pts ∧
      ∃ c, centroidIter2 pts = .ok c ∧ centroidIter3 (pts.map fun p => L p + t) = .ok (L c + t) := by
  have hv := vmean_mem pts (ne_nil_of_three h)
  have ho' : (∀ e ∈ edges pts, 0 ≤ triCross2 e.1 e.2 (vmean pts)) ∨ (∀ e ∈ edges pts, triCross2 e.1 e.2 (vmean pts) ≤ 0) :=
    ho.imp (fun ho e he => convexHull_min (fun p hp => ho e he p hp) (convex_ge e.1 e.2) hv)
      (fun ho e he => convexHull_min (fun p hp => ho e he p hp) (convex_le e.1 e.2) hv)
  obtain ⟨A, B, h1, h2, -, h3⟩ := C103_flat_area_iff pts h L t hL
  exact ⟨by rw [h1, h2, h3.2 ho'], C103_flat_centroid_partial pts h L t hL hA ho'⟩

/-- a trapezium in the plane `z = 5` -/
example : areaIter3 ([![0, 0], ![4, 0], ![4, 2], (![0, 1] : Vec 2 ℝ)].map fun p => flatten p + ![1, 2, 5]) =
      areaIter [![0, 0], ![4, 0], ![4, 2], ![0, 1]] ∧
    ∃ c, centroidIter2 [![0, 0], ![4, 0], ![4, 2], (![0, 1] : Vec 2 ℝ)] = .ok c ∧
      centroidIter3 ([![0, 0], ![4, 0], ![4, 2], (![0, 1] : Vec 2 ℝ)].map fun p => flatten p + ![1, 2, 5]) =
        .ok (flatten c + ![1, 2, 5]) := by
  refine C103_convex _ (by simp) flatten _ flatten_dot ?_ (Or.inl ?_)
  · rw [areaIter_eq, if_pos (by simp), shoelace_eq]; norm_num [cyc, wedge]
  · intro e he p hp
    simp only [edges, List.rotate_cons_succ, List.rotate_zero, List.cons_append, List.nil_append, List.zip_cons_cons,
      List.zip_nil_right, List.mem_cons, List.not_mem_nil, or_false] at he hp
    rcases he with rfl | rfl | rfl | rfl <;> rcases hp with rfl | rfl | rfl | rfl <;>
      norm_num [triCross2, cross2]

/-- **C103** The centroid of a 3D polygon, flat or not, is in the convex hull of its vertices. -/
theorem C103_hull (pts : List (Vec 3 ℝ)) (c : Vec 3 ℝ) (hc : centroidIter3 pts = .ok c) :
    c ∈ convexHull ℝ {p | p ∈ pts} := by
  have h : 3 < pts.length := by
    by_contra h
    simp [centroidIter3, h] at hc
  have hne := ne_nil_of_three h
  rw [centroidIter3_eq _ h] at hc
  split at hc
  · simp at hc
  · rename_i h0
    have hc' := (Outcome.ok.inj hc).symm
    have hv := vmean_mem pts hne
    obtain ⟨y, hy, e, _⟩ := convex_weighted (convexHull ℝ {p | p ∈ pts}) (convex_convexHull ℝ _)
      (fun e : Vec 3 ℝ × Vec 3 ℝ => triArea3 e.1 e.2 (vmean pts)) (fun e => triMid e.1 e.2 (vmean pts)) (edges pts)
      (fun e _ => triArea3_nonneg _ _ _)
      (fun e he => by
        have hm := List.of_mem_zip he
        have h1 : e.1 ∈ convexHull ℝ {p | p ∈ pts} := subset_convexHull ℝ _ hm.1
        have h2 : e.2 ∈ convexHull ℝ {p | p ∈ pts} := subset_convexHull ℝ _ (List.mem_rotate.1 hm.2)
        have h3 := (convex_convexHull ℝ {p | p ∈ pts}) h1 h2 (by norm_num : (0 : ℝ) ≤ 1 / 2) (by norm_num) (by norm_num : (1 / 2 : ℝ) + 1 / 2 = 1)
        have h4 := (convex_convexHull ℝ {p | p ∈ pts}) h3 hv (by norm_num : (0 : ℝ) ≤ 2 / 3) (by norm_num : (0 : ℝ) ≤ 1 / 3) (by norm_num)
        have e : triMid e.1 e.2 (vmean pts) = (2 / 3 : ℝ) • ((1 / 2 : ℝ) • e.1 + (1 / 2 : ℝ) • e.2) + (1 / 3 : ℝ) • vmean pts := by
          funext i; simp [triMid]; ring
        rw [e]; exact h4)
      ⟨_, hv⟩
    rw [hc', cyc_edges, cyc_edges, e, divBy_eq, smul_smul, inv_mul_cancel₀ (by rwa [← cyc_edges (fun p q => triArea3 p q (vmean pts))]), one_smul]
    exact hy

/-- the dart has a centroid, so that lies in its hull -/
example : ∃ c, centroidIter3 (dart.map fun p => flatten p + 0) = .ok c ∧
    c ∈ convexHull ℝ {p | p ∈ dart.map fun p => flatten p + 0} := by
  obtain ⟨-, -, -, c, -, h, -⟩ := C103_flat_fails
  exact ⟨c, h, C103_hull _ c h⟩

/-- **C103** The functions taking a container of points: in the plane they are the plane versions,
in other dimensions `area` stops on an assertion and `centroid` raises an error. -/
theorem C103_containers (pts : List (Vec 2 ℝ)) (q : List (Vec 3 ℝ)) :
    areaOf 2 pts = areaIter pts ∧ centroidOf 2 pts = centroidIter2 pts ∧ areaOf 3 q = .assertFail ∧
      (q ≠ [] → centroidOf 3 q = .throws "not implemented") := by
  refine ⟨?_, ?_, rfl, fun h => ?_⟩
  · rw [areaOf, ← area2d_eq]
    cases pts with
    | nil => rw [area2d_eq, areaIter_eq]; simp
    | cons => simp
  · rw [centroidOf]
    cases pts with
    | nil => rw [centroidIter2_eq]; simp
    | cons => simp
  · cases q with
    | nil => exact absurd rfl h
    | cons => simp [centroidOf]

example : centroidOf 3 [(![0, 0, 0] : Vec 3 ℝ), ![1, 0, 0]] = .throws "not implemented" :=
  (C103_containers [] _).2.2.2 (by simp)

end Verif.Geometry
