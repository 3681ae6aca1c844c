import Mathlib.MeasureTheory.Measure.Lebesgue.EqHaar
import Mathlib.MeasureTheory.Function.Jacobian
import Mathlib.MeasureTheory.Integral.Prod
import Mathlib.Analysis.Convex.Combination
import Mathlib.Tactic.LinearCombination
import Mathlib.Analysis.SpecialFunctions.Integrals.Basic

/-!
# Lebesgue measure and first moments of simplices

Nothing here is about the code: these are the facts about areas, volumes and centres of mass
against which the formulas of `ristra/geometry` are compared in `PropsMeasure`.
-/

namespace Verif.Geometry
open MeasureTheory

/-- the corner `x ≥ 0, Σ x ≤ t` -/
def corner (n : ℕ) (t : ℝ) : Set (Fin n → ℝ) := {x | (∀ i, 0 ≤ x i) ∧ ∑ i, x i ≤ t}

theorem isClosed_corner (n : ℕ) (t : ℝ) : IsClosed (corner n t) := by
  have h1 : IsClosed {x : Fin n → ℝ | ∀ i, 0 ≤ x i} := by
    rw [Set.setOf_forall]
    exact isClosed_iInter fun i => isClosed_le continuous_const (continuous_apply i)
  exact h1.inter (isClosed_le (continuous_finsetSum _ fun i _ => continuous_apply i) continuous_const)

theorem measurableSet_corner (n : ℕ) (t : ℝ) : MeasurableSet (corner n t) := (isClosed_corner n t).measurableSet

theorem corner_neg {n : ℕ} {t : ℝ} (h : t < 0) : corner n t = ∅ := by
  ext x
  simp only [corner, Set.mem_setOf_eq, Set.mem_empty_iff_false, iff_false, not_and, not_le]
  intro hx
  exact lt_of_lt_of_le h (Finset.sum_nonneg fun i _ => hx i)

theorem lintegral_corner (m : ℕ) (t : ℝ) (i : Fin (m + 1)) (f : ℝ → ENNReal) (hf : Measurable f)
    (hV : ∀ t, 0 ≤ t → volume (corner m t) = ENNReal.ofReal (t ^ m / m.factorial)) :
    ∫⁻ x in corner (m + 1) t, f (x i) = ∫⁻ s in Set.Icc 0 t, f s * ENNReal.ofReal ((t - s) ^ m / m.factorial) := by
  let e := MeasurableEquiv.piFinSuccAbove (fun _ : Fin (m + 1) => ℝ) i
  have he : MeasurePreserving e := volume_preserving_piFinSuccAbove (fun _ : Fin (m + 1) => ℝ) i
  let S : Set (ℝ × (Fin m → ℝ)) := {p | 0 ≤ p.1 ∧ p.2 ∈ corner m (t - p.1)}
  have hS : MeasurableSet S := by
    apply IsClosed.measurableSet
    have h1 : IsClosed {p : ℝ × (Fin m → ℝ) | 0 ≤ p.1} := isClosed_le continuous_const continuous_fst
    have h2 : IsClosed {p : ℝ × (Fin m → ℝ) | ∀ i, 0 ≤ p.2 i} := by
      rw [Set.setOf_forall]
      exact isClosed_iInter fun i => isClosed_le continuous_const ((continuous_apply i).comp continuous_snd)
    have h3 : IsClosed {p : ℝ × (Fin m → ℝ) | ∑ i, p.2 i ≤ t - p.1} :=
      isClosed_le (continuous_finsetSum _ fun i _ => (continuous_apply i).comp continuous_snd)
        (continuous_const.sub continuous_fst)
    exact h1.inter (h2.inter h3)
  have hpre : corner (m + 1) t = e ⁻¹' S := by
    ext x
    simp only [corner, S, Set.mem_preimage, Set.mem_setOf_eq]
    have h1 : (e x).1 = x i := rfl
    have h2 : ∀ j, (e x).2 j = x (i.succAbove j) := fun j => rfl
    rw [h1]
    simp only [h2]
    rw [Fin.sum_univ_succAbove _ i, i.forall_iff_succAbove]
    constructor
    · rintro ⟨⟨h, h'⟩, h''⟩
      exact ⟨h, h', by linarith⟩
    · rintro ⟨h, h', h''⟩
      exact ⟨⟨h, h'⟩, by linarith⟩
  rw [hpre]
  have h1 : ∫⁻ x in e ⁻¹' S, f (x i) = ∫⁻ p in S, f p.1 :=
    he.setLIntegral_comp_preimage hS (hf.comp measurable_fst)
  rw [h1, ← lintegral_indicator hS, Measure.volume_eq_prod, lintegral_prod (S.indicator fun p => f p.1) ((hf.comp measurable_fst).indicator hS).aemeasurable,
    ← lintegral_indicator measurableSet_Icc]
  congr 1
  funext s
  have h2 : ∀ y : Fin m → ℝ, S.indicator (fun p => f p.1) (s, y) =
      (if 0 ≤ s then f s else 0) * (corner m (t - s)).indicator 1 y := by
    intro y
    by_cases h : 0 ≤ s <;> by_cases h' : y ∈ corner m (t - s) <;> simp [S, Set.indicator, h, h']
  simp only [h2]
  rw [lintegral_const_mul _ (measurable_one.indicator (measurableSet_corner _ _)),
    lintegral_indicator_one (measurableSet_corner _ _)]
  by_cases h : 0 ≤ s
  · by_cases h' : s ≤ t
    · rw [if_pos h, hV _ (by linarith), Set.indicator_of_mem (Set.mem_Icc.2 ⟨h, h'⟩)]
    · rw [corner_neg (by linarith), Set.indicator_of_notMem (fun hm => h' hm.2), measure_empty, mul_zero]
  · rw [if_neg h, zero_mul, Set.indicator_of_notMem (fun hm => h hm.1)]

theorem integral_sub_pow (m : ℕ) (t : ℝ) : ∫ s in (0 : ℝ)..t, (t - s) ^ m = t ^ (m + 1) / (m + 1) := by
  have := intervalIntegral.integral_comp_sub_left (fun x : ℝ => x ^ m) (a := 0) (b := t) t
  rw [this, integral_pow]
  simp

theorem integral_mul_sub_pow (m : ℕ) (t : ℝ) :
    ∫ s in (0 : ℝ)..t, s * (t - s) ^ m = t ^ (m + 2) / ((m + 1) * (m + 2)) := by
  have h := intervalIntegral.integral_comp_sub_left (fun x : ℝ => (t - x) * x ^ m) (a := 0) (b := t) t
  simp only [sub_sub_cancel, sub_self, sub_zero] at h
  rw [h]
  have : ∀ x : ℝ, (t - x) * x ^ m = t * x ^ m - x ^ (m + 1) := fun x => by ring
  simp only [this]
  rw [intervalIntegral.integral_sub (by apply Continuous.intervalIntegrable; fun_prop)
    (by apply Continuous.intervalIntegrable; fun_prop), intervalIntegral.integral_const_mul, integral_pow, integral_pow]
  have h1 : (m : ℝ) + 1 ≠ 0 := by positivity
  have h2 : (m : ℝ) + 2 ≠ 0 := by positivity
  push_cast
  field_simp
  ring

theorem lintegral_Icc_ofReal (t : ℝ) (ht : 0 ≤ t) (g : ℝ → ℝ) (hg : Continuous g) (h0 : ∀ s, 0 ≤ s → s ≤ t → 0 ≤ g s) :
    ∫⁻ s in Set.Icc 0 t, ENNReal.ofReal (g s) = ENNReal.ofReal (∫ s in (0 : ℝ)..t, g s) := by
  rw [intervalIntegral.integral_of_le ht, ← integral_Icc_eq_integral_Ioc,
    ofReal_integral_eq_lintegral_ofReal hg.integrableOn_Icc]
  exact (ae_restrict_iff' measurableSet_Icc).2 (Filter.Eventually.of_forall fun s hs => h0 s hs.1 hs.2)

/-- the corner has volume `t^n / n!` -/
theorem volume_corner (n : ℕ) : ∀ t : ℝ, 0 ≤ t → volume (corner n t) = ENNReal.ofReal (t ^ n / n.factorial) := by
  induction n with
  | zero =>
    intro t ht
    have : corner 0 t = Set.univ := by
      ext x; simp [corner, ht]
    rw [this, volume_pi, Measure.pi_of_empty _ (fun i => i.elim0)]
    simp
  | succ m ih =>
    intro t ht
    have h := lintegral_corner m t 0 (fun _ => 1) measurable_const ih
    simp only [lintegral_const, one_mul, MeasurableSet.univ, Measure.restrict_apply, Set.univ_inter] at h
    rw [h, lintegral_Icc_ofReal t ht (fun s => (t - s) ^ m / m.factorial) (by fun_prop)
      (fun s _ hs => by have : 0 ≤ t - s := by linarith
                        positivity), intervalIntegral.integral_div, integral_sub_pow]
    congr 1
    rw [Nat.factorial_succ]
    push_cast
    have h1 : (m : ℝ) + 1 ≠ 0 := by positivity
    have h2 : (m.factorial : ℝ) ≠ 0 := by positivity
    field_simp

/-- the first moments of the corner -/
theorem moment_corner (n : ℕ) (i : Fin n) (t : ℝ) (ht : 0 ≤ t) :
    ∫ x in corner n t, x i = t ^ (n + 1) / (n + 1).factorial := by
  obtain ⟨m, rfl⟩ : ∃ m, n = m + 1 := ⟨n - 1, by have := i.2; omega⟩
  rw [integral_eq_lintegral_of_nonneg_ae]
  · rw [lintegral_corner m t i (fun s => ENNReal.ofReal s) ENNReal.measurable_ofReal (volume_corner m)]
    have : ∀ s ∈ Set.Icc 0 t, ENNReal.ofReal s * ENNReal.ofReal ((t - s) ^ m / m.factorial) =
        ENNReal.ofReal (s * (t - s) ^ m / m.factorial) := by
      intro s hs
      rw [← ENNReal.ofReal_mul hs.1, mul_div_assoc]
    rw [setLIntegral_congr_fun measurableSet_Icc this,
      lintegral_Icc_ofReal t ht (fun s => s * (t - s) ^ m / m.factorial) (by fun_prop)
        (fun s h0 hs => by have : 0 ≤ t - s := by linarith
                           positivity), intervalIntegral.integral_div, integral_mul_sub_pow, ENNReal.toReal_ofReal (by positivity)]
    rw [Nat.factorial_succ, Nat.factorial_succ]
    push_cast
    have h1 : (m : ℝ) + 1 ≠ 0 := by positivity
    have h2 : (m : ℝ) + 2 ≠ 0 := by positivity
    have h3 : (m : ℝ) + 1 + 1 ≠ 0 := by positivity
    have h4 : (m.factorial : ℝ) ≠ 0 := by positivity
    field_simp
    ring
  · exact (ae_restrict_iff' (measurableSet_corner _ _)).2 (Filter.Eventually.of_forall fun x hx => hx.1 i)
  · exact (measurable_pi_apply i).aestronglyMeasurable

/-! ## Simplices -/

/-- the edge vectors from the first vertex, as rows -/
def edgeRows {n : ℕ} (p : Fin (n + 1) → Fin n → ℝ) : Matrix (Fin n) (Fin n) ℝ := Matrix.of fun i => p i.succ - p 0

/-- the linear part of the map from the corner to the simplex -/
noncomputable def edgeMap {n : ℕ} (p : Fin (n + 1) → Fin n → ℝ) : (Fin n → ℝ) →ₗ[ℝ] (Fin n → ℝ) :=
  Matrix.toLin' (edgeRows p).transpose

theorem edgeMap_apply {n : ℕ} (p : Fin (n + 1) → Fin n → ℝ) (x : Fin n → ℝ) :
    edgeMap p x = ∑ i, x i • (p i.succ - p 0) := by
  ext k
  simp [edgeMap, edgeRows, Matrix.toLin'_apply, Matrix.mulVec, dotProduct, mul_comm]

theorem det_edgeMap {n : ℕ} (p : Fin (n + 1) → Fin n → ℝ) : LinearMap.det (edgeMap p) = (edgeRows p).det := by
  rw [edgeMap, LinearMap.det_toLin', Matrix.det_transpose]

theorem convex_corner (n : ℕ) (t : ℝ) : Convex ℝ (corner n t) := by
  intro x hx y hy a b ha hb hab
  refine ⟨fun i => ?_, ?_⟩
  · have := hx.1 i; have := hy.1 i
    simp only [Pi.add_apply, Pi.smul_apply, smul_eq_mul]
    positivity
  · simp only [Pi.add_apply, Pi.smul_apply, smul_eq_mul, Finset.sum_add_distrib, ← Finset.mul_sum]
    have h1 := mul_le_mul_of_nonneg_left hx.2 ha
    have h2 := mul_le_mul_of_nonneg_left hy.2 hb
    have : a * t + b * t = t := by rw [← add_mul, hab, one_mul]
    linarith

theorem hull_eq_image {n : ℕ} (p : Fin (n + 1) → Fin n → ℝ) :
    convexHull ℝ (Set.range p) = (fun x => p 0 + edgeMap p x) '' corner n 1 := by
  apply Set.Subset.antisymm
  · apply convexHull_min
    · rintro _ ⟨j, rfl⟩
      refine Fin.cases ?_ (fun i => ?_) j
      · exact ⟨0, ⟨fun i => le_rfl, by simp⟩, by simp⟩
      · refine ⟨Pi.single i 1, ⟨fun k => ?_, by simp⟩, ?_⟩
        · by_cases h : k = i
          · subst h; simp
          · simp [Pi.single_eq_of_ne h]
        · simp only [edgeMap_apply]
          rw [Finset.sum_eq_single i (fun k _ hk => by simp [Pi.single_eq_of_ne hk]) (by simp)]
          simp
    · have := ((convex_corner n 1).linear_image (edgeMap p)).translate (p 0)
      rwa [Set.image_image] at this
  · rintro _ ⟨x, hx, rfl⟩
    have : p 0 + edgeMap p x = ∑ j : Fin (n + 1), (Fin.cons (1 - ∑ i, x i) x : Fin (n + 1) → ℝ) j • p j := by
      rw [Fin.sum_univ_succ, edgeMap_apply]
      simp only [Fin.cons_zero, Fin.cons_succ, smul_sub, Finset.sum_sub_distrib, sub_smul, one_smul, ← Finset.sum_smul]
      abel
    simp only [this]
    apply (convex_convexHull ℝ _).sum_mem
    · intro j _
      refine Fin.cases ?_ (fun i => ?_) j
      · have := hx.2; simpa using this
      · simpa using hx.1 i
    · rw [Fin.sum_univ_succ]; simp
    · intro j _
      exact subset_convexHull _ _ ⟨j, rfl⟩

/-- the volume of a simplex: `|det| / n!` -/
theorem volume_simplex {n : ℕ} (p : Fin (n + 1) → Fin n → ℝ) :
    volume (convexHull ℝ (Set.range p)) = ENNReal.ofReal (|(edgeRows p).det| / n.factorial) := by
  rw [hull_eq_image, ← Set.image_image (fun x => p 0 + x) (edgeMap p), Set.image_add_left, measure_preimage_add,
    Measure.addHaar_image_linearMap, det_edgeMap, volume_corner n 1 zero_le_one, ← ENNReal.ofReal_mul (abs_nonneg _)]
  congr 1
  rw [one_pow, mul_one_div]

theorem isCompact_corner (n : ℕ) (t : ℝ) : IsCompact (corner n t) := by
  apply Metric.isCompact_of_isClosed_isBounded (isClosed_corner n t)
  refine (Metric.isBounded_Icc (0 : Fin n → ℝ) (fun _ => t)).subset fun x hx => ⟨fun i => hx.1 i, fun i => ?_⟩
  exact (Finset.single_le_sum (fun j _ => hx.1 j) (Finset.mem_univ i)).trans hx.2

/-- the first moments of a simplex: volume times the mean of the vertices -/
theorem moment_simplex {n : ℕ} (p : Fin (n + 1) → Fin n → ℝ) (k : Fin n) :
    ∫ x in convexHull ℝ (Set.range p), x k = |(edgeRows p).det| / n.factorial * ((∑ j, p j k) / (n + 1)) := by
  by_cases hd : (edgeRows p).det = 0
  · rw [setIntegral_measure_zero _ (by rw [volume_simplex, hd]; simp), hd]; simp
  · rw [hull_eq_image]
    have hinj : Function.Injective (fun x => p 0 + edgeMap p x) := by
      intro x y h
      have h' : edgeMap p x = edgeMap p y := add_left_cancel h
      have hu : LinearMap.det (edgeMap p) ≠ 0 := by rwa [det_edgeMap]
      exact (LinearMap.equivOfDetNeZero (edgeMap p) hu).injective h'
    rw [integral_image_eq_integral_abs_det_fderiv_smul volume (measurableSet_corner n 1)
      (f' := fun _ => LinearMap.toContinuousLinearMap (edgeMap p)) ?_ hinj.injOn]
    · have hdet : (LinearMap.toContinuousLinearMap (edgeMap p)).det = (edgeRows p).det := by
        rw [← det_edgeMap]; rfl
      simp only [hdet, smul_eq_mul]
      rw [integral_const_mul]
      have hint : ∀ i : Fin n, IntegrableOn (fun x : Fin n → ℝ => x i * (p i.succ k - p 0 k)) (corner n 1) := fun i =>
        (((continuous_apply i).mul continuous_const).continuousOn).integrableOn_compact (isCompact_corner n 1)
      have h1 : ∀ x : Fin n → ℝ, (p 0 + edgeMap p x) k = p 0 k + ∑ i, x i * (p i.succ k - p 0 k) := by
        intro x; simp [edgeMap_apply]
      simp only [h1]
      have hc : IntegrableOn (fun _ : Fin n → ℝ => p 0 k) (corner n 1) :=
        continuous_const.continuousOn.integrableOn_compact (isCompact_corner n 1)
      rw [integral_add hc (integrable_finsetSum _ fun i _ => hint i), integral_finsetSum _ fun i _ => hint i]
      simp only [integral_mul_const, moment_corner n _ 1 zero_le_one, setIntegral_const, measureReal_def,
        volume_corner n 1 zero_le_one]
      rw [ENNReal.toReal_ofReal (by positivity), Fin.sum_univ_succ, ← Finset.mul_sum, Finset.sum_sub_distrib]
      simp only [Finset.sum_const, Finset.card_univ, Fintype.card_fin, nsmul_eq_mul, one_pow, smul_eq_mul]
      rw [Nat.factorial_succ]
      push_cast
      have h2 : (n : ℝ) + 1 ≠ 0 := by positivity
      have h3 : (n.factorial : ℝ) ≠ 0 := by positivity
      field_simp
      ring
    · intro x _
      have := (LinearMap.toContinuousLinearMap (edgeMap p)).hasFDerivAt (x := x)
      exact (this.const_add (p 0)).hasFDerivWithinAt

/-! ## Signed simplices -/

/-- the indicator of a simplex, negative when its vertices are numbered the other way round -/
noncomputable def signedSimplex {n : ℕ} (p : Fin (n + 1) → Fin n → ℝ) (x : Fin n → ℝ) : ℝ :=
  (SignType.sign (edgeRows p).det : ℝ) * (convexHull ℝ (Set.range p)).indicator 1 x

theorem isCompact_simplex {n : ℕ} (p : Fin (n + 1) → Fin n → ℝ) : IsCompact (convexHull ℝ (Set.range p)) :=
  (Set.finite_range p).isCompact_convexHull ℝ

theorem signedSimplex_mul {n : ℕ} (p : Fin (n + 1) → Fin n → ℝ) (f : (Fin n → ℝ) → ℝ) :
    (fun x => signedSimplex p x * f x) =
      fun x => (SignType.sign (edgeRows p).det : ℝ) * (convexHull ℝ (Set.range p)).indicator f x := by
  funext x
  by_cases h : x ∈ convexHull ℝ (Set.range p) <;> simp [signedSimplex, h]

theorem integrable_signedSimplex {n : ℕ} (p : Fin (n + 1) → Fin n → ℝ) (f : (Fin n → ℝ) → ℝ) (hf : Continuous f) :
    Integrable fun x => signedSimplex p x * f x := by
  rw [signedSimplex_mul]
  exact ((integrable_indicator_iff (isCompact_simplex p).measurableSet).2
    (hf.continuousOn.integrableOn_compact (isCompact_simplex p))).const_mul _

theorem integral_signedSimplex_mul {n : ℕ} (p : Fin (n + 1) → Fin n → ℝ) (f : (Fin n → ℝ) → ℝ) :
    ∫ x, signedSimplex p x * f x = (SignType.sign (edgeRows p).det : ℝ) * ∫ x in convexHull ℝ (Set.range p), f x := by
  rw [signedSimplex_mul, integral_const_mul, integral_indicator (isCompact_simplex p).measurableSet]

theorem integral_signedSimplex {n : ℕ} (p : Fin (n + 1) → Fin n → ℝ) :
    ∫ x, signedSimplex p x = (edgeRows p).det / n.factorial := by
  have h := integral_signedSimplex_mul p (fun _ => 1)
  simp only [mul_one] at h
  rw [h, setIntegral_const, measureReal_def, volume_simplex, ENNReal.toReal_ofReal (by positivity), smul_eq_mul, mul_one,
    ← mul_div_assoc, sign_mul_abs]

theorem moment_signedSimplex {n : ℕ} (p : Fin (n + 1) → Fin n → ℝ) (k : Fin n) :
    ∫ x, signedSimplex p x * x k = (edgeRows p).det / n.factorial * ((∑ j, p j k) / (n + 1)) := by
  rw [integral_signedSimplex_mul p (fun x => x k), moment_simplex]
  have h := sign_mul_abs (edgeRows p).det
  linear_combination (1 / n.factorial * ((∑ j, p j k) / (n + 1)) : ℝ) * h

theorem integral_list_sum {ι : Type} {n : ℕ} (l : List ι) (g : ι → (Fin n → ℝ) → ℝ) (hg : ∀ i ∈ l, Integrable (g i)) :
    Integrable (fun x => (l.map fun i => g i x).sum) ∧
      ∫ x, (l.map fun i => g i x).sum = (l.map fun i => ∫ x, g i x).sum := by
  induction l with
  | nil => simp
  | cons a l ih =>
    obtain ⟨h1, h2⟩ := ih fun i hi => hg i (List.mem_cons_of_mem _ hi)
    have ha := hg a (List.mem_cons_self ..)
    simp only [List.map_cons, List.sum_cons]
    exact ⟨ha.add h1, by rw [integral_add ha h1, h2]⟩

/-- simplices numbered the same way round that overlap in null sets only add up to their union -/
theorem signed_union {n : ℕ} (l : List (Fin (n + 1) → Fin n → ℝ)) (hpos : ∀ p ∈ l, 0 ≤ (edgeRows p).det)
    (hd : l.Pairwise fun p q => AEDisjoint volume (convexHull ℝ (Set.range p)) (convexHull ℝ (Set.range q))) :
    (fun x => (l.map fun p => signedSimplex p x).sum) =ᵐ[volume]
      (⋃ p ∈ l, convexHull ℝ (Set.range p)).indicator 1 := by
  induction l with
  | nil => simp
  | cons p l ih =>
    rw [List.pairwise_cons] at hd
    have ih := ih (fun q hq => hpos q (List.mem_cons_of_mem _ hq)) hd.2
    have h1 : signedSimplex p =ᵐ[volume] (convexHull ℝ (Set.range p)).indicator 1 := by
      rcases lt_or_eq_of_le (hpos p (List.mem_cons_self ..)) with h | h
      · refine Filter.Eventually.of_forall fun x => ?_
        rw [signedSimplex, sign_pos h]; simp
      · have h0 : volume (convexHull ℝ (Set.range p)) = 0 := by rw [volume_simplex, ← h]; simp
        have h2 : ∀ᵐ x ∂(volume : Measure (Fin n → ℝ)), x ∉ convexHull ℝ (Set.range p) := measure_eq_zero_iff_ae_notMem.1 h0
        filter_upwards [h2] with x hx
        simp [signedSimplex, hx]
    have h2 : volume (convexHull ℝ (Set.range p) ∩ ⋃ q ∈ l, convexHull ℝ (Set.range q)) = 0 := by
      rw [Set.inter_iUnion₂]
      refine (measure_biUnion_null_iff (List.finite_toSet l).countable).2 fun q hq => hd.1 q hq
    have h3 := measure_eq_zero_iff_ae_notMem.1 h2
    filter_upwards [ih, h1, h3] with x hx1 hx2 hx3
    have e : (⋃ q ∈ p :: l, convexHull ℝ (Set.range q)) =
        convexHull ℝ (Set.range p) ∪ ⋃ q ∈ l, convexHull ℝ (Set.range q) := by
      simp only [List.mem_cons, Set.iUnion_iUnion_eq_or_left]
    rw [List.map_cons, List.sum_cons, hx1, hx2, e, Set.indicator_union_of_notMem_inter hx3]

end Verif.Geometry
