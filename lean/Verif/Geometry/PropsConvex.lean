import Verif.Geometry.PropsMeasure
import Mathlib.Analysis.Convex.Join

/-!
# C33, C34: convex polygons

The area of a convex polygon is the Lebesgue measure of the convex hull of its vertices, the centroid
its centre of mass.
-/

namespace Verif.Geometry
open Verif.Vec MeasureTheory

/-! ## One step of the fan -/

theorem triCross2_affine (a b x y : Vec 2 ℝ) (s t : ℝ) (h : s + t = 1) :
    triCross2 a b (s • x + t • y) = s * triCross2 a b x + t * triCross2 a b y := by
  obtain rfl : t = 1 - s := by linarith
  simp [triCross2, cross2]
  ring

theorem triCross2_rot (a b c : Vec 2 ℝ) : triCross2 b c a = triCross2 a b c := by
  simp [triCross2, cross2]; ring

theorem triCross2_swap (a b c : Vec 2 ℝ) : triCross2 a c b = -triCross2 a b c := by
  simp [triCross2, cross2]; ring

theorem barycentric (a b c x : Vec 2 ℝ) :
    triCross2 a b c • x = triCross2 b c x • a + triCross2 c a x • b + triCross2 a b x • c := by
  funext k
  fin_cases k <;> simp [triCross2, cross2] <;> ring

theorem barycentric_sum (a b c x : Vec 2 ℝ) :
    triCross2 b c x + triCross2 c a x + triCross2 a b x = triCross2 a b c := by
  simp [triCross2, cross2]; ring

theorem convex_ge (a b : Vec 2 ℝ) : Convex ℝ {x | 0 ≤ triCross2 a b x} := by
  intro x hx y hy s t hs ht hst
  simp only [Set.mem_setOf_eq] at *
  rw [triCross2_affine a b x y s t hst]
  positivity

theorem convex_le (a b : Vec 2 ℝ) : Convex ℝ {x | triCross2 a b x ≤ 0} := by
  intro x hx y hy s t hs ht hst
  simp only [Set.mem_setOf_eq] at *
  rw [triCross2_affine a b x y s t hst]
  have h1 := mul_nonneg hs (neg_nonneg.2 hx)
  have h2 := mul_nonneg ht (neg_nonneg.2 hy)
  linarith

theorem convex_line (a b : Vec 2 ℝ) : Convex ℝ {x | triCross2 a b x = 0} := by
  have : {x | triCross2 a b x = 0} = {x | 0 ≤ triCross2 a b x} ∩ {x | triCross2 a b x ≤ 0} := by
    ext x; simp only [Set.mem_setOf_eq, Set.mem_inter_iff]
    constructor
    · intro h; rw [h]; simp
    · rintro ⟨h, h'⟩; exact le_antisymm h' h
  rw [this]
  exact (convex_ge a b).inter (convex_le a b)

/-- lines have measure zero -/
theorem volume_line (a b : Vec 2 ℝ) (h : a ≠ b) : volume {x | triCross2 a b x = 0} = 0 := by
  let φ : (Fin 2 → ℝ) →ₗ[ℝ] ℝ :=
    (b 0 - a 0) • LinearMap.proj (1 : Fin 2) - (b 1 - a 1) • LinearMap.proj (0 : Fin 2)
  have hφ : ∀ x, φ (x - a) = triCross2 a b x := by
    intro x; simp [φ, triCross2, cross2]
  let L : AffineSubspace ℝ (Fin 2 → ℝ) := AffineSubspace.mk' a (LinearMap.ker φ)
  have hL : {x | triCross2 a b x = 0} = (L : Set (Fin 2 → ℝ)) := by
    ext x
    simp only [Set.mem_setOf_eq, SetLike.mem_coe, L, AffineSubspace.mem_mk', LinearMap.mem_ker, vsub_eq_sub, hφ]
  rw [hL]
  apply Measure.addHaar_affineSubspace
  intro htop
  have hx : (a + ![-(b 1 - a 1), b 0 - a 0] : Fin 2 → ℝ) ∈ L := by rw [htop]; trivial
  simp only [L, AffineSubspace.mem_mk', LinearMap.mem_ker, vsub_eq_sub, add_sub_cancel_left] at hx
  have : (b 0 - a 0) ^ 2 + (b 1 - a 1) ^ 2 = 0 := by
    have h2 : φ ![-(b 1 - a 1), b 0 - a 0] = (b 0 - a 0) ^ 2 + (b 1 - a 1) ^ 2 := by
      simp [φ]; ring
    rw [← h2, hx]
  have h0 : b 0 - a 0 = 0 := by nlinarith [sq_nonneg (b 0 - a 0), sq_nonneg (b 1 - a 1)]
  have h1 : b 1 - a 1 = 0 := by nlinarith [sq_nonneg (b 0 - a 0), sq_nonneg (b 1 - a 1)]
  apply h
  funext k
  fin_cases k
  · show a 0 = b 0; linarith
  · show a 1 = b 1; linarith

theorem mem_tri_of_nonneg (a b c x : Vec 2 ℝ) (h : 0 < triCross2 a b c) (h1 : 0 ≤ triCross2 b c x)
    (h2 : 0 ≤ triCross2 c a x) (h3 : 0 ≤ triCross2 a b x) : x ∈ convexHull ℝ {a, b, c} := by
  have e : x = (triCross2 b c x / triCross2 a b c) • a + (triCross2 c a x / triCross2 a b c) • b +
      (triCross2 a b x / triCross2 a b c) • c := by
    have := congrArg (fun v => (triCross2 a b c)⁻¹ • v) (barycentric a b c x)
    simp only [smul_add, smul_smul, inv_mul_cancel₀ h.ne', one_smul] at this
    simpa only [div_eq_inv_mul] using this
  rw [e]
  have hs := barycentric_sum a b c x
  have hc := convex_convexHull ℝ ({a, b, c} : Set (Vec 2 ℝ))
  have := hc.sum_mem (t := Finset.univ) (w := ![triCross2 b c x / triCross2 a b c, triCross2 c a x / triCross2 a b c, triCross2 a b x / triCross2 a b c])
    (z := ![a, b, c]) (by
      intro i _; fin_cases i
      · exact div_nonneg h1 h.le
      · exact div_nonneg h2 h.le
      · exact div_nonneg h3 h.le)
    (by
      rw [Fin.sum_univ_three]
      show triCross2 b c x / triCross2 a b c + triCross2 c a x / triCross2 a b c + triCross2 a b x / triCross2 a b c = 1
      rw [← add_div, ← add_div, hs, div_self h.ne'])
    (by
      intro i _; fin_cases i <;> exact subset_convexHull ℝ _ (by simp))
  rw [Fin.sum_univ_three] at this
  exact this

/-- adding a vertex `v` beyond the side `a u` of a convex set adds the triangle `a u v` -/
theorem hull_insert (A : Set (Vec 2 ℝ)) (hA : Convex ℝ A) (a u v : Vec 2 ℝ) (ha : a ∈ A) (hu : u ∈ A)
    (h : 0 < triCross2 a u v) (h1 : ∀ x ∈ A, 0 ≤ triCross2 u v x) (h2 : ∀ x ∈ A, 0 ≤ triCross2 v a x)
    (h3 : ∀ x ∈ A, triCross2 a u x ≤ 0) : convexHull ℝ (insert v A) = A ∪ convexHull ℝ {a, u, v} := by
  apply Set.Subset.antisymm
  · rw [convexHull_insert ⟨a, ha⟩, hA.convexHull_eq]
    intro z hz
    rw [mem_convexJoin] at hz
    obtain ⟨v', hv', x, hx, hz⟩ := hz
    rw [Set.mem_singleton_iff] at hv'
    subst hv'
    obtain ⟨s, t, hs, ht, hst, rfl⟩ := hz
    have e1 := triCross2_affine u v' v' x s t hst
    have e2 := triCross2_affine v' a v' x s t hst
    have e3 := triCross2_affine a u v' x s t hst
    have z1 : triCross2 u v' v' = 0 := by simp [triCross2, cross2]; ring
    have z2 : triCross2 v' a v' = 0 := by simp [triCross2, cross2]
    rw [z1, mul_zero, zero_add] at e1
    rw [z2, mul_zero, zero_add] at e2
    by_cases hc : 0 ≤ triCross2 a u (s • v' + t • x)
    · right
      apply mem_tri_of_nonneg a u v' _ h _ _ hc
      · rw [e1]; exact mul_nonneg ht (h1 x hx)
      · rw [e2]; exact mul_nonneg ht (h2 x hx)
    · left
      push Not at hc
      set cv := triCross2 a u v' with hcv
      set ca := triCross2 a u x with hca
      have hcaneg : ca < 0 := by
        rcases lt_or_eq_of_le (h3 x hx) with h' | h'
        · exact h'
        · exfalso
          rw [e3, show ca = 0 from h', mul_zero, add_zero] at hc
          exact absurd hc (not_lt.2 (mul_nonneg hs h.le))
      have hd : 0 < cv - ca := by linarith
      -- the point where the segment crosses the side
      let y : Vec 2 ℝ := (triCross2 u v' x / (cv - ca)) • a + (triCross2 v' a x / (cv - ca)) • u
      have hsum := barycentric_sum a u v' x
      have hy : y ∈ A := hA ha hu (div_nonneg (h1 x hx) hd.le) (div_nonneg (h2 x hx) hd.le) (by
        rw [← add_div, div_eq_one_iff_eq hd.ne']; linarith)
      have hbar := barycentric a u v' x
      have hz : s • v' + t • x = (s * (cv - ca) / (-ca)) • y + ((-ca * t - s * cv) / (-ca)) • x := by
        funext k
        have hb := congrFun hbar k
        simp only [Pi.add_apply, Pi.smul_apply, smul_eq_mul, ← hcv, ← hca] at hb
        simp only [y, Pi.add_apply, Pi.smul_apply, smul_eq_mul]
        have hne : -ca ≠ 0 := by linarith
        have hca0 : ca ≠ 0 := hcaneg.ne
        have hd' := hd.ne'
        field_simp
        linear_combination (-s) * hb
      rw [hz]
      refine hA hy hx (div_nonneg (mul_nonneg hs hd.le) (by linarith)) (div_nonneg ?_ (by linarith)) ?_
      · rw [e3] at hc; nlinarith
      · have hne : -ca ≠ 0 := by linarith
        rw [← add_div, div_eq_one_iff_eq hne]
        have : s = 1 - t := by linarith
        rw [this]; ring
  · apply Set.union_subset
    · exact (Set.subset_insert v A).trans (subset_convexHull ℝ _)
    · apply convexHull_mono
      intro x hx
      simp only [Set.mem_insert_iff, Set.mem_singleton_iff] at hx
      rcases hx with rfl | rfl | rfl
      · exact Or.inr ha
      · exact Or.inr hu
      · exact Or.inl rfl

theorem tri_ge (a u v : Vec 2 ℝ) (h : 0 ≤ triCross2 a u v) : ∀ x ∈ convexHull ℝ {a, u, v}, 0 ≤ triCross2 a u x := by
  intro x hx
  refine convexHull_min ?_ (convex_ge a u) hx
  intro y hy
  simp only [Set.mem_insert_iff, Set.mem_singleton_iff] at hy
  rcases hy with rfl | rfl | rfl
  · simp [triCross2, cross2]
  · simp [triCross2, cross2, mul_comm]
  · exact h

/-! ## The whole fan -/

theorem measurable_hull_image (p : ℕ → Vec 2 ℝ) (n : ℕ) : IsCompact (convexHull ℝ (p '' Set.Iic n)) :=
  ((Set.finite_Iic n).image p).isCompact_convexHull ℝ

theorem isCompact_tri (a b c : Vec 2 ℝ) : IsCompact (convexHull ℝ {a, b, c}) := by
  have := isCompact_simplex ![a, b, c]
  rwa [range3] at this

theorem image_Iic_succ (p : ℕ → Vec 2 ℝ) (n : ℕ) : p '' Set.Iic (n + 1) = insert (p (n + 1)) (p '' Set.Iic n) := by
  rw [← Set.image_insert_eq]
  congr 1
  ext i
  simp only [Set.mem_Iic, Set.mem_insert_iff]
  omega

theorem hull_image_succ (p : ℕ → Vec 2 ℝ) (n : ℕ) :
    convexHull ℝ (p '' Set.Iic (n + 1)) = convexHull ℝ (insert (p (n + 1)) (convexHull ℝ (p '' Set.Iic n))) := by
  rw [image_Iic_succ, Set.insert_eq, Set.insert_eq, convexHull_convexHull_union_right]

theorem setIntegral_null {s : Set (Vec 2 ℝ)} (a b : Vec 2 ℝ) (hab : a ≠ b) (hs : s ⊆ {x | triCross2 a b x = 0})
    (f : Vec 2 ℝ → ℝ) : ∫ x in s, f x = 0 :=
  setIntegral_measure_zero _ (measure_mono_null hs (volume_line a b hab))

theorem fan_integral (p : ℕ → Vec 2 ℝ) (n : ℕ)
    (h : ∀ i j k, i < j → j < k → k ≤ n → 0 ≤ triCross2 (p i) (p j) (p k)) (f : Vec 2 ℝ → ℝ) (hf : Continuous f) :
    ∫ x in convexHull ℝ (p '' Set.Iic n), f x =
      ∑ i ∈ Finset.range n, ∫ x in convexHull ℝ {p 0, p i, p (i + 1)}, f x := by
  induction n with
  | zero =>
    have : p '' Set.Iic 0 = {p 0} := by ext x; simp [eq_comm]
    rw [this, convexHull_singleton, setIntegral_measure_zero _ (measure_singleton _)]
    simp
  | succ n ih =>
    have ih := ih fun i j k hij hjk hk => h i j k hij hjk (by omega)
    rw [Finset.sum_range_succ, ← ih]
    set A := convexHull ℝ (p '' Set.Iic n) with hAdef
    have hA : Convex ℝ A := convex_convexHull ℝ _
    have hmem : ∀ i, i ≤ n → p i ∈ A := fun i hi => subset_convexHull ℝ _ ⟨i, hi, rfl⟩
    have h0 := hmem 0 (Nat.zero_le n)
    have hn := hmem n le_rfl
    rw [hull_image_succ, ← hAdef]
    have hself : ∀ a b : Vec 2 ℝ, triCross2 a b a = 0 := fun a b => by simp [triCross2, cross2]
    have hself' : ∀ a b : Vec 2 ℝ, triCross2 a b b = 0 := fun a b => by simp [triCross2, cross2, mul_comm]
    have hself'' : ∀ a b : Vec 2 ℝ, triCross2 a a b = 0 := fun a b => by simp [triCross2, cross2]
    have hnn : ∀ i j k, i ≤ j → j ≤ k → k ≤ n + 1 → 0 ≤ triCross2 (p i) (p j) (p k) := by
      intro i j k hij hjk hk
      rcases Nat.lt_or_eq_of_le hij with hij | rfl
      · rcases Nat.lt_or_eq_of_le hjk with hjk | rfl
        · exact h i j k hij hjk hk
        · rw [hself']
      · rw [hself'']
    rcases lt_or_eq_of_le (hnn 0 n (n + 1) (Nat.zero_le _) (Nat.le_succ _) le_rfl) with hpos | hzero
    · -- the new vertex lies strictly beyond the side
      have h1 : ∀ x ∈ A, 0 ≤ triCross2 (p n) (p (n + 1)) x := by
        intro x hx
        refine convexHull_min ?_ (convex_ge (p n) (p (n + 1))) hx
        rintro _ ⟨i, hi, rfl⟩
        show 0 ≤ triCross2 (p n) (p (n + 1)) (p i)
        rw [triCross2_rot]
        exact hnn i n (n + 1) hi (Nat.le_succ _) le_rfl
      have h2 : ∀ x ∈ A, 0 ≤ triCross2 (p (n + 1)) (p 0) x := by
        intro x hx
        refine convexHull_min ?_ (convex_ge (p (n + 1)) (p 0)) hx
        rintro _ ⟨i, hi, rfl⟩
        show 0 ≤ triCross2 (p (n + 1)) (p 0) (p i)
        rw [← triCross2_rot]
        exact hnn 0 i (n + 1) (Nat.zero_le _) (le_trans hi (Nat.le_succ _)) le_rfl
      have h3 : ∀ x ∈ A, triCross2 (p 0) (p n) x ≤ 0 := by
        intro x hx
        refine convexHull_min ?_ (convex_le (p 0) (p n)) hx
        rintro _ ⟨i, hi, rfl⟩
        show triCross2 (p 0) (p n) (p i) ≤ 0
        rw [triCross2_swap]
        have := hnn 0 i n (Nat.zero_le _) hi (Nat.le_succ _)
        linarith
      rw [hull_insert A hA (p 0) (p n) (p (n + 1)) h0 hn hpos h1 h2 h3]
      have hne : p 0 ≠ p n := by
        intro e; rw [e, hself''] at hpos; exact lt_irrefl _ hpos
      have hdisj : AEDisjoint volume A (convexHull ℝ {p 0, p n, p (n + 1)}) := by
        refine measure_mono_null ?_ (volume_line (p 0) (p n) hne)
        rintro x ⟨hx, hx'⟩
        exact le_antisymm (h3 x hx) (tri_ge _ _ _ hpos.le x hx')
      have hcA : IsCompact A := measurable_hull_image p n
      have hcT := isCompact_tri (p 0) (p n) (p (n + 1))
      exact integral_union_ae hdisj hcT.measurableSet.nullMeasurableSet
        (hf.continuousOn.integrableOn_compact hcA) (hf.continuousOn.integrableOn_compact hcT)
    · -- the new triangle is degenerate
      have hT : ∫ x in convexHull ℝ {p 0, p n, p (n + 1)}, f x = 0 := by
        apply setIntegral_measure_zero
        rw [volume_tri, ← hzero]; simp
      rw [hT, add_zero]
      have hnull : ∀ a b : Vec 2 ℝ, a ≠ b → (∀ i, i ≤ n + 1 → triCross2 a b (p i) = 0) →
          ∫ x in convexHull ℝ (insert (p (n + 1)) A), f x = ∫ x in A, f x := by
        intro a b hab hall
        have hs : A ⊆ {x | triCross2 a b x = 0} := by
          apply convexHull_min _ (convex_line a b)
          rintro _ ⟨i, hi, rfl⟩
          exact hall i (le_trans hi (Nat.le_succ _))
        rw [setIntegral_null a b hab hs]
        apply setIntegral_null a b hab
        apply convexHull_min _ (convex_line a b)
        intro x hx
        rcases hx with rfl | hx
        · exact hall (n + 1) le_rfl
        · exact hs hx
      have hin : p (n + 1) ∈ A → ∫ x in convexHull ℝ (insert (p (n + 1)) A), f x = ∫ x in A, f x := by
        intro hx
        rw [Set.insert_eq_of_mem hx, hA.convexHull_eq]
      by_cases hu : p 0 = p n
      · by_cases hw : p 0 = p (n + 1)
        · exact hin (hw ▸ h0)
        · apply hnull (p 0) (p (n + 1)) hw
          intro i hi
          rcases Nat.lt_or_eq_of_le hi with hi | rfl
          · have a1 := hnn 0 i (n + 1) (Nat.zero_le _) hi.le le_rfl
            have a2 := hnn i n (n + 1) (by omega) (Nat.le_succ _) le_rfl
            rw [← hu] at a2
            rw [triCross2_swap]
            have a3 : triCross2 (p i) (p 0) (p (n + 1)) = -triCross2 (p 0) (p i) (p (n + 1)) := by
              simp [triCross2, cross2]; ring
            linarith
          · exact hself' _ _
      · -- `p (n+1) = p 0 + l (p n - p 0)`
        by_cases hall : ∀ i, i ≤ n → triCross2 (p 0) (p n) (p i) = 0
        · apply hnull (p 0) (p n) hu
          intro i hi
          rcases Nat.lt_or_eq_of_le hi with hi | rfl
          · exact hall i (by omega)
          · exact hzero.symm
        · push Not at hall
          obtain ⟨i, hi, hci⟩ := hall
          apply hin
          have c0 := hnn 0 i n (Nat.zero_le _) hi (Nat.le_succ _)
          have c1 := hnn 0 i (n + 1) (Nat.zero_le _) (by omega) le_rfl
          have c2 := hnn i n (n + 1) hi (Nat.le_succ _) le_rfl
          have hc : 0 < triCross2 (p 0) (p i) (p n) := by
            rcases lt_or_eq_of_le c0 with c | c
            · exact c
            · exfalso; apply hci; rw [triCross2_swap, ← c, neg_zero]
          have hs := barycentric_sum (p 0) (p i) (p n) (p (n + 1))
          have hb := barycentric (p 0) (p i) (p n) (p (n + 1))
          have hz : triCross2 (p n) (p 0) (p (n + 1)) = 0 := by
            have : triCross2 (p n) (p 0) (p (n + 1)) = -triCross2 (p 0) (p n) (p (n + 1)) := by
              simp [triCross2, cross2]; ring
            rw [this, ← hzero, neg_zero]
          rw [hz, zero_smul, add_zero] at hb
          rw [hz, add_zero] at hs
          have e : p (n + 1) = (triCross2 (p i) (p n) (p (n + 1)) / triCross2 (p 0) (p i) (p n)) • p 0 +
              (triCross2 (p 0) (p i) (p (n + 1)) / triCross2 (p 0) (p i) (p n)) • p n := by
            have := congrArg (fun v => (triCross2 (p 0) (p i) (p n))⁻¹ • v) hb
            simp only [smul_add, smul_smul, inv_mul_cancel₀ hc.ne', one_smul] at this
            simpa only [div_eq_inv_mul] using this
          rw [e]
          exact hA h0 hn (div_nonneg c2 hc.le) (div_nonneg c1 hc.le) (by rw [← add_div, hs, div_self hc.ne'])

/-! ## Lists of vertices -/

theorem pathSum_range {P : Type} (f : P → P → ℝ) (d : P) (l : List P) :
    pathSum f l = ∑ i ∈ Finset.range (l.length - 1), f (l.getD i d) (l.getD (i + 1) d) := by
  induction l with
  | nil => simp
  | cons a l ih =>
    cases l with
    | nil => simp
    | cons b l =>
      rw [pathSum_cons_cons, ih]
      simp only [List.length_cons, Nat.add_sub_cancel]
      rw [Finset.sum_range_succ', add_comm]
      simp

theorem cyc_fan {f : Vec 2 ℝ → Vec 2 ℝ → ℝ} (a : Vec 2 ℝ) (l : List (Vec 2 ℝ)) (h : ∀ x, f x a = 0) :
    cyc f (a :: l) = pathSum f (a :: l) := by
  rcases List.eq_nil_or_concat l with rfl | ⟨r, x, rfl⟩
  · simp [cyc, h]
  · have e : a :: (r.concat x ++ [a]) = (a :: r) ++ [x, a] := by simp
    rw [cyc, e, pathSum_snoc, h, add_zero]
    simp

/-- vertices in convex position, numbered counter-clockwise; three consecutive vertices on a line
and repeated vertices are allowed -/
def ConvexPos (pts : List (Vec 2 ℝ)) : Prop :=
  ∀ i j k, (hij : i < j) → (hjk : j < k) → (hk : k < pts.length) →
    0 ≤ Matrix.det (Matrix.of ![pts[j] - pts[i], pts[k] - pts[i]])

theorem det_eq_triCross2 (a b c : Vec 2 ℝ) : Matrix.det (Matrix.of ![b - a, c - a]) = triCross2 a b c := by
  rw [Matrix.det_fin_two]; simp [triCross2, cross2]

theorem list_fan (pts : List (Vec 2 ℝ)) (hp : ConvexPos pts) (a : Vec 2 ℝ) (l : List (Vec 2 ℝ)) (hl : pts = a :: l)
    (f : Vec 2 ℝ → ℝ) (hf : Continuous f) :
    ∫ x in convexHull ℝ {x | x ∈ pts}, f x = pathSum (fun p q => ∫ x in convexHull ℝ {a, p, q}, f x) pts ∧
      ∀ i, i < pts.length - 1 → 0 ≤ triCross2 a (pts.getD i 0) (pts.getD (i + 1) 0) := by
  have hlen : 0 < pts.length := by rw [hl]; simp
  have h0 : pts.getD 0 0 = a := by rw [hl]; simp
  have himg : {x | x ∈ pts} = (fun i => pts.getD i 0) '' Set.Iic (pts.length - 1) := by
    ext x
    rw [Set.mem_image]
    simp only [Set.mem_Iic]
    constructor
    · intro hx
      obtain ⟨i, hi, rfl⟩ := List.mem_iff_getElem.1 hx
      exact ⟨i, by omega, by simp [hi]⟩
    · rintro ⟨i, hi, rfl⟩
      have hi' : i < pts.length := by omega
      simp [hi']
  have hc : ∀ i j k, i < j → j < k → k ≤ pts.length - 1 →
      0 ≤ triCross2 (pts.getD i 0) (pts.getD j 0) (pts.getD k 0) := by
    intro i j k hij hjk hk
    have h3 : k < pts.length := by omega
    have h2 : j < pts.length := by omega
    have h1 : i < pts.length := by omega
    have := hp i j k hij hjk h3
    rw [det_eq_triCross2] at this
    simpa [h1, h2, h3] using this
  refine ⟨?_, ?_⟩
  · rw [himg, fan_integral (fun i => pts.getD i 0) (pts.length - 1) hc f hf, pathSum_range _ 0, h0]
  · intro i hi
    rw [← h0]
    rcases Nat.eq_zero_or_pos i with rfl | hi0
    · simp [triCross2, cross2]
    · exact hc 0 i (i + 1) hi0 (Nat.lt_succ_self _) (by omega)

theorem convex_area (pts : List (Vec 2 ℝ)) (hp : ConvexPos pts) (hne : pts ≠ []) :
    0 ≤ shoelace pts ∧ volume (convexHull ℝ {x | x ∈ pts}) = ENNReal.ofReal (shoelace pts) ∧
      ∀ k, ∫ x in convexHull ℝ {x | x ∈ pts}, x k = cyc moment pts k / 6 := by
  obtain ⟨a, l, rfl⟩ := List.exists_cons_of_ne_nil hne
  have hfan : shoelace (a :: l) = pathSum (fun p q => triCross2 a p q / 2) (a :: l) := by
    rw [C33_fan (a :: l) a, ← cyc_edges (fun p q => triNormal2 a p q 1), ← cyc_fan (f := fun p q => triCross2 a p q / 2)]
    · exact cyc_congr _ fun p _ q _ => by simp [triNormal2]; ring
    · intro x; simp [triCross2, cross2]
  have hnn := (list_fan (a :: l) hp a l rfl (fun _ => 1) continuous_const).2
  have hpos : 0 ≤ shoelace (a :: l) := by
    rw [hfan, pathSum_range _ 0]
    apply Finset.sum_nonneg
    intro i hi
    have := hnn i (Finset.mem_range.1 hi)
    positivity
  have habs : ∀ (g : Vec 2 ℝ → Vec 2 ℝ → ℝ), pathSum (fun p q => |triCross2 a p q| / 2 * g p q) (a :: l) =
      pathSum (fun p q => triCross2 a p q / 2 * g p q) (a :: l) := by
    intro g
    rw [pathSum_range _ 0, pathSum_range _ 0]
    refine Finset.sum_congr rfl fun i hi => ?_
    rw [abs_of_nonneg (hnn i (Finset.mem_range.1 hi))]
  have hcomp : IsCompact (convexHull ℝ {x | x ∈ a :: l}) := (List.finite_toSet (a :: l)).isCompact_convexHull ℝ
  refine ⟨hpos, ?_, fun k => ?_⟩
  · have h1 := (list_fan (a :: l) hp a l rfl (fun _ => 1) continuous_const).1
    rw [setIntegral_const, smul_eq_mul, mul_one] at h1
    have h2 : ∀ p q : Vec 2 ℝ, ∫ x in convexHull ℝ {a, p, q}, (1 : ℝ) = |triCross2 a p q| / 2 * 1 := by
      intro p q
      rw [setIntegral_const, measureReal_def, volume_tri, ENNReal.toReal_ofReal (by positivity)]; simp
    simp only [h2] at h1
    rw [habs] at h1
    simp only [mul_one] at h1
    rw [hfan, ← h1, measureReal_def, ENNReal.ofReal_toReal hcomp.measure_lt_top.ne]
  · rw [(list_fan (a :: l) hp a l rfl (fun x => x k) (continuous_apply k)).1]
    simp only [moment_tri]
    rw [habs, ← cyc_fan (f := fun p q => triCross2 a p q / 2 * ((a k + p k + q k) / 3))]
    · rw [cyc_apply, ← cyc_add_telescope (fun p q : Vec 2 ℝ => moment p q k) (fun p => -(wedge a p * (a k + p k))),
        div_eq_inv_mul, ← cyc_mul_left]
      refine cyc_congr _ fun p _ q _ => ?_
      fin_cases k <;> simp [triCross2, cross2, moment, wedge] <;> ring
    · intro x; simp [triCross2, cross2]

/-- **C33** The area of a convex polygon with any number of vertices, numbered in either direction,
is the Lebesgue measure of the convex hull of its vertices. -/
theorem C33_convex (pts : List (Vec 2 ℝ)) (hn : 2 < pts.length) (hp : ConvexPos pts ∨ ConvexPos pts.reverse) :
    areaIter pts = .ok (volume.real (convexHull ℝ {x | x ∈ pts})) ∧ volume (convexHull ℝ {x | x ∈ pts}) ≠ ⊤ := by
  have key : ∀ l : List (Vec 2 ℝ), 2 < l.length → ConvexPos l →
      areaIter l = .ok (volume.real (convexHull ℝ {x | x ∈ l})) ∧ volume (convexHull ℝ {x | x ∈ l}) ≠ ⊤ := by
    intro l hl hc
    obtain ⟨h0, h1, -⟩ := convex_area l hc (ne_nil_of_two hl)
    rw [areaIter_eq, if_pos hl, measureReal_def, h1, ENNReal.toReal_ofReal h0, abs_of_nonneg h0]
    exact ⟨rfl, ENNReal.ofReal_ne_top⟩
  rcases hp with hp | hp
  · exact key pts hn hp
  · have := key pts.reverse (by simpa using hn) hp
    rw [(C33_reversal pts).1] at this
    simpa only [List.mem_reverse] using this

/-- **C34** The centroid of a convex polygon with any number of vertices and non-zero area is its
centre of mass. -/
theorem C34_convex (pts : List (Vec 2 ℝ)) (hn : 2 < pts.length) (hp : ConvexPos pts ∨ ConvexPos pts.reverse)
    (h0 : volume (convexHull ℝ {x | x ∈ pts}) ≠ 0) :
    centroidIter2 pts = .ok fun k => ⨍ x in convexHull ℝ {x | x ∈ pts}, x k := by
  have key : ∀ l : List (Vec 2 ℝ), 2 < l.length → ConvexPos l → volume (convexHull ℝ {x | x ∈ l}) ≠ 0 →
      centroidIter2 l = .ok fun k => ⨍ x in convexHull ℝ {x | x ∈ l}, x k := by
    intro l hl hc hv
    obtain ⟨h0, h1, h2⟩ := convex_area l hc (ne_nil_of_two hl)
    have hs : shoelace l ≠ 0 := fun h => hv (by rw [h1, h]; simp)
    obtain ⟨c, hc1, hc2⟩ := centroid_of l hl hs
    rw [hc1]
    congr 1
    funext k
    rw [setAverage_eq, h2, measureReal_def, h1, ENNReal.toReal_ofReal h0, ← congrFun hc2 k]
    simp only [Pi.smul_apply, smul_eq_mul]
    field_simp
  rcases hp with hp | hp
  · exact key pts hn hp h0
  · have := key pts.reverse (by simpa using hn) hp (by simpa only [List.mem_reverse] using h0)
    rw [(C34_renumbering pts 0).2] at this
    simpa only [List.mem_reverse] using this

/-- a pentagon with a vertex in the middle of one side -/
theorem convexPos_pentagon : ConvexPos [![0, 0], ![1, 0], ![2, 0], ![2, 1], ![0, 1]] := by
  intro i j k hij hjk hk
  have hk' : k < 5 := hk
  rw [det_eq_triCross2]
  interval_cases k <;> interval_cases j <;> interval_cases i <;>
    simp only [List.getElem_cons_zero, List.getElem_cons_succ] <;> simp [triCross2, cross2]

example : volume.real (convexHull ℝ {x | x ∈ [![0, 0], ![1, 0], ![2, 0], ![2, 1], (![0, 1] : Vec 2 ℝ)]}) = 2 := by
  have h := (C33_convex _ (by simp) (Or.inl convexPos_pentagon)).1
  rw [areaIter_eq, if_pos (by simp), shoelace_eq] at h
  injection h with h
  rw [← h]
  norm_num [cyc, wedge]

example : centroidIter2 [![0, 0], ![1, 0], ![2, 0], ![2, 1], (![0, 1] : Vec 2 ℝ)] =
    .ok fun k => ⨍ x in convexHull ℝ {x | x ∈ [![0, 0], ![1, 0], ![2, 0], ![2, 1], (![0, 1] : Vec 2 ℝ)]}, x k := by
  apply C34_convex _ (by simp) (Or.inl convexPos_pentagon)
  rw [(convex_area _ convexPos_pentagon (by simp)).2.1, shoelace_eq]
  norm_num [cyc, wedge]

/-! ## Star-shaped polygons -/

/-- **C33**, **C34** Star-shaped polygons: when the triangles spanned by a point `o` and the edges are
numbered counter-clockwise and overlap in null sets only, the area is the Lebesgue measure of the
region they fill and the centroid is its centre of mass. -/
theorem C33_star (o : Vec 2 ℝ) (pts : List (Vec 2 ℝ)) (hn : 2 < pts.length)
    (hpos : ∀ e ∈ edges pts, 0 ≤ Matrix.det (Matrix.of ![e.1 - o, e.2 - o]))
    (hd : (edges pts).Pairwise fun e e' => AEDisjoint volume (convexHull ℝ {o, e.1, e.2}) (convexHull ℝ {o, e'.1, e'.2})) :
    areaIter pts = .ok (volume.real (⋃ e ∈ edges pts, convexHull ℝ {o, e.1, e.2})) ∧
      (volume.real (⋃ e ∈ edges pts, convexHull ℝ {o, e.1, e.2}) ≠ 0 →
        centroidIter2 pts = .ok fun k => ⨍ x in ⋃ e ∈ edges pts, convexHull ℝ {o, e.1, e.2}, x k) := by
  let T : Vec 2 ℝ × Vec 2 ℝ → Fin 3 → Vec 2 ℝ := fun e => ![o, e.1, e.2]
  have hT : ∀ e, convexHull ℝ (Set.range (T e)) = convexHull ℝ {o, e.1, e.2} := fun e => by rw [range3]
  have hw := signed_union ((edges pts).map T) (by
      intro p hp
      obtain ⟨e, he, rfl⟩ := List.mem_map.1 hp
      rw [det_edgeRows2, ← det_eq_triCross2]
      exact hpos e he)
    (by
      rw [List.pairwise_map]
      refine hd.imp fun {a b} h => ?_
      rw [hT, hT]; exact h)
  have hU : (⋃ p ∈ (edges pts).map T, convexHull ℝ (Set.range p)) = ⋃ e ∈ edges pts, convexHull ℝ {o, e.1, e.2} := by
    ext x
    simp only [Set.mem_iUnion, List.mem_map, exists_prop]
    constructor
    · rintro ⟨_, ⟨e, he, rfl⟩, hx⟩
      rw [hT] at hx
      exact ⟨e, he, hx⟩
    · rintro ⟨e, he, hx⟩
      exact ⟨T e, ⟨e, he, rfl⟩, by rwa [hT]⟩
  rw [hU] at hw
  have hw' : winding o pts =ᵐ[volume] (⋃ e ∈ edges pts, convexHull ℝ {o, e.1, e.2}).indicator 1 := by
    have : winding o pts = fun x => (((edges pts).map T).map fun p => signedSimplex p x).sum := by
      funext x; rw [winding, List.map_map]; rfl
    rw [this]; exact hw
  have hm : MeasurableSet (⋃ e ∈ edges pts, convexHull ℝ {o, e.1, e.2}) :=
    MeasurableSet.biUnion (List.finite_toSet _).countable fun e _ => (isCompact_tri o e.1 e.2).measurableSet
  exact ⟨C33_region o pts hn _ hm (Or.inl hw'), C34_region o pts hn _ hm (Or.inl hw')⟩

/-- an arrowhead, not convex, seen from the origin -/
example : areaIter [![0, -1], ![3, 0], ![0, 1], (![1, 0] : Vec 2 ℝ)] = .ok 2 ∧
    areaIter [![0, 0], ![2, -1], ![1, 0], (![2, 1] : Vec 2 ℝ)] =
      .ok (volume.real (⋃ e ∈ edges [![0, 0], ![2, -1], ![1, 0], (![2, 1] : Vec 2 ℝ)], convexHull ℝ {![0, 0], e.1, e.2})) := by
  have hE : edges [![0, 0], ![2, -1], ![1, 0], (![2, 1] : Vec 2 ℝ)] =
      [(![0, 0], ![2, -1]), (![2, -1], ![1, 0]), (![1, 0], ![2, 1]), (![2, 1], ![0, 0])] := rfl
  constructor
  · rw [areaIter_eq, if_pos (by simp), shoelace_eq]; norm_num [cyc, wedge]
  · refine (C33_star ![0, 0] _ (by simp) ?_ ?_).1
    · rw [hE]
      intro e he
      simp only [List.mem_cons, List.not_mem_nil, or_false] at he
      rcases he with rfl | rfl | rfl | rfl <;> simp [Matrix.det_fin_two]
    · have hz : ∀ (a b c : Vec 2 ℝ) (s : Set (Vec 2 ℝ)), triCross2 a b c = 0 → AEDisjoint volume (convexHull ℝ {a, b, c}) s := by
        intro a b c s h
        refine measure_mono_null Set.inter_subset_left ?_
        rw [volume_tri, h]; simp
      rw [hE]
      simp only [List.pairwise_cons, List.mem_cons, List.not_mem_nil, or_false, forall_eq_or_imp, forall_eq,
        IsEmpty.forall_iff, implies_true, List.Pairwise.nil, and_true]
      refine ⟨⟨hz _ _ _ _ (by simp [triCross2, cross2]), hz _ _ _ _ (by simp [triCross2, cross2]),
        hz _ _ _ _ (by simp [triCross2, cross2])⟩, ⟨?_, (hz _ _ _ _ (by simp [triCross2, cross2])).symm⟩,
        (hz _ _ _ _ (by simp [triCross2, cross2])).symm⟩
      have hne : (![0, 0] : Vec 2 ℝ) ≠ ![1, 0] := by
        intro h; have := congrFun h 0; simp at this
      refine measure_mono_null ?_ (volume_line ![0, 0] ![1, 0] hne)
      rintro x ⟨h1, h2⟩
      have a1 : triCross2 ![0, 0] ![1, 0] x ≤ 0 := by
        refine convexHull_min ?_ (convex_le ![0, 0] ![1, 0]) h1
        intro y hy
        simp only [Set.mem_insert_iff, Set.mem_singleton_iff] at hy
        rcases hy with rfl | rfl | rfl <;> simp [triCross2, cross2]
      have a2 : 0 ≤ triCross2 ![0, 0] ![1, 0] x := by
        refine convexHull_min ?_ (convex_ge ![0, 0] ![1, 0]) h2
        intro y hy
        simp only [Set.mem_insert_iff, Set.mem_singleton_iff] at hy
        rcases hy with rfl | rfl | rfl <;> simp [triCross2, cross2]
      exact le_antisymm a1 a2

end Verif.Geometry
