import Verif.Quadrature.Model
import Verif.Lagrange.Tensor
import Mathlib.Analysis.SpecialFunctions.Integrals.Basic
import Mathlib.Tactic.IntervalCases
import Mathlib.Tactic.LinearCombination
import Mathlib.Tactic.NormNum
import Mathlib.Tactic.Linarith
import Mathlib.Tactic.Positivity

/-! Helper lemmas for the quadrature rules. -/

namespace Verif.Quadrature

open Finset Polynomial

/-! ## the tables -/

/-- the Gauss points in simplified form -/
noncomputable def gaussX : Nat → List ℝ
  | 1 => [0]
  | 2 => [-(1 / √3), 1 / √3]
  | 3 => [-√(3 / 5), 0, √(3 / 5)]
  | 4 => [-√((3 + 2 * √(6 / 5)) / 7), -√((3 - 2 * √(6 / 5)) / 7), √((3 - 2 * √(6 / 5)) / 7), √((3 + 2 * √(6 / 5)) / 7)]
  | 5 => [-√(5 + 2 * √(10 / 7)) / 3, -√(5 - 2 * √(10 / 7)) / 3, 0, √(5 - 2 * √(10 / 7)) / 3, √(5 + 2 * √(10 / 7)) / 3]
  | 6 => [-0.9324695142031521, -0.6612093864662645, -0.2386191860831969,
          0.2386191860831969, 0.6612093864662645, 0.9324695142031521]
  | 7 => [-0.9491079123427585, -0.7415311855993945, -0.4058451513773972, 0,
          0.4058451513773972, 0.7415311855993945, 0.9491079123427585]
  | 8 => [-0.9602898564975363, -0.7966664774136267, -0.5255324099163290, -0.1834346424956498,
          0.1834346424956498, 0.5255324099163290, 0.7966664774136267, 0.9602898564975363]
  | _ => []

/-- the weights, in closed form up to five points -/
noncomputable def gaussW : Nat → List ℝ
  | 1 => [2]
  | 2 => [1, 1]
  | 3 => [5 / 9, 8 / 9, 5 / 9]
  | 4 => [1 / 2 - √(5 / 6) / 6, 1 / 2 + √(5 / 6) / 6, 1 / 2 + √(5 / 6) / 6, 1 / 2 - √(5 / 6) / 6]
  | 5 => [(322 - 13 * √70) / 900, (322 + 13 * √70) / 900, 512 / 900, (322 + 13 * √70) / 900, (322 - 13 * √70) / 900]
  | 6 => [0.1713244923791704, 0.3607615730481386, 0.4679139345726910, 0.4679139345726910, 0.3607615730481386,
          0.1713244923791704]
  | 7 => [0.1294849661688697, 0.2797053914892766, 0.3818300505051189, 0.4179591836734694, 0.3818300505051189,
          0.2797053914892766, 0.1294849661688697]
  | 8 => [0.1012285362903763, 0.2223810344533745, 0.3137066458778873, 0.3626837833783620, 0.3626837833783620,
          0.3137066458778873, 0.2223810344533745, 0.1012285362903763]
  | _ => []

/-- the Lobatto points as tabulated -/
noncomputable def lobattoX : Nat → List ℝ
  | 1 => [0]
  | 2 => [-1, 1]
  | 3 => [1, 0, -1]
  | 4 => [-1, -0.447213595499957939282, 0.447213595499957939282, 1]
  | 5 => [-1, -0.6546536707079771437983, 0, 0.6546536707079771437983, 1]
  | 6 => [-1, -0.765055323929464692851, -0.2852315164806450963142, 0.2852315164806450963142, 0.765055323929464692851, 1]
  | 7 => [-1, -0.830223896278566929872, -0.4688487934707142138038, 0, 0.4688487934707142138038, 0.830223896278566929872, 1]
  | 8 => [-1, -0.8717401485096066153375, -0.5917001814331423021445, -0.2092992179024788687687,
          0.2092992179024788687687, 0.5917001814331423021445, 0.8717401485096066153375, 1]
  | _ => []

/-- the Lobatto weights as tabulated -/
noncomputable def lobattoW : Nat → List ℝ
  | 1 => [2]
  | 2 => [1, 1]
  | 3 => [1 / 3, 4 / 3, 1 / 3]
  | 4 => [0.1666666666666666666667, 0.8333333333333333333333, 0.8333333333333333333333, 0.1666666666666666666667]
  | 5 => [0.1, 0.544444444444444444444, 0.7111111111111111111111, 0.544444444444444444444, 0.1]
  | 6 => [0.06666666666666666666667, 0.3784749562978469803166, 0.5548583770354863530167, 0.5548583770354863530167,
          0.3784749562978469803166, 0.06666666666666666666667]
  | 7 => [0.04761904761904761904762, 0.276826047361565948011, 0.4317453812098626234179, 0.487619047619047619048,
          0.4317453812098626234179, 0.276826047361565948011, 0.04761904761904761904762]
  | 8 => [0.03571428571428571428571, 0.210704227143506039383, 0.3411226924835043647642, 0.4124587946587038815671,
          0.4124587946587038815671, 0.3411226924835043647642, 0.210704227143506039383, 0.03571428571428571428571]
  | _ => []

/-- Gauss point `i` of `p` -/
noncomputable def gx (p i : Nat) : ℝ := (gaussX p).getD i 0
/-- Gauss weight `i` of `p` -/
noncomputable def gw (p i : Nat) : ℝ := (gaussW p).getD i 0
/-- Lobatto point `i` of `p` -/
noncomputable def lx (p i : Nat) : ℝ := (lobattoX p).getD i 0
/-- Lobatto weight `i` of `p` -/
noncomputable def lw (p i : Nat) : ℝ := (lobattoW p).getD i 0

theorem pick_ok (g v : List ℝ) (i : Nat) (hg : i < g.length) (hv : i < v.length) :
    pick g v i = .ok ⟨some (g.getD i 0), some (v.getD i 0), i⟩ := by
  simp [pick, at', hg, hv]

theorem lineGauss_one (i : Nat) (x0 w0 : Option ℝ) :
    lineGauss ⟨x0, w0, (i : Int) + 1⟩ 1 = .ok ⟨some 0, some 2, i⟩ := by
  simp only [lineGauss, add_sub_cancel_right, if_true]
  norm_num

theorem lineGauss_two (i : Nat) (x0 w0 : Option ℝ) :
    lineGauss ⟨x0, w0, (i : Int) + 1⟩ 2 = pick (gaussX 2) (gaussW 2) i := by
  simp only [lineGauss, add_sub_cancel_right]
  rw [if_neg (by decide)]
  rw [if_pos trivial]
  congr 1
  · simp only [gaussX]; norm_num; constructor <;> ring
  · simp only [gaussW]; norm_num

theorem lineGauss_three (i : Nat) (x0 w0 : Option ℝ) :
    lineGauss ⟨x0, w0, (i : Int) + 1⟩ 3 = pick (gaussX 3) (gaussW 3) i := by
  simp only [lineGauss, add_sub_cancel_right]
  rw [if_neg (by decide)]; rw [if_neg (by decide)]
  rw [if_pos trivial]
  congr 1
  · simp only [gaussX]; norm_num
  · simp only [gaussW]; norm_num

theorem lineGauss_four (i : Nat) (x0 w0 : Option ℝ) :
    lineGauss ⟨x0, w0, (i : Int) + 1⟩ 4 = pick (gaussX 4) (gaussW 4) i := by
  simp only [lineGauss, add_sub_cancel_right]
  rw [if_neg (by decide)]; rw [if_neg (by decide)]; rw [if_neg (by decide)]
  rw [if_pos trivial]
  congr 1
  · simp only [gaussX]; norm_num
  · simp only [gaussW]; norm_num

theorem lineGauss_five (i : Nat) (x0 w0 : Option ℝ) :
    lineGauss ⟨x0, w0, (i : Int) + 1⟩ 5 = pick (gaussX 5) (gaussW 5) i := by
  simp only [lineGauss, add_sub_cancel_right]
  rw [if_neg (by decide)]; rw [if_neg (by decide)]; rw [if_neg (by decide)]; rw [if_neg (by decide)]
  rw [if_pos trivial]
  congr 1
  · simp only [gaussX]; norm_num; constructor <;> ring
  · simp only [gaussW]; norm_num

theorem lineGauss_six (i : Nat) (x0 w0 : Option ℝ) :
    lineGauss ⟨x0, w0, (i : Int) + 1⟩ 6 = pick (gaussX 6) (gaussW 6) i := by
  simp only [lineGauss, add_sub_cancel_right]
  rw [if_neg (by decide)]; rw [if_neg (by decide)]; rw [if_neg (by decide)]; rw [if_neg (by decide)]; rw [if_neg (by decide)]
  rw [if_pos trivial]
  congr 1
  · simp only [gaussX]; norm_num

theorem lineGauss_seven (i : Nat) (x0 w0 : Option ℝ) :
    lineGauss ⟨x0, w0, (i : Int) + 1⟩ 7 = pick (gaussX 7) (gaussW 7) i := by
  simp only [lineGauss, add_sub_cancel_right]
  rw [if_neg (by decide)]; rw [if_neg (by decide)]; rw [if_neg (by decide)]; rw [if_neg (by decide)]; rw [if_neg (by decide)]; rw [if_neg (by decide)]
  rw [if_pos trivial]
  congr 1
  · simp only [gaussX]; norm_num

theorem lineGauss_eight (i : Nat) (x0 w0 : Option ℝ) :
    lineGauss ⟨x0, w0, (i : Int) + 1⟩ 8 = pick (gaussX 8) (gaussW 8) i := by
  simp only [lineGauss, add_sub_cancel_right]
  rw [if_neg (by decide)]; rw [if_neg (by decide)]; rw [if_neg (by decide)]; rw [if_neg (by decide)]; rw [if_neg (by decide)]; rw [if_neg (by decide)]; rw [if_neg (by decide)]
  rw [if_pos trivial]
  congr 1
  · simp only [gaussX]; norm_num

theorem lineGauss_eq (p i : Nat) (h1 : 1 ≤ p) (h8 : p ≤ 8) (hi : i < p) (x0 w0 : Option ℝ) :
    lineGauss ⟨x0, w0, (i : Int) + 1⟩ p = .ok ⟨some (gx p i), some (gw p i), i⟩ := by
  match p, h1, h8 with
  | 1, _, _ =>
    obtain rfl : i = 0 := by omega
    exact lineGauss_one 0 x0 w0
  | 2, _, _ => exact (lineGauss_two i x0 w0).trans (pick_ok _ _ _ hi hi)
  | 3, _, _ => exact (lineGauss_three i x0 w0).trans (pick_ok _ _ _ hi hi)
  | 4, _, _ => exact (lineGauss_four i x0 w0).trans (pick_ok _ _ _ hi hi)
  | 5, _, _ => exact (lineGauss_five i x0 w0).trans (pick_ok _ _ _ hi hi)
  | 6, _, _ => exact (lineGauss_six i x0 w0).trans (pick_ok _ _ _ hi hi)
  | 7, _, _ => exact (lineGauss_seven i x0 w0).trans (pick_ok _ _ _ hi hi)
  | 8, _, _ => exact (lineGauss_eight i x0 w0).trans (pick_ok _ _ _ hi hi)

theorem lineLobatto_one (i : Nat) (x0 w0 : Option ℝ) :
    lineLobatto ⟨x0, w0, (i : Int) + 1⟩ 1 = .ok ⟨some 0, some 2, i⟩ := by
  simp only [lineLobatto, add_sub_cancel_right, if_true]
  norm_num

theorem lineLobatto_two (i : Nat) (x0 w0 : Option ℝ) :
    lineLobatto ⟨x0, w0, (i : Int) + 1⟩ 2 = pick (lobattoX 2) (lobattoW 2) i := by
  simp only [lineLobatto, add_sub_cancel_right]
  rw [if_neg (by decide)]
  rw [if_pos trivial]
  congr 1
  · simp only [lobattoX]; norm_num
  · simp only [lobattoW]; norm_num

theorem lineLobatto_three (i : Nat) (x0 w0 : Option ℝ) :
    lineLobatto ⟨x0, w0, (i : Int) + 1⟩ 3 = pick (lobattoX 3) (lobattoW 3) i := by
  simp only [lineLobatto, add_sub_cancel_right]
  rw [if_neg (by decide)]; rw [if_neg (by decide)]
  rw [if_pos trivial]
  congr 1
  · simp only [lobattoX]; norm_num
  · simp only [lobattoW]; norm_num

theorem lineLobatto_four (i : Nat) (x0 w0 : Option ℝ) :
    lineLobatto ⟨x0, w0, (i : Int) + 1⟩ 4 = pick (lobattoX 4) (lobattoW 4) i := by
  simp only [lineLobatto, add_sub_cancel_right]
  rw [if_neg (by decide)]; rw [if_neg (by decide)]; rw [if_neg (by decide)]
  rw [if_pos trivial]
  congr 1
  · simp only [lobattoX]; norm_num

theorem lineLobatto_five (i : Nat) (x0 w0 : Option ℝ) :
    lineLobatto ⟨x0, w0, (i : Int) + 1⟩ 5 = pick (lobattoX 5) (lobattoW 5) i := by
  simp only [lineLobatto, add_sub_cancel_right]
  rw [if_neg (by decide)]; rw [if_neg (by decide)]; rw [if_neg (by decide)]; rw [if_neg (by decide)]
  rw [if_pos trivial]
  congr 1
  · simp only [lobattoX]; norm_num

theorem lineLobatto_six (i : Nat) (x0 w0 : Option ℝ) :
    lineLobatto ⟨x0, w0, (i : Int) + 1⟩ 6 = pick (lobattoX 6) (lobattoW 6) i := by
  simp only [lineLobatto, add_sub_cancel_right]
  rw [if_neg (by decide)]; rw [if_neg (by decide)]; rw [if_neg (by decide)]; rw [if_neg (by decide)]; rw [if_neg (by decide)]
  rw [if_pos trivial]
  congr 1
  · simp only [lobattoX]; norm_num

theorem lineLobatto_seven (i : Nat) (x0 w0 : Option ℝ) :
    lineLobatto ⟨x0, w0, (i : Int) + 1⟩ 7 = pick (lobattoX 7) (lobattoW 7) i := by
  simp only [lineLobatto, add_sub_cancel_right]
  rw [if_neg (by decide)]; rw [if_neg (by decide)]; rw [if_neg (by decide)]; rw [if_neg (by decide)]; rw [if_neg (by decide)]; rw [if_neg (by decide)]
  rw [if_pos trivial]
  congr 1
  · simp only [lobattoX]; norm_num

theorem lineLobatto_eight (i : Nat) (x0 w0 : Option ℝ) :
    lineLobatto ⟨x0, w0, (i : Int) + 1⟩ 8 = pick (lobattoX 8) (lobattoW 8) i := by
  simp only [lineLobatto, add_sub_cancel_right]
  rw [if_neg (by decide)]; rw [if_neg (by decide)]; rw [if_neg (by decide)]; rw [if_neg (by decide)]; rw [if_neg (by decide)]; rw [if_neg (by decide)]; rw [if_neg (by decide)]
  rw [if_pos trivial]
  congr 1
  · simp only [lobattoX]; norm_num

theorem lineLobatto_eq (p i : Nat) (h1 : 1 ≤ p) (h8 : p ≤ 8) (hi : i < p) (x0 w0 : Option ℝ) :
    lineLobatto ⟨x0, w0, (i : Int) + 1⟩ p = .ok ⟨some (lx p i), some (lw p i), i⟩ := by
  match p, h1, h8 with
  | 1, _, _ =>
    obtain rfl : i = 0 := by omega
    exact lineLobatto_one 0 x0 w0
  | 2, _, _ => exact (lineLobatto_two i x0 w0).trans (pick_ok _ _ _ hi hi)
  | 3, _, _ => exact (lineLobatto_three i x0 w0).trans (pick_ok _ _ _ hi hi)
  | 4, _, _ => exact (lineLobatto_four i x0 w0).trans (pick_ok _ _ _ hi hi)
  | 5, _, _ => exact (lineLobatto_five i x0 w0).trans (pick_ok _ _ _ hi hi)
  | 6, _, _ => exact (lineLobatto_six i x0 w0).trans (pick_ok _ _ _ hi hi)
  | 7, _, _ => exact (lineLobatto_seven i x0 w0).trans (pick_ok _ _ _ hi hi)
  | 8, _, _ => exact (lineLobatto_eight i x0 w0).trans (pick_ok _ _ _ hi hi)

/-! ## from moments to polynomials -/

/-- the integral of `t^k` over `[-1, 1]` -/
theorem integral_pow_sym (k : Nat) :
    ∫ t in (-1 : ℝ)..1, t ^ k = if Even k then 2 / ((k : ℝ) + 1) else 0 := by
  rw [integral_pow]
  split
  · next h => rw [(Even.add_one h).neg_pow]; norm_num
  · next h => rw [(Nat.even_add_one.2 h).neg_pow]; norm_num

theorem integral_poly (P : ℝ[X]) (D : Nat) (h : P.natDegree ≤ D) :
    ∫ t in (-1 : ℝ)..1, P.eval t = ∑ k ∈ range (D + 1), P.coeff k * ∫ t in (-1 : ℝ)..1, t ^ k := by
  have e : ∀ t : ℝ, P.eval t = ∑ k ∈ range (D + 1), P.coeff k * t ^ k := fun t =>
    eval_eq_sum_range' (Nat.lt_succ_iff.2 h) t
  simp only [e]
  rw [intervalIntegral.integral_finsetSum]
  · simp only [intervalIntegral.integral_const_mul]
  · intro k _
    exact (Continuous.intervalIntegrable (by fun_prop) _ _)

theorem sum_poly (p : Nat) (x w : Nat → ℝ) (P : ℝ[X]) (D : Nat) (h : P.natDegree ≤ D) :
    ∑ i ∈ range p, w i * P.eval (x i) = ∑ k ∈ range (D + 1), P.coeff k * ∑ i ∈ range p, w i * x i ^ k := by
  have e : ∀ t : ℝ, P.eval t = ∑ k ∈ range (D + 1), P.coeff k * t ^ k := fun t =>
    eval_eq_sum_range' (Nat.lt_succ_iff.2 h) t
  simp only [e, mul_sum]
  rw [sum_comm]
  exact sum_congr rfl fun k _ => sum_congr rfl fun i _ => by ring

theorem rule_bound (p D : Nat) (x w : Nat → ℝ) (ε : ℝ)
    (hm : ∀ k ≤ D, |∑ i ∈ range p, w i * x i ^ k - ∫ t in (-1 : ℝ)..1, t ^ k| ≤ ε) (P : ℝ[X])
    (h : P.natDegree ≤ D) :
    |∑ i ∈ range p, w i * P.eval (x i) - ∫ t in (-1 : ℝ)..1, P.eval t| ≤ ε * ∑ k ∈ range (D + 1), |P.coeff k| := by
  rw [sum_poly p x w P D h, integral_poly P D h, ← sum_sub_distrib, mul_sum]
  refine (abs_sum_le_sum_abs _ _).trans (sum_le_sum fun k hk => ?_)
  rw [← mul_sub, abs_mul, mul_comm]
  exact mul_le_mul_of_nonneg_right (hm k (by simpa [Nat.lt_succ_iff] using hk)) (abs_nonneg _)

theorem rule_exact (p D : Nat) (x w : Nat → ℝ)
    (hm : ∀ k ≤ D, ∑ i ∈ range p, w i * x i ^ k = ∫ t in (-1 : ℝ)..1, t ^ k) (P : ℝ[X])
    (h : P.natDegree ≤ D) :
    ∑ i ∈ range p, w i * P.eval (x i) = ∫ t in (-1 : ℝ)..1, P.eval t := by
  rw [sum_poly p x w P D h, integral_poly P D h]
  exact sum_congr rfl fun k hk => by rw [hm k (by simpa [Nat.lt_succ_iff] using hk)]

/-! ## the moments -/

theorem gauss1_moments (k : Nat) (hk : k ≤ 1) : ∑ i ∈ range 1, gw 1 i * gx 1 i ^ k = ∫ t in (-1 : ℝ)..1, t ^ k := by
  rw [integral_pow_sym]
  interval_cases k
  · norm_num [gw, gx, gaussX, gaussW]
  · norm_num [gw, gx, gaussX, gaussW]

theorem gauss2_moments (k : Nat) (hk : k ≤ 3) : ∑ i ∈ range 2, gw 2 i * gx 2 i ^ k = ∫ t in (-1 : ℝ)..1, t ^ k := by
  rw [integral_pow_sym]
  have h2 : (1 / √3) ^ 2 = 1 / 3 := by rw [div_pow, Real.sq_sqrt (by norm_num)]; norm_num
  simp only [sum_range_succ, sum_range_zero, gw, gx, gaussX, gaussW, List.getD_cons_zero, List.getD_cons_succ]
  generalize 1 / √3 = a at *
  interval_cases k
  · norm_num
  · rw [if_neg (by decide)]; ring
  · rw [if_pos (by decide)]; push_cast; linear_combination 2 * h2
  · rw [if_neg (by decide)]; ring

theorem gauss3_moments (k : Nat) (hk : k ≤ 5) : ∑ i ∈ range 3, gw 3 i * gx 3 i ^ k = ∫ t in (-1 : ℝ)..1, t ^ k := by
  rw [integral_pow_sym]
  have h2 : √(3 / 5) ^ 2 = 3 / 5 := Real.sq_sqrt (by norm_num)
  simp only [sum_range_succ, sum_range_zero, gw, gx, gaussX, gaussW, List.getD_cons_zero, List.getD_cons_succ]
  generalize √(3 / 5) = a at *
  interval_cases k
  · norm_num
  · rw [if_neg (by decide)]; ring
  · rw [if_pos (by decide)]; push_cast; linear_combination (10 / 9) * h2
  · rw [if_neg (by decide)]; ring
  · rw [if_pos (by decide)]; push_cast; linear_combination (10 / 9) * (a ^ 2 + 3 / 5) * h2
  · rw [if_neg (by decide)]; ring

theorem gauss4_moments (k : Nat) (hk : k ≤ 7) : ∑ i ∈ range 4, gw 4 i * gx 4 i ^ k = ∫ t in (-1 : ℝ)..1, t ^ k := by
  rw [integral_pow_sym]
  have hs : √(6 / 5) ^ 2 = 6 / 5 := Real.sq_sqrt (by norm_num)
  have hs0 : 0 ≤ √(6 / 5) := Real.sqrt_nonneg _
  have hs1 : √(6 / 5) ≤ 3 / 2 := by
    rw [Real.sqrt_le_left (by norm_num)]; norm_num
  have hr : √(5 / 6) = 5 / 6 * √(6 / 5) := by
    rw [Real.sqrt_eq_iff_mul_self_eq (by norm_num) (by positivity)]
    linear_combination (-25 / 36) * hs
  have ha : √((3 + 2 * √(6 / 5)) / 7) ^ 2 = 3 / 7 + 2 / 7 * √(6 / 5) := by
    rw [Real.sq_sqrt (by positivity)]; ring
  have hb : √((3 - 2 * √(6 / 5)) / 7) ^ 2 = 3 / 7 - 2 / 7 * √(6 / 5) := by
    rw [Real.sq_sqrt (div_nonneg (by linarith) (by norm_num))]; ring
  simp only [sum_range_succ, sum_range_zero, gw, gx, gaussX, gaussW, List.getD_cons_zero, List.getD_cons_succ]
  rw [hr]
  generalize √((3 + 2 * √(6 / 5)) / 7) = a at *
  generalize √((3 - 2 * √(6 / 5)) / 7) = b at *
  generalize √(6 / 5) = s at *
  have ha4 : a ^ 4 = 69 / 245 + 12 / 49 * s := by
    linear_combination (a ^ 2 + 3 / 7 + 2 / 7 * s) * ha + (4 / 49) * hs
  have hb4 : b ^ 4 = 69 / 245 - 12 / 49 * s := by
    linear_combination (b ^ 2 + 3 / 7 - 2 / 7 * s) * hb + (4 / 49) * hs
  have ha6 : a ^ 6 = 351 / 1715 + 318 / 1715 * s := by
    linear_combination a ^ 2 * ha4 + (69 / 245 + 12 / 49 * s) * ha + (24 / 343) * hs
  have hb6 : b ^ 6 = 351 / 1715 - 318 / 1715 * s := by
    linear_combination b ^ 2 * hb4 + (69 / 245 - 12 / 49 * s) * hb + (24 / 343) * hs
  interval_cases k
  · norm_num; ring
  · rw [if_neg (by decide)]; ring
  · rw [if_pos (by decide)]; push_cast
    linear_combination (1 - 5 / 18 * s) * ha + (1 + 5 / 18 * s) * hb - (10 / 63) * hs
  · rw [if_neg (by decide)]; ring
  · rw [if_pos (by decide)]; push_cast
    linear_combination (1 - 5 / 18 * s) * ha4 + (1 + 5 / 18 * s) * hb4 - (20 / 147) * hs
  · rw [if_neg (by decide)]; ring
  · rw [if_pos (by decide)]; push_cast
    linear_combination (1 - 5 / 18 * s) * ha6 + (1 + 5 / 18 * s) * hb6 - (5 / 9 * (318 / 1715)) * hs
  · rw [if_neg (by decide)]; ring

theorem gauss5_moments (k : Nat) (hk : k ≤ 9) : ∑ i ∈ range 5, gw 5 i * gx 5 i ^ k = ∫ t in (-1 : ℝ)..1, t ^ k := by
  rw [integral_pow_sym]
  have hs : √70 ^ 2 = 70 := Real.sq_sqrt (by norm_num)
  have hs0 : 0 ≤ √70 := Real.sqrt_nonneg _
  have hs1 : √70 ≤ 9 := by rw [Real.sqrt_le_left (by norm_num)]; norm_num
  have hr : √(10 / 7) = 1 / 7 * √70 := by
    rw [Real.sqrt_eq_iff_mul_self_eq (by norm_num) (by positivity)]
    linear_combination (-1 / 49) * hs
  have ha : (√(5 + 2 * √(10 / 7)) / 3) ^ 2 = 5 / 9 + 2 / 63 * √70 := by
    rw [div_pow, Real.sq_sqrt (by positivity), hr]; ring
  have hb : (√(5 - 2 * √(10 / 7)) / 3) ^ 2 = 5 / 9 - 2 / 63 * √70 := by
    rw [div_pow, Real.sq_sqrt (by rw [hr]; linarith), hr]; ring
  simp only [sum_range_succ, sum_range_zero, gw, gx, gaussX, gaussW, List.getD_cons_zero, List.getD_cons_succ, neg_div]
  generalize √(5 + 2 * √(10 / 7)) / 3 = a at *
  generalize √(5 - 2 * √(10 / 7)) / 3 = b at *
  generalize √70 = s at *
  have ha4 : a ^ 4 = 215 / 567 + 20 / 567 * s := by
    linear_combination (a ^ 2 + 5 / 9 + 2 / 63 * s) * ha + (4 / 3969) * hs
  have hb4 : b ^ 4 = 215 / 567 - 20 / 567 * s := by
    linear_combination (b ^ 2 + 5 / 9 - 2 / 63 * s) * hb + (4 / 3969) * hs
  have ha6 : a ^ 6 = (215 / 567 * (5 / 9) + 20 / 567 * (2 / 63) * 70) + (215 / 567 * (2 / 63) + 20 / 567 * (5 / 9)) * s := by
    linear_combination a ^ 2 * ha4 + (215 / 567 + 20 / 567 * s) * ha + (20 / 567 * (2 / 63)) * hs
  have hb6 : b ^ 6 = (215 / 567 * (5 / 9) + 20 / 567 * (2 / 63) * 70) - (215 / 567 * (2 / 63) + 20 / 567 * (5 / 9)) * s := by
    linear_combination b ^ 2 * hb4 + (215 / 567 - 20 / 567 * s) * hb + (20 / 567 * (2 / 63)) * hs
  have ha8 : a ^ 8 = (215 / 567) ^ 2 + (20 / 567) ^ 2 * 70 + 2 * (215 / 567) * (20 / 567) * s := by
    linear_combination (a ^ 4 + 215 / 567 + 20 / 567 * s) * ha4 + (20 / 567) ^ 2 * hs
  have hb8 : b ^ 8 = (215 / 567) ^ 2 + (20 / 567) ^ 2 * 70 - 2 * (215 / 567) * (20 / 567) * s := by
    linear_combination (b ^ 4 + 215 / 567 - 20 / 567 * s) * hb4 + (20 / 567) ^ 2 * hs
  interval_cases k
  · norm_num; ring
  · rw [if_neg (by decide)]; ring
  · rw [if_pos (by decide)]; push_cast
    linear_combination (322 - 13 * s) / 450 * ha + (322 + 13 * s) / 450 * hb - (26 / 450 * (2 / 63)) * hs
  · rw [if_neg (by decide)]; ring
  · rw [if_pos (by decide)]; push_cast
    linear_combination (322 - 13 * s) / 450 * ha4 + (322 + 13 * s) / 450 * hb4 - (26 / 450 * (20 / 567)) * hs
  · rw [if_neg (by decide)]; ring
  · rw [if_pos (by decide)]; push_cast
    linear_combination (322 - 13 * s) / 450 * ha6 + (322 + 13 * s) / 450 * hb6
      - (26 / 450 * (215 / 567 * (2 / 63) + 20 / 567 * (5 / 9))) * hs
  · rw [if_neg (by decide)]; ring
  · rw [if_pos (by decide)]; push_cast
    linear_combination (322 - 13 * s) / 450 * ha8 + (322 + 13 * s) / 450 * hb8
      - (26 / 450 * (2 * (215 / 567) * (20 / 567))) * hs
  · rw [if_neg (by decide)]; ring

theorem gauss6_moments (k : Nat) (hk : k ≤ 11) :
    |∑ i ∈ range 6, gw 6 i * gx 6 i ^ k - ∫ t in (-1 : ℝ)..1, t ^ k| ≤ 2e-16 := by
  rw [integral_pow_sym]
  simp only [sum_range_succ, sum_range_zero, gw, gx, gaussX, gaussW, List.getD_cons_zero, List.getD_cons_succ]
  interval_cases k
  all_goals norm_num [Nat.even_iff, abs_le]

theorem gauss7_moments (k : Nat) (hk : k ≤ 13) :
    |∑ i ∈ range 7, gw 7 i * gx 7 i ^ k - ∫ t in (-1 : ℝ)..1, t ^ k| ≤ 2e-16 := by
  rw [integral_pow_sym]
  simp only [sum_range_succ, sum_range_zero, gw, gx, gaussX, gaussW, List.getD_cons_zero, List.getD_cons_succ]
  interval_cases k
  all_goals norm_num [Nat.even_iff, abs_le]

theorem gauss8_moments (k : Nat) (hk : k ≤ 15) :
    |∑ i ∈ range 8, gw 8 i * gx 8 i ^ k - ∫ t in (-1 : ℝ)..1, t ^ k| ≤ 2e-16 := by
  rw [integral_pow_sym]
  simp only [sum_range_succ, sum_range_zero, gw, gx, gaussX, gaussW, List.getD_cons_zero, List.getD_cons_succ]
  interval_cases k
  all_goals norm_num [Nat.even_iff, abs_le]

theorem lobatto23_moments (p k : Nat) (hp : p = 2 ∨ p = 3) (hk : k + 3 ≤ 2 * p) :
    ∑ i ∈ range p, lw p i * lx p i ^ k = ∫ t in (-1 : ℝ)..1, t ^ k := by
  rw [integral_pow_sym]
  rcases hp with rfl | rfl
  all_goals simp only [sum_range_succ, sum_range_zero, lw, lx, lobattoX, lobattoW, List.getD_cons_zero, List.getD_cons_succ]
  · have : k ≤ 1 := by omega
    interval_cases k
    all_goals norm_num [Nat.even_iff]
  · have : k ≤ 3 := by omega
    interval_cases k
    all_goals norm_num [Nat.even_iff]

theorem lobatto_moments (p k : Nat) (h4 : 4 ≤ p) (h8 : p ≤ 8) (hk : k + 3 ≤ 2 * p) :
    |∑ i ∈ range p, lw p i * lx p i ^ k - ∫ t in (-1 : ℝ)..1, t ^ k| ≤ 2e-21 := by
  rw [integral_pow_sym]
  interval_cases p
  all_goals simp only [sum_range_succ, sum_range_zero, lw, lx, lobattoX, lobattoW, List.getD_cons_zero, List.getD_cons_succ]
  · have : k ≤ 5 := by omega
    clear hk
    interval_cases k
    all_goals norm_num [Nat.even_iff, abs_le]
  · have : k ≤ 7 := by omega
    clear hk
    interval_cases k
    all_goals norm_num [Nat.even_iff, abs_le]
  · have : k ≤ 9 := by omega
    clear hk
    interval_cases k
    all_goals norm_num [Nat.even_iff, abs_le]
  · have : k ≤ 11 := by omega
    clear hk
    interval_cases k
    all_goals norm_num [Nat.even_iff, abs_le]
  · have : k ≤ 13 := by omega
    clear hk
    interval_cases k
    all_goals norm_num [Nat.even_iff, abs_le]

end Verif.Quadrature
