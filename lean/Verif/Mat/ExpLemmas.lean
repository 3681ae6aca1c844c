import Mathlib.Analysis.Normed.Algebra.Exponential
import Mathlib.Analysis.Complex.Exponential
import Mathlib.Analysis.SpecificLimits.Normed
import Mathlib.Algebra.Polynomial.AlgebraMap
import Mathlib.Analysis.SpecialFunctions.Exponential
import Mathlib.Tactic.NormNum
import Mathlib.Tactic.Linarith
import Mathlib.Tactic.Ring
import Mathlib.Tactic.Module
import Mathlib.Tactic.NoncommRing
import Mathlib.Tactic.Positivity

/-!
Approximation of the exponential by its (6,6) Padé fraction in a real Banach algebra.
-/

namespace Verif.Pade
open Polynomial NormedSpace

section Ring
variable {R : Type*} [Ring R]

/-- 665280 times the numerator -/
def num (a : R) : R := 665280 + 332640 * a + 75600 * a ^ 2 + 10080 * a ^ 3 + 840 * a ^ 4 + 42 * a ^ 5 + a ^ 6
/-- 665280 times the denominator -/
def den (a : R) : R := 665280 - 332640 * a + 75600 * a ^ 2 - 10080 * a ^ 3 + 840 * a ^ 4 - 42 * a ^ 5 + a ^ 6
/-- 12! times the Taylor polynomial of degree 12 -/
def tay (a : R) : R := 479001600 + 479001600 * a + 239500800 * a ^ 2 + 79833600 * a ^ 3 + 19958400 * a ^ 4 +
  3991680 * a ^ 5 + 665280 * a ^ 6 + 95040 * a ^ 7 + 11880 * a ^ 8 + 1320 * a ^ 9 + 132 * a ^ 10 + 12 * a ^ 11 + a ^ 12

/-- what is left over, divided by `a ^ 13` -/
def rem (a : R) : R := -51120 + 21960 * a - 4224 * a ^ 2 + 468 * a ^ 3 - 30 * a ^ 4 + a ^ 5

theorem pade_identity (a : R) : den a * tay a = 479001600 * num a + a ^ 13 * rem a := by
  have h : (den (X : ℤ[X])) * tay X = 479001600 * num X + X ^ 13 * rem X := by
    unfold den tay num rem; ring
  have h' := congrArg (aeval a) h
  unfold den tay num rem at h' ⊢
  simp only [map_add, map_sub, map_mul, map_pow, map_neg, aeval_X] at h'
  have c : ∀ (n : ℕ) [n.AtLeastTwo], aeval a (OfNat.ofNat n : ℤ[X]) = (OfNat.ofNat n : R) := fun n _ => map_ofNat (aeval a) n
  simp only [c] at h'
  exact h'

theorem num_neg (a : R) : num (-a) = den a := by
  unfold num den
  have e3 : (-a) ^ 3 = - a ^ 3 := Odd.neg_pow (by decide) a
  have e5 : (-a) ^ 5 = - a ^ 5 := Odd.neg_pow (by decide) a
  have e2 : (-a) ^ 2 = a ^ 2 := Even.neg_pow (by decide) a
  have e4 : (-a) ^ 4 = a ^ 4 := Even.neg_pow (by decide) a
  have e6 : (-a) ^ 6 = a ^ 6 := Even.neg_pow (by decide) a
  rw [e2, e3, e4, e5, e6]
  simp only [mul_neg, sub_eq_add_neg]

theorem den_neg (a : R) : den (-a) = num a := by rw [← num_neg, neg_neg]

theorem commute_num (a b : R) (h : Commute a b) : Commute (num a) b := by
  have hp : ∀ k, Commute (a ^ k) b := fun k => h.pow_left k
  unfold num
  have h1 : Commute (665280 : R) b := Nat.cast_commute 665280 b
  refine ((((((h1.add_left ((Nat.cast_commute 332640 b).mul_left h)).add_left ((Nat.cast_commute 75600 b).mul_left (hp 2))).add_left
    ((Nat.cast_commute 10080 b).mul_left (hp 3))).add_left ((Nat.cast_commute 840 b).mul_left (hp 4))).add_left
    ((Nat.cast_commute 42 b).mul_left (hp 5))).add_left (hp 6))

theorem commute_den (a b : R) (h : Commute a b) : Commute (den a) b := by
  rw [← num_neg]; exact commute_num _ _ h.neg_left

end Ring

section Banach
variable {A : Type*} [NormedRing A] [NormedAlgebra ℝ A] [NormOneClass A]

theorem norm_ofNat_mul_le (n : ℕ) [n.AtLeastTwo] (x : A) : ‖(OfNat.ofNat n : A) * x‖ ≤ n * ‖x‖ := by
  have : (OfNat.ofNat n : A) * x = n • x := by
    rw [← Nat.cast_ofNat, nsmul_eq_mul]; rfl
  rw [this]
  exact norm_nsmul_le

theorem pow_half (a : A) (h : ‖a‖ ≤ 1 / 2) (k : ℕ) : ‖a ^ k‖ ≤ (1 / 2) ^ k :=
  (norm_pow_le a k).trans (pow_le_pow_left₀ (norm_nonneg a) h k)

theorem term_le (a : A) (h : ‖a‖ ≤ 1 / 2) (n : ℕ) [n.AtLeastTwo] (k : ℕ) :
    ‖(OfNat.ofNat n : A) * a ^ k‖ ≤ n * (1 / 2) ^ k :=
  (norm_ofNat_mul_le n _).trans (mul_le_mul_of_nonneg_left (pow_half a h k) (by positivity))

/-- the denominator is close to 665280 -/
theorem den_near (a : A) (h : ‖a‖ ≤ 1 / 2) : ‖(665280 : A) - den a‖ ≤ 187000 := by
  have h1 : ‖(332640 : A) * a‖ ≤ 166320 := by
    have := term_le a h 332640 1; rw [pow_one] at this; norm_num at this ⊢; exact this
  have h2 : ‖(75600 : A) * a ^ 2‖ ≤ 18900 := by have := term_le a h 75600 2; norm_num at this ⊢; exact this
  have h3 : ‖(10080 : A) * a ^ 3‖ ≤ 1260 := by have := term_le a h 10080 3; norm_num at this ⊢; exact this
  have h4 : ‖(840 : A) * a ^ 4‖ ≤ 53 := by have := term_le a h 840 4; norm_num at this ⊢; linarith
  have h5 : ‖(42 : A) * a ^ 5‖ ≤ 2 := by have := term_le a h 42 5; norm_num at this ⊢; linarith
  have h6 : ‖a ^ 6‖ ≤ 1 := by have := pow_half a h 6; norm_num at this ⊢; linarith
  have e : (665280 : A) - den a = 332640 * a - 75600 * a ^ 2 + 10080 * a ^ 3 - 840 * a ^ 4 + 42 * a ^ 5 - a ^ 6 := by
    unfold den; abel
  rw [e]
  have s1 := norm_sub_le (332640 * a) (75600 * a ^ 2)
  have s2 := norm_add_le (332640 * a - 75600 * a ^ 2) (10080 * a ^ 3)
  have s3 := norm_sub_le (332640 * a - 75600 * a ^ 2 + 10080 * a ^ 3) (840 * a ^ 4)
  have s4 := norm_add_le (332640 * a - 75600 * a ^ 2 + 10080 * a ^ 3 - 840 * a ^ 4) (42 * a ^ 5)
  have s5 := norm_sub_le (332640 * a - 75600 * a ^ 2 + 10080 * a ^ 3 - 840 * a ^ 4 + 42 * a ^ 5) (a ^ 6)
  linarith

theorem rem_le (a : A) (h : ‖a‖ ≤ 1 / 2) : ‖rem a‖ ≤ 64000 := by
  have h0 : ‖(51120 : A)‖ ≤ 51120 := by have := norm_ofNat_mul_le 51120 (1 : A); simpa using this
  have h1 : ‖(21960 : A) * a‖ ≤ 10980 := by
    have := term_le a h 21960 1; rw [pow_one] at this; norm_num at this ⊢; exact this
  have h2 : ‖(4224 : A) * a ^ 2‖ ≤ 1056 := by have := term_le a h 4224 2; norm_num at this ⊢; exact this
  have h3 : ‖(468 : A) * a ^ 3‖ ≤ 59 := by have := term_le a h 468 3; norm_num at this ⊢; linarith
  have h4 : ‖(30 : A) * a ^ 4‖ ≤ 2 := by have := term_le a h 30 4; norm_num at this ⊢; linarith
  have h5 : ‖a ^ 5‖ ≤ 1 := by have := pow_half a h 5; norm_num at this ⊢; linarith
  unfold rem
  have s0 := norm_add_le (-(51120 : A)) (21960 * a)
  rw [norm_neg] at s0
  have s1 := norm_sub_le (-(51120 : A) + 21960 * a) (4224 * a ^ 2)
  have s2 := norm_add_le (-(51120 : A) + 21960 * a - 4224 * a ^ 2) (468 * a ^ 3)
  have s3 := norm_sub_le (-(51120 : A) + 21960 * a - 4224 * a ^ 2 + 468 * a ^ 3) (30 * a ^ 4)
  have s4 := norm_add_le (-(51120 : A) + 21960 * a - 4224 * a ^ 2 + 468 * a ^ 3 - 30 * a ^ 4) (a ^ 5)
  linarith

variable [CompleteSpace A]

/-- the normalised denominator is invertible -/
theorem isUnit_den (a : A) (h : ‖a‖ ≤ 1 / 2) : IsUnit (den a) := by
  have hd := den_near a h
  set t : A := (1 / 665280 : ℝ) • ((665280 : A) - den a) with ht
  have hn : ‖t‖ < 1 := by
    rw [ht, norm_smul]; norm_num; linarith
  have hu : IsUnit (1 - t) := ⟨Units.oneSub t hn, rfl⟩
  have e : den a = (665280 : ℝ) • (1 - t) := by
    have h1 : (665280 : ℝ) • (1 : A) = 665280 := by
      rw [← Algebra.algebraMap_eq_smul_one]; exact map_ofNat _ _
    rw [smul_sub, ht, smul_smul, h1]; norm_num
  rw [e]
  have : (665280 : ℝ) • (1 - t) = (algebraMap ℝ A 665280) * (1 - t) := by rw [Algebra.smul_def]
  rw [this]
  exact ((isUnit_iff_ne_zero.2 (by norm_num : (665280 : ℝ) ≠ 0)).map (algebraMap ℝ A)).mul hu

theorem norm_inv_den (a i : A) (h : ‖a‖ ≤ 1 / 2) (hi : den a * i = 1) : ‖i‖ ≤ 1 / 478280 := by
  have hd := den_near a h
  have e : (665280 : A) * i = 1 + ((665280 : A) - den a) * i := by rw [sub_mul, hi]; abel
  have e2 : ‖(665280 : A) * i‖ = 665280 * ‖i‖ := by
    have : (665280 : A) * i = (665280 : ℝ) • i := by
      rw [Algebra.smul_def]; congr 1; exact (map_ofNat _ _).symm
    rw [this, norm_smul]; norm_num
  have h2 : ‖(665280 : A) * i‖ ≤ 1 + 187000 * ‖i‖ := by
    rw [e]
    refine (norm_add_le _ _).trans ?_
    rw [norm_one]
    refine add_le_add le_rfl ((norm_mul_le _ _).trans ?_)
    exact mul_le_mul_of_nonneg_right hd (norm_nonneg i)
  rw [e2] at h2
  rw [le_div_iff₀ (by norm_num)]
  linarith

theorem exp_eq_tsum' (a : A) : exp a = ∑' n : ℕ, (n.factorial⁻¹ : ℝ) • a ^ n := congrFun (exp_eq_tsum ℝ) a

theorem exp_split (a : A) (n : ℕ) :
    exp a = ∑ k ∈ Finset.range n, (k.factorial⁻¹ : ℝ) • a ^ k + ∑' k : ℕ, ((k + n).factorial⁻¹ : ℝ) • a ^ (k + n) := by
  rw [exp_eq_tsum']
  exact ((expSeries_summable' (𝕂 := ℝ) a).sum_add_tsum_nat_add n).symm

/-- the Taylor remainder is bounded by the scalar one -/
theorem exp_tail_le (a : A) (h : ‖a‖ ≤ 1 / 2) :
    ‖exp a - ∑ k ∈ Finset.range 13, (k.factorial⁻¹ : ℝ) • a ^ k‖ ≤ 1 / (46000000000000 : ℝ) := by
  have hs := exp_split a 13
  have hr := exp_split (A := ℝ) ‖a‖ 13
  have hsub : exp a - ∑ k ∈ Finset.range 13, (k.factorial⁻¹ : ℝ) • a ^ k
      = ∑' k : ℕ, ((k + 13).factorial⁻¹ : ℝ) • a ^ (k + 13) := by
    rw [hs]; abel
  have hsubr : exp ‖a‖ - ∑ k ∈ Finset.range 13, (k.factorial⁻¹ : ℝ) • ‖a‖ ^ k
      = ∑' k : ℕ, ((k + 13).factorial⁻¹ : ℝ) • ‖a‖ ^ (k + 13) := by
    rw [hr]; abel
  rw [hsub]
  have sumr : Summable fun k : ℕ => ((k + 13).factorial⁻¹ : ℝ) • ‖a‖ ^ (k + 13) :=
    (summable_nat_add_iff 13).2 (expSeries_summable' (𝕂 := ℝ) ‖a‖)
  have hb : ∀ k : ℕ, ‖((k + 13).factorial⁻¹ : ℝ) • a ^ (k + 13)‖ ≤ ((k + 13).factorial⁻¹ : ℝ) • ‖a‖ ^ (k + 13) := by
    intro k
    rw [norm_smul, norm_inv, smul_eq_mul]
    have : ‖((k + 13).factorial : ℝ)‖ = ((k + 13).factorial : ℝ) := by simp
    rw [this]
    exact mul_le_mul_of_nonneg_left (norm_pow_le a _) (by positivity)
  refine (tsum_of_norm_bounded sumr.hasSum hb).trans ?_
  rw [← hsubr]
  have hx : |‖a‖| ≤ 1 := by rw [abs_of_nonneg (norm_nonneg a)]; linarith
  have key := Real.exp_bound hx (n := 13) (by norm_num)
  have e1 : exp ‖a‖ = Real.exp ‖a‖ := by rw [Real.exp_eq_exp_ℝ]
  have e2 : ∑ k ∈ Finset.range 13, (k.factorial⁻¹ : ℝ) • ‖a‖ ^ k = ∑ m ∈ Finset.range 13, ‖a‖ ^ m / m.factorial :=
    Finset.sum_congr rfl fun k _ => by rw [smul_eq_mul, div_eq_inv_mul]
  rw [e1, e2]
  refine (le_abs_self _).trans (key.trans ?_)
  rw [abs_of_nonneg (norm_nonneg a)]
  have hp : ‖a‖ ^ 13 ≤ (1 / 2) ^ 13 := pow_le_pow_left₀ (norm_nonneg a) h 13
  calc ‖a‖ ^ 13 * ((13 : ℕ).succ / ((13 : ℕ).factorial * (13 : ℕ)))
      ≤ (1 / 2) ^ 13 * ((13 : ℕ).succ / ((13 : ℕ).factorial * (13 : ℕ)) : ℝ) :=
        mul_le_mul_of_nonneg_right hp (by positivity)
    _ ≤ _ := by simp only [Nat.factorial]; norm_num

theorem tay_sum (a : A) : (479001600 : ℝ) • ∑ k ∈ Finset.range 13, (k.factorial⁻¹ : ℝ) • a ^ k = tay a := by
  have c : ∀ (n : ℕ) [n.AtLeastTwo] (x : A), (OfNat.ofNat n : A) * x = (OfNat.ofNat n : ℝ) • x := by
    intro n _ x; rw [Algebra.smul_def]; congr 1; exact (map_ofNat _ _).symm
  have c1 : (479001600 : A) = (479001600 : ℝ) • (1 : A) := by rw [← c, mul_one]
  simp only [Finset.sum_range_succ, Finset.sum_range_zero, Nat.factorial, tay]
  simp only [c]
  rw [c1]
  simp only [pow_zero, pow_one]
  push_cast
  module

/-- **Main estimate**: the Padé fraction is `exp a` times a factor within `2·10⁻¹³` of one,
and equals `exp a` if `a¹³ = 0`. -/
theorem pade_close (a i : A) (h : ‖a‖ ≤ 1 / 2) (hi : den a * i = 1) (hi' : i * den a = 1) :
    ∃ e : A, i * num a = exp a * (1 + e) ∧ Commute e a ∧ ‖e‖ ≤ 2 / 10 ^ 13 ∧ (a ^ 13 = 0 → e = 0) := by
  let _ : NormedAlgebra ℚ A := NormedAlgebra.restrictScalars ℚ ℝ A
  set T : A := ∑ k ∈ Finset.range 13, (k.factorial⁻¹ : ℝ) • a ^ k with hT
  set ρ : A := exp a - T with hρ
  have htay : tay a = (479001600 : ℝ) • T := (tay_sum a).symm
  set Rm : A := (1 / 479001600 : ℝ) • (a ^ 13 * rem a) + den a * ρ with hRm
  have hid : den a * exp a = num a + Rm := by
    have h1 : den a * T = num a + (1 / 479001600 : ℝ) • (a ^ 13 * rem a) := by
      have := pade_identity a
      rw [htay, mul_smul_comm] at this
      have e2 : (479001600 : A) * num a = (479001600 : ℝ) • num a := by
        rw [Algebra.smul_def]; congr 1; exact (map_ofNat _ _).symm
      rw [e2] at this
      have := congrArg (fun x => (1 / 479001600 : ℝ) • x) this
      simp only [smul_add, smul_smul] at this
      norm_num at this
      norm_num
      exact this
    have h2 : exp a = T + ρ := by rw [hρ]; abel
    rw [h2, mul_add, h1, hRm]; abel
  have hexpinv : exp a * exp (-a) = 1 := by
    rw [← exp_add_of_commute (Commute.refl a).neg_right, add_neg_cancel, exp_zero]
  refine ⟨-(exp (-a) * (i * Rm)), ?_, ?_, ?_, ?_⟩
  · have : i * num a = exp a - i * Rm := by
      have := congrArg (fun x => i * x) hid
      simp only [← mul_assoc, hi', one_mul, mul_add] at this
      rw [this]; abel
    rw [this, mul_add (exp a) 1 _, mul_one, mul_neg, ← mul_assoc (exp a), hexpinv, one_mul, sub_eq_add_neg]
  · have ca : Commute a a := Commute.refl a
    have cexp : Commute (exp (-a)) a := (ca.neg_left).exp_left
    have cden : Commute (den a) a := commute_den a a ca
    have ci : Commute i a := by
      show i * a = a * i
      calc i * a = i * a * (den a * i) := by rw [hi, mul_one]
        _ = i * (a * den a) * i := by simp only [mul_assoc]
        _ = i * (den a * a) * i := by rw [cden.eq]
        _ = (i * den a) * a * i := by simp only [mul_assoc]
        _ = a * i := by rw [hi', one_mul]
    have cT : Commute T a := by
      rw [hT]
      exact Commute.sum_left _ _ _ fun k _ => (ca.pow_left k).smul_left _
    have cρ : Commute ρ a := by rw [hρ]; exact (ca.exp_left).sub_left cT
    have crem : Commute (rem a) a := by
      have hh : rem a = -51120 + 21960 * a - 4224 * a ^ 2 + 468 * a ^ 3 - 30 * a ^ 4 + a ^ 5 := rfl
      rw [hh]
      have n1 : Commute (51120 : A) a := Nat.cast_commute 51120 a
      refine (((((n1.neg_left).add_left ((Nat.cast_commute 21960 a).mul_left ca)).sub_left
        ((Nat.cast_commute 4224 a).mul_left (ca.pow_left 2))).add_left ((Nat.cast_commute 468 a).mul_left (ca.pow_left 3))).sub_left
        ((Nat.cast_commute 30 a).mul_left (ca.pow_left 4))).add_left (ca.pow_left 5)
    have cRm : Commute Rm a := by
      rw [hRm]
      exact (((ca.pow_left 13).mul_left crem).smul_left _).add_left (cden.mul_left cρ)
    exact (cexp.mul_left (ci.mul_left cRm)).neg_left
  · have b1 : ‖exp (-a)‖ ≤ 1.7 := by
      have hneg : ‖-a‖ ≤ 1 / 2 := by rwa [norm_neg]
      have h1 : ‖exp (-a)‖ ≤ Real.exp ‖-a‖ := by
        rw [exp_eq_tsum', Real.exp_eq_exp_ℝ, exp_eq_tsum' (A := ℝ)]
        refine tsum_of_norm_bounded (expSeries_summable' (𝕂 := ℝ) ‖-a‖).hasSum fun k => ?_
        rw [norm_smul, norm_inv, smul_eq_mul]
        have : ‖(k.factorial : ℝ)‖ = (k.factorial : ℝ) := by simp
        rw [this]
        exact mul_le_mul_of_nonneg_left (norm_pow_le _ _) (by positivity)
      have h2 : Real.exp ‖-a‖ ≤ Real.exp (1 / 2) := Real.exp_le_exp.2 hneg
      have h3 : Real.exp (1 / 2) ≤ 1.7 := by
        have := Real.exp_bound' (x := 1 / 2) (by norm_num) (by norm_num) (n := 4) (by norm_num)
        refine this.trans ?_
        simp only [Finset.sum_range_succ, Finset.sum_range_zero, Nat.factorial]
        norm_num
      linarith
    have b2 := norm_inv_den a i h hi
    have b3 : ‖Rm‖ ≤ 0.036 / 10 ^ 6 := by
      have d1 : ‖den a‖ ≤ 852280 := by
        have := den_near a h
        have h0 : ‖(665280 : A)‖ ≤ 665280 := by have := norm_ofNat_mul_le 665280 (1 : A); simpa using this
        have e : den a = 665280 - ((665280 : A) - den a) := by abel
        rw [e]
        exact (norm_sub_le _ _).trans (by linarith)
      have d2 : ‖ρ‖ ≤ 1 / 46000000000000 := exp_tail_le a h
      have d3 : ‖a ^ 13 * rem a‖ ≤ (1 / 2) ^ 13 * 64000 :=
        (norm_mul_le _ _).trans (mul_le_mul (pow_half a h 13) (rem_le a h) (norm_nonneg _) (by positivity))
      have d4 : ‖(1 / 479001600 : ℝ) • (a ^ 13 * rem a)‖ ≤ 1 / 479001600 * ((1 / 2) ^ 13 * 64000) := by
        rw [norm_smul]
        have : ‖(1 / 479001600 : ℝ)‖ = 1 / 479001600 := by norm_num
        rw [this]
        exact mul_le_mul_of_nonneg_left d3 (by norm_num)
      have d5 : ‖den a * ρ‖ ≤ 852280 * (1 / 46000000000000) :=
        (norm_mul_le _ _).trans (mul_le_mul d1 d2 (norm_nonneg _) (by norm_num))
      rw [hRm]
      refine (norm_add_le _ _).trans ((add_le_add d4 d5).trans ?_)
      norm_num
    rw [norm_neg]
    have m1 : ‖i * Rm‖ ≤ 1 / 478280 * (0.036 / 10 ^ 6) :=
      (norm_mul_le _ _).trans (mul_le_mul b2 b3 (norm_nonneg _) (by norm_num))
    have m2 : ‖exp (-a) * (i * Rm)‖ ≤ 1.7 * (1 / 478280 * (0.036 / 10 ^ 6)) :=
      (norm_mul_le _ _).trans (mul_le_mul b1 m1 (norm_nonneg _) (by norm_num))
    refine m2.trans ?_
    norm_num
  · intro h13
    have hpow : ∀ k, a ^ (k + 13) = 0 := fun k => by rw [pow_add, h13, mul_zero]
    have hρ0 : ρ = 0 := by
      rw [hρ, hT, exp_split a 13]
      simp [hpow]
    rw [hRm, h13, hρ0]; simp

/-- powers of the Padé fraction against the exponential -/
theorem pade_pow_close (a i : A) (h : ‖a‖ ≤ 1 / 2) (hi : den a * i = 1) (hi' : i * den a = 1) (n : ℕ) :
    ‖(i * num a) ^ n - exp (n • a)‖ ≤ ‖exp (n • a)‖ * ((1 + 2 / 10 ^ 13) ^ n - 1) ∧
    (a ^ 13 = 0 → (i * num a) ^ n = exp (n • a)) := by
  let _ : NormedAlgebra ℚ A := NormedAlgebra.restrictScalars ℚ ℝ A
  obtain ⟨e, he, hc, hb, h0⟩ := pade_close a i h hi hi'
  have hcomm : Commute (exp a) (1 + e) := ((Commute.one_left (exp a)).add_left (hc.symm.exp_left).symm).symm
  have hpow : (i * num a) ^ n = exp (n • a) * (1 + e) ^ n := by
    rw [he, hcomm.mul_pow, exp_nsmul]
  refine ⟨?_, fun h13 => ?_⟩
  · have e1 : (i * num a) ^ n - exp (n • a) = exp (n • a) * ((1 + e) ^ n - 1) := by rw [hpow, mul_sub, mul_one]
    rw [e1]
    refine (norm_mul_le _ _).trans (mul_le_mul_of_nonneg_left ?_ (norm_nonneg _))
    have key : ∀ m : ℕ, ‖(1 + e) ^ m - 1‖ ≤ (1 + ‖e‖) ^ m - 1 := by
      intro m
      induction m with
      | zero => simp
      | succ m ih =>
        have e2 : (1 + e) ^ (m + 1) - 1 = ((1 + e) ^ m - 1) * (1 + e) + e := by
          rw [pow_succ, sub_mul, one_mul]; abel
        rw [e2]
        have n1 : ‖1 + e‖ ≤ 1 + ‖e‖ := by have := norm_add_le (1 : A) e; rwa [norm_one] at this
        have hpos : 0 ≤ (1 + ‖e‖) ^ m - 1 := (norm_nonneg _).trans ih
        have s : ‖((1 + e) ^ m - 1) * (1 + e) + e‖ ≤ ((1 + ‖e‖) ^ m - 1) * (1 + ‖e‖) + ‖e‖ :=
          (norm_add_le _ _).trans (add_le_add ((norm_mul_le _ _).trans (mul_le_mul ih n1 (norm_nonneg _) hpos)) le_rfl)
        refine s.trans (le_of_eq ?_)
        ring
    refine (key n).trans (sub_le_sub_right ?_ 1)
    exact pow_le_pow_left₀ (by positivity) (by linarith) n
  · rw [hpow, h0 h13]; simp

end Banach

end Verif.Pade
