import Verif.Json.CborModel
import Verif.Json.GrisuValue

/-!
# Reading floating-point numbers of 16 and 32 bits
-/

namespace Verif.Json
open Spec

namespace Spec

/-- the value of a number of 16 bits (IEEE 754, binary16) without sign -/
def half (n : Nat) : ℚ :=
  if n / 2 ^ 10 = 0 then (n % 2 ^ 10 : Nat) * 2 ^ (-24 : Int)
  else (2 ^ 10 + n % 2 ^ 10 : Nat) * 2 ^ ((n / 2 ^ 10 : Nat) - 25 : Int)

/-- the value of a number of 32 bits (binary32) without sign -/
def single (n : Nat) : ℚ :=
  if n / 2 ^ 23 = 0 then (n % 2 ^ 23 : Nat) * 2 ^ (-149 : Int)
  else (2 ^ 23 + n % 2 ^ 23 : Nat) * 2 ^ ((n / 2 ^ 23 : Nat) - 150 : Int)

end Spec

theorem ldexp_value {n : Nat} {e : Int} (hn : n < 2 ^ 53) (h1 : 0 < 1023 + n.log2 + e) (h2 : 1023 + n.log2 + e < 2047) :
    double (ldexp n e) = n * 2 ^ e ∧ ldexp n e < infinity := by
  rw [ldexp]
  by_cases h0 : n = 0
  · rw [if_pos h0, h0]
    norm_num [double, infinity]
  · rw [if_neg h0]
    have hl : 2 ^ n.log2 ≤ n := Nat.log2_self_le h0
    have hu : n < 2 ^ (n.log2 + 1) := Nat.lt_log2_self
    have hL : n.log2 < 53 := (Nat.log2_lt h0).mpr hn
    obtain ⟨E, hE⟩ := Int.eq_ofNat_of_zero_le h1.le
    generalize n.log2 = L at *
    rw [hE]
    simp only [Int.toNat_natCast]
    have hr : (n - 2 ^ L) * 2 ^ (52 - L) < 2 ^ 52 := by
      have : 2 ^ 52 = 2 ^ L * 2 ^ (52 - L) := by rw [← pow_add]; congr 1; omega
      rw [this]
      refine Nat.mul_lt_mul_of_pos_right ?_ (by positivity)
      rw [pow_succ] at hu; omega
    have hd : (E * 2 ^ 52 + (n - 2 ^ L) * 2 ^ (52 - L)) / 2 ^ 52 = E := by omega
    have hm : (E * 2 ^ 52 + (n - 2 ^ L) * 2 ^ (52 - L)) % 2 ^ 52 = (n - 2 ^ L) * 2 ^ (52 - L) := by omega
    refine ⟨?_, ?_⟩
    · rw [double, hd, hm, if_neg (by omega)]
      have : 2 ^ 52 + (n - 2 ^ L) * 2 ^ (52 - L) = n * 2 ^ (52 - L) := by
        have : 2 ^ 52 = 2 ^ L * 2 ^ (52 - L) := by rw [← pow_add]; congr 1; omega
        rw [this, ← Nat.add_mul]
        congr 1
        omega
      rw [this]
      push_cast
      rw [mul_assoc, ← zpow_natCast, ← zpow_add₀ (by norm_num)]
      congr 2
      omega
    · rw [infinity]
      omega

/-- **C127** (what holds) A floating-point number of 16 bits is read as the `double` with exactly the same value:
below the infinities; infinity as infinity; every NaN as a NaN. -/
theorem C127_half (n : Nat) (hn : n < 2 ^ 15) :
    (n < 0x7C00 → double (readHalf n) = half n ∧ readHalf n < infinity) ∧
    (n = 0x7C00 → readHalf n = infinity) ∧ (0x7C00 < n → infinity < readHalf n ∧ readHalf n < 2 ^ 63) := by
  have hs : n / 2 ^ 15 % 2 = 0 := by omega
  refine ⟨fun h => ?_, fun h => by subst h; rfl, fun h => ?_⟩
  · simp only [readHalf, hs, ne_eq, not_true_eq_false, if_false]
    have he : n / 2 ^ 10 % 2 ^ 5 = n / 2 ^ 10 := by omega
    rw [he, half]
    by_cases h0 : n / 2 ^ 10 = 0
    · rw [if_pos h0, if_pos h0]
      have hl : (n % 2 ^ 10).log2 < 10 ∨ n % 2 ^ 10 = 0 := by
        by_cases hz : n % 2 ^ 10 = 0
        · exact .inr hz
        · exact .inl ((Nat.log2_lt hz).mpr (by omega))
      have hl' : (n % 2 ^ 10).log2 < 10 := by
        rcases hl with h | h
        · exact h
        · rw [h]; decide
      exact ldexp_value (by omega) (by omega) (by omega)
    · rw [if_neg h0, if_neg h0, if_neg (by omega)]
      have hl : (n % 2 ^ 10 + 1024).log2 = 10 := by
        rw [Nat.log2_eq_iff (by omega)]; omega
      have := ldexp_value (n := n % 2 ^ 10 + 1024) (e := (n / 2 ^ 10 : Nat) - 25) (by omega) (by omega) (by omega)
      rw [Nat.add_comm (2 ^ 10)]
      exact this
  · have he : n / 2 ^ 10 % 2 ^ 5 = 31 := by omega
    have hm : n % 2 ^ 10 ≠ 0 := by omega
    simp only [readHalf, hs, he, hm, ne_eq, not_true_eq_false, if_false, if_true]
    rw [if_neg (by decide)]
    decide

/-- **C127** (what holds) The sign is kept. -/
theorem C127_half_sign (n : Nat) (hn : n < 2 ^ 15) : readHalf (2 ^ 15 + n) = 2 ^ 63 + readHalf n := by
  have h1 : (2 ^ 15 + n) / 2 ^ 15 % 2 = 1 := by omega
  have h2 : n / 2 ^ 15 % 2 = 0 := by omega
  have h3 : (2 ^ 15 + n) / 2 ^ 10 % 2 ^ 5 = n / 2 ^ 10 % 2 ^ 5 := by omega
  have h4 : (2 ^ 15 + n) % 2 ^ 10 = n % 2 ^ 10 := by omega
  simp only [readHalf, h1, h2, h3, h4, ne_eq, not_true_eq_false, if_false, one_ne_zero, not_false_eq_true, if_true]
  omega

/-- the smallest number of 16 bits, and 65504, the largest -/
example : double (readHalf 1) = 2 ^ (-24 : Int) ∧ double (readHalf 0x7BFF) = 65504 := by
  rw [((C127_half 1 (by decide)).1 (by decide)).1, ((C127_half 0x7BFF (by decide)).1 (by decide)).1]
  norm_num [half]

/-- **C127** (what holds) A floating-point number of 32 bits is read as the `double` with exactly the same value:
below the infinities; infinity as infinity; every NaN as a NaN. -/
theorem C127_single (n : Nat) (hn : n < 2 ^ 31) :
    (n < 0x7F800000 → double (readSingle n) = single n ∧ readSingle n < infinity) ∧
    (n = 0x7F800000 → readSingle n = infinity) ∧
    (0x7F800000 < n → infinity < readSingle n ∧ readSingle n < 2 ^ 63) := by
  have hs : n / 2 ^ 31 % 2 = 0 := by omega
  refine ⟨fun h => ?_, fun h => by subst h; rfl, fun h => ?_⟩
  · simp only [readSingle, hs, ne_eq, not_true_eq_false, if_false]
    have he : n / 2 ^ 23 % 2 ^ 8 = n / 2 ^ 23 := by omega
    rw [he, single]
    by_cases h0 : n / 2 ^ 23 = 0
    · rw [if_pos h0, if_pos h0]
      have hl : (n % 2 ^ 23).log2 < 23 := by
        by_cases hz : n % 2 ^ 23 = 0
        · rw [hz]; decide
        · exact (Nat.log2_lt hz).mpr (by omega)
      exact ldexp_value (by omega) (by omega) (by omega)
    · rw [if_neg h0, if_neg h0, if_neg (by omega)]
      have hd : ((n / 2 ^ 23 + 896) * 2 ^ 52 + n % 2 ^ 23 * 2 ^ 29) / 2 ^ 52 = n / 2 ^ 23 + 896 := by omega
      have hm : ((n / 2 ^ 23 + 896) * 2 ^ 52 + n % 2 ^ 23 * 2 ^ 29) % 2 ^ 52 = n % 2 ^ 23 * 2 ^ 29 := by omega
      refine ⟨?_, by rw [infinity]; omega⟩
      rw [double, hd, hm, if_neg (by omega)]
      rw [show 2 ^ 52 + n % 2 ^ 23 * 2 ^ 29 = (2 ^ 23 + n % 2 ^ 23) * 2 ^ 29 by omega]
      generalize 2 ^ 23 + n % 2 ^ 23 = k
      generalize n / 2 ^ 23 = e
      rw [Nat.cast_mul, mul_assoc, show ((2 ^ 29 : Nat) : ℚ) = 2 ^ (29 : Int) by norm_num, ← zpow_add₀ (by norm_num),
        show (29 : Int) + (((e + 896 : Nat) : Int) - 1075) = (e : Int) - 150 by omega]
  · have he : n / 2 ^ 23 % 2 ^ 8 = 255 := by omega
    have hm : n % 2 ^ 23 ≠ 0 := by omega
    simp only [readSingle, hs, he, hm, ne_eq, not_true_eq_false, if_false, if_true, bitsInf, infinity]
    norm_num
    omega

/-- **C127** (what holds) The sign is kept. -/
theorem C127_single_sign (n : Nat) (hn : n < 2 ^ 31) : readSingle (2 ^ 31 + n) = 2 ^ 63 + readSingle n := by
  have h1 : (2 ^ 31 + n) / 2 ^ 31 % 2 = 1 := by omega
  have h2 : n / 2 ^ 31 % 2 = 0 := by omega
  have h3 : (2 ^ 31 + n) / 2 ^ 23 % 2 ^ 8 = n / 2 ^ 23 % 2 ^ 8 := by omega
  have h4 : (2 ^ 31 + n) % 2 ^ 23 = n % 2 ^ 23 := by omega
  simp only [readSingle, h1, h2, h3, h4, ne_eq, not_true_eq_false, if_false, one_ne_zero, not_false_eq_true, if_true]
  omega

/-- 1.5, and the smallest number of 32 bits -/
example : double (readSingle 0x3FC00000) = 3 / 2 ∧ double (readSingle 1) = 2 ^ (-149 : Int) := by
  rw [((C127_single 0x3FC00000 (by decide)).1 (by decide)).1, ((C127_single 1 (by decide)).1 (by decide)).1]
  norm_num [single]

end Verif.Json
