import Verif.Vec.Props
import Mathlib.Data.Nat.Prime.Basic
import Mathlib.Data.Nat.Prime.Pow
import Mathlib.Algebra.Order.Ring.Nat

/-!
# C31: averages of `int`, exactly
-/

namespace Verif.Vec

theorem bmod_neg (q t : Nat) (ht : t ≤ 2 ^ 31) : Int.bmod (q : Int) (2 ^ 32) = -(t : Int) ↔ 2 ^ 32 ∣ q + t := by
  have hb : Int.bmod (-(t : Int)) (2 ^ 32) = -(t : Int) := Int.bmod_eq_of_le (by omega) (by omega)
  rw [← Int.natCast_dvd_natCast]
  constructor
  · intro h
    have h2 : (q : Int) % (2 ^ 32 : Nat) = (-(t : Int)) % (2 ^ 32 : Nat) := by
      rw [← Int.bmod_emod (x := (q : Int)), h]
    have h3 := Int.dvd_of_emod_eq_zero (Int.emod_eq_emod_iff_emod_sub_eq_zero.mp h2)
    rwa [sub_neg_eq_add, ← Nat.cast_add] at h3
  · intro h
    have h2 : (q : Int) % (2 ^ 32 : Nat) = (-(t : Int)) % (2 ^ 32 : Nat) := by
      rw [Int.emod_eq_emod_iff_emod_sub_eq_zero, sub_neg_eq_add, ← Nat.cast_add]
      exact Int.emod_eq_zero_of_dvd h
    rw [← hb, ← Int.emod_bmod (q : Int), h2, Int.emod_bmod]

theorem intDivSize_neg (a n : Nat) (ha : 0 < a) (ha' : a ≤ 2 ^ 31) (hn : 0 < n) (hn' : n ≤ 2 ^ 31) :
    intDivSize (-(a : Int)) n = -((a / n : Nat) : Int) ↔ (∃ j : Nat, n = 2 ^ j) ∧ n ∣ a := by
  have hm : (-(a : Int)) % 2 ^ 64 = ((2 ^ 64 - a : Nat) : Int) := by
    rw [Int.emod_eq_iff (by norm_num)]
    refine ⟨by omega, by omega, ⟨1, ?_⟩⟩
    omega
  rw [intDivSize, hm, ← Int.natCast_ediv]
  have e1 := Nat.div_add_mod (2 ^ 64 - a) n
  have e2 := Nat.div_add_mod a n
  have l1 := Nat.mod_lt (2 ^ 64 - a) hn
  have l2 := Nat.mod_lt a hn
  have ht : a / n ≤ 2 ^ 31 := (Nat.div_le_self a n).trans ha'
  generalize hq : (2 ^ 64 - a) / n = q at *
  generalize ht' : a / n = t at *
  generalize hr1 : (2 ^ 64 - a) % n = r1 at *
  generalize hr2 : a % n = r2 at *
  have sum : n * (q + t) + (r1 + r2) = 2 ^ 64 := by rw [Nat.mul_add]; omega
  have step1 := bmod_neg q t ht
  rw [step1]
  constructor
  · intro h
    have h3 : 2 ^ 32 ∣ r1 + r2 := by
      have : 2 ^ 32 ∣ n * (q + t) + (r1 + r2) := by rw [sum]; exact ⟨2 ^ 32, by norm_num⟩
      exact (Nat.dvd_add_right (Dvd.dvd.mul_left h n)).mp this
    have h4 : r1 + r2 = 0 := Nat.eq_zero_of_dvd_of_lt h3 (by omega)
    have h5 : n ∣ 2 ^ 64 := ⟨q + t, by omega⟩
    obtain ⟨j, -, hj⟩ := (Nat.dvd_prime_pow Nat.prime_two).mp h5
    exact ⟨⟨j, hj⟩, Nat.dvd_of_mod_eq_zero (by omega)⟩
  · rintro ⟨⟨j, rfl⟩, hd⟩
    have hj : j ≤ 31 := (Nat.pow_le_pow_iff_right (by norm_num)).mp hn'
    have h0 : r2 = 0 := by rw [← hr2]; exact Nat.mod_eq_zero_of_dvd hd
    have h1 : 2 ^ j ∣ r1 := by
      have : 2 ^ j ∣ 2 ^ j * (q + t) + (r1 + r2) := by rw [sum]; exact Nat.pow_dvd_pow 2 (by omega)
      have := (Nat.dvd_add_right (Dvd.intro _ rfl)).mp this
      rwa [h0, Nat.add_zero] at this
    have h2 : r1 = 0 := Nat.eq_zero_of_dvd_of_lt h1 l1
    have h3 : 2 ^ j * (q + t) = 2 ^ j * 2 ^ (64 - j) := by
      rw [← Nat.pow_add, show j + (64 - j) = 64 by omega]; omega
    rw [Nat.eq_of_mul_eq_mul_left (by positivity) h3]
    exact Nat.pow_dvd_pow 2 (by omega)

/-- **C31** For up to 2^31 `int` values whose sum is an `int`, the container version gives the truncated exact quotient
if and only if the sum is not negative or the number of values is a power of two that divides the sum. -/
theorem C31_int_iff (l : List Int) (hl : l ≠ []) (hn : l.length ≤ 2 ^ 31) (h0 : -2 ^ 31 ≤ l.sum) (h1 : l.sum < 2 ^ 31) :
    averageContainerInt l = .ok (l.sum.tdiv l.length) ↔
      0 ≤ l.sum ∨ (∃ j : Nat, l.length = 2 ^ j) ∧ (l.length : Int) ∣ l.sum := by
  have hp : 0 < l.length := List.length_pos_iff.2 hl
  by_cases hs : 0 ≤ l.sum
  · refine ⟨fun _ => .inl hs, fun _ => ?_⟩
    rw [(C31_int_partial l hl hs h1).1, Int.tdiv_eq_ediv_of_nonneg hs]
  · obtain ⟨a, ha⟩ : ∃ a : Nat, l.sum = -(a : Int) := ⟨l.sum.natAbs, by omega⟩
    have key := intDivSize_neg a l.length (by omega) (by omega) hp hn
    have e : averageContainerInt l = .ok (intDivSize l.sum l.length) := by
      simp only [averageContainerInt, hp, decide_true, Outcome.assert_true, Outcome.bind_ok, foldl_add_eq, zero_add]
    rw [e, ha, Int.neg_tdiv, ← Int.ofNat_tdiv, Outcome.ok.injEq, key]
    constructor
    · rintro ⟨h, hd⟩
      exact .inr ⟨h, (Int.dvd_neg).mpr (Int.natCast_dvd_natCast.mpr hd)⟩
    · rintro (h | ⟨h, hd⟩)
      · omega
      · exact ⟨h, Int.natCast_dvd_natCast.mp ((Int.dvd_neg).mp hd)⟩

/-- **C31** The same for the version with a list of arguments. -/
theorem C31_int_pack_iff (t : Int) (args : List Int) (hn : args.length + 1 ≤ 2 ^ 31) (h0 : -2 ^ 31 ≤ (t :: args).sum)
    (h1 : (t :: args).sum < 2 ^ 31) :
    averagePackInt t args = (t :: args).sum.tdiv (args.length + 1 : Nat) ↔
      0 ≤ (t :: args).sum ∨ (∃ j : Nat, args.length + 1 = 2 ^ j) ∧ ((args.length + 1 : Nat) : Int) ∣ (t :: args).sum := by
  have := C31_int_iff (t :: args) (by simp) (by simpa using hn) h0 h1
  simp only [averageContainerInt, List.length_cons, Nat.zero_lt_succ, decide_true, Outcome.assert_true,
    Outcome.bind_ok, gt_iff_lt, Outcome.ok.injEq, List.foldl_cons, zero_add] at this
  exact this

example : averageContainerInt [-1, -3] = .ok (-2) ∧ averageContainerInt [-1, -2] ≠ .ok (-1) ∧
    averageContainerInt [-1, -2, -3] ≠ .ok (-2) := by decide

end Verif.Vec
