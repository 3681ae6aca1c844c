import Mathlib.Tactic.NormNum
import Mathlib.Tactic.LinearCombination
import Verif.Rounding.Props

/-!
# C86: a volume lost to rounding
-/

namespace Verif.Rounding
open Verif Verif.Vec Verif.Geometry

/-- numbers with at most `p` significant digits are not changed by rounding -/
theorem binary_exact (p : ℕ) (m : ℤ) (k : ℤ) (hm : |m| < 2 ^ p) :
    (binary p).rnd ((m : ℝ) * 2 ^ k) = (m : ℝ) * 2 ^ k := by
  by_cases h0 : m = 0
  · simp [binary, h0]
  have hx : (0 : ℝ) < |(m : ℝ) * 2 ^ k| := abs_pos.2 (mul_ne_zero (by exact_mod_cast h0) (zpow_ne_zero _ (by norm_num)))
  -- the unit in the last place divides the number
  set L := Int.log 2 |(m : ℝ) * 2 ^ k| with hL
  have key : ∃ z : ℤ, (m : ℝ) * 2 ^ k = (z : ℝ) * 2 ^ (L - p + 1) := by
    by_cases hle : L - p + 1 ≤ k
    · refine ⟨m * 2 ^ (k - (L - p + 1)).toNat, ?_⟩
      push_cast
      rw [mul_assoc, ← zpow_natCast, Int.toNat_of_nonneg (by omega), ← zpow_add₀ (by norm_num)]
      congr 2
      ring
    · exfalso
      push Not at hle
      have h1 : (2 : ℝ) ^ L ≤ |(m : ℝ) * 2 ^ k| := by
        have := Int.zpow_log_le_self (b := 2) (r := |(m : ℝ) * 2 ^ k|) (by norm_num) hx
        exact_mod_cast this
      rw [abs_mul, abs_of_pos (zpow_pos (by norm_num : (0 : ℝ) < 2) k)] at h1
      have h2 : |(m : ℝ)| < 2 ^ p := by exact_mod_cast hm
      have h3 : (2 : ℝ) ^ L < 2 ^ ((p : ℤ) + k) := by
        rw [zpow_add₀ (by norm_num), zpow_natCast]
        exact h1.trans_lt (mul_lt_mul_of_pos_right h2 (zpow_pos (by norm_num) k))
      have h4 : L < p + k := (zpow_lt_zpow_iff_right₀ (by norm_num : (1 : ℝ) < 2)).1 h3
      omega
  obtain ⟨z, hz⟩ := key
  have hpos : (2 : ℝ) ^ (L - p + 1) ≠ 0 := zpow_ne_zero _ (by norm_num)
  show (round ((m : ℝ) * 2 ^ k / 2 ^ (L - p + 1)) : ℝ) * 2 ^ (L - p + 1) = _
  rw [hz, mul_div_assoc, div_self hpos, mul_one, round_intCast]

section Far
variable {p e : ℕ}

/-- an integer as a scalar -/
private def J (p : ℕ) (m : ℤ) : Fl (binary p) := ⟨m⟩

private theorem rnd_int (m n : ℤ) (k : ℕ) (h : m = n * 2 ^ k) (hn : |n| < 2 ^ p) :
    (binary p).rnd (m : ℝ) = m := by
  have := binary_exact p n k hn
  rw [h]
  push_cast
  rw [← zpow_natCast]
  exact this

private theorem J_mul (a b n : ℤ) (k : ℕ) (h : a * b = n * 2 ^ k) (hn : |n| < 2 ^ p) : J p a * J p b = J p (a * b) := by
  have := rnd_int (a * b) n k h hn
  show (⟨(binary p).rnd ((a : ℝ) * b)⟩ : Fl (binary p)) = ⟨((a * b : ℤ) : ℝ)⟩
  rw [← this]; push_cast; rfl

private theorem J_add (m n : ℤ) (h : |m + n| < 2 ^ p) : J p (m * 2 ^ e) + J p (n * 2 ^ e) = J p ((m + n) * 2 ^ e) := by
  have := rnd_int ((m + n) * 2 ^ e) (m + n) e rfl h
  show (⟨(binary p).rnd (((m * 2 ^ e : ℤ) : ℝ) + ((n * 2 ^ e : ℤ) : ℝ))⟩ : Fl (binary p)) = ⟨(((m + n) * 2 ^ e : ℤ) : ℝ)⟩
  rw [← this]; congr 2; push_cast; ring

private theorem J_sub (m n : ℤ) (h : |m - n| < 2 ^ p) : J p (m * 2 ^ e) - J p (n * 2 ^ e) = J p ((m - n) * 2 ^ e) := by
  have := rnd_int ((m - n) * 2 ^ e) (m - n) e rfl h
  show (⟨(binary p).rnd (((m * 2 ^ e : ℤ) : ℝ) - ((n * 2 ^ e : ℤ) : ℝ))⟩ : Fl (binary p)) = ⟨(((m - n) * 2 ^ e : ℤ) : ℝ)⟩
  rw [← this]; congr 2; push_cast; ring

/-- the cube of `2^e + 1` loses its last digit -/
private theorem rnd_cube (h1 : 2 * e + 4 ≤ p) (h2 : p + 1 ≤ 3 * e) :
    (binary p).rnd (((2 : ℝ) ^ e + 1) ^ 3) = (2 ^ e + 1) ^ 3 - 1 := by
  have he : 5 ≤ e := by omega
  have hD : (32 : ℝ) ≤ 2 ^ e := by
    calc (32 : ℝ) = 2 ^ 5 := by norm_num
      _ ≤ 2 ^ e := pow_le_pow_right₀ (by norm_num) he
  have hlog : Int.log 2 |((2 : ℝ) ^ e + 1) ^ 3| = (3 * e : ℕ) := by
    rw [abs_of_pos (by positivity)]
    refine le_antisymm (Int.lt_add_one_iff.1 ((Int.lt_zpow_iff_log_lt (by norm_num) (by positivity)).1 ?_))
      ((Int.zpow_le_iff_le_log (by norm_num) (by positivity)).1 ?_)
    · have : (((2 : ℕ) : ℝ)) ^ (((3 * e : ℕ) : ℤ) + 1) = 2 * (2 ^ e) ^ 3 := by
        rw [zpow_add₀ (by norm_num), zpow_natCast, zpow_one, ← pow_mul, mul_comm e 3]; push_cast; ring
      rw [this]
      nlinarith [mul_le_mul hD hD (by norm_num) (by positivity)]
    · have : (((2 : ℕ) : ℝ)) ^ (((3 * e : ℕ) : ℤ)) = (2 ^ e) ^ 3 := by
        rw [zpow_natCast, ← pow_mul, mul_comm e 3]; push_cast; ring
      rw [this]
      exact pow_le_pow_left₀ (by positivity) (by linarith) 3
  obtain ⟨j, hj⟩ : ∃ j : ℕ, 3 * e = p + 1 + j := ⟨3 * e - (p + 1), by omega⟩
  have hexp : ((3 * e : ℕ) : ℤ) - p + 1 = ((j + 2 : ℕ) : ℤ) := by omega
  obtain ⟨c, hc⟩ : ∃ c : ℕ, e = (j + 2) + c := ⟨e - (j + 2), by omega⟩
  show (round (((2 : ℝ) ^ e + 1) ^ 3 / 2 ^ (Int.log 2 |((2 : ℝ) ^ e + 1) ^ 3| - p + 1)) : ℝ) * 2 ^ (Int.log 2 |((2 : ℝ) ^ e + 1) ^ 3| - p + 1) = _
  rw [hlog, hexp, zpow_natCast]
  have hpos : (0 : ℝ) < 2 ^ (j + 2) := by positivity
  have hq : ((2 : ℝ) ^ e + 1) ^ 3 / 2 ^ (j + 2) =
      ((2 ^ c * ((2 ^ e) ^ 2 + 3 * 2 ^ e + 3) : ℤ) : ℝ) + 1 / 2 ^ (j + 2) := by
    have : (2 : ℝ) ^ e = 2 ^ (j + 2) * 2 ^ c := by rw [← pow_add, ← hc]
    rw [div_eq_iff hpos.ne']
    push_cast
    rw [add_mul, one_div, inv_mul_cancel₀ hpos.ne']
    linear_combination (((2 : ℝ) ^ e) ^ 2 + 3 * 2 ^ e + 3) * this
  have hr : round (((2 : ℝ) ^ e + 1) ^ 3 / 2 ^ (j + 2)) = 2 ^ c * ((2 ^ e) ^ 2 + 3 * 2 ^ e + 3) := by
    rw [hq, round_intCast_add]
    have : round ((1 : ℝ) / 2 ^ (j + 2)) = 0 := by
      rw [round_eq_zero_iff]
      constructor
      · exact le_trans (b := 0) (by norm_num) (by positivity)
      · rw [div_lt_div_iff₀ hpos (by norm_num)]
        have : (1 : ℝ) ≤ 2 ^ j := one_le_pow₀ (by norm_num)
        rw [pow_add]; linarith
    rw [this, add_zero]
  rw [hr]
  have : (2 : ℝ) ^ e = 2 ^ (j + 2) * 2 ^ c := by rw [← pow_add, ← hc]
  push_cast
  linear_combination (-((2 : ℝ) ^ e) ^ 2 - 3 * 2 ^ e - 3) * this

/-- **C86 fails** for small tetrahedra far from the origin.  Take coordinates with `p` significant
binary digits and `2e + 4 ≤ p < 3e`, so `p = 53` and `e = 18` for `double`.  The tetrahedron with the
corner `(2^e, 2^e, 2^e)` and unit edges along the axes has determinant `-1`, so volume `1/6`.  The four
corners are exactly representable and the computed determinant, and with it the volume, is `0`. -/
theorem C86_tetrahedron_fails (h1 : 2 * e + 4 ≤ p) (h2 : p + 1 ≤ 3 * e) :
    ∃ p0 p1 p2 p3 : Vec 3 (Fl (binary p)),
      (∀ i, (binary p).rnd (p0 i).val = (p0 i).val) ∧ (∀ i, (binary p).rnd (p1 i).val = (p1 i).val) ∧
      (∀ i, (binary p).rnd (p2 i).val = (p2 i).val) ∧ (∀ i, (binary p).rnd (p3 i).val = (p3 i).val) ∧
      (vals p0 = fun _ => (2 : ℝ) ^ e) ∧
      vals p1 - vals p0 = ![1, 0, 0] ∧ vals p2 - vals p0 = ![0, 1, 0] ∧ vals p3 - vals p0 = ![0, 0, 1] ∧
      tetVolume (vals p0) (vals p1) (vals p2) (vals p3) = 1 / 6 ∧
      (tetDet p0 p1 p2 p3).val = 0 := by
  have he : 5 ≤ e := by omega
  have hD : (32 : ℤ) ≤ 2 ^ e := by
    calc (32 : ℤ) = 2 ^ 5 := by norm_num
      _ ≤ 2 ^ e := pow_le_pow_right₀ (by norm_num) he
  have hP : 16 * ((2 : ℤ) ^ e * 2 ^ e) ≤ 2 ^ p := by
    calc 16 * ((2 : ℤ) ^ e * 2 ^ e) = 2 ^ (2 * e + 4) := by rw [pow_add, two_mul, pow_add]; ring
      _ ≤ 2 ^ p := pow_le_pow_right₀ (by norm_num) h1
  have hDD : 32 * (2 : ℤ) ^ e ≤ 2 ^ e * 2 ^ e := mul_le_mul_of_nonneg_right hD (by positivity)
  have r0 : (binary p).rnd ((2 : ℝ) ^ e) = 2 ^ e := by
    have := rnd_int (p := p) (2 ^ e) 1 e (by ring) (by rw [abs_one]; exact one_lt_pow₀ (by norm_num) (by omega))
    push_cast at this; exact this
  have r1 : (binary p).rnd ((2 : ℝ) ^ e + 1) = 2 ^ e + 1 := by
    have := rnd_int (p := p) (2 ^ e + 1) (2 ^ e + 1) 0 (by ring) (by rw [abs_of_pos (by positivity)]; linarith)
    push_cast at this; exact this
  have hb : ∀ m : ℤ, |m| < 16 * ((2 : ℤ) ^ e * 2 ^ e) → |m| < 2 ^ p := fun m hm => hm.trans_le hP
  generalize hA : J p (2 ^ e) = A
  generalize hB : J p (2 ^ e + 1) = B
  have vA : A.val = 2 ^ e := by rw [← hA]; simp [J]
  have vB : B.val = 2 ^ e + 1 := by rw [← hB]; simp [J]
  -- products of two and three coordinates
  have aa : A * A = J p (2 ^ e * 2 ^ e) := by
    rw [← hA]; exact J_mul _ _ (2 ^ e) e rfl (hb _ (by rw [abs_of_pos (by positivity)]; nlinarith))
  have ab : A * B = J p (2 ^ e * (2 ^ e + 1)) := by
    rw [← hA, ← hB]; exact J_mul _ _ (2 ^ e + 1) e (by ring) (hb _ (by rw [abs_of_pos (by positivity)]; nlinarith))
  have ba : B * A = J p (2 ^ e * (2 ^ e + 1)) := by rw [Fl.mul_comm, ab]
  have bb : B * B = J p ((2 ^ e + 1) * (2 ^ e + 1)) := by
    rw [← hB]; exact J_mul _ _ ((2 ^ e + 1) * (2 ^ e + 1)) 0 (by ring) (hb _ (by rw [abs_of_pos (by positivity)]; nlinarith))
  have aaa : A * A * A = J p (2 ^ e * 2 ^ e * 2 ^ e) := by
    rw [aa, ← hA]; exact J_mul _ _ (2 ^ e * 2 ^ e) e (by ring) (hb _ (by rw [abs_of_pos (by positivity)]; nlinarith))
  have aab : A * A * B = J p (2 ^ e * (2 ^ e + 1) * 2 ^ e) := by
    rw [aa, ← hB, J_mul _ _ (2 ^ e * (2 ^ e + 1)) e (by ring) (hb _ (by rw [abs_of_pos (by positivity)]; nlinarith))]
    congr 1; ring
  have aba : A * B * A = J p (2 ^ e * (2 ^ e + 1) * 2 ^ e) := by
    rw [ab, ← hA, J_mul _ _ (2 ^ e * (2 ^ e + 1)) e (by ring) (hb _ (by rw [abs_of_pos (by positivity)]; nlinarith))]
  have baa : B * A * A = J p (2 ^ e * (2 ^ e + 1) * 2 ^ e) := by rw [ba, ← ab, aba]
  have abb : A * B * B = J p ((2 ^ e + 1) * (2 ^ e + 1) * 2 ^ e) := by
    rw [ab, ← hB, J_mul _ _ ((2 ^ e + 1) * (2 ^ e + 1)) e (by ring) (hb _ (by rw [abs_of_pos (by positivity)]; nlinarith))]
    congr 1; ring
  have bab : B * A * B = J p ((2 ^ e + 1) * (2 ^ e + 1) * 2 ^ e) := by rw [ba, ← ab, abb]
  have bba : B * B * A = J p ((2 ^ e + 1) * (2 ^ e + 1) * 2 ^ e) := by
    rw [bb, ← hA, J_mul _ _ ((2 ^ e + 1) * (2 ^ e + 1)) e (by ring) (hb _ (by rw [abs_of_pos (by positivity)]; nlinarith))]
  have bbb : B * B * B = J p ((2 ^ e * 2 ^ e + 3 * 2 ^ e + 3) * 2 ^ e) := by
    rw [bb]
    apply Fl.ext
    have := rnd_cube h1 h2
    rw [Fl.val_mul, vB]
    simp only [J]
    push_cast
    rw [show ((2 : ℝ) ^ e + 1) * (2 ^ e + 1) * (2 ^ e + 1) = (2 ^ e + 1) ^ 3 by ring, this]
    ring
  refine ⟨![A, A, A], ![B, A, A], ![A, B, A], ![A, A, B], ?_, ?_, ?_, ?_, ?_, ?_, ?_, ?_, ?_, ?_⟩
  · intro i; fin_cases i <;> simp [vA, vB, r0, r1]
  · intro i; fin_cases i <;> simp [vA, vB, r0, r1]
  · intro i; fin_cases i <;> simp [vA, vB, r0, r1]
  · intro i; fin_cases i <;> simp [vA, vB, r0, r1]
  · funext i; fin_cases i <;> simp [vals, vA]
  · funext i; fin_cases i <;> simp [vals, vA, vB]
  · funext i; fin_cases i <;> simp [vals, vA, vB]
  · funext i; fin_cases i <;> simp [vals, vA, vB]
  · have : tetDet (vals ![A, A, A]) (vals ![B, A, A]) (vals ![A, B, A]) (vals ![A, A, B]) = -1 := by
      simp [tetDet, vals, vA, vB]; ring
    rw [tetVolume, this]; norm_num
  · have : tetDet ![A, A, A] ![B, A, A] ![A, B, A] ![A, A, B] = J p (0 * 2 ^ e) := by
      simp only [tetDet, Matrix.cons_val, aaa, aab, aba, baa, abb, bab, bba, bbb]
      have hs : ∀ m n : ℤ, |m - n| < 16 * ((2 : ℤ) ^ e * 2 ^ e) → J p (m * 2 ^ e) - J p (n * 2 ^ e) = J p ((m - n) * 2 ^ e) :=
        fun m n h => J_sub m n (hb _ h)
      have ha : ∀ m n : ℤ, |m + n| < 16 * ((2 : ℤ) ^ e * 2 ^ e) → J p (m * 2 ^ e) + J p (n * 2 ^ e) = J p ((m + n) * 2 ^ e) :=
        fun m n h => J_add m n (hb _ h)
      generalize (2 : ℤ) ^ e = D at *
      repeat first | rw [ha] | rw [hs]
      · congr 1; ring
      all_goals rw [abs_lt]; constructor <;> nlinarith
    rw [this]
    simp [J]

/-- in `double`: a unit tetrahedron about `2.6e5` away from the origin -/
example : ∃ p0 p1 p2 p3 : Vec 3 (Fl (binary 53)),
    tetVolume (vals p0) (vals p1) (vals p2) (vals p3) = 1 / 6 ∧ (tetDet p0 p1 p2 p3).val = 0 := by
  obtain ⟨p0, p1, p2, p3, -, -, -, -, -, -, -, -, h, h'⟩ := C86_tetrahedron_fails (p := 53) (e := 18) (by norm_num) (by norm_num)
  exact ⟨p0, p1, p2, p3, h, h'⟩

/-- the square of `2^e + 1` loses its last digit -/
private theorem rnd_square (h1 : e + 1 ≤ p) (h2 : p + 1 ≤ 2 * e) :
    (binary p).rnd (((2 : ℝ) ^ e + 1) ^ 2) = (2 ^ e + 1) ^ 2 - 1 := by
  have he : 2 ≤ e := by omega
  have hD : (4 : ℝ) ≤ 2 ^ e := by
    calc (4 : ℝ) = 2 ^ 2 := by norm_num
      _ ≤ 2 ^ e := pow_le_pow_right₀ (by norm_num) he
  have hlog : Int.log 2 |((2 : ℝ) ^ e + 1) ^ 2| = (2 * e : ℕ) := by
    rw [abs_of_pos (by positivity)]
    refine le_antisymm (Int.lt_add_one_iff.1 ((Int.lt_zpow_iff_log_lt (by norm_num) (by positivity)).1 ?_))
      ((Int.zpow_le_iff_le_log (by norm_num) (by positivity)).1 ?_)
    · have : (((2 : ℕ) : ℝ)) ^ (((2 * e : ℕ) : ℤ) + 1) = 2 * (2 ^ e) ^ 2 := by
        rw [zpow_add₀ (by norm_num), zpow_natCast, zpow_one, ← pow_mul, mul_comm e 2]; push_cast; ring
      rw [this]
      nlinarith
    · have : (((2 : ℕ) : ℝ)) ^ (((2 * e : ℕ) : ℤ)) = (2 ^ e) ^ 2 := by
        rw [zpow_natCast, ← pow_mul, mul_comm e 2]; push_cast; ring
      rw [this]
      exact pow_le_pow_left₀ (by positivity) (by linarith) 2
  obtain ⟨j, hj⟩ : ∃ j : ℕ, 2 * e = p + 1 + j := ⟨2 * e - (p + 1), by omega⟩
  have hexp : ((2 * e : ℕ) : ℤ) - p + 1 = ((j + 2 : ℕ) : ℤ) := by omega
  obtain ⟨c, hc⟩ : ∃ c : ℕ, e = (j + 2) + c := ⟨e - (j + 2), by omega⟩
  show (round (((2 : ℝ) ^ e + 1) ^ 2 / 2 ^ (Int.log 2 |((2 : ℝ) ^ e + 1) ^ 2| - p + 1)) : ℝ) * 2 ^ (Int.log 2 |((2 : ℝ) ^ e + 1) ^ 2| - p + 1) = _
  rw [hlog, hexp, zpow_natCast]
  have hpos : (0 : ℝ) < 2 ^ (j + 2) := by positivity
  have hq : ((2 : ℝ) ^ e + 1) ^ 2 / 2 ^ (j + 2) =
      ((2 ^ c * (2 ^ e + 2) : ℤ) : ℝ) + 1 / 2 ^ (j + 2) := by
    have : (2 : ℝ) ^ e = 2 ^ (j + 2) * 2 ^ c := by rw [← pow_add, ← hc]
    rw [div_eq_iff hpos.ne']
    push_cast
    rw [add_mul, one_div, inv_mul_cancel₀ hpos.ne']
    linear_combination ((2 : ℝ) ^ e + 2) * this
  have hr : round (((2 : ℝ) ^ e + 1) ^ 2 / 2 ^ (j + 2)) = 2 ^ c * (2 ^ e + 2) := by
    rw [hq, round_intCast_add]
    have : round ((1 : ℝ) / 2 ^ (j + 2)) = 0 := by
      rw [round_eq_zero_iff]
      constructor
      · exact le_trans (b := 0) (by norm_num) (by positivity)
      · rw [div_lt_div_iff₀ hpos (by norm_num)]
        have : (1 : ℝ) ≤ 2 ^ j := one_le_pow₀ (by norm_num)
        rw [pow_add]; linarith
    rw [this, add_zero]
  rw [hr]
  have : (2 : ℝ) ^ e = 2 ^ (j + 2) * 2 ^ c := by rw [← pow_add, ← hc]
  push_cast
  linear_combination (-(2 : ℝ) ^ e - 2) * this

/-- **C86 fails** for small polygons far from the origin.  Take coordinates with `p` significant binary
digits and `p < 2e`, `e + 3 ≤ p`: `e = 27` for `double`, `e = 13` (coordinates about 8192) for `float`.
The unit square with the corner `(2^e, 2^e)` is exactly representable, and its computed area is `0`,
not `1`. -/
theorem C86_polygon_fails (h1 : e + 3 ≤ p) (h2 : p + 1 ≤ 2 * e) :
    ∃ p0 p1 p2 p3 : Vec 2 (Fl (binary p)),
      (∀ q ∈ [p0, p1, p2, p3], ∀ i, (binary p).rnd (q i).val = (q i).val) ∧
      (vals p0 = fun _ => (2 : ℝ) ^ e) ∧
      vals p1 - vals p0 = ![1, 0] ∧ vals p2 - vals p0 = ![1, 1] ∧ vals p3 - vals p0 = ![0, 1] ∧
      areaPack (vals p0) [vals p1, vals p2, vals p3] = 1 ∧
      (areaRec 0 (p0 :: ([p1, p2, p3] ++ [p0]))).val = 0 := by
  have he : 4 ≤ e := by omega
  have hD : (16 : ℤ) ≤ 2 ^ e := by
    calc (16 : ℤ) = 2 ^ 4 := by norm_num
      _ ≤ 2 ^ e := pow_le_pow_right₀ (by norm_num) he
  have hP : 8 * (2 : ℤ) ^ e ≤ 2 ^ p := by
    calc 8 * (2 : ℤ) ^ e = 2 ^ (e + 3) := by rw [pow_add]; ring
      _ ≤ 2 ^ p := pow_le_pow_right₀ (by norm_num) h1
  have r0 : (binary p).rnd ((2 : ℝ) ^ e) = 2 ^ e := by
    have := rnd_int (p := p) (2 ^ e) 1 e (by ring) (by rw [abs_one]; exact one_lt_pow₀ (by norm_num) (by omega))
    push_cast at this; exact this
  have r1 : (binary p).rnd ((2 : ℝ) ^ e + 1) = 2 ^ e + 1 := by
    have := rnd_int (p := p) (2 ^ e + 1) (2 ^ e + 1) 0 (by ring) (by rw [abs_of_pos (by positivity)]; linarith)
    push_cast at this; exact this
  have hb : ∀ m : ℤ, |m| < 8 * (2 : ℤ) ^ e → |m| < 2 ^ p := fun m hm => hm.trans_le hP
  generalize hA : J p (2 ^ e) = A
  generalize hB : J p (2 ^ e + 1) = B
  have vA : A.val = 2 ^ e := by rw [← hA]; simp [J]
  have vB : B.val = 2 ^ e + 1 := by rw [← hB]; simp [J]
  have aa : A * A = J p (2 ^ e * 2 ^ e) := by
    rw [← hA]; exact J_mul _ _ (2 ^ e) e rfl (hb _ (by rw [abs_of_pos (by positivity)]; linarith))
  have ab : A * B = J p ((2 ^ e + 1) * 2 ^ e) := by
    rw [← hA, ← hB, J_mul _ _ (2 ^ e + 1) e (by ring) (hb _ (by rw [abs_of_pos (by positivity)]; linarith))]
    congr 1; ring
  have ba : B * A = J p ((2 ^ e + 1) * 2 ^ e) := by rw [Fl.mul_comm, ab]
  have bb : B * B = J p ((2 ^ e + 2) * 2 ^ e) := by
    apply Fl.ext
    have := rnd_square (by omega) h2
    rw [Fl.val_mul, vB]
    simp only [J]
    push_cast
    rw [show ((2 : ℝ) ^ e + 1) * (2 ^ e + 1) = (2 ^ e + 1) ^ 2 by ring, this]
    ring
  refine ⟨![A, A], ![B, A], ![B, B], ![A, B], ?_, ?_, ?_, ?_, ?_, ?_, ?_⟩
  · intro q hq i
    simp only [List.mem_cons, List.not_mem_nil, or_false] at hq
    rcases hq with rfl | rfl | rfl | rfl <;> fin_cases i <;> simp [vA, vB, r0, r1]
  · funext i; fin_cases i <;> simp [vals, vA]
  · funext i; fin_cases i <;> simp [vals, vA, vB]
  · funext i; fin_cases i <;> simp [vals, vA, vB]
  · funext i; fin_cases i <;> simp [vals, vA, vB]
  · simp only [areaPack, areaRec, List.cons_append, List.nil_append, vals, Matrix.cons_val, vA, vB]
    rw [show ((0 : ℝ) + (2 ^ e * 2 ^ e - (2 ^ e + 1) * 2 ^ e) + ((2 ^ e + 1) * (2 ^ e + 1) - (2 ^ e + 1) * 2 ^ e) +
      ((2 ^ e + 1) * (2 ^ e + 1) - 2 ^ e * (2 ^ e + 1)) + (2 ^ e * 2 ^ e - 2 ^ e * (2 ^ e + 1))) / 2 = 1 by ring]
    exact abs_one
  · have h0 : (0 : Fl (binary p)) = J p (0 * 2 ^ e) := by apply Fl.ext; simp [J, Fl.val_zero]
    have : areaRec 0 (![A, A] :: ([![B, A], ![B, B], ![A, B]] ++ [![A, A]])) = J p (0 * 2 ^ e) := by
      simp only [areaRec, List.cons_append, List.nil_append, Matrix.cons_val, aa, ab, ba, bb]
      rw [h0]
      have hs : ∀ m n : ℤ, |m - n| < 8 * (2 : ℤ) ^ e → J p (m * 2 ^ e) - J p (n * 2 ^ e) = J p ((m - n) * 2 ^ e) :=
        fun m n h => J_sub m n (hb _ h)
      have ha : ∀ m n : ℤ, |m + n| < 8 * (2 : ℤ) ^ e → J p (m * 2 ^ e) + J p (n * 2 ^ e) = J p ((m + n) * 2 ^ e) :=
        fun m n h => J_add m n (hb _ h)
      generalize (2 : ℤ) ^ e = D at *
      repeat first | rw [ha] | rw [hs]
      · congr 1; ring
      all_goals rw [abs_lt]; constructor <;> linarith
    rw [this]
    simp [J]

/-- in `float`: a unit square about `8192` away from the origin -/
example : ∃ p0 p1 p2 p3 : Vec 2 (Fl (binary 24)),
    areaPack (vals p0) [vals p1, vals p2, vals p3] = 1 ∧ (areaRec 0 (p0 :: ([p1, p2, p3] ++ [p0]))).val = 0 := by
  obtain ⟨p0, p1, p2, p3, -, -, -, -, -, h, h'⟩ := C86_polygon_fails (p := 24) (e := 13) (by norm_num) (by norm_num)
  exact ⟨p0, p1, p2, p3, h, h'⟩

/-- `C86_average`: three numbers in `double` -/
example (a b c : Fl (binary 53)) : ∃ r, averageContainer [a, b, c] = .ok r ∧
    |r.val - (a.val + (b.val + c.val)) / 3| ≤ ((1 + (binary 53).u) ^ 4 - 1) * ((|a.val| + (|b.val| + |c.val|)) / 3) := by
  obtain ⟨r, h, h'⟩ := C86_average [a, b, c] (by simp) (by simpa using binary_exact 53 3 0 (by norm_num))
  exact ⟨r, h, by simpa using h'⟩

end Far

end Verif.Rounding
