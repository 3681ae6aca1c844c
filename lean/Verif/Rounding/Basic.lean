import Mathlib.Data.Real.Sqrt
import Mathlib.Data.Int.Log
import Mathlib.Algebra.BigOperators.Fin
import Mathlib.Algebra.Order.Round
import Mathlib.Tactic.Linarith
import Mathlib.Tactic.Ring
import Mathlib.Tactic.FieldSimp
import Mathlib.Tactic.Positivity
import Verif.Common.Loop

/-!
# Floating-point scalars

The functions of the library are templates over the scalar type.  The models of those used here
are generic as well, so that the same definition serves for exact scalars and for the scalars of
this file, whose operations round.  Rounding is any function with a relative error of at most `u`
(for `double` rounding to nearest, `u = 2^-53`).  Overflow and underflow are left out.
-/

namespace Verif.Rounding

/-- a way of rounding with relative error at most `u` -/
structure Rounding where
  u : ℝ
  rnd : ℝ → ℝ
  u_nonneg : 0 ≤ u
  err : ∀ x, |rnd x - x| ≤ u * |x|

/-- a scalar whose operations round by `R` -/
@[ext] structure Fl (R : Rounding) where
  val : ℝ

variable {R : Rounding}

namespace Fl

instance : Zero (Fl R) := ⟨⟨0⟩⟩
instance : One (Fl R) := ⟨⟨1⟩⟩
instance : Add (Fl R) := ⟨fun a b => ⟨R.rnd (a.val + b.val)⟩⟩
instance : Sub (Fl R) := ⟨fun a b => ⟨R.rnd (a.val - b.val)⟩⟩
instance : Mul (Fl R) := ⟨fun a b => ⟨R.rnd (a.val * b.val)⟩⟩
instance : Neg (Fl R) := ⟨fun a => ⟨-a.val⟩⟩
/-- division by zero, infinite or NaN in the code, has to be excluded by the statements -/
noncomputable instance : Div (Fl R) := ⟨fun a b => ⟨R.rnd (a.val / b.val)⟩⟩
/-- conversion of a count -/
instance : NatCast (Fl R) := ⟨fun n => ⟨R.rnd n⟩⟩
instance : OfNat (Fl R) 2 := ⟨⟨2⟩⟩

theorem val_zero : (0 : Fl R).val = 0 := rfl
theorem val_one : (1 : Fl R).val = 1 := rfl
theorem val_two : (2 : Fl R).val = 2 := rfl
theorem val_add (a b : Fl R) : (a + b).val = R.rnd (a.val + b.val) := rfl
theorem val_sub (a b : Fl R) : (a - b).val = R.rnd (a.val - b.val) := rfl
theorem val_mul (a b : Fl R) : (a * b).val = R.rnd (a.val * b.val) := rfl
theorem val_neg (a : Fl R) : (-a).val = -a.val := rfl
theorem val_div (a b : Fl R) : (a / b).val = R.rnd (a.val / b.val) := rfl
theorem val_natCast (n : ℕ) : (n : Fl R).val = R.rnd n := rfl

protected theorem add_comm (a b : Fl R) : a + b = b + a := by
  apply Fl.ext; rw [val_add, val_add, add_comm]

protected theorem mul_comm (a b : Fl R) : a * b = b * a := by
  apply Fl.ext; rw [val_mul, val_mul, mul_comm]

end Fl

/-- `x` is `y` up to `k` roundings, on the scale `S` -/
def Near (R : Rounding) (k : ℕ) (x y S : ℝ) : Prop := |x - y| ≤ ((1 + R.u) ^ k - 1) * S ∧ |y| ≤ S

theorem one_le_pow (R : Rounding) (k : ℕ) : 1 ≤ (1 + R.u) ^ k := one_le_pow₀ (by linarith [R.u_nonneg])

theorem Near.exact (R : Rounding) (x : ℝ) : Near R 0 x x |x| := ⟨by simp, le_refl _⟩

theorem Near.scale_nonneg {k : ℕ} {x y S : ℝ} (h : Near R k x y S) : 0 ≤ S := le_trans (abs_nonneg y) h.2

theorem Near.mono {k l : ℕ} {x y S T : ℝ} (h : Near R k x y S) (hk : k ≤ l) (hS : S ≤ T) : Near R l x y T := by
  refine ⟨h.1.trans ?_, h.2.trans hS⟩
  have h1 := one_le_pow R k
  have h2 : (1 + R.u) ^ k ≤ (1 + R.u) ^ l := pow_le_pow_right₀ (by linarith [R.u_nonneg]) hk
  have := h.scale_nonneg
  nlinarith

theorem Near.rnd {k : ℕ} {x y S : ℝ} (h : Near R k x y S) : Near R (k + 1) (R.rnd x) y S := by
  refine ⟨?_, h.2⟩
  have h1 := R.err x
  have h2 : |x| ≤ (1 + R.u) ^ k * S := by
    have : |x| ≤ |x - y| + |y| := by
      have := abs_add_le (x - y) y
      simpa using this
    linarith [h.1, h.2]
  have h3 : |R.rnd x - y| ≤ |R.rnd x - x| + |x - y| := abs_sub_le _ _ _
  have h4 : R.u * |x| ≤ R.u * ((1 + R.u) ^ k * S) := mul_le_mul_of_nonneg_left h2 R.u_nonneg
  calc |R.rnd x - y| ≤ R.u * ((1 + R.u) ^ k * S) + ((1 + R.u) ^ k - 1) * S := by linarith [h.1]
    _ = ((1 + R.u) ^ (k + 1) - 1) * S := by ring

theorem Near.neg {k : ℕ} {x y S : ℝ} (h : Near R k x y S) : Near R k (-x) (-y) S := by
  refine ⟨?_, by rw [abs_neg]; exact h.2⟩
  have : -x - -y = -(x - y) := by ring
  rw [this, abs_neg]
  exact h.1

theorem Near.add' {k l : ℕ} {a a' A b b' B : ℝ} (h : Near R k a a' A) (h' : Near R l b b' B) :
    Near R (max k l) (a + b) (a' + b') (A + B) := by
  have h1 := h.mono (le_max_left k l) (le_refl A)
  have h2 := h'.mono (le_max_right k l) (le_refl B)
  refine ⟨?_, (abs_add_le _ _).trans (add_le_add h.2 h'.2)⟩
  have e : a + b - (a' + b') = (a - a') + (b - b') := by ring
  rw [e]
  refine (abs_add_le _ _).trans ?_
  rw [mul_add]
  exact add_le_add h1.1 h2.1

theorem Near.mul' {k l : ℕ} {a a' A b b' B : ℝ} (h : Near R k a a' A) (h' : Near R l b b' B) :
    Near R (k + l) (a * b) (a' * b') (A * B) := by
  refine ⟨?_, by rw [abs_mul]; exact mul_le_mul h.2 h'.2 (abs_nonneg _) h.scale_nonneg⟩
  have hA := h.scale_nonneg
  have hB := h'.scale_nonneg
  have e1 : 0 ≤ (1 + R.u) ^ k - 1 := by linarith [one_le_pow R k]
  have e2 : 0 ≤ (1 + R.u) ^ l - 1 := by linarith [one_le_pow R l]
  have e : a * b - a' * b' = (a - a') * (b - b') + a' * (b - b') + (a - a') * b' := by ring
  have t1 : |(a - a') * (b - b')| ≤ (((1 + R.u) ^ k - 1) * A) * (((1 + R.u) ^ l - 1) * B) := by
    rw [abs_mul]; exact mul_le_mul h.1 h'.1 (abs_nonneg _) (mul_nonneg e1 hA)
  have t2 : |a' * (b - b')| ≤ A * (((1 + R.u) ^ l - 1) * B) := by
    rw [abs_mul]; exact mul_le_mul h.2 h'.1 (abs_nonneg _) hA
  have t3 : |(a - a') * b'| ≤ (((1 + R.u) ^ k - 1) * A) * B := by
    rw [abs_mul]; exact mul_le_mul h.1 h'.2 (abs_nonneg _) (mul_nonneg e1 hA)
  rw [e]
  calc _ ≤ |(a - a') * (b - b') + a' * (b - b')| + |(a - a') * b'| := abs_add_le _ _
    _ ≤ |(a - a') * (b - b')| + |a' * (b - b')| + |(a - a') * b'| := by gcongr; exact abs_add_le _ _
    _ ≤ _ := add_le_add (add_le_add t1 t2) t3
    _ = ((1 + R.u) ^ (k + l) - 1) * (A * B) := by rw [pow_add]; ring

theorem Near.div' {k : ℕ} {a a' A : ℝ} (h : Near R k a a' A) (c : ℝ) : Near R k (a / c) (a' / c) (A / |c|) := by
  refine ⟨?_, by rw [abs_div]; exact div_le_div_of_nonneg_right h.2 (abs_nonneg c)⟩
  rw [← sub_div, abs_div, ← mul_div_assoc]
  exact div_le_div_of_nonneg_right h.1 (abs_nonneg c)

theorem Near.sqrt {k : ℕ} {x y : ℝ} (h : Near R k x y y) : Near R k (Real.sqrt x) (Real.sqrt y) (Real.sqrt y) := by
  have hy : 0 ≤ y := h.scale_nonneg
  refine ⟨?_, by rw [abs_of_nonneg (Real.sqrt_nonneg y)]⟩
  have e1 : 0 ≤ (1 + R.u) ^ k - 1 := by linarith [one_le_pow R k]
  by_cases hy0 : y = 0
  · subst hy0
    have := h.1
    simp only [sub_zero, mul_zero] at this
    have : x = 0 := abs_eq_zero.1 (le_antisymm this (abs_nonneg x))
    simp [this]
  · have hs : 0 < Real.sqrt y := Real.sqrt_pos.2 (lt_of_le_of_ne hy (Ne.symm hy0))
    have key : |Real.sqrt x - Real.sqrt y| * Real.sqrt y ≤ |x - y| := by
      by_cases hx : 0 ≤ x
      · have e : x - y = (Real.sqrt x - Real.sqrt y) * (Real.sqrt x + Real.sqrt y) := by
          have a := Real.mul_self_sqrt hx
          have b := Real.mul_self_sqrt hy
          nlinarith
        rw [e, abs_mul, abs_of_nonneg (by positivity : 0 ≤ Real.sqrt x + Real.sqrt y)]
        exact mul_le_mul_of_nonneg_left (by linarith [Real.sqrt_nonneg x]) (abs_nonneg _)
      · push Not at hx
        rw [Real.sqrt_eq_zero_of_nonpos hx.le, zero_sub, abs_neg, abs_of_pos hs, Real.mul_self_sqrt hy,
          abs_of_nonpos (by linarith)]
        linarith
    have : |Real.sqrt x - Real.sqrt y| * Real.sqrt y ≤ (((1 + R.u) ^ k - 1) * Real.sqrt y) * Real.sqrt y := by
      calc _ ≤ |x - y| := key
        _ ≤ ((1 + R.u) ^ k - 1) * y := h.1
        _ = _ := by rw [mul_assoc, Real.mul_self_sqrt hy]
    exact le_of_mul_le_mul_right this hs

/-! ## On scalars -/

theorem Near.add {k l : ℕ} {a b : Fl R} {a' A b' B : ℝ} (h : Near R k a.val a' A) (h' : Near R l b.val b' B) :
    Near R (max k l + 1) (a + b).val (a' + b') (A + B) := (h.add' h').rnd

theorem Near.sub {k l : ℕ} {a b : Fl R} {a' A b' B : ℝ} (h : Near R k a.val a' A) (h' : Near R l b.val b' B) :
    Near R (max k l + 1) (a - b).val (a' - b') (A + B) := by
  have := (h.add' h'.neg).rnd
  rwa [← sub_eq_add_neg, ← sub_eq_add_neg] at this

theorem Near.mul {k l : ℕ} {a b : Fl R} {a' A b' B : ℝ} (h : Near R k a.val a' A) (h' : Near R l b.val b' B) :
    Near R (k + l + 1) (a * b).val (a' * b') (A * B) := (h.mul' h').rnd

theorem Near.divConst {k : ℕ} {a c : Fl R} {a' A : ℝ} (h : Near R k a.val a' A) :
    Near R (k + 1) (a / c).val (a' / c.val) (A / |c.val|) := (h.div' c.val).rnd

theorem Near.val (a : Fl R) : Near R 0 a.val a.val |a.val| := Near.exact R a.val

/-- a loop adding up -/
theorem Near.sum {n k l : ℕ} (f : Fin n → Fl R) (f' F : Fin n → ℝ) (h : ∀ i, Near R k (f i).val (f' i) (F i))
    (s : Fl R) (s' S : ℝ) (hs : Near R l s.val s' S) :
    Near R (max k l + n) (forLoop n (fun i s => s + f i) s).val (s' + ∑ i, f' i) (S + ∑ i, F i) := by
  induction n with
  | zero => simpa using hs.mono (le_max_right k l) (le_refl S)
  | succ n ih =>
    rw [forLoop_succ]
    have := (ih (fun i => f i.castSucc) (fun i => f' i.castSucc) (fun i => F i.castSucc) fun i => h i.castSucc).add
      (h (Fin.last n))
    rw [Fin.sum_univ_castSucc, Fin.sum_univ_castSucc, ← add_assoc s']
    exact this.mono (by omega) (le_of_eq (add_assoc _ _ _))

/-- the same for a range -/
theorem Near.sumList {k l : ℕ} (xs : List (Fl R)) (s : Fl R) (s' S : ℝ) (hs : Near R l s.val s' S) (h : k ≤ l) :
    Near R (l + xs.length) (xs.foldl (· + ·) s).val (s' + (xs.map Fl.val).sum) (S + (xs.map fun x => |x.val|).sum) := by
  induction xs generalizing s s' S l with
  | nil => simpa using hs
  | cons x xs ih =>
    have := ih (s + x) (s' + x.val) (S + |x.val|) ((hs.add (Near.val x)).mono (by simp) (le_refl _)) (by omega : k ≤ l + 1)
    simp only [List.foldl_cons, List.map_cons, List.sum_cons, List.length_cons]
    rw [← add_assoc s']
    exact this.mono (by omega) (le_of_eq (add_assoc _ _ _))

/-! ## Roundings -/

/-- no rounding -/
def exactRounding : Rounding := ⟨0, id, le_refl 0, fun x => by simp⟩

/-- rounding to `p` significant binary digits (ties upwards, no bound on the exponent) -/
noncomputable def binary (p : ℕ) : Rounding where
  u := (2 : ℝ) ^ (-(p : ℤ))
  rnd x := (round (x / 2 ^ (Int.log 2 |x| - p + 1)) : ℝ) * 2 ^ (Int.log 2 |x| - p + 1)
  u_nonneg := zpow_nonneg (by norm_num) _
  err x := by
    by_cases hx : x = 0
    · simp [hx]
    · have hpos : (0 : ℝ) < 2 ^ (Int.log 2 |x| - p + 1) := zpow_pos (by norm_num) _
      have h1 : |(round (x / 2 ^ (Int.log 2 |x| - p + 1)) : ℝ) * 2 ^ (Int.log 2 |x| - p + 1) - x|
          = |x / 2 ^ (Int.log 2 |x| - p + 1) - round (x / 2 ^ (Int.log 2 |x| - p + 1))| * 2 ^ (Int.log 2 |x| - p + 1) := by
        rw [← abs_of_pos hpos, ← abs_mul, abs_of_pos hpos, sub_mul, div_mul_cancel₀ _ hpos.ne', abs_sub_comm]
      have h2 := abs_sub_round (x / 2 ^ (Int.log 2 |x| - p + 1))
      have h3 : ((2 : ℕ) : ℝ) ^ Int.log 2 |x| ≤ |x| := Int.zpow_log_le_self (by norm_num) (abs_pos.2 hx)
      rw [h1]
      calc _ ≤ 1 / 2 * (2 : ℝ) ^ (Int.log 2 |x| - p + 1) := mul_le_mul_of_nonneg_right h2 hpos.le
        _ = 2 ^ (-(p : ℤ)) * 2 ^ Int.log 2 |x| := by
          rw [zpow_add₀ (by norm_num), zpow_sub₀ (by norm_num), zpow_neg]; field_simp
        _ ≤ _ := mul_le_mul_of_nonneg_left (by simpa using h3) (zpow_nonneg (by norm_num) _)

end Verif.Rounding
