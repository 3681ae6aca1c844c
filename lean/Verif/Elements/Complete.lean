import Verif.Elements.Shapes
import Mathlib.Algebra.MvPolynomial.Eval

/-! Sums of monomials of the nodes' coordinates, weighted by the shape functions. -/

namespace Verif.Elements

variable {R : Type} [Field R] [CharZero R]

/-- an exponent counts only if it is at least two -/
def sup (a : Nat) : Nat := if 2 ≤ a then a else 0

theorem sup_le {a n : Nat} (h : sup a ≤ n) (hn : 1 ≤ n) : a ≤ n := by unfold sup at h; split at h <;> omega

/-- after the exponents are known -/
macro "close_mono" h:ident : tactic => `(tactic| first
  | exact absurd $h (by decide)
  | ring1
  | (norm_num; ring1))

set_option maxHeartbeats 4000000 in
theorem mono_quad4 (tmp xi : Nat → R) (a b : Nat) (h : sup a + sup b ≤ 1) :
    ∑ v ∈ Finset.range 4, (quad4Ref v 0 ^ a * quad4Ref v 1 ^ b) * quad4Shape tmp xi v = xi 0 ^ a * xi 1 ^ b := by
  simp only [Finset.sum_range_succ, Finset.sum_range_zero, quad4Shape, fill_apply]
  simp [steps, List.range', row, quad4Ref]
  have ha := sup_le (a := a) (n := 1) (by omega) (by omega)
  have hb := sup_le (a := b) (n := 1) (by omega) (by omega)
  interval_cases a <;> interval_cases b <;> close_mono h

set_option maxHeartbeats 4000000 in
theorem mono_quad8 (tmp xi : Nat → R) (a b : Nat) (h : sup a + sup b ≤ 2) :
    ∑ v ∈ Finset.range 8, (quad8Ref v 0 ^ a * quad8Ref v 1 ^ b) * quad8Shape tmp xi v = xi 0 ^ a * xi 1 ^ b := by
  simp only [Finset.sum_range_succ, Finset.sum_range_zero, quad8Shape, fill_apply]
  simp [steps, List.range', row, quad8Ref]
  have ha := sup_le (a := a) (n := 2) (by omega) (by omega)
  have hb := sup_le (a := b) (n := 2) (by omega) (by omega)
  interval_cases a <;> interval_cases b <;> close_mono h

set_option maxHeartbeats 4000000 in
theorem mono_quad12 (tmp xi : Nat → R) (a b : Nat) (h : sup a + sup b ≤ 3) :
    ∑ v ∈ Finset.range 12, (quad12Ref v 0 ^ a * quad12Ref v 1 ^ b) * quad12Shape tmp xi v = xi 0 ^ a * xi 1 ^ b := by
  simp only [Finset.sum_range_succ, Finset.sum_range_zero, quad12Shape, fill_apply]
  simp [steps, List.range', row, quad12Ref]
  have ha := sup_le (a := a) (n := 3) (by omega) (by omega)
  have hb := sup_le (a := b) (n := 3) (by omega) (by omega)
  interval_cases a <;> interval_cases b <;> close_mono h

set_option maxHeartbeats 4000000 in
theorem mono_hex8 (tmp xi : Nat → R) (a b c : Nat) (h : sup a + sup b + sup c ≤ 1) :
    ∑ v ∈ Finset.range 8, (hex8Ref v 0 ^ a * hex8Ref v 1 ^ b * hex8Ref v 2 ^ c) * hex8Shape tmp xi v =
      xi 0 ^ a * xi 1 ^ b * xi 2 ^ c := by
  simp only [Finset.sum_range_succ, Finset.sum_range_zero, hex8Shape, fill_apply]
  simp [steps, List.range', row, hex8Ref]
  have ha := sup_le (a := a) (n := 1) (by omega) (by omega)
  have hb := sup_le (a := b) (n := 1) (by omega) (by omega)
  have hc := sup_le (a := c) (n := 1) (by omega) (by omega)
  interval_cases a <;> interval_cases b <;> interval_cases c <;> close_mono h

set_option maxHeartbeats 8000000 in
theorem mono_hex20 (tmp xi : Nat → R) (a b c : Nat) (h : sup a + sup b + sup c ≤ 2) :
    ∑ v ∈ Finset.range 20, (hex20Ref v 0 ^ a * hex20Ref v 1 ^ b * hex20Ref v 2 ^ c) * hex20Shape tmp xi v =
      xi 0 ^ a * xi 1 ^ b * xi 2 ^ c := by
  simp only [Finset.sum_range_succ, Finset.sum_range_zero, hex20Shape, fill_apply]
  simp [steps, List.range', row, hex20Ref]
  have ha := sup_le (a := a) (n := 2) (by omega) (by omega)
  have hb := sup_le (a := b) (n := 2) (by omega) (by omega)
  have hc := sup_le (a := c) (n := 2) (by omega) (by omega)
  interval_cases a <;> interval_cases b <;> interval_cases c <;> close_mono h

set_option maxHeartbeats 16000000 in
theorem mono_hex32 (tmp xi : Nat → R) (a b c : Nat) (h : sup a + sup b + sup c ≤ 3) :
    ∑ v ∈ Finset.range 32, (hex32Ref v 0 ^ a * hex32Ref v 1 ^ b * hex32Ref v 2 ^ c) * hex32Shape tmp xi v =
      xi 0 ^ a * xi 1 ^ b * xi 2 ^ c := by
  simp only [Finset.sum_range_succ, Finset.sum_range_zero, hex32Shape, fill_apply]
  simp [steps, List.range', row, hex32Ref]
  have ha := sup_le (a := a) (n := 3) (by omega) (by omega)
  have hb := sup_le (a := b) (n := 3) (by omega) (by omega)
  have hc := sup_le (a := c) (n := 3) (by omega) (by omega)
  interval_cases a <;> interval_cases b <;> interval_cases c <;> close_mono h

end Verif.Elements
