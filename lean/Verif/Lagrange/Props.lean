import Verif.Lagrange.Tensor
import Mathlib.Analysis.Real.Pi.Bounds
import Mathlib.Analysis.Calculus.Deriv.Polynomial
import Mathlib.Analysis.Calculus.Deriv.Mul
import Mathlib.Analysis.SpecialFunctions.Trigonometric.Chebyshev.Basic
import Mathlib.Analysis.SpecialFunctions.Trigonometric.Bounds
import Mathlib.Tactic.NormNum
import Mathlib.Tactic.Linarith
import Mathlib.Tactic.Positivity

/-! # C64, C65: one-dimensional interpolation and Chebyshev nodes -/

namespace Verif.Lagrange

open Finset Polynomial

section
variable {R : Type} [Field R] [DecidableEq R]

/-- C64: for pairwise different nodes `lagrange_1D` succeeds and writes, for every node, the value
at the point of the Lagrange basis polynomial of that node (of degree `order`, one at its node,
zero at the others) and of its derivative; entries past the order are not touched -/
theorem C64_lagrange (interp dinterp xi : Nat → R) (x : R) (order : Nat)
    (h : ∀ a ≤ order, ∀ b ≤ order, xi a = xi b → a = b) :
    ∃ I D, lagrange1D interp dinterp x xi order = .ok (I, D) ∧
      (∀ i ≤ order, ∃ L : R[X], L.degree = order ∧ L.eval (xi i) = 1 ∧
        (∀ j ≤ order, j ≠ i → L.eval (xi j) = 0) ∧ I i = L.eval x ∧ D i = (derivative L).eval x) ∧
      ∀ i, order < i → I i = interp i ∧ D i = dinterp i := by
  have hd : Distinct xi order := fun a ha b hb => h a (by simpa [Nat.lt_succ_iff] using ha) b
    (by simpa [Nat.lt_succ_iff] using hb)
  refine ⟨_, _, lagrange1D_ok _ _ _ _ _ hd, fun i hi => ⟨Lagrange.basis (range (order + 1)) xi i, ?_, ?_, ?_, ?_, ?_⟩,
    fun i hi => ?_⟩
  · rw [Lagrange.degree_basis hd (by simpa [Nat.lt_succ_iff] using hi)]; simp
  · exact Lagrange.eval_basis_self hd (by simpa [Nat.lt_succ_iff] using hi)
  · intro j hj hne
    exact Lagrange.eval_basis_of_ne (Ne.symm hne) (by simpa [Nat.lt_succ_iff] using hj)
  · rw [if_pos hi, lagC_eq]
  · rw [if_pos hi, lagQ_eq]
  · simp [show ¬ i ≤ order by omega]

/-- the nodes -1, 0, 1, 2 -/
example (x : ℚ) : ∃ I D, lagrange1D (fun _ => 0) (fun _ => 0) x (fun i => (i : ℚ) - 1) 3 = .ok (I, D) := by
  obtain ⟨I, D, h, -⟩ := C64_lagrange (fun _ => 0) (fun _ => 0) (fun i => (i : ℚ) - 1) x 3 (fun a _ b _ h => by simpa using h)
  exact ⟨I, D, h⟩

/-- C64: every polynomial of degree at most the order, and its derivative, is reproduced exactly
from its values at the nodes -/
theorem C64_reproduces (interp dinterp xi : Nat → R) (x : R) (order : Nat)
    (h : ∀ a ≤ order, ∀ b ≤ order, xi a = xi b → a = b) (I D : Nat → R)
    (hr : lagrange1D interp dinterp x xi order = .ok (I, D)) (P : R[X]) (hP : P.natDegree ≤ order) :
    ∑ i ∈ range (order + 1), P.eval (xi i) * I i = P.eval x ∧
    ∑ i ∈ range (order + 1), P.eval (xi i) * D i = (derivative P).eval x := by
  have hd : Distinct xi order := fun a ha b hb => h a (by simpa [Nat.lt_succ_iff] using ha) b
    (by simpa [Nat.lt_succ_iff] using hb)
  rw [lagrange1D_ok _ _ _ _ _ hd] at hr
  have e := Outcome.ok.inj hr
  have e1 := congrArg Prod.fst e
  have e2 := congrArg Prod.snd e
  dsimp only at e1 e2
  have hdeg : P.degree < #(range (order + 1)) := by
    rw [card_range]
    exact lt_of_le_of_lt degree_le_natDegree (by exact_mod_cast Nat.lt_succ_iff.2 hP)
  have hint := Lagrange.eq_interpolate hd hdeg
  rw [Lagrange.interpolate_apply] at hint
  constructor
  · conv_rhs => rw [hint, eval_finsetSum]
    refine sum_congr rfl fun i hi => ?_
    rw [← e1]; dsimp only
    rw [if_pos (by simpa [Nat.lt_succ_iff] using hi), lagC_eq]; simp
  · conv_rhs => rw [hint, derivative_sum, eval_finsetSum]
    refine sum_congr rfl fun i hi => ?_
    rw [← e2]; dsimp only
    rw [if_pos (by simpa [Nat.lt_succ_iff] using hi), lagQ_eq]; simp

/-- a cubic, from its values at -1, 0, 1, 2 -/
example (x : ℚ) : ∃ I D : Nat → ℚ, lagrange1D (fun _ => 0) (fun _ => 0) x (fun i => (i : ℚ) - 1) 3 = .ok (I, D) ∧
    ∑ i ∈ range 4, ((i : ℚ) - 1) ^ 3 * I i = x ^ 3 ∧ ∑ i ∈ range 4, ((i : ℚ) - 1) ^ 3 * D i = 3 * x ^ 2 := by
  obtain ⟨I, D, h, -⟩ := C64_lagrange (fun _ => 0) (fun _ => 0) (fun i => (i : ℚ) - 1) x 3 (fun a _ b _ h => by simpa using h)
  have := C64_reproduces _ _ _ x 3 (fun a _ b _ h => by simpa using h) I D h (X ^ 3) (by simp)
  exact ⟨I, D, h, by simpa using this.1, by have := this.2; simp at this; rw [this]; norm_num⟩

/-- C64: the values sum to one and the derivatives to zero -/
theorem C64_unity (interp dinterp xi : Nat → R) (x : R) (order : Nat)
    (h : ∀ a ≤ order, ∀ b ≤ order, xi a = xi b → a = b) (I D : Nat → R)
    (hr : lagrange1D interp dinterp x xi order = .ok (I, D)) :
    ∑ i ∈ range (order + 1), I i = 1 ∧ ∑ i ∈ range (order + 1), D i = 0 := by
  simpa using C64_reproduces interp dinterp xi x order h I D hr 1 (by simp)

example (x : ℚ) : ∃ I D : Nat → ℚ, lagrange1D (fun _ => 0) (fun _ => 0) x (fun i => (i : ℚ) - 1) 3 = .ok (I, D) ∧
    ∑ i ∈ range 4, I i = 1 := by
  obtain ⟨I, D, h, -⟩ := C64_lagrange (fun _ => 0) (fun _ => 0) (fun i => (i : ℚ) - 1) x 3 (fun a _ b _ h => by simpa using h)
  exact ⟨I, D, h, (C64_unity _ _ _ x 3 (fun a _ b _ h => by simpa using h) I D h).1⟩

/-- C64: at a node the values are one for that node and zero for the others -/
theorem C64_nodes (interp dinterp xi : Nat → R) (order : Nat)
    (h : ∀ a ≤ order, ∀ b ≤ order, xi a = xi b → a = b) (I D : Nat → R) (k : Nat) (hk : k ≤ order)
    (hr : lagrange1D interp dinterp (xi k) xi order = .ok (I, D)) (i : Nat) (hi : i ≤ order) :
    I i = if i = k then 1 else 0 := by
  obtain ⟨I', D', e, hI, -⟩ := C64_lagrange interp dinterp xi (xi k) order h
  rw [hr] at e
  have e1 := congrArg Prod.fst (Outcome.ok.inj e)
  dsimp only at e1
  obtain ⟨L, -, h1, h0, hv, -⟩ := hI i hi
  rw [e1, hv]
  split
  · next e => rw [← e, h1]
  · next e => exact h0 k hk (Ne.symm e)

/-- C64: with two equal nodes the results are not finite -/
theorem C64_repeated (interp dinterp xi : Nat → R) (x : R) (order a b : Nat) (ha : a ≤ order)
    (hb : b ≤ order) (hab : a ≠ b) (h : xi a = xi b) :
    lagrange1D interp dinterp x xi order = .throws "NaN" := by
  rw [lagrange1D_eq, if_neg]
  rw [den_ne_zero]
  intro hd
  exact hab (hd (by simpa [Nat.lt_succ_iff] using ha) (by simpa [Nat.lt_succ_iff] using hb) h)

/-- the cubic interpolation nodes -1, -1/2, 1/2, 1 satisfy the hypothesis of C64 -/
example : ∀ a ≤ 3, ∀ b ≤ 3, (fun i => ([-1, -1/2, 1/2, 1] : List ℚ).getD i 0) a
    = (fun i => ([-1, -1/2, 1/2, 1] : List ℚ).getD i 0) b → a = b := by
  decide +kernel

/-- order 2 on -1, 0, 1 at 1/2: -1/8, 3/4, 3/8 with derivatives 0, -1, 1 -/
example : (match lagrange1D (fun _ => 7) (fun _ => 7) (1/2 : ℚ) (fun i => (i : ℚ) - 1) 2 with
    | .ok (I, D) => [I 0, I 1, I 2, I 3] == [-1/8, 3/4, 3/8, 7] && [D 0, D 1, D 2, D 3] == [0, -1, 1, 7]
    | _ => false) = true := by
  decide +kernel

end

/-- C64: over the reals the second vector is the derivative of the first with respect to the point -/
theorem C64_derivative (interp dinterp xi : Nat → ℝ) (x : ℝ) (order : Nat) (I D : ℝ → Nat → ℝ)
    (h : ∀ a ≤ order, ∀ b ≤ order, xi a = xi b → a = b)
    (hr : ∀ x, lagrange1D interp dinterp x xi order = .ok (I x, D x)) (i : Nat) (hi : i ≤ order) :
    HasDerivAt (fun t => I t i) (D x i) x := by
  have hd : Distinct xi order := fun a ha b hb => h a (by simpa [Nat.lt_succ_iff] using ha) b
    (by simpa [Nat.lt_succ_iff] using hb)
  have hI : (fun t => I t i) = fun t => (Lagrange.basis (range (order + 1)) xi i).eval t := by
    funext t
    have := hr t
    rw [lagrange1D_ok _ _ _ _ _ hd] at this
    have e1 := congrFun (congrArg Prod.fst (Outcome.ok.inj this)) i
    dsimp only at e1
    rw [← e1, if_pos hi, lagC_eq]
  have hD : D x i = (derivative (Lagrange.basis (range (order + 1)) xi i)).eval x := by
    have := hr x
    rw [lagrange1D_ok _ _ _ _ _ hd] at this
    have e1 := congrFun (congrArg Prod.snd (Outcome.ok.inj this)) i
    dsimp only at e1
    rw [← e1, if_pos hi, lagQ_eq]
  rw [hI, hD]
  exact Polynomial.hasDerivAt _ _

example : ∃ I D : ℝ → Nat → ℝ, ∀ x, HasDerivAt (fun t => I t 2) (D x 2) x := by
  choose I D h _ using fun x => C64_lagrange (fun _ => 0) (fun _ => 0) (fun i => (i : ℝ) - 1) x 3 (fun a _ b _ h => by simpa using h)
  exact ⟨I, D, fun x => C64_derivative _ _ _ x 3 I D (fun a _ b _ h => by simpa using h) h 2 (by decide)⟩

/-! ## Chebyshev nodes -/

theorem chebyshev_eq (nodes : Nat → ℝ) (order k : Nat) :
    chebyshevNodes1D nodes order k =
      if k = order then 1 else if k = 0 then -1
      else if k < order then -Real.cos (piLit * (2 * k + 1) / (2 * (order + 1))) else nodes k := by
  have key : ∀ n, loop n (fun (a : Nat → ℝ) k =>
      let i := k + 1
      Function.update a (i - 1) (-Real.cos (piLit * (2.0 * (i : ℕ) - 1.0) / (2.0 * (order + 1.0))))) nodes k
      = if k < n then -Real.cos (piLit * (2 * k + 1) / (2 * (order + 1))) else nodes k := by
    intro n
    induction n with
    | zero => simp [loop_zero]
    | succ n ih =>
      rw [loop_succ]
      dsimp only
      by_cases h : k = n
      · subst h
        rw [Nat.add_sub_cancel, Function.update_self, if_pos (by omega)]
        congr 2
        norm_num
        ring_nf
      · rw [Nat.add_sub_cancel, Function.update_of_ne h]
        have : k < n + 1 ↔ k < n := by omega
        simp only [this]
        exact ih
  unfold chebyshevNodes1D
  dsimp only
  by_cases h1 : k = order
  · subst h1; rw [Function.update_self, if_pos rfl]; norm_num
  · rw [Function.update_of_ne h1, if_neg h1]
    by_cases h0 : k = 0
    · subst h0; rw [Function.update_self, if_pos rfl]; norm_num
    · rw [Function.update_of_ne h0, if_neg h0]
      exact key order

theorem piLit_lt : piLit < Real.pi := by
  have := Real.pi_gt_d20
  unfold piLit; norm_num at this ⊢; linarith

theorem pi_sub_piLit : |Real.pi - piLit| ≤ 1e-20 := by
  have h1 := Real.pi_gt_d20
  have h2 := Real.pi_lt_d20
  unfold piLit
  rw [abs_le]
  constructor <;> norm_num at h1 h2 ⊢ <;> linarith

/-- C65: for every order of at least one the nodes begin at -1, end at 1 and increase strictly;
the vector is not touched past them -/
theorem C65_increasing (nodes : Nat → ℝ) (order : Nat) (h : 1 ≤ order) :
    chebyshevNodes1D nodes order 0 = -1 ∧ chebyshevNodes1D nodes order order = 1 ∧
    (∀ a b, a < b → b ≤ order → chebyshevNodes1D nodes order a < chebyshevNodes1D nodes order b) ∧
    ∀ k, order < k → chebyshevNodes1D nodes order k = nodes k := by
  have hpos : (0 : ℝ) < 2 * (order + 1) := by positivity
  have hpi : 0 < piLit := by unfold piLit; norm_num
  have harg : ∀ k : Nat, k < order → 0 < piLit * (2 * k + 1) / (2 * (order + 1)) ∧
      piLit * (2 * k + 1) / (2 * (order + 1)) < Real.pi := by
    intro k hk
    refine ⟨by positivity, ?_⟩
    rw [div_lt_iff₀ hpos]
    have : (2 * k + 1 : ℝ) ≤ 2 * (order + 1) := by
      have : (k : ℝ) ≤ order := by exact_mod_cast hk.le
      linarith
    have h1 := mul_le_mul_of_nonneg_left this hpi.le
    have h2 := mul_lt_mul_of_pos_right piLit_lt hpos
    linarith
  refine ⟨?_, ?_, ?_, ?_⟩
  · rw [chebyshev_eq, if_neg (by omega), if_pos rfl]
  · rw [chebyshev_eq, if_pos rfl]
  · intro a b hab hb
    rw [chebyshev_eq, chebyshev_eq, if_neg (by omega : a ≠ order)]
    by_cases ha : a = 0
    · rw [if_pos ha]
      by_cases hbo : b = order
      · rw [if_pos hbo]; norm_num
      · rw [if_neg hbo, if_neg (by omega), if_pos (by omega)]
        obtain ⟨h0, h1⟩ := harg b (by omega)
        have := Real.strictAntiOn_cos ⟨le_rfl, Real.pi_pos.le⟩ ⟨h0.le, h1.le⟩ h0
        rw [Real.cos_zero] at this
        linarith
    · rw [if_neg ha, if_pos (by omega)]
      obtain ⟨a0, a1⟩ := harg a (by omega)
      by_cases hbo : b = order
      · rw [if_pos hbo]
        have := Real.strictAntiOn_cos ⟨a0.le, a1.le⟩ ⟨Real.pi_pos.le, le_rfl⟩ a1
        rw [Real.cos_pi] at this
        linarith
      · rw [if_neg hbo, if_neg (by omega), if_pos (by omega)]
        obtain ⟨b0, b1⟩ := harg b (by omega)
        have : piLit * (2 * a + 1) / (2 * (order + 1)) < piLit * (2 * b + 1) / (2 * (order + 1)) := by
          rw [div_lt_div_iff_of_pos_right hpos]
          refine mul_lt_mul_of_pos_left ?_ hpi
          have : (a : ℝ) < b := by exact_mod_cast hab
          linarith
        have := Real.strictAntiOn_cos ⟨a0.le, a1.le⟩ ⟨b0.le, b1.le⟩ this
        linarith
  · intro k hk
    rw [chebyshev_eq, if_neg (by omega), if_neg (by omega), if_neg (by omega)]

/-- C65: the inner nodes are roots of the Chebyshev polynomial of degree `order + 1`, up to the
rounding of the literal for π -/
theorem C65_roots (nodes : Nat → ℝ) (order k : Nat) (h0 : 0 < k) (h1 : k < order) :
    ∃ r : ℝ, (Chebyshev.T ℝ (order + 1)).eval r = 0 ∧ |chebyshevNodes1D nodes order k - r| ≤ 1e-20 := by
  rw [chebyshev_eq, if_neg (by omega), if_neg (by omega), if_pos h1]
  have hN : (0 : ℝ) < order + 1 := by positivity
  -- -cos t = cos (π - t)
  refine ⟨Real.cos (Real.pi - Real.pi * (2 * k + 1) / (2 * (order + 1))), ?_, ?_⟩
  · have := Chebyshev.T_real_cos (Real.pi - Real.pi * (2 * k + 1) / (2 * (order + 1))) (order + 1)
    rw [this, Real.cos_eq_zero_iff]
    refine ⟨(order : ℤ) - k, ?_⟩
    push_cast
    field_simp
    ring
  · rw [Real.cos_pi_sub]
    have hle := Real.abs_cos_sub_cos_le (Real.pi * (2 * k + 1) / (2 * (order + 1)))
      (piLit * (2 * k + 1) / (2 * (order + 1)))
    have e : Real.pi * (2 * k + 1) / (2 * (order + 1)) - piLit * (2 * k + 1) / (2 * (order + 1))
        = (Real.pi - piLit) * ((2 * k + 1) / (2 * (order + 1))) := by ring
    rw [e, abs_mul] at hle
    have hk : (2 * k + 1 : ℝ) / (2 * (order + 1)) ≤ 1 := by
      rw [div_le_one (by positivity)]
      have : (k : ℝ) ≤ order := by exact_mod_cast h1.le
      linarith
    have hk0 : (0 : ℝ) ≤ (2 * k + 1 : ℝ) / (2 * (order + 1)) := by positivity
    rw [abs_of_nonneg hk0] at hle
    have h3 := mul_le_mul pi_sub_piLit hk hk0 (by norm_num)
    rw [mul_one] at h3
    have e2 : -Real.cos (piLit * (2 * k + 1) / (2 * (order + 1))) - -Real.cos (Real.pi * (2 * k + 1) / (2 * (order + 1)))
      = Real.cos (Real.pi * (2 * k + 1) / (2 * (order + 1))) - Real.cos (piLit * (2 * k + 1) / (2 * (order + 1))) := by
      ring
    rw [e2]
    exact hle.trans h3

/-- C65: the Chebyshev nodes are valid nodes for `lagrange_1D` -/
theorem C65_distinct (nodes : Nat → ℝ) (order : Nat) (h : 1 ≤ order) :
    ∀ a ≤ order, ∀ b ≤ order, chebyshevNodes1D nodes order a = chebyshevNodes1D nodes order b → a = b := by
  obtain ⟨-, -, hlt, -⟩ := C65_increasing nodes order h
  intro a ha b hb e
  rcases Nat.lt_trichotomy a b with hab | hab | hab
  · exact absurd e (hlt a b hab hb).ne
  · exact hab
  · exact absurd e (hlt b a hab ha).ne'

/-- order 2: -1, 0 (up to the literal), 1 -/
example (nodes : Nat → ℝ) : chebyshevNodes1D nodes 2 0 = -1 ∧ chebyshevNodes1D nodes 2 2 = 1 ∧
    -1 < chebyshevNodes1D nodes 2 1 ∧ chebyshevNodes1D nodes 2 1 < 1 := by
  obtain ⟨h0, h2, hlt, -⟩ := C65_increasing nodes 2 (by omega)
  exact ⟨h0, h2, h0 ▸ hlt 0 1 (by omega) (by omega), h2 ▸ hlt 1 2 (by omega) (by omega)⟩

end Verif.Lagrange
