import Verif.Mat.ExpModel
import Verif.Mat.ExpLemmas
import Verif.Mat.Props
import Mathlib.Analysis.SpecialFunctions.Pow.Real

/-!
# C28: the matrix exponential

`Matrix.of M` is the Mathlib matrix with elements `M`, `NormedSpace.exp` the exponential
series, `infinityNorm` the library's own norm (largest absolute row sum, C27).
-/

namespace Verif.Mat
open Matrix NormedSpace

/-! ### the scaling -/

theorem truncInt_lower (x : ℝ) (hx : 0 ≤ x) : x < truncInt x + 1 := by
  rw [truncInt, if_pos hx]; exact Int.lt_floor_add_one x

theorem expScaling_spec (r : ℝ) (hr : 0 < r) :
    ∃ s : Nat, expScaling r = .ok s ∧ r / 2 ^ s ≤ 1 / 2 ∧ (2 : ℝ) ^ s ≤ max 2 (4 * r) := by
  refine ⟨_, by rw [expScaling, if_neg (ne_of_gt hr)], ?_⟩
  set x := Real.log r / Real.log 2 + 1 with hx
  have hl2 : 0 < Real.log 2 := Real.log_pos (by norm_num)
  have hr2 : r = 2 ^ (x - 1) := by
    rw [hx, add_sub_cancel_right, Real.rpow_def_of_pos (by norm_num), mul_div_cancel₀ _ (ne_of_gt hl2), Real.exp_log hr]
  set s := (max 0 (truncInt x + 1)).toNat with hs
  have hsc : ((s : ℤ) : ℝ) = ((max 0 (truncInt x + 1) : ℤ) : ℝ) := by
    rw [hs, Int.toNat_of_nonneg (le_max_left _ _)]
  have hsx : x ≤ (s : ℝ) := by
    have : ((s : ℤ) : ℝ) = (s : ℝ) := by simp
    rw [← this, hsc]
    rcases le_or_gt 0 x with h | h
    · refine (truncInt_lower x h).le.trans ?_
      have h1 : truncInt x + 1 ≤ max 0 (truncInt x + 1) := le_max_right _ _
      exact_mod_cast h1
    · refine h.le.trans ?_
      have h1 : (0 : ℤ) ≤ max 0 (truncInt x + 1) := le_max_left _ _
      exact_mod_cast h1
  constructor
  · rw [div_le_iff₀ (by positivity)]
    have h1 : r * 2 ≤ 2 ^ s := by
      have e : r * 2 = 2 ^ x := by
        rw [hr2]
        have : (2 : ℝ) ^ x = 2 ^ (x - 1 + 1) := by ring_nf
        rw [this, Real.rpow_add_one (by norm_num)]
      rw [e, ← Real.rpow_natCast]
      exact Real.rpow_le_rpow_of_exponent_le (by norm_num) hsx
    linarith
  · rcases le_or_gt 0 x with h0 | h0
    · apply le_max_of_le_right
      have hf : 0 ≤ truncInt x := by rw [truncInt, if_pos h0]; exact Int.floor_nonneg.2 h0
      have hup : (s : ℝ) ≤ x + 1 := by
        have : ((s : ℤ) : ℝ) = (s : ℝ) := by simp
        rw [← this, hsc, max_eq_right (by omega)]
        push_cast
        rw [truncInt, if_pos h0]
        have := Int.floor_le x; linarith
      have e : 4 * r = 2 ^ (x + 1) := by
        rw [hr2]
        have : (2 : ℝ) ^ (x + 1) = 2 ^ (x - 1 + 1 + 1) := by ring_nf
        rw [this, Real.rpow_add_one (by norm_num), Real.rpow_add_one (by norm_num)]; ring
      rw [e, ← Real.rpow_natCast]
      exact Real.rpow_le_rpow_of_exponent_le (by norm_num) hup
    · apply le_max_of_le_left
      have hc : truncInt x ≤ 0 := by
        rw [truncInt, if_neg (not_le.2 h0)]
        exact Int.ceil_le.2 (by simpa using h0.le)
      have hs1 : s ≤ 1 := by rw [hs]; omega
      calc (2 : ℝ) ^ s ≤ 2 ^ 1 := pow_le_pow_right₀ (by norm_num) hs1
        _ = 2 := pow_one 2

/-! ### the loop -/

section
variable {R : Type*} [Ring R] [Algebra ℝ R]

/-- one round in any real algebra -/
noncomputable def algRound (A : R) (k : Fin 5) (st : ℝ × R × R × R) : ℝ × R × R × R :=
  let c := st.1 * (((6 - (k.1 + 2) + 1 : Nat) : ℝ) / (((k.1 + 2) * (2 * 6 - (k.1 + 2) + 1) : Nat) : ℝ))
  let X := A * st.2.1
  (c, X, c • X + st.2.2.1, if (k.1 + 2) % 2 = 1 then st.2.2.2 - c • X else st.2.2.2 + c • X)

theorem algRound_loop (A : R) :
    (forLoop 5 (algRound A) (0.5, A, 1 + (0.5 : ℝ) • A, 1 - (0.5 : ℝ) • A)).2.2
      = ((1 / 665280 : ℝ) • Pade.num A, (1 / 665280 : ℝ) • Pade.den A) := by
  have c : ∀ (n : ℕ) [n.AtLeastTwo] (x : R), (OfNat.ofNat n : R) * x = (OfNat.ofNat n : ℝ) • x := by
    intro n _ x; rw [Algebra.smul_def]; congr 1; exact (map_ofNat _ _).symm
  have c1 : (665280 : R) = (665280 : ℝ) • (1 : R) := by rw [← c, mul_one]
  simp only [forLoop_succ, forLoop_zero]
  simp only [algRound, Pade.num, Pade.den, Fin.last, Fin.castSucc, Fin.castAdd, Fin.castLE]
  simp only [c, c1]
  simp only [pow_succ' A, pow_zero, mul_one]
  norm_num
  constructor <;> module
end

theorem of_add (A B : Mat m n ℝ) : of (fun i j => A i j + B i j) = of A + of B := rfl

theorem padeRound_loop (A : Mat N N ℝ) :
    of (forLoop 5 (padeRound A) (0.5, A, fun i j => identityMatrix N i j + 0.5 * A i j,
        fun i j => identityMatrix N i j - 0.5 * A i j)).2.2.1 = (1 / 665280 : ℝ) • Pade.num (of A) ∧
    of (forLoop 5 (padeRound A) (0.5, A, fun i j => identityMatrix N i j + 0.5 * A i j,
        fun i j => identityMatrix N i j - 0.5 * A i j)).2.2.2 = (1 / 665280 : ℝ) • Pade.den (of A) := by
  have hid : of (identityMatrix N : Mat N N ℝ) = 1 := by
    rw [identityMatrix_eq]; ext i j; rw [one_apply]; rfl
  have h := forLoop_rel (n := 5) (b1 := padeRound A) (b2 := algRound (of A))
    (s := (0.5, A, fun i j => identityMatrix N i j + 0.5 * A i j, fun i j => identityMatrix N i j - 0.5 * A i j))
    (t := (0.5, of A, 1 + (0.5 : ℝ) • of A, 1 - (0.5 : ℝ) • of A))
    (fun s t => s.1 = t.1 ∧ of s.2.1 = t.2.1 ∧ of s.2.2.1 = t.2.2.1 ∧ of s.2.2.2 = t.2.2.2)
    ⟨rfl, rfl, by rw [← hid]; rfl, by rw [← hid]; rfl⟩ (by
      rintro k ⟨c, X, E, D⟩ ⟨c', X', E', D'⟩ ⟨h1, h2, h3, h4⟩
      simp only at h1 h2 h3 h4
      subst h1; subst h2; subst h3; subst h4
      refine ⟨rfl, ?_, ?_, ?_⟩
      · simp only [padeRound, algRound]; rw [of_matMul]
      · simp only [padeRound, algRound]; rw [← of_matMul]; rfl
      · simp only [padeRound, algRound]; rw [← of_matMul]
        split <;> rfl)
  have e := algRound_loop (of A)
  rw [h.2.2.1, h.2.2.2, e]
  exact ⟨rfl, rfl⟩

theorem squarings (s : Nat) (E : Mat N N ℝ) : of (forLoop s (fun _ E => matMul E E) E) = of E ^ 2 ^ s := by
  induction s with
  | zero => simp
  | succ s ih => rw [forLoop_succ, of_matMul, ih, ← pow_two, ← pow_mul, pow_succ]

section
attribute [local instance] Matrix.linftyOpNormedRing Matrix.linftyOpNormedAlgebra

theorem infinityNorm_linfty (M : Mat N N ℝ) : infinityNorm M = ‖(of M : Matrix (Fin N) (Fin N) ℝ)‖ := by
  apply le_antisymm
  · rw [infinityNorm_isLeast _ _ (norm_nonneg _)]
    intro i
    rw [linfty_opNorm_def]
    have h : (∑ j, ‖(of M : Matrix (Fin N) (Fin N) ℝ) i j‖₊) ≤ Finset.univ.sup fun i => ∑ j, ‖(of M : Matrix (Fin N) (Fin N) ℝ) i j‖₊ :=
      Finset.le_sup (f := fun i => ∑ j, ‖(of M : Matrix (Fin N) (Fin N) ℝ) i j‖₊) (Finset.mem_univ i)
    have h2 : ((∑ j, ‖(of M : Matrix (Fin N) (Fin N) ℝ) i j‖₊ : NNReal) : ℝ) = ∑ j, |M i j| := by
      push_cast; rfl
    rw [← h2]
    exact_mod_cast h
  · rw [linfty_opNorm_def]
    have h : (Finset.univ.sup fun i => ∑ j, ‖(of M : Matrix (Fin N) (Fin N) ℝ) i j‖₊) ≤ ⟨infinityNorm M, infinityNorm_nonneg M⟩ := by
      apply Finset.sup_le
      intro i _
      apply NNReal.coe_le_coe.1
      push_cast
      exact row_le M i
    exact_mod_cast h

/-- the computation, in matrix terms -/
theorem exponential_ok (tmp M : Mat (N + 1) (N + 1) ℝ) (h : ∃ i j, M i j ≠ 0) :
    ∃ (s : Nat) (a i : Matrix (Fin (N + 1)) (Fin (N + 1)) ℝ) (E : Mat (N + 1) (N + 1) ℝ),
      of M = (2 ^ s : ℕ) • a ∧ ‖a‖ ≤ 1 / 2 ∧ (2 : ℝ) ^ s ≤ max 2 (4 * infinityNorm M) ∧
      Pade.den a * i = 1 ∧ i * Pade.den a = 1 ∧ expScaling (infinityNorm M) = .ok s ∧
      exponential tmp M = .ok E ∧ of E = (i * Pade.num a) ^ 2 ^ s := by
  have hpos : 0 < infinityNorm M := by
    obtain ⟨i, j, hij⟩ := h
    refine lt_of_le_of_ne (infinityNorm_nonneg M) fun e => hij ?_
    exact ((C27_infinity_norm M M 1).2.1.1 e.symm) i j
  obtain ⟨s, hs, hsmall, hbig⟩ := expScaling_spec _ hpos
  have h2s : (2 : ℝ) ^ s ≠ 0 := by positivity
  set A : Mat (N + 1) (N + 1) ℝ := divAssign M (2 ^ s) with hA
  have hMA : of M = (2 ^ s : ℕ) • of A := by
    ext i j
    rw [Matrix.smul_apply, of_apply, of_apply, hA]
    simp only [divAssign, nsmul_eq_mul]
    push_cast
    field_simp
  have hnorm : ‖(of A : Matrix (Fin (N + 1)) (Fin (N + 1)) ℝ)‖ ≤ 1 / 2 := by
    rw [← infinityNorm_linfty]
    have : A = fun i j => (1 / 2 ^ s) * M i j := by
      funext i j; simp only [hA, divAssign]; ring
    rw [this, (C27_infinity_norm M M (1 / 2 ^ s)).2.2.1, abs_of_pos (by positivity)]
    calc (1 / 2 ^ s) * infinityNorm M = infinityNorm M / 2 ^ s := by ring
      _ ≤ 1 / 2 := hsmall
  have hunit := Pade.isUnit_den (of A : Matrix (Fin (N + 1)) (Fin (N + 1)) ℝ) hnorm
  obtain ⟨u, hu⟩ := hunit
  obtain ⟨hE, hD⟩ := padeRound_loop A
  set st := forLoop 5 (padeRound A) (0.5, A, fun i j => identityMatrix (N + 1) i j + 0.5 * A i j,
        fun i j => identityMatrix (N + 1) i j - 0.5 * A i j) with hst
  set D := st.2.2.2 with hDdef
  have hdu : of D * ((665280 : ℝ) • (↑u⁻¹ : Matrix (Fin (N + 1)) (Fin (N + 1)) ℝ)) = 1 := by
    rw [hD, ← hu, smul_mul_smul_comm, Units.mul_inv]; norm_num
  have hdet : det (of D) ≠ 0 := by
    have : IsUnit (of D) := by
      refine isUnit_iff_exists.2 ⟨_, hdu, ?_⟩
      rw [hD, ← hu, smul_mul_smul_comm, Units.inv_mul]; norm_num
    exact isUnit_iff_ne_zero.1 ((isUnit_iff_isUnit_det _).1 this)
  have hinv : (of D)⁻¹ = (665280 : ℝ) • (↑u⁻¹ : Matrix (Fin (N + 1)) (Fin (N + 1)) ℝ) :=
    inv_eq_right_inv hdu
  refine ⟨s, of A, ↑u⁻¹, forLoop s (fun _ E => matMul E E) (matMul (fun i j => (of D)⁻¹ i j) st.2.2.1), hMA, hnorm, hbig, ?_, ?_, hs, ?_, ?_⟩
  · rw [← hu, Units.mul_inv]
  · rw [← hu, Units.inv_mul]
  · unfold exponential
    simp only [hs, Outcome.bind_ok]
    rw [← hA, ← hst, inverse_ok tmp D hdet]
    rfl
  · rw [squarings, of_matMul]
    congr 1
    have e : (of fun i j => (of D)⁻¹ i j) = (of D)⁻¹ := rfl
    rw [e, hinv, hE, smul_mul_smul_comm]; norm_num

/-- **C28** For every non-zero real matrix of every size the computation succeeds (the
denominator that is inverted is never singular). -/
theorem C28_total_partial (tmp M : Mat (N + 1) (N + 1) ℝ) (h : ∃ i j, M i j ≠ 0) :
    ∃ E, exponential tmp M = .ok E := by
  obtain ⟨s, a, i, E, _, _, _, _, _, _, hE, _⟩ := exponential_ok tmp M h
  exact ⟨E, hE⟩

/-- a rotation generator -/
example : ∃ E, exponential 0 (![![0, 1], ![-1, 0]] : Mat 2 2 ℝ) = .ok E := C28_total_partial _ _ ⟨0, 1, by simp⟩

/-- **C28 fails for the zero matrix**: the conversion of `log(0) = -inf` to `int` is
undefined, so `exponential(0)` has no defined result. -/
theorem C28_zero_fails (tmp : Mat (N + 1) (N + 1) ℝ) : exponential tmp (fun _ _ => 0) = .ub := by
  have h0 : infinityNorm (fun _ _ => 0 : Mat (N + 1) (N + 1) ℝ) = 0 :=
    (C27_infinity_norm (fun _ _ => 0) (fun _ _ => 0) 1).2.1.2 fun _ _ => rfl
  simp [exponential, expScaling, h0]

/-- **C28**, exactly: the computation succeeds for every matrix but zero, and is undefined for zero. -/
theorem C28_total_iff (tmp M : Mat (N + 1) (N + 1) ℝ) :
    ((∃ E, exponential tmp M = .ok E) ↔ ∃ i j, M i j ≠ 0) ∧ (exponential tmp M = .ub ↔ ∀ i j, M i j = 0) := by
  by_cases h : ∃ i j, M i j ≠ 0
  · obtain ⟨E, hE⟩ := C28_total_partial tmp M h
    refine ⟨⟨fun _ => h, fun _ => ⟨E, hE⟩⟩, ⟨fun e => ?_, fun e => ?_⟩⟩
    · rw [hE] at e; cases e
    · obtain ⟨i, j, hij⟩ := h
      exact absurd (e i j) hij
  · have h0 : ∀ i j, M i j = 0 := by simpa using h
    obtain rfl : M = fun _ _ => 0 := funext fun i => funext fun j => h0 i j
    refine ⟨⟨?_, fun e => absurd e h⟩, ⟨fun _ => h0, fun _ => C28_zero_fails tmp⟩⟩
    rintro ⟨E, hE⟩
    rw [C28_zero_fails] at hE
    cases hE

/-- **C28 (all matrices but zero)** The result commutes with the matrix and
`exponential(-A)` is its inverse. -/
theorem C28_inverse_partial (tmp M : Mat (N + 1) (N + 1) ℝ) (h : ∃ i j, M i j ≠ 0) :
    ∃ E E', exponential tmp M = .ok E ∧ exponential tmp (fun i j => - M i j) = .ok E' ∧
      matMul E E' = identityMatrix (N + 1) ∧ matMul E M = matMul M E := by
  obtain ⟨s, a, i, E, h1, h2, h3, h4, h5, h6, h7, h8⟩ := exponential_ok tmp M h
  obtain ⟨s', a', i', E', g1, g2, g3, g4, g5, g6, g7, g8⟩ :=
    exponential_ok tmp (fun i j => - M i j) (by obtain ⟨i, j, hij⟩ := h; exact ⟨i, j, neg_ne_zero.2 hij⟩)
  refine ⟨E, E', h7, g7, ?_, ?_⟩
  · have hn : infinityNorm (fun i j => - M i j) = infinityNorm M := by
      have := (C27_infinity_norm M M (-1)).2.2.1
      simpa using this
    have es : s' = s := by rw [hn, h6] at g6; simpa using g6.symm
    subst es
    have ea : a' = -a := by
      have : (2 ^ s' : ℕ) • a' = (2 ^ s' : ℕ) • (-a) := by
        rw [smul_neg, ← h1, ← g1]; rfl
      have hne : ((2 ^ s' : ℕ) : ℝ) ≠ 0 := by positivity
      rw [← Nat.cast_smul_eq_nsmul ℝ, ← Nat.cast_smul_eq_nsmul ℝ] at this
      exact smul_right_injective _ hne this
    rw [ea] at g4 g5 g8
    rw [Pade.num_neg] at g8
    rw [Pade.den_neg] at g4 g5
    have hcd : Commute (Pade.num a) (Pade.den a) := Pade.commute_num a _ (Pade.commute_den a a (Commute.refl a)).symm
    have key : (i * Pade.num a) * (i' * Pade.den a) = 1 := by
      calc (i * Pade.num a) * (i' * Pade.den a) = i * (Pade.num a * i') * Pade.den a := by simp only [mul_assoc]
        _ = i * Pade.den a := by rw [g4, mul_one]
        _ = 1 := h5
    have key' : (i' * Pade.den a) * (i * Pade.num a) = 1 := by
      calc (i' * Pade.den a) * (i * Pade.num a) = i' * (Pade.den a * i) * Pade.num a := by simp only [mul_assoc]
        _ = i' * Pade.num a := by rw [h4, mul_one]
        _ = 1 := g5
    have hc : Commute (i * Pade.num a) (i' * Pade.den a) := by show _ * _ = _ * _; rw [key, key']
    have : of E * of E' = 1 := by rw [h8, g8, ← hc.mul_pow, key, one_pow]
    apply of.injective
    rw [of_matMul, this, identityMatrix_eq]; ext i j; rw [one_apply]; rfl
  · apply of.injective
    rw [of_matMul, of_matMul, h8, h1]
    have ca : Commute (Pade.den a) a := Pade.commute_den a a (Commute.refl a)
    have ci : Commute i a := by
      show i * a = a * i
      calc i * a = i * a * (Pade.den a * i) := by rw [h4, mul_one]
        _ = i * (a * Pade.den a) * i := by simp only [mul_assoc]
        _ = i * (Pade.den a * a) * i := by rw [ca.eq]
        _ = (i * Pade.den a) * a * i := by simp only [mul_assoc]
        _ = a * i := by rw [h5, one_mul]
    have : Commute ((i * Pade.num a) ^ 2 ^ s) ((2 ^ s : ℕ) • a) :=
      ((ci.mul_left (Pade.commute_num a a (Commute.refl a))).pow_left _).smul_right _
    exact this.eq

/-- **C28 (accuracy, all matrices but zero)** In the infinity norm the result differs from
the true matrix exponential by a relative error of at most `(1+2·10⁻¹³)^n - 1` where
`n ≤ max 2 (4‖A‖)`; for matrices with `A¹³ = 0` it is exact. -/
theorem C28_accuracy_partial (tmp M : Mat (N + 1) (N + 1) ℝ) (h : ∃ i j, M i j ≠ 0) :
    ∃ (E : Mat (N + 1) (N + 1) ℝ) (n : Nat), exponential tmp M = .ok E ∧ (n : ℝ) ≤ max 2 (4 * infinityNorm M) ∧
      infinityNorm (fun i j => E i j - exp (of M) i j)
        ≤ infinityNorm (fun i j => exp (of M) i j) * ((1 + 2 / 10 ^ 13) ^ n - 1) ∧
      (of M ^ 13 = 0 → of E = exp (of M)) := by
  obtain ⟨s, a, i, E, h1, h2, h3, h4, h5, h6, h7, h8⟩ := exponential_ok tmp M h
  have key := Pade.pade_pow_close a i h2 h4 h5 (2 ^ s)
  rw [← h1, ← h8] at key
  refine ⟨E, 2 ^ s, h7, by push_cast; exact h3, ?_, ?_⟩
  · rw [infinityNorm_linfty, infinityNorm_linfty]
    exact key.1
  · intro h13
    apply key.2
    rw [h1, smul_pow] at h13
    have hne : (((2 ^ s) ^ 13 : ℕ) : ℝ) ≠ 0 := by positivity
    rw [← Nat.cast_smul_eq_nsmul ℝ] at h13
    exact (smul_eq_zero.1 h13).resolve_left hne

example : ∃ i j, (![![0, 1], ![-1, 0]] : Mat 2 2 ℝ) i j ≠ 0 := ⟨0, 1, by simp⟩
end

end Verif.Mat
