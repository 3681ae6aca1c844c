import Verif.Quadrature.Tensor

/-! # C67: the quadrature rules -/

namespace Verif.Quadrature

open Finset Polynomial

/-- `x` and `w` are the points and weights that a line rule gives for order `p`, whatever `x` and
`w` held before the call -/
def Gives (rule : Rule) (p : Nat) (x w : Nat → ℝ) : Prop :=
  ∀ i < p, ∀ x0 w0, rule ⟨x0, w0, (i : Int) + 1⟩ p = .ok ⟨some (x i), some (w i), i⟩

theorem Gives.unique {rule : Rule} {p : Nat} {x w x' w' : Nat → ℝ} (h : Gives rule p x w) (h' : Gives rule p x' w')
    (i : Nat) (hi : i < p) : x i = x' i ∧ w i = w' i := by
  have e := h i hi none none
  rw [h' i hi none none] at e
  have e := Outcome.ok.inj e
  have e1 := congrArg Line.x e
  have e2 := congrArg Line.w e
  dsimp only at e1 e2
  exact ⟨(Option.some.inj e1).symm, (Option.some.inj e2).symm⟩

theorem gives_gauss (p : Nat) (h1 : 1 ≤ p) (h8 : p ≤ 8) : Gives lineGauss p (gx p) (gw p) :=
  fun i hi x0 w0 => lineGauss_eq p i h1 h8 hi x0 w0

theorem gives_lobatto (p : Nat) (h1 : 1 ≤ p) (h8 : p ≤ 8) : Gives lineLobatto p (lx p) (lw p) :=
  fun i hi x0 w0 => lineLobatto_eq p i h1 h8 hi x0 w0

/-- C67: both line rules give points and weights for every order from 1 to 8 -/
theorem C67_supported (p : Nat) (h1 : 1 ≤ p) (h8 : p ≤ 8) :
    (∃ x w, Gives lineGauss p x w) ∧ ∃ x w, Gives lineLobatto p x w :=
  ⟨⟨_, _, gives_gauss p h1 h8⟩, ⟨_, _, gives_lobatto p h1 h8⟩⟩

example : (∃ x w, Gives lineGauss 5 x w) ∧ ∃ x w, Gives lineLobatto 5 x w := C67_supported 5 (by decide) (by decide)

theorem sum_unique {rule : Rule} {p : Nat} {x w x' w' : Nat → ℝ} (h : Gives rule p x w) (h' : Gives rule p x' w')
    (f : ℝ → ℝ) : ∑ i ∈ range p, w i * f (x i) = ∑ i ∈ range p, w' i * f (x' i) :=
  sum_congr rfl fun i hi => by
    obtain ⟨e1, e2⟩ := h.unique h' i (by simpa using hi)
    rw [e1, e2]

/-- C67: the Gauss rule of order `p` up to 5 integrates every polynomial of degree at most
`2p - 1` exactly -/
theorem C67_gauss_exact (p : Nat) (h1 : 1 ≤ p) (h5 : p ≤ 5) (x w : Nat → ℝ) (h : Gives lineGauss p x w)
    (P : ℝ[X]) (hP : P.natDegree ≤ 2 * p - 1) :
    ∑ i ∈ range p, w i * P.eval (x i) = ∫ t in (-1 : ℝ)..1, P.eval t := by
  rw [sum_unique h (gives_gauss p h1 (by omega)) (fun t => P.eval t)]
  refine rule_exact p (2 * p - 1) (gx p) (gw p) (fun k hk => ?_) P hP
  match p, h1, h5 with
  | 1, _, _ => exact gauss1_moments k hk
  | 2, _, _ => exact gauss2_moments k hk
  | 3, _, _ => exact gauss3_moments k hk
  | 4, _, _ => exact gauss4_moments k hk
  | 5, _, _ => exact gauss5_moments k hk

/-- C67: the Gauss rules of order 6, 7 and 8, whose constants have sixteen digits, integrate every
polynomial of degree at most `2p - 1` up to `2e-16` times the sum of its coefficients -/
theorem C67_gauss_tabulated (p : Nat) (h6 : 6 ≤ p) (h8 : p ≤ 8) (x w : Nat → ℝ) (h : Gives lineGauss p x w)
    (P : ℝ[X]) (hP : P.natDegree ≤ 2 * p - 1) :
    |∑ i ∈ range p, w i * P.eval (x i) - ∫ t in (-1 : ℝ)..1, P.eval t|
      ≤ 2e-16 * ∑ k ∈ range (2 * p), |P.coeff k| := by
  rw [sum_unique h (gives_gauss p (by omega) h8) (fun t => P.eval t)]
  have e : 2 * p = 2 * p - 1 + 1 := by omega
  rw [e]
  refine rule_bound p (2 * p - 1) (gx p) (gw p) 2e-16 (fun k hk => ?_) P hP
  match p, h6, h8 with
  | 6, _, _ => exact gauss6_moments k hk
  | 7, _, _ => exact gauss7_moments k hk
  | 8, _, _ => exact gauss8_moments k hk

/-- `t¹⁰` with seven points -/
example : |∑ i ∈ range 7, gw 7 i * gx 7 i ^ 10 - 2 / 11| ≤ 2e-16 := by
  have := C67_gauss_tabulated 7 (by decide) (by decide) _ _ (gives_gauss 7 (by decide) (by decide)) (X ^ 10) (by simp)
  have e : (2 : ℝ) / 11 = (1 - (-1) ^ 11) / (10 + 1) := by norm_num
  rw [e]
  simpa [coeff_X_pow, integral_pow, apply_ite abs] using this

/-- C67: the Lobatto rules of order 2 and 3 integrate every polynomial of degree at most `2p - 3`
exactly -/
theorem C67_lobatto_exact (p : Nat) (hp : p = 2 ∨ p = 3) (x w : Nat → ℝ) (h : Gives lineLobatto p x w)
    (P : ℝ[X]) (hP : P.natDegree ≤ 2 * p - 3) :
    ∑ i ∈ range p, w i * P.eval (x i) = ∫ t in (-1 : ℝ)..1, P.eval t := by
  rw [sum_unique h (gives_lobatto p (by omega) (by omega)) (fun t => P.eval t)]
  exact rule_exact p (2 * p - 3) (lx p) (lw p) (fun k hk => lobatto23_moments p k hp (by omega)) P hP

/-- Simpson's rule on `t³ + t²` -/
example : ∑ i ∈ range 3, lw 3 i * (lx 3 i ^ 3 + lx 3 i ^ 2) = ∫ t in (-1 : ℝ)..1, (t ^ 3 + t ^ 2) := by
  have := C67_lobatto_exact 3 (.inr rfl) _ _ (gives_lobatto 3 (by decide) (by decide)) (X ^ 3 + X ^ 2)
    ((natDegree_add_le _ _).trans (by simp))
  simpa using this

/-- C67: the Lobatto rules of order 4 to 8 integrate every polynomial of degree at most `2p - 3` up
to `2e-21` times the sum of its coefficients -/
theorem C67_lobatto_tabulated (p : Nat) (h4 : 4 ≤ p) (h8 : p ≤ 8) (x w : Nat → ℝ) (h : Gives lineLobatto p x w)
    (P : ℝ[X]) (hP : P.natDegree ≤ 2 * p - 3) :
    |∑ i ∈ range p, w i * P.eval (x i) - ∫ t in (-1 : ℝ)..1, P.eval t|
      ≤ 2e-21 * ∑ k ∈ range (2 * p - 2), |P.coeff k| := by
  rw [sum_unique h (gives_lobatto p (by omega) h8) (fun t => P.eval t)]
  have e : 2 * p - 2 = 2 * p - 3 + 1 := by omega
  rw [e]
  exact rule_bound p (2 * p - 3) (lx p) (lw p) 2e-21 (fun k hk => lobatto_moments p k h4 h8 (by omega)) P hP

example : |∑ i ∈ range 5, lw 5 i * lx 5 i ^ 6 - 2 / 7| ≤ 2e-21 := by
  have := C67_lobatto_tabulated 5 (by decide) (by decide) _ _ (gives_lobatto 5 (by decide) (by decide)) (X ^ 6) (by simp)
  have e : (2 : ℝ) / 7 = (1 - (-1) ^ 7) / (6 + 1) := by norm_num
  rw [e]
  simpa [coeff_X_pow, integral_pow, apply_ite abs] using this

theorem sqrt_bounds : 0 < √(6 / 5) ∧ √(6 / 5) < 3 / 2 ∧ 0 < √(10 / 7) ∧ √(10 / 7) < 2 ∧ √(5 / 6) < 1 ∧ √70 < 9 := by
  refine ⟨by positivity, ?_, by positivity, ?_, ?_, ?_⟩
  all_goals rw [Real.sqrt_lt' (by norm_num)]; norm_num

/-- C67: Gauss weights are positive, points lie inside (-1, 1) and increase -/
theorem C67_gauss_points (p : Nat) (h1 : 1 ≤ p) (h8 : p ≤ 8) (x w : Nat → ℝ) (h : Gives lineGauss p x w) :
    (∀ i < p, 0 < w i ∧ -1 < x i ∧ x i < 1) ∧ ∀ i j, i < j → j < p → x i < x j := by
  have hu := h.unique (gives_gauss p h1 h8)
  have key : (∀ i < p, 0 < gw p i ∧ -1 < gx p i ∧ gx p i < 1) ∧ ∀ i, i + 1 < p → gx p i < gx p (i + 1) := by
    obtain ⟨s0, s1, r0, r1, t1, u1⟩ := sqrt_bounds
    match p, h1, h8 with
    | 1, _, _ =>
      refine ⟨fun i hi => ?_, fun i hi => by omega⟩
      interval_cases i; norm_num [gx, gw, gaussX, gaussW]
    | 2, _, _ =>
      have a0 : 0 < 1 / √3 := by positivity
      have a1 : 1 / √3 < 1 := by
        rw [div_lt_one (by positivity), Real.lt_sqrt (by norm_num)]; norm_num
      simp only [gx, gw, gaussX, gaussW]
      generalize 1 / √3 = a at *
      constructor
      · intro i hi; interval_cases i <;> refine ⟨by norm_num, ?_, ?_⟩ <;> simp <;> linarith
      · intro i hi
        obtain rfl : i = 0 := by omega
        simp; linarith
    | 3, _, _ =>
      have a0 : 0 < √(3 / 5) := by positivity
      have a1 : √(3 / 5) < 1 := by rw [Real.sqrt_lt' (by norm_num)]; norm_num
      simp only [gx, gw, gaussX, gaussW]
      generalize √(3 / 5) = a at *
      constructor
      · intro i hi; interval_cases i <;> refine ⟨by norm_num, ?_, ?_⟩ <;> simp <;> linarith
      · intro i hi
        have : i ≤ 1 := by omega
        clear hi
        interval_cases i <;> simp <;> linarith
    | 4, _, _ =>
      have hb0 : 0 < (3 - 2 * √(6 / 5)) / 7 := by apply div_pos <;> linarith
      have b0 : 0 < √((3 - 2 * √(6 / 5)) / 7) := Real.sqrt_pos.2 hb0
      have ba : √((3 - 2 * √(6 / 5)) / 7) < √((3 + 2 * √(6 / 5)) / 7) :=
        Real.sqrt_lt_sqrt hb0.le (by linarith)
      have a1 : √((3 + 2 * √(6 / 5)) / 7) < 1 := by
        rw [Real.sqrt_lt' (by norm_num)]; linarith
      have t0 : 0 ≤ √(5 / 6) := Real.sqrt_nonneg _
      simp only [gx, gw, gaussX, gaussW]
      generalize √((3 - 2 * √(6 / 5)) / 7) = b at *
      generalize √((3 + 2 * √(6 / 5)) / 7) = a at *
      generalize √(5 / 6) = t at *
      constructor
      · intro i hi
        interval_cases i
        all_goals simp only [List.getD_cons_zero, List.getD_cons_succ]
        all_goals refine ⟨?_, ?_, ?_⟩
        all_goals linarith
      · intro i hi
        have : i ≤ 2 := by omega
        clear hi
        interval_cases i
        all_goals simp only [List.getD_cons_zero, List.getD_cons_succ]
        all_goals linarith
    | 5, _, _ =>
      have hb0 : 0 < 5 - 2 * √(10 / 7) := by linarith
      have b0 : 0 < √(5 - 2 * √(10 / 7)) := Real.sqrt_pos.2 hb0
      have ba : √(5 - 2 * √(10 / 7)) < √(5 + 2 * √(10 / 7)) := Real.sqrt_lt_sqrt hb0.le (by linarith)
      have a1 : √(5 + 2 * √(10 / 7)) < 3 := by
        rw [Real.sqrt_lt' (by norm_num)]; linarith
      have t0 : 0 ≤ √70 := Real.sqrt_nonneg _
      simp only [gx, gw, gaussX, gaussW]
      generalize √(5 - 2 * √(10 / 7)) = b at *
      generalize √(5 + 2 * √(10 / 7)) = a at *
      generalize √70 = t at *
      constructor
      · intro i hi
        interval_cases i
        all_goals simp only [List.getD_cons_zero, List.getD_cons_succ]
        all_goals refine ⟨?_, ?_, ?_⟩
        all_goals linarith
      · intro i hi
        have : i ≤ 3 := by omega
        clear hi
        interval_cases i
        all_goals simp only [List.getD_cons_zero, List.getD_cons_succ]
        all_goals linarith
    | 6, _, _ =>
      simp only [gx, gw, gaussX, gaussW]
      constructor
      · intro i hi; interval_cases i <;> norm_num
      · intro i hi
        have : i ≤ 4 := by omega
        clear hi
        interval_cases i <;> norm_num
    | 7, _, _ =>
      simp only [gx, gw, gaussX, gaussW]
      constructor
      · intro i hi; interval_cases i <;> norm_num
      · intro i hi
        have : i ≤ 5 := by omega
        clear hi
        interval_cases i <;> norm_num
    | 8, _, _ =>
      simp only [gx, gw, gaussX, gaussW]
      constructor
      · intro i hi; interval_cases i <;> norm_num
      · intro i hi
        have : i ≤ 6 := by omega
        clear hi
        interval_cases i <;> norm_num
  refine ⟨fun i hi => ?_, fun i j hij hj => ?_⟩
  · obtain ⟨e1, e2⟩ := hu i hi
    rw [e1, e2]; exact key.1 i hi
  · rw [(hu i (by omega)).1, (hu j hj).1]
    obtain ⟨d, rfl⟩ : ∃ d, j = i + 1 + d := ⟨j - i - 1, by omega⟩
    clear hij
    induction d with
    | zero => exact key.2 i hj
    | succ d ih => exact (ih (by omega)).trans (key.2 _ (by omega))

example : 0 < gw 6 2 ∧ gx 6 2 < gx 6 3 :=
  have h := C67_gauss_points 6 (by decide) (by decide) _ _ (gives_gauss 6 (by decide) (by decide))
  ⟨(h.1 2 (by decide)).1, h.2 2 3 (by decide) (by decide)⟩

/-- C67: Lobatto weights are positive, points lie in [-1, 1], and from order 2 on both ends of the
interval are among the points -/
theorem C67_lobatto_points (p : Nat) (h1 : 1 ≤ p) (h8 : p ≤ 8) (x w : Nat → ℝ) (h : Gives lineLobatto p x w) :
    (∀ i < p, 0 < w i ∧ -1 ≤ x i ∧ x i ≤ 1) ∧ (2 ≤ p → (∃ i < p, x i = -1) ∧ ∃ i < p, x i = 1) := by
  have hu := h.unique (gives_lobatto p h1 h8)
  have key : (∀ i < p, 0 < lw p i ∧ -1 ≤ lx p i ∧ lx p i ≤ 1) ∧
      (2 ≤ p → (∃ i < p, lx p i = -1) ∧ ∃ i < p, lx p i = 1) := by
    match p, h1, h8 with
    | 1, _, _ =>
      refine ⟨fun i hi => ?_, fun h => by omega⟩
      interval_cases i; norm_num [lx, lw, lobattoX, lobattoW]
    | 2, _, _ => exact ⟨fun i hi => by interval_cases i <;> norm_num [lx, lw, lobattoX, lobattoW],
        fun _ => ⟨⟨0, by omega, rfl⟩, 1, by omega, rfl⟩⟩
    | 3, _, _ => exact ⟨fun i hi => by interval_cases i <;> norm_num [lx, lw, lobattoX, lobattoW],
        fun _ => ⟨⟨2, by omega, rfl⟩, 0, by omega, rfl⟩⟩
    | 4, _, _ => exact ⟨fun i hi => by interval_cases i <;> norm_num [lx, lw, lobattoX, lobattoW],
        fun _ => ⟨⟨0, by omega, rfl⟩, 3, by omega, rfl⟩⟩
    | 5, _, _ => exact ⟨fun i hi => by interval_cases i <;> norm_num [lx, lw, lobattoX, lobattoW],
        fun _ => ⟨⟨0, by omega, rfl⟩, 4, by omega, rfl⟩⟩
    | 6, _, _ => exact ⟨fun i hi => by interval_cases i <;> norm_num [lx, lw, lobattoX, lobattoW],
        fun _ => ⟨⟨0, by omega, rfl⟩, 5, by omega, rfl⟩⟩
    | 7, _, _ => exact ⟨fun i hi => by interval_cases i <;> norm_num [lx, lw, lobattoX, lobattoW],
        fun _ => ⟨⟨0, by omega, rfl⟩, 6, by omega, rfl⟩⟩
    | 8, _, _ => exact ⟨fun i hi => by interval_cases i <;> norm_num [lx, lw, lobattoX, lobattoW],
        fun _ => ⟨⟨0, by omega, rfl⟩, 7, by omega, rfl⟩⟩
  refine ⟨fun i hi => ?_, fun h2 => ?_⟩
  · obtain ⟨e1, e2⟩ := hu i hi
    rw [e1, e2]; exact key.1 i hi
  · obtain ⟨⟨i, hi, e⟩, j, hj, e'⟩ := key.2 h2
    exact ⟨⟨i, hi, by rw [(hu i hi).1, e]⟩, j, hj, by rw [(hu j hj).1, e']⟩

example : ∃ i < 6, lx 6 i = -1 :=
  ((C67_lobatto_points 6 (by decide) (by decide) _ _ (gives_lobatto 6 (by decide) (by decide))).2 (by decide)).1

/-! ## several dimensions -/

/-- C67, two dimensions: `Gauss2D` succeeds, and point `i + q·j` is the pair of line points `i`
and `j`, with their weights and the product; nothing past the `q²` points is touched -/
theorem C67_gauss2d_grid (o : Out) (q : Nat) (h1 : 1 ≤ q) (h8 : q ≤ 8) (x w : Nat → ℝ) (h : Gives lineGauss q x w) :
    ∃ o', gauss2D o q = .ok o' ∧
      (∀ i < q, ∀ j < q, o'.pts (i + q * j) 0 = x i ∧ o'.pts (i + q * j) 1 = x j ∧
        o'.wts (i + q * j) 0 = w i ∧ o'.wts (i + q * j) 1 = w j ∧ o'.tot (i + q * j) = w i * w j) ∧
      ∀ m, q * q ≤ m → o'.pts m = o.pts m ∧ o'.wts m = o.wts m ∧ o'.tot m = o.tot m := by
  obtain ⟨o1, e1, ht, hrow, hrest⟩ := rule2_ok (q := q) h o
  refine ⟨totals 2 (q * q) o1, by rw [gauss2D, e1]; rfl, fun i hi j hj => ?_, fun m hm => ?_⟩
  · have hm : i + q * j < q * q := by nlinarith
    have em : (i + q * j) % q = i := by rw [Nat.add_mul_mod_self_left, Nat.mod_eq_of_lt hi]
    have ed : (i + q * j) / q = j := by rw [Nat.add_mul_div_left _ _ (by omega), Nat.div_eq_of_lt hi, zero_add]
    obtain ⟨⟨a, b⟩, c, d⟩ := hrow _ hm
    rw [em] at a c
    rw [ed] at b d
    refine ⟨a, b, c, d, ?_⟩
    rw [totals_eq, if_pos hm]
    simp [List.range_succ, c, d]
  · obtain ⟨a, b⟩ := hrest m hm
    exact ⟨a, b, by rw [totals_eq, if_neg (by omega), ht]⟩

example (o : Out) : ∃ o', gauss2D o 3 = .ok o' ∧ o'.pts 7 0 = gx 3 1 ∧ o'.pts 7 1 = gx 3 2 := by
  obtain ⟨o', h, hg, -⟩ := C67_gauss2d_grid o 3 (by decide) (by decide) _ _ (gives_gauss 3 (by decide) (by decide))
  exact ⟨o', h, (hg 1 (by decide) 2 (by decide)).1, (hg 1 (by decide) 2 (by decide)).2.1⟩

/-- C67: `Gauss2D` of order up to 5 integrates every product of polynomials of degree at most
`2q - 1` exactly over the square -/
theorem C67_gauss2d_exact (o o' : Out) (q : Nat) (h1 : 1 ≤ q) (h5 : q ≤ 5) (hr : gauss2D o q = .ok o')
    (P Q : ℝ[X]) (hP : P.natDegree ≤ 2 * q - 1) (hQ : Q.natDegree ≤ 2 * q - 1) :
    ∑ m ∈ range (q * q), o'.tot m * (P.eval (o'.pts m 0) * Q.eval (o'.pts m 1))
      = (∫ s in (-1 : ℝ)..1, P.eval s) * ∫ t in (-1 : ℝ)..1, Q.eval t := by
  have hg := gives_gauss q h1 (by omega)
  obtain ⟨o1, e1, ht, hrow, -⟩ := rule2_ok (q := q) hg o
  have e : gauss2D o q = .ok (totals 2 (q * q) o1) := by rw [gauss2D, e1]; rfl
  rw [hr] at e
  obtain rfl := Outcome.ok.inj e
  rw [← C67_gauss_exact q h1 h5 _ _ hg P hP, ← C67_gauss_exact q h1 h5 _ _ hg Q hQ, sum_mul_sum, sum_comm,
    ← Lagrange.sum_grid q q (fun i j => gw q i * P.eval (gx q i) * (gw q j * Q.eval (gx q j))) (by omega)]
  refine sum_congr rfl fun m hm => ?_
  rw [mem_range] at hm
  obtain ⟨⟨a, b⟩, c, d⟩ := hrow m hm
  rw [totals_eq, if_pos hm]
  have hp : (totals 2 (q * q) o1).pts = o1.pts := rfl
  rw [hp, a, b]
  simp only [List.range_succ, List.range_zero, List.nil_append, List.cons_append, List.foldl_cons, List.foldl_nil,
    if_true, one_ne_zero, if_false, c, d]
  ring

/-- `s⁴ t²` over the square -/
example (o : Out) : ∃ o', gauss2D o 3 = .ok o' ∧ ∑ m ∈ range 9, o'.tot m * (o'.pts m 0 ^ 4 * o'.pts m 1 ^ 2) = 2 / 5 * (2 / 3) := by
  obtain ⟨o', h, -⟩ := C67_gauss2d_grid o 3 (by decide) (by decide) _ _ (gives_gauss 3 (by decide) (by decide))
  have := C67_gauss2d_exact o o' 3 (by decide) (by decide) h (X ^ 4) (X ^ 2) (by simp) (by simp)
  simp [integral_pow] at this
  exact ⟨o', h, by rw [this]; norm_num⟩

/-- C67, three dimensions: `Gauss3D` succeeds, and point `i + q·(j + q·k)` is the triple of line
points -/
theorem C67_gauss3d_grid (o : Out) (q : Nat) (h1 : 1 ≤ q) (h8 : q ≤ 8) (x w : Nat → ℝ) (h : Gives lineGauss q x w) :
    ∃ o', gauss3D o q = .ok o' ∧
      (∀ i < q, ∀ j < q, ∀ k < q,
        let m := i + q * (j + q * k)
        (o'.pts m 0 = x i ∧ o'.pts m 1 = x j ∧ o'.pts m 2 = x k) ∧
        (o'.wts m 0 = w i ∧ o'.wts m 1 = w j ∧ o'.wts m 2 = w k) ∧ o'.tot m = w i * w j * w k) ∧
      ∀ m, q * q * q ≤ m → o'.pts m = o.pts m ∧ o'.wts m = o.wts m ∧ o'.tot m = o.tot m := by
  obtain ⟨o1, e1, ht, hrow, hrest⟩ := rule3_ok (q := q) h o
  refine ⟨totals 3 (q * q * q) o1, by rw [gauss3D, e1]; rfl, fun i hi j hj k hk => ?_, fun m hm => ?_⟩
  · have e0 : (i + q * (j + q * k)) / q = j + q * k := by
      rw [Nat.add_mul_div_left _ _ (by omega), Nat.div_eq_of_lt hi, zero_add]
    have hb : j + q * k < q * q := by nlinarith
    have hm : i + q * (j + q * k) < q * q * q := by
      rw [Nat.mul_assoc]
      generalize q * q = a at *
      generalize j + q * k = b at *
      have : q * (b + 1) ≤ q * a := Nat.mul_le_mul_left _ hb
      rw [Nat.mul_succ] at this
      omega
    have em : (i + q * (j + q * k)) % q = i := by rw [Nat.add_mul_mod_self_left, Nat.mod_eq_of_lt hi]
    have ed : (i + q * (j + q * k)) / q % q = j := by rw [e0, Nat.add_mul_mod_self_left, Nat.mod_eq_of_lt hj]
    have ek : (i + q * (j + q * k)) / (q * q) = k := by
      rw [← Nat.div_div_eq_div_mul, e0, Nat.add_mul_div_left _ _ (by omega), Nat.div_eq_of_lt hj, zero_add]
    obtain ⟨⟨a, b, c⟩, d, e, f⟩ := hrow _ hm
    rw [em] at a d
    rw [ed] at b e
    rw [ek] at c f
    refine ⟨⟨a, b, c⟩, ⟨d, e, f⟩, ?_⟩
    rw [totals_eq, if_pos hm]
    simp [List.range_succ, d, e, f]
  · obtain ⟨a, b⟩ := hrest m hm
    exact ⟨a, b, by rw [totals_eq, if_neg (by omega), ht]⟩

example (o : Out) : ∃ o', gauss3D o 3 = .ok o' ∧ o'.tot 16 = gw 3 1 * gw 3 2 * gw 3 1 := by
  obtain ⟨o', h, hg, -⟩ := C67_gauss3d_grid o 3 (by decide) (by decide) _ _ (gives_gauss 3 (by decide) (by decide))
  exact ⟨o', h, (hg 1 (by decide) 2 (by decide) 1 (by decide)).2.2⟩

/-- C67: `Gauss3D` of order up to 5 integrates every product of polynomials of degree at most
`2q - 1` exactly over the cube -/
theorem C67_gauss3d_exact (o o' : Out) (q : Nat) (h1 : 1 ≤ q) (h5 : q ≤ 5) (hr : gauss3D o q = .ok o')
    (P Q S : ℝ[X]) (hP : P.natDegree ≤ 2 * q - 1) (hQ : Q.natDegree ≤ 2 * q - 1) (hS : S.natDegree ≤ 2 * q - 1) :
    ∑ m ∈ range (q * q * q), o'.tot m * (P.eval (o'.pts m 0) * Q.eval (o'.pts m 1) * S.eval (o'.pts m 2))
      = (∫ s in (-1 : ℝ)..1, P.eval s) * (∫ t in (-1 : ℝ)..1, Q.eval t) * ∫ u in (-1 : ℝ)..1, S.eval u := by
  have hg := gives_gauss q h1 (by omega)
  obtain ⟨o1, e1, ht, hrow, -⟩ := rule3_ok (q := q) hg o
  have e : gauss3D o q = .ok (totals 3 (q * q * q) o1) := by rw [gauss3D, e1]; rfl
  rw [hr] at e
  obtain rfl := Outcome.ok.inj e
  have hs : ∑ k ∈ range q, ∑ j ∈ range q, ∑ i ∈ range q,
      gw q i * P.eval (gx q i) * (gw q j * Q.eval (gx q j)) * (gw q k * S.eval (gx q k))
      = (∑ i ∈ range q, gw q i * P.eval (gx q i)) * (∑ j ∈ range q, gw q j * Q.eval (gx q j))
        * ∑ k ∈ range q, gw q k * S.eval (gx q k) := by
    rw [mul_sum]
    refine sum_congr rfl fun k _ => ?_
    rw [sum_mul_sum, sum_comm, sum_mul]
    refine sum_congr rfl fun i _ => ?_
    rw [sum_mul]
  rw [← C67_gauss_exact q h1 h5 _ _ hg P hP, ← C67_gauss_exact q h1 h5 _ _ hg Q hQ,
    ← C67_gauss_exact q h1 h5 _ _ hg S hS, ← hs, ← sum_grid3 q (by omega) (fun i j k =>
      gw q i * P.eval (gx q i) * (gw q j * Q.eval (gx q j)) * (gw q k * S.eval (gx q k)))]
  refine sum_congr rfl fun m hm => ?_
  rw [mem_range] at hm
  obtain ⟨⟨a, b, c⟩, d, f, g⟩ := hrow m hm
  rw [totals_eq, if_pos hm]
  have hp : (totals 3 (q * q * q) o1).pts = o1.pts := rfl
  rw [hp, a, b, c]
  simp only [List.range_succ, List.range_zero, List.nil_append, List.cons_append, List.foldl_cons, List.foldl_nil,
    if_true, one_ne_zero, OfNat.ofNat_ne_zero, if_false, d, f, g]
  ring

example (o : Out) : ∃ o', gauss3D o 3 = .ok o' ∧
    ∑ m ∈ range 27, o'.tot m * (o'.pts m 0 ^ 4 * o'.pts m 1 ^ 2 * o'.pts m 2 ^ 2) = 2 / 5 * (2 / 3) * (2 / 3) := by
  obtain ⟨o', h, -⟩ := C67_gauss3d_grid o 3 (by decide) (by decide) _ _ (gives_gauss 3 (by decide) (by decide))
  have := C67_gauss3d_exact o o' 3 (by decide) (by decide) h (X ^ 4) (X ^ 2) (X ^ 2) (by simp) (by simp) (by simp)
  simp [integral_pow] at this
  exact ⟨o', h, by rw [this]; norm_num⟩

/-- C67, four dimensions (`dim = 4`): every quadruple of line points appears, at index
`i + q·(j + q·(k + q·l))` -/
theorem C67_gauss4d_grid (o : Out) (q : Nat) (h1 : 1 ≤ q) (h8 : q ≤ 8) (x w : Nat → ℝ) (h : Gives lineGauss q x w) :
    ∃ o', gauss4D o q 4 = .ok o' ∧
      (∀ i < q, ∀ j < q, ∀ k < q, ∀ l < q,
        let m := i + q * (j + q * (k + q * l))
        m < q * q * q * q ∧
        (o'.pts m 0 = x i ∧ o'.pts m 1 = x j ∧ o'.pts m 2 = x k ∧ o'.pts m 3 = x l) ∧
        (o'.wts m 0 = w i ∧ o'.wts m 1 = w j ∧ o'.wts m 2 = w k ∧ o'.wts m 3 = w l)) ∧
      ∀ m, q * q * q * q ≤ m → o'.pts m = o.pts m ∧ o'.wts m = o.wts m := by
  obtain ⟨o1, e1, ht, hrow, hrest⟩ := rule4_ok (q := q) h o
  refine ⟨o1, e1, fun i hi j hj k hk l hl => ?_, hrest⟩
  have e0 : (i + q * (j + q * (k + q * l))) / q = j + q * (k + q * l) := by
    rw [Nat.add_mul_div_left _ _ (by omega), Nat.div_eq_of_lt hi, zero_add]
  have e00 : (j + q * (k + q * l)) / q = k + q * l := by
    rw [Nat.add_mul_div_left _ _ (by omega), Nat.div_eq_of_lt hj, zero_add]
  have ha : ∀ a b c : Nat, a < q → b < c → a + q * b < q * c := by
    intro a b c h1 h2
    have : q * (b + 1) ≤ q * c := Nat.mul_le_mul_left _ h2
    rw [Nat.mul_succ] at this
    omega
  have hm : i + q * (j + q * (k + q * l)) < q * q * q * q := by
    have := ha i _ _ hi (ha j _ _ hj (ha k l q hk hl))
    rw [Nat.mul_assoc, Nat.mul_assoc]; exact this
  have e1' : (i + q * (j + q * (k + q * l))) % q = i := by rw [Nat.add_mul_mod_self_left, Nat.mod_eq_of_lt hi]
  have e2' : (i + q * (j + q * (k + q * l))) / q % q = j := by rw [e0, Nat.add_mul_mod_self_left, Nat.mod_eq_of_lt hj]
  have e3' : (i + q * (j + q * (k + q * l))) / (q * q) % q = k := by
    rw [← Nat.div_div_eq_div_mul, e0, e00, Nat.add_mul_mod_self_left, Nat.mod_eq_of_lt hk]
  have e4' : (i + q * (j + q * (k + q * l))) / (q * q * q) = l := by
    rw [← Nat.div_div_eq_div_mul, ← Nat.div_div_eq_div_mul, e0, e00, Nat.add_mul_div_left _ _ (by omega),
      Nat.div_eq_of_lt hk, zero_add]
  obtain ⟨⟨a, b, c, d⟩, e, f, g, k'⟩ := hrow _ hm
  rw [e1'] at a e
  rw [e2'] at b f
  rw [e3'] at c g
  rw [e4'] at d k'
  exact ⟨hm, ⟨a, b, c, d⟩, e, f, g, k'⟩

example (o : Out) : ∃ o', gauss4D o 2 4 = .ok o' ∧ o'.pts 5 2 = gx 2 1 := by
  obtain ⟨o', h, hg, -⟩ := C67_gauss4d_grid o 2 (by decide) (by decide) _ _ (gives_gauss 2 (by decide) (by decide))
  exact ⟨o', h, (hg 1 (by decide) 0 (by decide) 1 (by decide) 0 (by decide)).2.1.2.2.1⟩

/-- C67: the same for the Lobatto rules in two, three and four dimensions: the integrals of
products of polynomials are the products of the line sums -/
theorem C67_lobatto_tensor (o : Out) (q : Nat) (h1 : 1 ≤ q) (h8 : q ≤ 8) (x w : Nat → ℝ) (h : Gives lineLobatto q x w)
    (f g r s : ℝ → ℝ) :
    (∃ o', lobatto2D o q = .ok o' ∧
      ∑ m ∈ range (q * q), o'.wts m 0 * o'.wts m 1 * (f (o'.pts m 0) * g (o'.pts m 1))
        = (∑ i ∈ range q, w i * f (x i)) * ∑ i ∈ range q, w i * g (x i)) ∧
    (∃ o', lobatto3D o q = .ok o' ∧
      ∑ m ∈ range (q * q * q), o'.wts m 0 * o'.wts m 1 * o'.wts m 2
          * (f (o'.pts m 0) * g (o'.pts m 1) * r (o'.pts m 2))
        = (∑ i ∈ range q, w i * f (x i)) * (∑ i ∈ range q, w i * g (x i)) * ∑ i ∈ range q, w i * r (x i)) ∧
    (∃ o', lobatto4D o q 4 = .ok o' ∧
      ∑ m ∈ range (q * q * q * q), o'.wts m 0 * o'.wts m 1 * o'.wts m 2 * o'.wts m 3
          * (f (o'.pts m 0) * g (o'.pts m 1) * r (o'.pts m 2) * s (o'.pts m 3))
        = (∑ i ∈ range q, w i * f (x i)) * (∑ i ∈ range q, w i * g (x i)) * (∑ i ∈ range q, w i * r (x i))
          * ∑ i ∈ range q, w i * s (x i)) := by
  refine ⟨?_, ?_, ?_⟩
  · obtain ⟨o1, e1, -, hrow, -⟩ := rule2_ok (q := q) h o
    refine ⟨o1, e1, ?_⟩
    rw [sum_mul_sum, sum_comm,
      ← Lagrange.sum_grid q q (fun i j => w i * f (x i) * (w j * g (x j))) (by omega)]
    refine sum_congr rfl fun m hm => ?_
    rw [mem_range] at hm
    obtain ⟨⟨a, b⟩, c, d⟩ := hrow m hm
    rw [a, b, c, d]; ring
  · obtain ⟨o1, e1, -, hrow, -⟩ := rule3_ok (q := q) h o
    refine ⟨o1, e1, ?_⟩
    have hs : ∑ k ∈ range q, ∑ j ∈ range q, ∑ i ∈ range q,
        w i * f (x i) * (w j * g (x j)) * (w k * r (x k))
        = (∑ i ∈ range q, w i * f (x i)) * (∑ j ∈ range q, w j * g (x j)) * ∑ k ∈ range q, w k * r (x k) := by
      rw [mul_sum]
      refine sum_congr rfl fun k _ => ?_
      rw [sum_mul_sum, sum_comm, sum_mul]
      refine sum_congr rfl fun i _ => ?_
      rw [sum_mul]
    rw [← hs, ← sum_grid3 q (by omega) (fun i j k => w i * f (x i) * (w j * g (x j)) * (w k * r (x k)))]
    refine sum_congr rfl fun m hm => ?_
    rw [mem_range] at hm
    obtain ⟨⟨a, b, c⟩, d, e, k⟩ := hrow m hm
    rw [a, b, c, d, e, k]; ring
  · obtain ⟨o1, e1, -, hrow, -⟩ := rule4_ok (q := q) h o
    refine ⟨o1, e1, ?_⟩
    have hs : ∑ l ∈ range q, ∑ k ∈ range q, ∑ j ∈ range q, ∑ i ∈ range q,
        w i * f (x i) * (w j * g (x j)) * (w k * r (x k)) * (w l * s (x l))
        = (∑ i ∈ range q, w i * f (x i)) * (∑ j ∈ range q, w j * g (x j)) * (∑ k ∈ range q, w k * r (x k))
          * ∑ l ∈ range q, w l * s (x l) := by
      rw [mul_sum]
      refine sum_congr rfl fun l _ => ?_
      rw [mul_sum, sum_mul]
      refine sum_congr rfl fun k _ => ?_
      rw [sum_mul_sum, sum_comm, sum_mul, sum_mul]
      refine sum_congr rfl fun i _ => ?_
      rw [sum_mul, sum_mul]
    rw [← hs, ← sum_grid4 q (by omega) (fun i j k l =>
      w i * f (x i) * (w j * g (x j)) * (w k * r (x k)) * (w l * s (x l)))]
    refine sum_congr rfl fun m hm => ?_
    rw [mem_range] at hm
    obtain ⟨⟨a, b, c, d⟩, e, k, n, t⟩ := hrow m hm
    rw [a, b, c, d, e, k, n, t]; ring

/-- C67: orders above 8 are not supported: the line rules leave `x` and `w` as they were, and the
two- and three-dimensional rules read them uninitialised, which is undefined -/
theorem C67_unsupported (o : Out) (q : Nat) (h : 9 ≤ q) (x0 w0 : Option ℝ) (m : Int) :
    lineGauss ⟨x0, w0, m⟩ q = .ok ⟨x0, w0, m - 1⟩ ∧ lineLobatto ⟨x0, w0, m⟩ q = .ok ⟨x0, w0, m - 1⟩ ∧
    gauss2D o q = .ub ∧ lobatto2D o q = .ub ∧ gauss3D o q = .ub ∧ lobatto3D o q = .ub := by
  have hne : ∀ k : Int, k ≤ 8 → (q : Int) ≠ k := by intro k hk; omega
  have hl : ∀ x0 w0 m, lineGauss ⟨x0, w0, m⟩ q = .ok ⟨x0, w0, m - 1⟩ := by
    intro x0 w0 m
    simp only [lineGauss]
    rw [if_neg (hne 1 (by norm_num)), if_neg (hne 2 (by norm_num)), if_neg (hne 3 (by norm_num)),
      if_neg (hne 4 (by norm_num)), if_neg (hne 5 (by norm_num)), if_neg (hne 6 (by norm_num)),
      if_neg (hne 7 (by norm_num)), if_neg (hne 8 (by norm_num))]
  have hlo : ∀ x0 w0 m, lineLobatto ⟨x0, w0, m⟩ q = .ok ⟨x0, w0, m - 1⟩ := by
    intro x0 w0 m
    simp only [lineLobatto]
    rw [if_neg (hne 1 (by norm_num)), if_neg (hne 2 (by norm_num)), if_neg (hne 3 (by norm_num)),
      if_neg (hne 4 (by norm_num)), if_neg (hne 5 (by norm_num)), if_neg (hne 6 (by norm_num)),
      if_neg (hne 7 (by norm_num)), if_neg (hne 8 (by norm_num))]
  have key : ∀ (rule : Rule), (∀ x0 w0 m, rule ⟨x0, w0, m⟩ q = .ok ⟨x0, w0, m - 1⟩) →
      rule2 rule o q = .ub ∧ rule3 rule o q = .ub := by
    intro rule hrule
    have hd : ∀ m d i o, direction rule q m d i (o, none, none) = .ub := by
      intro m d i o
      simp [direction, hrule, read]
    have first : ∀ (n : Nat) (body : Out → Nat → Outcome Out), 0 < n → (∀ o m, body o m = .ub) →
        loopM n body o = .ub := by
      intro n body hn hb
      obtain ⟨n, rfl⟩ : ∃ k, n = k + 1 := ⟨n - 1, by omega⟩
      unfold loopM
      rw [List.range_succ_eq_map, List.foldlM_cons, hb]; rfl
    constructor
    · refine first _ _ (by positivity) fun o m => ?_
      dsimp only
      rw [hd]; rfl
    · refine first _ _ (by positivity) fun o m => ?_
      dsimp only
      rw [hd]; rfl
  refine ⟨hl _ _ _, hlo _ _ _, ?_, (key _ hlo).1, ?_, (key _ hlo).2⟩
  · rw [gauss2D, (key _ hl).1]; rfl
  · rw [gauss3D, (key _ hl).2]; rfl

/-- the three-point rule: points -√(3/5), 0, √(3/5), and the integral of `t⁴` is 2/5 -/
example : ∃ x w, Gives lineGauss 3 x w ∧ x 1 = 0 ∧ w 1 = 8 / 9 ∧ x 2 = √(3 / 5) ∧
    ∑ i ∈ range 3, w i * x i ^ 4 = 2 / 5 := by
  refine ⟨gx 3, gw 3, gives_gauss 3 (by omega) (by omega), rfl, rfl, rfl, ?_⟩
  have := C67_gauss_exact 3 (by omega) (by omega) (gx 3) (gw 3) (gives_gauss 3 (by omega) (by omega)) (X ^ 4)
    (by rw [natDegree_X_pow]; omega)
  simp only [eval_pow, eval_X] at this
  rw [this, integral_pow]; norm_num

end Verif.Quadrature
