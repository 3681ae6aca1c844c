import Verif.Lagrange.Props

/-! # C66: the tensor-product elements `QuadN` and `HexN` -/

namespace Verif.Lagrange

open Finset Polynomial

section
variable {R : Type} [Field R] [DecidableEq R]

/-- the nodes `0 … o` are pairwise different -/
def AllDiffer (x : Nat → R) (o : Nat) : Prop := ∀ a ≤ o, ∀ b ≤ o, x a = x b → a = b

omit [DecidableEq R] in
theorem AllDiffer.distinct {x : Nat → R} {o : Nat} (h : AllDiffer x o) : Distinct x o := fun a ha b hb =>
  h a (by simpa [Nat.lt_succ_iff] using ha) b (by simpa [Nat.lt_succ_iff] using hb)

omit [DecidableEq R] in
theorem lag_repro {x : Nat → R} {o : Nat} (h : AllDiffer x o) (t : R) (P : R[X]) (hP : P.natDegree ≤ o) :
    ∑ i ∈ range (o + 1), P.eval (x i) * lagC t x o i = P.eval t ∧
    ∑ i ∈ range (o + 1), P.eval (x i) * lagQ t x o i = (derivative P).eval t := by
  classical
  have := C64_reproduces (fun _ => 0) (fun _ => 0) x t o h _ _ (lagrange1D_ok _ _ _ _ _ h.distinct) P hP
  constructor
  · rw [← this.1]
    exact sum_congr rfl fun i hi => by rw [if_pos (by simpa [Nat.lt_succ_iff] using hi)]
  · rw [← this.2]
    exact sum_congr rfl fun i hi => by rw [if_pos (by simpa [Nat.lt_succ_iff] using hi)]

omit [DecidableEq R] in
theorem lagC_node {x : Nat → R} {o : Nat} (h : AllDiffer x o) (i a : Nat) (hi : i ≤ o) (ha : a ≤ o) :
    lagC (x a) x o i = if i = a then 1 else 0 := by
  classical
  have := C64_nodes (fun _ => 0) (fun _ => 0) x o h _ _ a ha (lagrange1D_ok _ _ _ _ _ h.distinct) i hi
  rw [← this, if_pos hi]

/-- for the examples: equidistant nodes -1, 0, 1, …, in any field of characteristic zero -/
theorem steps_differ (K : Type) [Field K] [CharZero K] (o : Nat) : AllDiffer (fun i => (i : K) - 1) o :=
  fun a _ b _ h => by simpa using h

/-! ## QuadN -/

/-- C66: `QuadN::basis_partials` succeeds for every order, point and pairwise different nodes, and
touches nothing past the `(order+1)²` nodes of the element -/
theorem C66_quad_succeeds (w : Work R) (nodes1d xi : Nat → R) (o : Nat) (h : AllDiffer nodes1d o) :
    ∃ w', quadNBasisPartials w nodes1d xi o = .ok w' ∧ ∀ m, (o + 1) * (o + 1) ≤ m →
      w'.nodes m = w.nodes m ∧ w'.basis m = w.basis m ∧ w'.partials m = w.partials m := by
  obtain ⟨w', e, -, h'⟩ := quadN_ok w nodes1d xi o h.distinct
  exact ⟨w', e, h'⟩

/-- the quadratic element -/
example (w : Work ℚ) (xi : Nat → ℚ) : ∃ w', quadNBasisPartials w (fun i => (i : ℚ) - 1) xi 2 = .ok w' := by
  obtain ⟨w', h, -⟩ := C66_quad_succeeds w _ xi 2 (steps_differ ℚ 2)
  exact ⟨w', h⟩

theorem quadN_of {w w' : Work R} {nodes1d xi : Nat → R} {o : Nat} (h : AllDiffer nodes1d o)
    (hr : quadNBasisPartials w nodes1d xi o = .ok w') : ∀ m < (o + 1) * (o + 1),
        (w'.nodes m 0 = nodes1d (m % (o + 1)) ∧ w'.nodes m 1 = nodes1d (m / (o + 1))) ∧
        w'.basis m = lagC (xi 0) nodes1d o (m % (o + 1)) * lagC (xi 1) nodes1d o (m / (o + 1)) ∧
        w'.partials m 0 = lagQ (xi 0) nodes1d o (m % (o + 1)) * lagC (xi 1) nodes1d o (m / (o + 1)) ∧
        w'.partials m 1 = lagC (xi 0) nodes1d o (m % (o + 1)) * lagQ (xi 1) nodes1d o (m / (o + 1)) := by
  obtain ⟨w2, e, h', -⟩ := quadN_ok w nodes1d xi o h.distinct
  rw [hr] at e
  rw [Outcome.ok.inj e]
  exact h'

/-- C66: the nodes are the grid, the first direction running fastest -/
theorem C66_quad_nodes (w w' : Work R) (nodes1d xi : Nat → R) (o : Nat) (h : AllDiffer nodes1d o)
    (hr : quadNBasisPartials w nodes1d xi o = .ok w') (i j : Nat) (hi : i ≤ o) (hj : j ≤ o) :
    w'.nodes (i + (o + 1) * j) 0 = nodes1d i ∧ w'.nodes (i + (o + 1) * j) 1 = nodes1d j := by
  have hm : i + (o + 1) * j < (o + 1) * (o + 1) := by nlinarith
  obtain ⟨⟨h0, h1⟩, -⟩ := quadN_of h hr _ hm
  rw [h0, h1, Nat.add_mul_mod_self_left, Nat.mod_eq_of_lt (by omega), Nat.add_mul_div_left _ _ (by omega),
    Nat.div_eq_of_lt (by omega), zero_add]
  exact ⟨rfl, rfl⟩

example (w : Work ℚ) (xi : Nat → ℚ) : ∃ w', quadNBasisPartials w (fun i => (i : ℚ) - 1) xi 2 = .ok w' ∧ w'.nodes 7 0 = 0 ∧ w'.nodes 7 1 = 1 := by
  obtain ⟨w', h, -⟩ := C66_quad_succeeds w _ xi 2 (steps_differ ℚ 2)
  have := C66_quad_nodes w w' _ xi 2 (steps_differ ℚ 2) h 1 2 (by decide) (by decide)
  norm_num at this
  exact ⟨w', h, this⟩

/-- C66: at a node the basis is one for that node and zero for all others -/
theorem C66_quad_kronecker (w w' : Work R) (nodes1d xi : Nat → R) (o : Nat) (h : AllDiffer nodes1d o)
    (hr : quadNBasisPartials w nodes1d xi o = .ok w') (m m' : Nat) (hm : m < (o + 1) * (o + 1))
    (hm' : m' < (o + 1) * (o + 1)) (h0 : xi 0 = w'.nodes m' 0) (h1 : xi 1 = w'.nodes m' 1) :
    w'.basis m = if m = m' then 1 else 0 := by
  obtain ⟨-, hb, -⟩ := quadN_of h hr m hm
  obtain ⟨⟨n0, n1⟩, -⟩ := quadN_of h hr m' hm'
  have l1 : ∀ m, m % (o + 1) ≤ o := fun m => Nat.lt_succ_iff.1 (Nat.mod_lt _ (by omega))
  have l2 : ∀ m < (o + 1) * (o + 1), m / (o + 1) ≤ o := fun m hm => Nat.lt_succ_iff.1 (Nat.div_lt_of_lt_mul hm)
  rw [hb, h0, h1, n0, n1, lagC_node h _ _ (l1 m) (l1 m'), lagC_node h _ _ (l2 m hm) (l2 m' hm')]
  by_cases e : m = m'
  · simp [e]
  · rw [if_neg e]
    by_cases e1 : m % (o + 1) = m' % (o + 1)
    · rw [if_neg (c := m / (o + 1) = m' / (o + 1)), mul_zero]
      intro e2
      exact e (by rw [← Nat.div_add_mod m (o + 1), ← Nat.div_add_mod m' (o + 1), e1, e2])
    · rw [if_neg e1, zero_mul]

/-- at node 7, the point (0, 1) -/
example (w : Work ℚ) : ∃ w', quadNBasisPartials w (fun i => (i : ℚ) - 1) (fun d => d) 2 = .ok w' ∧ w'.basis 7 = 1 ∧ w'.basis 4 = 0 := by
  obtain ⟨w', h, -⟩ := C66_quad_succeeds w _ (fun d => (d : ℚ)) 2 (steps_differ ℚ 2)
  have h7 := C66_quad_nodes w w' _ _ 2 (steps_differ ℚ 2) h 1 2 (by decide) (by decide)
  norm_num at h7
  have k := fun m hm => C66_quad_kronecker w w' _ _ 2 (steps_differ ℚ 2) h m 7 hm (by decide) (by simp [h7.1]) (by simp [h7.2])
  exact ⟨w', h, by simpa using k 7 (by decide), by simpa using k 4 (by decide)⟩

/-- C66: the element reproduces every product of polynomials of degree at most the order in each
direction (hence every polynomial of that degree in each variable), and so do the partials with
the derivatives -/
theorem C66_quad_reproduces (w w' : Work R) (nodes1d xi : Nat → R) (o : Nat) (h : AllDiffer nodes1d o)
    (hr : quadNBasisPartials w nodes1d xi o = .ok w') (P Q : R[X]) (hP : P.natDegree ≤ o)
    (hQ : Q.natDegree ≤ o) :
    (∑ m ∈ range ((o + 1) * (o + 1)), P.eval (w'.nodes m 0) * Q.eval (w'.nodes m 1) * w'.basis m
      = P.eval (xi 0) * Q.eval (xi 1)) ∧
    (∑ m ∈ range ((o + 1) * (o + 1)), P.eval (w'.nodes m 0) * Q.eval (w'.nodes m 1) * w'.partials m 0
      = (derivative P).eval (xi 0) * Q.eval (xi 1)) ∧
    (∑ m ∈ range ((o + 1) * (o + 1)), P.eval (w'.nodes m 0) * Q.eval (w'.nodes m 1) * w'.partials m 1
      = P.eval (xi 0) * (derivative Q).eval (xi 1)) := by
  have key : ∀ (f : Nat → R) (A B : Nat → R),
      (∀ m < (o + 1) * (o + 1), f m = A (m % (o + 1)) * B (m / (o + 1))) →
      ∑ m ∈ range ((o + 1) * (o + 1)), P.eval (w'.nodes m 0) * Q.eval (w'.nodes m 1) * f m
        = (∑ i ∈ range (o + 1), P.eval (nodes1d i) * A i) * ∑ j ∈ range (o + 1), Q.eval (nodes1d j) * B j := by
    intro f A B hf
    have e := sum_grid (o + 1) (o + 1) (fun i j => P.eval (nodes1d i) * A i * (Q.eval (nodes1d j) * B j)) (by omega)
    rw [sum_comm, ← sum_mul_sum] at e
    rw [← e]
    refine sum_congr rfl fun m hm => ?_
    rw [mem_range] at hm
    obtain ⟨⟨n0, n1⟩, -⟩ := quadN_of h hr m hm
    rw [hf m hm, n0, n1]; ring
  have r0 := lag_repro h (xi 0) P hP
  have r1 := lag_repro h (xi 1) Q hQ
  refine ⟨?_, ?_, ?_⟩
  · rw [key _ _ _ fun m hm => (quadN_of h hr m hm).2.1, r0.1, r1.1]
  · rw [key _ _ _ fun m hm => (quadN_of h hr m hm).2.2.1, r0.2, r1.1]
  · rw [key _ _ _ fun m hm => (quadN_of h hr m hm).2.2.2, r0.1, r1.2]

/-- `x² y` -/
example (w : Work ℚ) (xi : Nat → ℚ) : ∃ w', quadNBasisPartials w (fun i => (i : ℚ) - 1) xi 2 = .ok w' ∧
    ∑ m ∈ range 9, (w'.nodes m 0) ^ 2 * w'.nodes m 1 * w'.basis m = xi 0 ^ 2 * xi 1 := by
  obtain ⟨w', h, -⟩ := C66_quad_succeeds w _ xi 2 (steps_differ ℚ 2)
  have := (C66_quad_reproduces w w' _ xi 2 (steps_differ ℚ 2) h (X ^ 2) X (by simp) (by simp)).1
  exact ⟨w', h, by simpa using this⟩

/-- C66: the basis sums to one, the partials to zero -/
theorem C66_quad_unity (w w' : Work R) (nodes1d xi : Nat → R) (o : Nat) (h : AllDiffer nodes1d o)
    (hr : quadNBasisPartials w nodes1d xi o = .ok w') :
    ∑ m ∈ range ((o + 1) * (o + 1)), w'.basis m = 1 ∧
    ∑ m ∈ range ((o + 1) * (o + 1)), w'.partials m 0 = 0 ∧
    ∑ m ∈ range ((o + 1) * (o + 1)), w'.partials m 1 = 0 := by
  simpa using C66_quad_reproduces w w' nodes1d xi o h hr 1 1 (by simp) (by simp)

example (w : Work ℚ) (xi : Nat → ℚ) : ∃ w', quadNBasisPartials w (fun i => (i : ℚ) - 1) xi 2 = .ok w' ∧ ∑ m ∈ range 9, w'.basis m = 1 := by
  obtain ⟨w', h, -⟩ := C66_quad_succeeds w _ xi 2 (steps_differ ℚ 2)
  exact ⟨w', h, (C66_quad_unity w w' _ xi 2 (steps_differ ℚ 2) h).1⟩

/-- C66: the corners are the corners of the grid, in the order of the diagram -/
theorem C66_quad_corners (w w' : Work R) (nodes1d xi : Nat → R) (o : Nat) (h : AllDiffer nodes1d o)
    (hr : quadNBasisPartials w nodes1d xi o = .ok w') (lagCorner : Nat → Nat → R) :
    let c := quadNCorners w'.nodes lagCorner o
    let lo := nodes1d 0
    let hi := nodes1d o
    (c 0 0 = lo ∧ c 0 1 = lo) ∧ (c 1 0 = hi ∧ c 1 1 = lo) ∧ (c 2 0 = lo ∧ c 2 1 = hi) ∧
    (c 3 0 = hi ∧ c 3 1 = hi) ∧ ∀ n, 4 ≤ n → c n = lagCorner n := by
  have hB : o + 1 - 1 = o + (o + 1) * 0 := by omega
  have hC : (o + 1) * (o + 1) - (o + 1) = 0 + (o + 1) * o := by
    rw [Nat.mul_succ, Nat.add_sub_cancel, zero_add]
  have hD : (o + 1) * (o + 1) - 1 = o + (o + 1) * o := by
    rw [Nat.mul_succ]; omega
  have hn := C66_quad_nodes w w' nodes1d xi o h hr
  have a := hn 0 0 (by omega) (by omega)
  have b := hn o 0 le_rfl (by omega)
  have c := hn 0 o (by omega) le_rfl
  have d := hn o o le_rfl le_rfl
  simp only [quadNCorners]
  rw [hB, hC, hD]
  refine ⟨?_, ?_, ?_, ?_, fun n hn => ?_⟩
  · simpa [Function.update] using a
  · simpa [Function.update] using b
  · simpa [Function.update] using c
  · simpa [Function.update] using d
  · rw [Function.update_of_ne (by omega), Function.update_of_ne (by omega), Function.update_of_ne (by omega),
      Function.update_of_ne (by omega)]

example (w : Work ℚ) (xi : Nat → ℚ) : ∃ w', quadNBasisPartials w (fun i => (i : ℚ) - 1) xi 2 = .ok w' ∧ quadNCorners w'.nodes (fun _ _ => 9) 2 2 1 = 1 := by
  obtain ⟨w', h, -⟩ := C66_quad_succeeds w _ xi 2 (steps_differ ℚ 2)
  have := (C66_quad_corners w w' _ xi 2 (steps_differ ℚ 2) h (fun _ _ => 9)).2.2.1
  norm_num at this
  exact ⟨w', h, this.2⟩

theorem position_loop (n D : Nat) (x : Nat → R) (nodes : Nat → Nat → R) (basis : Nat → R) (d : Nat) :
    loop n (fun x v => loop D (fun x dim => Function.update x dim (x dim + nodes v dim * basis v)) x) x d
      = if d < D then x d + ∑ v ∈ range n, nodes v d * basis v else x d := by
  have inner : ∀ (D : Nat) (x : Nat → R) (v d : Nat),
      loop D (fun x dim => Function.update x dim (x dim + nodes v dim * basis v)) x d
        = if d < D then x d + nodes v d * basis v else x d := by
    intro D x v d
    induction D with
    | zero => rfl
    | succ D ih =>
      rw [loop_succ]
      by_cases e : d = D
      · subst e
        rw [Function.update_self, ih, if_neg (by omega), if_pos (by omega)]
      · rw [Function.update_of_ne e, ih]
        have : d < D + 1 ↔ d < D := by omega
        simp [this]
  induction n with
  | zero => simp [loop_zero]
  | succ n ih =>
    rw [loop_succ, inner, ih, sum_range_succ]
    split <;> ring

/-- C66, what `QuadN::physical_position` computes: only the first coordinate is mapped, and it is
added to what the caller's vector held -/
theorem C66_quad_position_partial (x : Nat → R) (nodes : Nat → Nat → R) (basis : Nat → R) (o : Nat) :
    quadNPosition x nodes basis o 0 = x 0 + ∑ v ∈ range ((o + 1) * (o + 1)), nodes v 0 * basis v ∧
    ∀ d, 1 ≤ d → quadNPosition x nodes basis o d = x d := by
  unfold quadNPosition
  refine ⟨by rw [position_loop, if_pos (by omega)], fun d hd => by rw [position_loop, if_neg (by omega)]⟩

/-- C66 fails for `QuadN::physical_position`: mapping a reference point through the element's own
nodes should give the point back, but the second coordinate stays as it was, for every order and
every point whose second coordinate is not what the vector held -/
theorem C66_quad_position_fails (w w' : Work R) (nodes1d xi : Nat → R) (o : Nat) (ho : 1 ≤ o)
    (h : AllDiffer nodes1d o) (hr : quadNBasisPartials w nodes1d xi o = .ok w') (hx : xi 1 ≠ 0) :
    ∑ v ∈ range ((o + 1) * (o + 1)), w'.nodes v 1 * w'.basis v = xi 1 ∧
    quadNPosition (fun _ => 0) w'.nodes w'.basis o 0 = xi 0 ∧
    quadNPosition (fun _ => 0) w'.nodes w'.basis o 1 ≠ xi 1 := by
  obtain ⟨p0, p1⟩ := C66_quad_position_partial (fun _ => 0) w'.nodes w'.basis o
  have r := (C66_quad_reproduces w w' nodes1d xi o h hr 1 X (by simp) (by rw [natDegree_X]; exact ho)).1
  have r0 := (C66_quad_reproduces w w' nodes1d xi o h hr X 1 (by rw [natDegree_X]; exact ho) (by simp)).1
  simp only [eval_one, one_mul, eval_X, mul_one] at r r0
  refine ⟨r, by rw [p0, zero_add, r0], by rw [p1 1 le_rfl]; exact Ne.symm hx⟩

example (w : Work ℚ) : ∃ w', quadNBasisPartials w (fun i => (i : ℚ) - 1) (fun _ => 1 / 2) 2 = .ok w' ∧
    quadNPosition (fun _ => 0) w'.nodes w'.basis 2 1 ≠ 1 / 2 := by
  obtain ⟨w', h, -⟩ := C66_quad_succeeds w _ (fun _ => (1 / 2 : ℚ)) 2 (steps_differ ℚ 2)
  exact ⟨w', h, (C66_quad_position_fails w w' _ _ 2 (by decide) (steps_differ ℚ 2) h (by norm_num)).2.2⟩

/-! ## HexN -/

/-- C66: `HexN::basis_partials` succeeds for every order, point and pairwise different nodes, and
touches nothing past the `(order+1)³` nodes of the element -/
theorem C66_hex_succeeds (w : Work R) (nodes1d xi : Nat → R) (o : Nat) (h : AllDiffer nodes1d o) :
    ∃ w', hexNBasisPartials w nodes1d xi o = .ok w' ∧ ∀ m, (o + 1) * (o + 1) * (o + 1) ≤ m →
      w'.nodes m = w.nodes m ∧ w'.basis m = w.basis m ∧ w'.partials m = w.partials m := by
  obtain ⟨w', e, -, h'⟩ := hexN_ok w nodes1d xi o h.distinct
  exact ⟨w', e, h'⟩

/-- the quadratic element -/
example (w : Work ℚ) (xi : Nat → ℚ) : ∃ w', hexNBasisPartials w (fun i => (i : ℚ) - 1) xi 2 = .ok w' := by
  obtain ⟨w', h, -⟩ := C66_hex_succeeds w _ xi 2 (steps_differ ℚ 2)
  exact ⟨w', h⟩

theorem hexN_of {w w' : Work R} {nodes1d xi : Nat → R} {o : Nat} (h : AllDiffer nodes1d o)
    (hr : hexNBasisPartials w nodes1d xi o = .ok w') : ∀ m < (o + 1) * (o + 1) * (o + 1),
      (w'.nodes m 0 = nodes1d (m % (o + 1)) ∧ w'.nodes m 1 = nodes1d (m / (o + 1) % (o + 1)) ∧
        w'.nodes m 2 = nodes1d (m / ((o + 1) * (o + 1)))) ∧
      w'.basis m = lagC (xi 0) nodes1d o (m % (o + 1)) * lagC (xi 1) nodes1d o (m / (o + 1) % (o + 1))
        * lagC (xi 2) nodes1d o (m / ((o + 1) * (o + 1))) ∧
      w'.partials m 0 = lagQ (xi 0) nodes1d o (m % (o + 1)) * lagC (xi 1) nodes1d o (m / (o + 1) % (o + 1))
        * lagC (xi 2) nodes1d o (m / ((o + 1) * (o + 1))) ∧
      w'.partials m 1 = lagC (xi 0) nodes1d o (m % (o + 1)) * lagQ (xi 1) nodes1d o (m / (o + 1) % (o + 1))
        * lagC (xi 2) nodes1d o (m / ((o + 1) * (o + 1))) ∧
      w'.partials m 2 = lagC (xi 0) nodes1d o (m % (o + 1)) * lagC (xi 1) nodes1d o (m / (o + 1) % (o + 1))
        * lagQ (xi 2) nodes1d o (m / ((o + 1) * (o + 1))) := by
  obtain ⟨w2, e, h', -⟩ := hexN_ok w nodes1d xi o h.distinct
  rw [hr] at e
  rw [Outcome.ok.inj e]
  exact h'

omit [Field R] [DecidableEq R] in
theorem grid3 (o i j k : Nat) (hi : i ≤ o) (hj : j ≤ o) (hk : k ≤ o) :
    i + (o + 1) * (j + (o + 1) * k) < (o + 1) * (o + 1) * (o + 1) ∧
    (i + (o + 1) * (j + (o + 1) * k)) % (o + 1) = i ∧
    (i + (o + 1) * (j + (o + 1) * k)) / (o + 1) % (o + 1) = j ∧
    (i + (o + 1) * (j + (o + 1) * k)) / ((o + 1) * (o + 1)) = k := by
  have e : (i + (o + 1) * (j + (o + 1) * k)) / (o + 1) = j + (o + 1) * k := by
    rw [Nat.add_mul_div_left _ _ (by omega), Nat.div_eq_of_lt (by omega), zero_add]
  refine ⟨?_, ?_, ?_, ?_⟩
  · have h1 : j + (o + 1) * k < (o + 1) * (o + 1) := by nlinarith
    rw [Nat.mul_assoc]
    generalize (o + 1) * (o + 1) = a at *
    generalize j + (o + 1) * k = b at *
    have : (o + 1) * (b + 1) ≤ (o + 1) * a := Nat.mul_le_mul_left _ h1
    rw [Nat.mul_succ] at this
    omega
  · rw [Nat.add_mul_mod_self_left, Nat.mod_eq_of_lt (by omega)]
  · rw [e, Nat.add_mul_mod_self_left, Nat.mod_eq_of_lt (by omega)]
  · rw [← Nat.div_div_eq_div_mul, e, Nat.add_mul_div_left _ _ (by omega), Nat.div_eq_of_lt (by omega), zero_add]

/-- C66: the nodes are the grid, the first direction running fastest -/
theorem C66_hex_nodes (w w' : Work R) (nodes1d xi : Nat → R) (o : Nat) (h : AllDiffer nodes1d o)
    (hr : hexNBasisPartials w nodes1d xi o = .ok w') (i j k : Nat) (hi : i ≤ o) (hj : j ≤ o) (hk : k ≤ o) :
    w'.nodes (i + (o + 1) * (j + (o + 1) * k)) 0 = nodes1d i ∧
    w'.nodes (i + (o + 1) * (j + (o + 1) * k)) 1 = nodes1d j ∧
    w'.nodes (i + (o + 1) * (j + (o + 1) * k)) 2 = nodes1d k := by
  obtain ⟨hm, e0, e1, e2⟩ := grid3 o i j k hi hj hk
  obtain ⟨⟨h0, h1, h2⟩, -⟩ := hexN_of h hr _ hm
  rw [h0, h1, h2, e0, e1, e2]
  exact ⟨rfl, rfl, rfl⟩

example (w : Work ℚ) (xi : Nat → ℚ) : ∃ w', hexNBasisPartials w (fun i => (i : ℚ) - 1) xi 2 = .ok w' ∧
    w'.nodes 16 0 = 0 ∧ w'.nodes 16 1 = 1 ∧ w'.nodes 16 2 = 0 := by
  obtain ⟨w', h, -⟩ := C66_hex_succeeds w _ xi 2 (steps_differ ℚ 2)
  have := C66_hex_nodes w w' _ xi 2 (steps_differ ℚ 2) h 1 2 1 (by decide) (by decide) (by decide)
  norm_num at this
  exact ⟨w', h, this⟩

/-- C66: at a node the basis is one for that node and zero for all others -/
theorem C66_hex_kronecker (w w' : Work R) (nodes1d xi : Nat → R) (o : Nat) (h : AllDiffer nodes1d o)
    (hr : hexNBasisPartials w nodes1d xi o = .ok w') (m m' : Nat) (hm : m < (o + 1) * (o + 1) * (o + 1))
    (hm' : m' < (o + 1) * (o + 1) * (o + 1)) (h0 : xi 0 = w'.nodes m' 0) (h1 : xi 1 = w'.nodes m' 1)
    (h2 : xi 2 = w'.nodes m' 2) :
    w'.basis m = if m = m' then 1 else 0 := by
  obtain ⟨-, hb, -⟩ := hexN_of h hr m hm
  obtain ⟨⟨n0, n1, n2⟩, -⟩ := hexN_of h hr m' hm'
  have l1 : ∀ m, m % (o + 1) ≤ o := fun m => Nat.lt_succ_iff.1 (Nat.mod_lt _ (by omega))
  have l2 : ∀ m < (o + 1) * (o + 1) * (o + 1), m / ((o + 1) * (o + 1)) ≤ o := fun m hm =>
    Nat.lt_succ_iff.1 (Nat.div_lt_of_lt_mul hm)
  rw [hb, h0, h1, h2, n0, n1, n2, lagC_node h _ _ (l1 m) (l1 m'), lagC_node h _ _ (l1 _) (l1 _),
    lagC_node h _ _ (l2 m hm) (l2 m' hm')]
  by_cases e : m = m'
  · simp [e]
  · rw [if_neg e]
    by_cases e1 : m % (o + 1) = m' % (o + 1)
    · by_cases e2 : m / (o + 1) % (o + 1) = m' / (o + 1) % (o + 1)
      · rw [if_neg (c := m / ((o + 1) * (o + 1)) = m' / ((o + 1) * (o + 1))), mul_zero]
        intro e3
        rw [← Nat.div_div_eq_div_mul, ← Nat.div_div_eq_div_mul] at e3
        have e4 : m / (o + 1) = m' / (o + 1) := by
          rw [← Nat.div_add_mod (m / (o + 1)) (o + 1), ← Nat.div_add_mod (m' / (o + 1)) (o + 1), e2, e3]
        exact e (by rw [← Nat.div_add_mod m (o + 1), ← Nat.div_add_mod m' (o + 1), e1, e4])
      · rw [if_neg e2, mul_zero, zero_mul]
    · rw [if_neg e1, zero_mul, zero_mul]

/-- at node 16, the point (0, 1, 0) -/
example (w : Work ℚ) : ∃ w', hexNBasisPartials w (fun i => (i : ℚ) - 1) (fun d => if d = 1 then 1 else 0) 2 = .ok w' ∧
    w'.basis 16 = 1 ∧ w'.basis 4 = 0 := by
  obtain ⟨w', h, -⟩ := C66_hex_succeeds w _ (fun d => if d = 1 then (1 : ℚ) else 0) 2 (steps_differ ℚ 2)
  have h7 := C66_hex_nodes w w' _ _ 2 (steps_differ ℚ 2) h 1 2 1 (by decide) (by decide) (by decide)
  norm_num at h7
  have k := fun m hm => C66_hex_kronecker w w' _ _ 2 (steps_differ ℚ 2) h m 16 hm (by decide) (by simp [h7.1])
    (by simp [h7.2]) (by simp [h7.2])
  exact ⟨w', h, by simpa using k 16 (by decide), by simpa using k 4 (by decide)⟩

/-- C66: the element reproduces every product of polynomials of degree at most the order in each
direction, and so do the partials with the derivatives -/
theorem C66_hex_reproduces (w w' : Work R) (nodes1d xi : Nat → R) (o : Nat) (h : AllDiffer nodes1d o)
    (hr : hexNBasisPartials w nodes1d xi o = .ok w') (P Q S : R[X]) (hP : P.natDegree ≤ o)
    (hQ : Q.natDegree ≤ o) (hS : S.natDegree ≤ o) :
    let f := fun m => P.eval (w'.nodes m 0) * Q.eval (w'.nodes m 1) * S.eval (w'.nodes m 2)
    let M := (o + 1) * (o + 1) * (o + 1)
    (∑ m ∈ range M, f m * w'.basis m = P.eval (xi 0) * Q.eval (xi 1) * S.eval (xi 2)) ∧
    (∑ m ∈ range M, f m * w'.partials m 0 = (derivative P).eval (xi 0) * Q.eval (xi 1) * S.eval (xi 2)) ∧
    (∑ m ∈ range M, f m * w'.partials m 1 = P.eval (xi 0) * (derivative Q).eval (xi 1) * S.eval (xi 2)) ∧
    (∑ m ∈ range M, f m * w'.partials m 2 = P.eval (xi 0) * Q.eval (xi 1) * (derivative S).eval (xi 2)) := by
  have key : ∀ (f : Nat → R) (A B D : Nat → R),
      (∀ m < (o + 1) * (o + 1) * (o + 1),
        f m = A (m % (o + 1)) * B (m / (o + 1) % (o + 1)) * D (m / ((o + 1) * (o + 1)))) →
      ∑ m ∈ range ((o + 1) * (o + 1) * (o + 1)),
          P.eval (w'.nodes m 0) * Q.eval (w'.nodes m 1) * S.eval (w'.nodes m 2) * f m
        = (∑ i ∈ range (o + 1), P.eval (nodes1d i) * A i) * (∑ j ∈ range (o + 1), Q.eval (nodes1d j) * B j)
          * ∑ k ∈ range (o + 1), S.eval (nodes1d k) * D k := by
    intro f A B D hf
    have e := sum_grid (o + 1) ((o + 1) * (o + 1)) (fun i b => P.eval (nodes1d i) * A i *
      (Q.eval (nodes1d (b % (o + 1))) * B (b % (o + 1)) * (S.eval (nodes1d (b / (o + 1))) * D (b / (o + 1)))))
      (by omega)
    have e' := sum_grid (o + 1) (o + 1) (fun j k => Q.eval (nodes1d j) * B j * (S.eval (nodes1d k) * D k)) (by omega)
    rw [sum_comm, ← sum_mul_sum] at e e'
    rw [e'] at e
    rw [mul_assoc (∑ i ∈ range (o + 1), P.eval (nodes1d i) * A i), ← e, ← Nat.mul_assoc]
    refine sum_congr rfl fun m hm => ?_
    rw [mem_range] at hm
    obtain ⟨⟨n0, n1, n2⟩, -⟩ := hexN_of h hr m hm
    rw [hf m hm, n0, n1, n2, Nat.div_div_eq_div_mul]; ring
  have r0 := lag_repro h (xi 0) P hP
  have r1 := lag_repro h (xi 1) Q hQ
  have r2 := lag_repro h (xi 2) S hS
  dsimp only
  refine ⟨?_, ?_, ?_, ?_⟩
  · rw [key _ _ _ _ fun m hm => (hexN_of h hr m hm).2.1, r0.1, r1.1, r2.1]
  · rw [key _ _ _ _ fun m hm => (hexN_of h hr m hm).2.2.1, r0.2, r1.1, r2.1]
  · rw [key _ _ _ _ fun m hm => (hexN_of h hr m hm).2.2.2.1, r0.1, r1.2, r2.1]
  · rw [key _ _ _ _ fun m hm => (hexN_of h hr m hm).2.2.2.2, r0.1, r1.1, r2.2]

/-- `x² y z²` -/
example (w : Work ℚ) (xi : Nat → ℚ) : ∃ w', hexNBasisPartials w (fun i => (i : ℚ) - 1) xi 2 = .ok w' ∧
    ∑ m ∈ range 27, (w'.nodes m 0) ^ 2 * w'.nodes m 1 * (w'.nodes m 2) ^ 2 * w'.basis m = xi 0 ^ 2 * xi 1 * xi 2 ^ 2 := by
  obtain ⟨w', h, -⟩ := C66_hex_succeeds w _ xi 2 (steps_differ ℚ 2)
  have := (C66_hex_reproduces w w' _ xi 2 (steps_differ ℚ 2) h (X ^ 2) X (X ^ 2) (by simp) (by simp) (by simp)).1
  exact ⟨w', h, by simpa using this⟩

/-- C66: the basis sums to one, the partials to zero -/
theorem C66_hex_unity (w w' : Work R) (nodes1d xi : Nat → R) (o : Nat) (h : AllDiffer nodes1d o)
    (hr : hexNBasisPartials w nodes1d xi o = .ok w') :
    ∑ m ∈ range ((o + 1) * (o + 1) * (o + 1)), w'.basis m = 1 ∧
    ∀ d < 3, ∑ m ∈ range ((o + 1) * (o + 1) * (o + 1)), w'.partials m d = 0 := by
  have := C66_hex_reproduces w w' nodes1d xi o h hr 1 1 1 (by simp) (by simp) (by simp)
  simp only [eval_one, mul_one, one_mul, derivative_one, eval_zero, zero_mul, mul_zero] at this
  obtain ⟨a, b, c, d⟩ := this
  refine ⟨a, fun k hk => ?_⟩
  match k, hk with
  | 0, _ => exact b
  | 1, _ => exact c
  | 2, _ => exact d

example (w : Work ℚ) (xi : Nat → ℚ) : ∃ w', hexNBasisPartials w (fun i => (i : ℚ) - 1) xi 2 = .ok w' ∧ ∑ m ∈ range 27, w'.basis m = 1 := by
  obtain ⟨w', h, -⟩ := C66_hex_succeeds w _ xi 2 (steps_differ ℚ 2)
  exact ⟨w', h, (C66_hex_unity w w' _ xi 2 (steps_differ ℚ 2) h).1⟩

/-- C66: the corners are the corners of the grid, in the order of the diagram -/
theorem C66_hex_corners (w w' : Work R) (nodes1d xi : Nat → R) (o : Nat) (h : AllDiffer nodes1d o)
    (hr : hexNBasisPartials w nodes1d xi o = .ok w') (lagCorner : Nat → Nat → R) :
    let c := hexNCorners w'.nodes lagCorner o
    let lo := nodes1d 0
    let hi := nodes1d o
    (c 0 0 = lo ∧ c 0 1 = lo ∧ c 0 2 = lo) ∧ (c 1 0 = hi ∧ c 1 1 = lo ∧ c 1 2 = lo) ∧
    (c 2 0 = lo ∧ c 2 1 = hi ∧ c 2 2 = lo) ∧ (c 3 0 = hi ∧ c 3 1 = hi ∧ c 3 2 = lo) ∧
    (c 4 0 = lo ∧ c 4 1 = lo ∧ c 4 2 = hi) ∧ (c 5 0 = hi ∧ c 5 1 = lo ∧ c 5 2 = hi) ∧
    (c 6 0 = lo ∧ c 6 1 = hi ∧ c 6 2 = hi) ∧ (c 7 0 = hi ∧ c 7 1 = hi ∧ c 7 2 = hi) ∧
    ∀ n, 8 ≤ n → c n = lagCorner n := by
  have hB : o + 1 - 1 = o + (o + 1) * (0 + (o + 1) * 0) := by simp
  have hC : (o + 1) * (o + 1) - (o + 1) = 0 + (o + 1) * (o + (o + 1) * 0) := by
    rw [Nat.mul_succ, Nat.add_sub_cancel]; simp
  have hD : (o + 1) * (o + 1) - 1 = o + (o + 1) * (o + (o + 1) * 0) := by
    rw [Nat.mul_succ]; simp; omega
  have hE : (o + 1) * (o + 1) * (o + 1) - (o + 1) * (o + 1) = 0 + (o + 1) * (0 + (o + 1) * o) := by
    rw [Nat.mul_succ ((o + 1) * (o + 1)), Nat.add_sub_cancel]; ring
  have hF : (o + 1) * (o + 1) * (o + 1) - (o + 1) * (o + 1) + (o + 1) - 1 = o + (o + 1) * (0 + (o + 1) * o) := by
    rw [hE]; omega
  have hG : (o + 1) * (o + 1) * (o + 1) - (o + 1) = 0 + (o + 1) * (o + (o + 1) * o) := by
    have : (o + 1) * (o + 1) * (o + 1) = 0 + (o + 1) * (o + (o + 1) * o) + (o + 1) := by ring
    omega
  have hH : (o + 1) * (o + 1) * (o + 1) - 1 = o + (o + 1) * (o + (o + 1) * o) := by
    have : (o + 1) * (o + 1) * (o + 1) = 0 + (o + 1) * (o + (o + 1) * o) + (o + 1) := by ring
    omega
  have hn := C66_hex_nodes w w' nodes1d xi o h hr
  have z : 0 ≤ o := by omega
  have a := hn 0 0 0 z z z
  have b := hn o 0 0 le_rfl z z
  have c := hn 0 o 0 z le_rfl z
  have d := hn o o 0 le_rfl le_rfl z
  have e := hn 0 0 o z z le_rfl
  have f := hn o 0 o le_rfl z le_rfl
  have g := hn 0 o o z le_rfl le_rfl
  have k := hn o o o le_rfl le_rfl le_rfl
  simp only [hexNCorners]
  rw [hF, hB, hC, hD, hE, hG, hH]
  rw [show 0 + (o + 1) * (0 + (o + 1) * 0) = 0 by simp] at a
  generalize o + (o + 1) * (0 + (o + 1) * 0) = iB at *
  generalize 0 + (o + 1) * (o + (o + 1) * 0) = iC at *
  generalize o + (o + 1) * (o + (o + 1) * 0) = iD at *
  generalize 0 + (o + 1) * (0 + (o + 1) * o) = iE at *
  generalize o + (o + 1) * (0 + (o + 1) * o) = iF at *
  generalize 0 + (o + 1) * (o + (o + 1) * o) = iG at *
  generalize o + (o + 1) * (o + (o + 1) * o) = iH at *
  refine ⟨?_, ?_, ?_, ?_, ?_, ?_, ?_, ?_, fun n hn => ?_⟩
  · simpa [Function.update] using a
  · simpa [Function.update] using b
  · simpa [Function.update] using c
  · simpa [Function.update] using d
  · simpa [Function.update] using e
  · simpa [Function.update] using f
  · simpa [Function.update] using g
  · simpa [Function.update] using k
  · iterate 8 rw [Function.update_of_ne (by omega)]

example (w : Work ℚ) (xi : Nat → ℚ) : ∃ w', hexNBasisPartials w (fun i => (i : ℚ) - 1) xi 2 = .ok w' ∧ hexNCorners w'.nodes (fun _ _ => 9) 2 2 1 = 1 := by
  obtain ⟨w', h, -⟩ := C66_hex_succeeds w _ xi 2 (steps_differ ℚ 2)
  have := (C66_hex_corners w w' _ xi 2 (steps_differ ℚ 2) h (fun _ _ => 9)).2.2.1
  norm_num at this
  exact ⟨w', h, this.2.1⟩

/-- C66, what `HexN::physical_position` computes: only the first two coordinates are mapped, and
they are added to what the caller's vector held -/
theorem C66_hex_position_partial (x : Nat → R) (nodes : Nat → Nat → R) (basis : Nat → R) (o : Nat) :
    (∀ d < 2, hexNPosition x nodes basis o d
      = x d + ∑ v ∈ range ((o + 1) * (o + 1) * (o + 1)), nodes v d * basis v) ∧
    ∀ d, 2 ≤ d → hexNPosition x nodes basis o d = x d := by
  unfold hexNPosition
  refine ⟨fun d hd => by rw [position_loop, if_pos hd], fun d hd => by rw [position_loop, if_neg (by omega)]⟩

/-- C66 fails for `HexN::physical_position`: the third coordinate stays as it was -/
theorem C66_hex_position_fails (w w' : Work R) (nodes1d xi : Nat → R) (o : Nat) (ho : 1 ≤ o)
    (h : AllDiffer nodes1d o) (hr : hexNBasisPartials w nodes1d xi o = .ok w') (hx : xi 2 ≠ 0) :
    ∑ v ∈ range ((o + 1) * (o + 1) * (o + 1)), w'.nodes v 2 * w'.basis v = xi 2 ∧
    hexNPosition (fun _ => 0) w'.nodes w'.basis o 0 = xi 0 ∧
    hexNPosition (fun _ => 0) w'.nodes w'.basis o 1 = xi 1 ∧
    hexNPosition (fun _ => 0) w'.nodes w'.basis o 2 ≠ xi 2 := by
  obtain ⟨p0, p1⟩ := C66_hex_position_partial (fun _ => 0) w'.nodes w'.basis o
  have hX : (X : R[X]).natDegree ≤ o := by rw [natDegree_X]; exact ho
  have r0 := (C66_hex_reproduces w w' nodes1d xi o h hr X 1 1 hX (by simp) (by simp)).1
  have r1 := (C66_hex_reproduces w w' nodes1d xi o h hr 1 X 1 (by simp) hX (by simp)).1
  have r2 := (C66_hex_reproduces w w' nodes1d xi o h hr 1 1 X (by simp) (by simp) hX).1
  simp only [eval_one, one_mul, eval_X, mul_one] at r0 r1 r2
  refine ⟨r2, ?_, ?_, by rw [p1 2 le_rfl]; exact Ne.symm hx⟩
  · rw [p0 0 (by omega), zero_add, r0]
  · rw [p0 1 (by omega), zero_add, r1]

example (w : Work ℚ) : ∃ w', hexNBasisPartials w (fun i => (i : ℚ) - 1) (fun _ => 1 / 2) 2 = .ok w' ∧
    hexNPosition (fun _ => 0) w'.nodes w'.basis 2 2 ≠ 1 / 2 := by
  obtain ⟨w', h, -⟩ := C66_hex_succeeds w _ (fun _ => (1 / 2 : ℚ)) 2 (steps_differ ℚ 2)
  exact ⟨w', h, (C66_hex_position_fails w w' _ _ 2 (by decide) (steps_differ ℚ 2) h (by norm_num)).2.2.2⟩

end

/-! ## over the reals -/

theorem hasDerivAt_lagC (x : Nat → ℝ) (o i : Nat) (t : ℝ) : HasDerivAt (fun t => lagC t x o i) (lagQ t x o i) t := by
  have : (fun t => lagC t x o i) = fun t => (Lagrange.basis (range (o + 1)) x i).eval t := by
    funext t; rw [lagC_eq]
  rw [this, lagQ_eq]
  exact Polynomial.hasDerivAt _ _

/-- C66: the partials of `QuadN` are the partial derivatives of its basis -/
theorem C66_quad_derivative (w : Work ℝ) (nodes1d : Nat → ℝ) (o : Nat) (h : AllDiffer nodes1d o)
    (B : (Nat → ℝ) → Work ℝ) (hr : ∀ xi, quadNBasisPartials w nodes1d xi o = .ok (B xi)) (xi : Nat → ℝ)
    (m : Nat) (hm : m < (o + 1) * (o + 1)) (d : Nat) (hd : d < 2) :
    HasDerivAt (fun t => (B (Function.update xi d t)).basis m) ((B xi).partials m d) (xi d) := by
  have e : ∀ t, (B (Function.update xi d t)).basis m = _ := fun t => (quadN_of h (hr _) m hm).2.1
  simp only [e]
  match d, hd with
  | 0, _ =>
    rw [(quadN_of h (hr xi) m hm).2.2.1]
    simp only [Function.update_self, Function.update_of_ne (show (1 : Nat) ≠ 0 by decide)]
    exact (hasDerivAt_lagC _ _ _ _).mul_const _
  | 1, _ =>
    rw [(quadN_of h (hr xi) m hm).2.2.2]
    simp only [Function.update_self, Function.update_of_ne (show (0 : Nat) ≠ 1 by decide)]
    exact (hasDerivAt_lagC _ _ _ _).const_mul _

example (w : Work ℝ) : ∃ B : (Nat → ℝ) → Work ℝ, ∀ xi,
    HasDerivAt (fun t => (B (Function.update xi 1 t)).basis 4) ((B xi).partials 4 1) (xi 1) := by
  choose B h _ using fun xi => C66_quad_succeeds w (fun i => (i : ℝ) - 1) xi 2 (steps_differ ℝ 2)
  exact ⟨B, fun xi => C66_quad_derivative w _ 2 (steps_differ ℝ 2) B h xi 4 (by decide) 1 (by decide)⟩

/-- C66: the partials of `HexN` are the partial derivatives of its basis -/
theorem C66_hex_derivative (w : Work ℝ) (nodes1d : Nat → ℝ) (o : Nat) (h : AllDiffer nodes1d o)
    (B : (Nat → ℝ) → Work ℝ) (hr : ∀ xi, hexNBasisPartials w nodes1d xi o = .ok (B xi)) (xi : Nat → ℝ)
    (m : Nat) (hm : m < (o + 1) * (o + 1) * (o + 1)) (d : Nat) (hd : d < 3) :
    HasDerivAt (fun t => (B (Function.update xi d t)).basis m) ((B xi).partials m d) (xi d) := by
  have e : ∀ t, (B (Function.update xi d t)).basis m = _ := fun t => (hexN_of h (hr _) m hm).2.1
  simp only [e]
  match d, hd with
  | 0, _ =>
    rw [(hexN_of h (hr xi) m hm).2.2.1]
    simp only [Function.update_self, Function.update_of_ne (show (1 : Nat) ≠ 0 by decide),
      Function.update_of_ne (show (2 : Nat) ≠ 0 by decide)]
    exact ((hasDerivAt_lagC _ _ _ _).mul_const _).mul_const _
  | 1, _ =>
    rw [(hexN_of h (hr xi) m hm).2.2.2.1]
    simp only [Function.update_self, Function.update_of_ne (show (0 : Nat) ≠ 1 by decide),
      Function.update_of_ne (show (2 : Nat) ≠ 1 by decide)]
    exact ((hasDerivAt_lagC _ _ _ _).const_mul _).mul_const _
  | 2, _ =>
    rw [(hexN_of h (hr xi) m hm).2.2.2.2]
    simp only [Function.update_self, Function.update_of_ne (show (0 : Nat) ≠ 2 by decide),
      Function.update_of_ne (show (1 : Nat) ≠ 2 by decide)]
    exact (hasDerivAt_lagC _ _ _ _).const_mul _

example (w : Work ℝ) : ∃ B : (Nat → ℝ) → Work ℝ, ∀ xi,
    HasDerivAt (fun t => (B (Function.update xi 1 t)).basis 4) ((B xi).partials 4 1) (xi 1) := by
  choose B h _ using fun xi => C66_hex_succeeds w (fun i => (i : ℝ) - 1) xi 2 (steps_differ ℝ 2)
  exact ⟨B, fun xi => C66_hex_derivative w _ 2 (steps_differ ℝ 2) B h xi 4 (by decide) 1 (by decide)⟩

/-- C66: on Chebyshev nodes, of every order, both elements work and the corners are those of the
reference square and cube -/
theorem C66_chebyshev (w : Work ℝ) (init xi : Nat → ℝ) (o : Nat) (ho : 1 ≤ o) (lagCorner : Nat → Nat → ℝ) :
    (∃ w', quadNBasisPartials w (chebyshevNodes1D init o) xi o = .ok w' ∧
      let c := quadNCorners w'.nodes lagCorner o
      (c 0 0 = -1 ∧ c 0 1 = -1) ∧ (c 1 0 = 1 ∧ c 1 1 = -1) ∧ (c 2 0 = -1 ∧ c 2 1 = 1) ∧ (c 3 0 = 1 ∧ c 3 1 = 1)) ∧
    (∃ w', hexNBasisPartials w (chebyshevNodes1D init o) xi o = .ok w' ∧
      let c := hexNCorners w'.nodes lagCorner o
      ∀ n < 8, c n 0 = (if n % 2 = 0 then -1 else 1) ∧ c n 1 = (if n / 2 % 2 = 0 then -1 else 1) ∧
        c n 2 = (if n / 4 = 0 then -1 else 1)) := by
  have hd : AllDiffer (chebyshevNodes1D init o) o := C65_distinct init o ho
  obtain ⟨h0, h1, -⟩ := C65_increasing init o ho
  constructor
  · obtain ⟨w', e, -⟩ := C66_quad_succeeds w (chebyshevNodes1D init o) xi o hd
    refine ⟨w', e, ?_⟩
    obtain ⟨a, b, c, d, -⟩ := C66_quad_corners w w' _ xi o hd e lagCorner
    rw [h0, h1] at *
    exact ⟨a, b, c, d⟩
  · obtain ⟨w', e, -⟩ := C66_hex_succeeds w (chebyshevNodes1D init o) xi o hd
    refine ⟨w', e, ?_⟩
    obtain ⟨a, b, c, d, p, q, r, s, -⟩ := C66_hex_corners w w' _ xi o hd e lagCorner
    rw [h0, h1] at *
    intro c' n hn
    match n, hn with
    | 0, _ => simpa [c'] using a
    | 1, _ => simpa [c'] using b
    | 2, _ => simpa [c'] using c
    | 3, _ => simpa [c'] using d
    | 4, _ => simpa [c'] using p
    | 5, _ => simpa [c'] using q
    | 6, _ => simpa [c'] using r
    | 7, _ => simpa [c'] using s

/-- the nodes -1, 0, 1 meet the hypotheses, and the quadratic element at (1/2, 0) has the basis
values -1/8, 3/4, 3/8 at the middle row of nodes -/
example : AllDiffer (fun i => (i : ℚ) - 1) 2 ∧
    (match quadNBasisPartials ⟨fun _ _ => 0, fun _ => 0, fun _ => 0, fun _ _ => 0, fun _ _ => 0, fun _ => 0,
        fun _ _ => 0⟩ (fun i => (i : ℚ) - 1) (fun d => if d = 0 then 1/2 else 0) 2 with
    | .ok w => [w.basis 0, w.basis 3, w.basis 4, w.basis 5] == [0, -1/8, 3/4, 3/8]
        && [w.nodes 5 0, w.nodes 5 1, w.partials 4 0] == [1, 0, -1]
    | _ => false) = true := by
  unfold AllDiffer
  decide +kernel

end Verif.Lagrange
