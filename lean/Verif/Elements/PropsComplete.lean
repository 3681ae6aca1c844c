import Verif.Elements.Complete
import Verif.Elements.Props
import Mathlib.Algebra.MvPolynomial.CommRing

/-!
# C72: which polynomial fields the fixed-order elements represent exactly
-/

namespace Verif.Elements

open MvPolynomial

variable {R : Type} [Field R] [CharZero R]

/-- the nominal order of an element -/
def Kind.order : Kind → Nat
  | .quad4 | .hex8 => 1
  | .quad8 | .hex20 => 2
  | .quad12 | .hex32 => 3

/-- the degree of a monomial, not counting variables that enter linearly -/
def superlinear {d : Nat} (a : Fin d →₀ ℕ) : ℕ := ∑ i, if 2 ≤ a i then a i else 0

omit [CharZero R] in
theorem mono_two {N n : Nat} {ref : Nat → Nat → R} {w xi : Nat → R}
    (h : ∀ a b, sup a + sup b ≤ n → ∑ v ∈ Finset.range N, (ref v 0 ^ a * ref v 1 ^ b) * w v = xi 0 ^ a * xi 1 ^ b)
    (a : Fin 2 →₀ ℕ) (ha : superlinear a ≤ n) :
    ∑ v ∈ Finset.range N, (∏ i, ref v i.1 ^ a i) * w v = ∏ i, xi i.1 ^ a i := by
  rw [superlinear, Fin.sum_univ_two] at ha
  simp only [Fin.prod_univ_two]
  exact h _ _ ha

omit [CharZero R] in
theorem mono_three {N n : Nat} {ref : Nat → Nat → R} {w xi : Nat → R}
    (h : ∀ a b c, sup a + sup b + sup c ≤ n →
      ∑ v ∈ Finset.range N, (ref v 0 ^ a * ref v 1 ^ b * ref v 2 ^ c) * w v = xi 0 ^ a * xi 1 ^ b * xi 2 ^ c)
    (a : Fin 3 →₀ ℕ) (ha : superlinear a ≤ n) :
    ∑ v ∈ Finset.range N, (∏ i, ref v i.1 ^ a i) * w v = ∏ i, xi i.1 ^ a i := by
  rw [superlinear, Fin.sum_univ_three] at ha
  simp only [Fin.prod_univ_three]
  exact h _ _ _ ha

theorem mono_sum (e : Kind) (tmp xi : Nat → R) (a : Fin e.dim →₀ ℕ) (h : superlinear a ≤ e.order) :
    ∑ v ∈ Finset.range e.nodes, (∏ i, e.ref v i.1 ^ a i) * e.shape tmp xi v = ∏ i, xi i.1 ^ a i := by
  cases e
  · exact mono_two (mono_quad4 tmp xi) a h
  · exact mono_two (mono_quad8 tmp xi) a h
  · exact mono_two (mono_quad12 tmp xi) a h
  · exact mono_three (mono_hex8 tmp xi) a h
  · exact mono_three (mono_hex20 tmp xi) a h
  · exact mono_three (mono_hex32 tmp xi) a h

theorem shape_complete (e : Kind) (tmp xi : Nat → R) (p : MvPolynomial (Fin e.dim) R)
    (hp : ∀ a ∈ p.support, superlinear a ≤ e.order) :
    ∑ v ∈ Finset.range e.nodes, eval (fun i => e.ref v i.1) p * e.shape tmp xi v = eval (fun i => xi i.1) p := by
  simp only [eval_eq', Finset.sum_mul]
  rw [Finset.sum_comm]
  apply Finset.sum_congr rfl
  intro a ha
  simp only [mul_assoc]
  rw [← Finset.mul_sum, mono_sum e tmp xi a (hp a ha)]

/-- C72: if the nodes carry the values of a polynomial whose terms have superlinear degree at most
the order of the element (in particular any polynomial of that total degree), mapping any
reference point gives the value of the polynomial there.  So a mesh edge or face that is curved by
such a polynomial is represented exactly -/
theorem C72_complete (e : Kind) (tmp x xi : Nat → R) (p : Nat → MvPolynomial (Fin e.dim) R)
    (hp : ∀ k, ∀ a ∈ (p k).support, superlinear a ≤ e.order) (k : Nat) (hk : k < e.dim) :
    e.position tmp x xi (fun v k => eval (fun i => e.ref v i.1) (p k)) k = eval (fun i => xi i.1) (p k) := by
  rw [position_eq e _ _ _ _ k hk]
  exact shape_complete e tmp xi (p k) (hp k)

/-- the coordinates themselves -/
example (tmp x xi : Nat → ℚ) : Kind.hex32.position tmp x xi (fun v _ => Kind.hex32.ref v 2) 0 = xi 2 := by
  have := C72_complete Kind.hex32 tmp x xi (fun _ => X ⟨2, by decide⟩) (by
    intro k a ha
    rw [support_X, Finset.mem_singleton] at ha
    subst ha
    refine le_trans (le_of_eq (Finset.sum_eq_zero fun i _ => if_neg ?_)) (Nat.zero_le _)
    rw [Finsupp.single_apply]
    split <;> simp) 0 (by decide)
  simpa using this

/-- total degree at most the order is enough -/
theorem superlinear_of_degree {d n : Nat} (p : MvPolynomial (Fin d) R) (h : p.totalDegree ≤ n) :
    ∀ a ∈ p.support, superlinear a ≤ n := by
  intro a ha
  have h1 := le_totalDegree ha
  rw [Finsupp.sum_fintype _ _ (fun _ => rfl)] at h1
  calc superlinear a ≤ ∑ i, a i := Finset.sum_le_sum fun i _ => by split <;> omega
    _ ≤ n := le_trans h1 h

/-- C72 in terms of the total degree -/
theorem C72_degree (e : Kind) (tmp x xi : Nat → R) (p : Nat → MvPolynomial (Fin e.dim) R)
    (hp : ∀ k, (p k).totalDegree ≤ e.order) (k : Nat) (hk : k < e.dim) :
    e.position tmp x xi (fun v k => eval (fun i => e.ref v i.1) (p k)) k = eval (fun i => xi i.1) (p k) :=
  C72_complete e tmp x xi p (fun k => superlinear_of_degree (p k) (hp k)) k hk

/-- C72 for `basis`: interpolation of such a polynomial is exact.  Partial: not Quad_12_2D, whose
`basis` leaves entries unset, see `C72_quad12_basis_fails` -/
theorem C72_basis_partial (e : Kind) (he : e ≠ .quad12) (out xi : Nat → R) (p : MvPolynomial (Fin e.dim) R)
    (hp : ∀ a ∈ p.support, superlinear a ≤ e.order) :
    ∑ v ∈ Finset.range e.nodes, eval (fun i => e.ref v i.1) p * e.basis out xi v = eval (fun i => xi i.1) p := by
  rw [basis_eq_shape e he]
  exact shape_complete e out xi p hp

/-- the product of the coordinates, on the bilinear element -/
example (out xi : Nat → ℚ) : ∑ v ∈ Finset.range 4, (Kind.quad4.ref v 0 * Kind.quad4.ref v 1) * Kind.quad4.basis out xi v
    = xi 0 * xi 1 := by
  let i0 : Fin Kind.quad4.dim := ⟨0, by decide⟩
  let i1 : Fin Kind.quad4.dim := ⟨1, by decide⟩
  have hm : X i0 * X i1 = (monomial (Finsupp.single i0 1 + Finsupp.single i1 1) 1 : MvPolynomial _ ℚ) := by
    rw [X, X, monomial_mul, one_mul]
  have h := C72_basis_partial .quad4 (by decide) out xi (X i0 * X i1) (by
    intro a ha
    rw [hm] at ha
    have := support_monomial_subset ha
    rw [Finset.mem_singleton] at this
    subst this
    refine le_trans (le_of_eq (Finset.sum_eq_zero fun i _ => if_neg ?_)) (Nat.zero_le _)
    rw [Finsupp.add_apply, Finsupp.single_apply, Finsupp.single_apply]
    have : ¬ (i0 = i ∧ i1 = i) := by rintro ⟨h, h'⟩; exact absurd (h.trans h'.symm) (by decide)
    split <;> split <;> simp_all)
  simp only [map_mul, eval_X] at h
  exact h

/-- C72 fails for `Quad_12_2D::basis`: interpolating `1 - xi^2` with it gives `16/9` at the centre, not
`1`, whatever the entries it leaves unset hold (the polynomial vanishes at their nodes) -/
theorem C72_quad12_basis_fails : ∃ p : MvPolynomial (Fin Kind.quad12.dim) ℚ,
    p.totalDegree ≤ Kind.quad12.order ∧ eval (fun _ => (0 : ℚ)) p = 1 ∧
    ∀ out, ∑ v ∈ Finset.range Kind.quad12.nodes, eval (fun i => Kind.quad12.ref v i.1) p * Kind.quad12.basis out (fun _ => 0) v = 16 / 9 := by
  let i0 : Fin Kind.quad12.dim := ⟨0, by decide⟩
  refine ⟨1 - X i0 ^ 2, ?_, by simp, fun out => ?_⟩
  · refine le_trans (totalDegree_sub _ _) (max_le ?_ ?_)
    · simp
    · exact le_trans (totalDegree_pow _ _) (by rw [totalDegree_X]; decide)
  · have hev : ∀ v, eval (fun i => Kind.quad12.ref v i.1) (1 - X i0 ^ 2) = (1 - quad12Ref v 0 ^ 2 : ℚ) := by
      intro v
      rw [map_sub, map_one, map_pow, eval_X]
      rfl
    simp only [hev]
    have : ∑ v ∈ Finset.range 12, (1 - quad12Ref v 0 ^ 2) * quad12Basis out (fun _ => 0) v = (16 / 9 : ℚ) := by
      simp only [Finset.sum_range_succ, Finset.sum_range_zero, quad12Basis, fill_apply]
      simp [steps, List.range', row, quad12Ref]
      norm_num
    exact this

/-- C72 for the derivatives: the coded partials differentiate such a polynomial exactly -/
theorem C72_derivative (e : Kind) (out xi : Nat → ℝ) (p : MvPolynomial (Fin e.dim) ℝ)
    (hp : ∀ a ∈ p.support, superlinear a ≤ e.order) (j : Nat) (hj : j < e.dim) :
    HasDerivAt (fun t => eval (fun i => Function.update xi j t i.1) p)
      (∑ v ∈ Finset.range e.nodes, eval (fun i => e.ref v i.1) p * e.partials j out xi v) (xi j) := by
  have h := C61_position e (fun _ => 0) (fun _ => 0) out xi (fun v _ => eval (fun i => e.ref v i.1) p) j j hj hj
  have e1 : (fun t => e.position (fun _ => 0) (fun _ => 0) (Function.update xi j t) (fun v _ => eval (fun i => e.ref v i.1) p) j) =
      fun t => eval (fun i => Function.update xi j t i.1) p := by
    funext t
    exact C72_complete e _ _ _ (fun _ => p) (fun _ => hp) j hj
  rwa [e1] at h

/-- C72, the bound is sharp: `xi^2 eta^2` has superlinear degree 4, and is not reproduced by the
quadratic or cubic elements -/
theorem C72_sharp (tmp : Nat → R) :
    (∑ v ∈ Finset.range 8, (quad8Ref v 0 ^ 2 * quad8Ref v 1 ^ 2) * quad8Shape tmp (fun _ => 0) v : R) ≠ 0 ∧
    (∑ v ∈ Finset.range 12, (quad12Ref v 0 ^ 2 * quad12Ref v 1 ^ 2) * quad12Shape tmp (fun _ => 0) v : R) ≠ 0 := by
  constructor
  · have : (∑ v ∈ Finset.range 8, (quad8Ref v 0 ^ 2 * quad8Ref v 1 ^ 2) * quad8Shape tmp (fun _ => 0) v : R) = -1 := by
      simp only [Finset.sum_range_succ, Finset.sum_range_zero, quad8Shape, fill_apply]
      simp [steps, List.range', row, quad8Ref]
      norm_num
    rw [this]; norm_num
  · have : (∑ v ∈ Finset.range 12, (quad12Ref v 0 ^ 2 * quad12Ref v 1 ^ 2) * quad12Shape tmp (fun _ => 0) v : R) = -1 := by
      simp only [Finset.sum_range_succ, Finset.sum_range_zero, quad12Shape, fill_apply]
      simp [steps, List.range', row, quad12Ref]
      norm_num
    rw [this]; norm_num

/-- a curved eight-node quadrilateral: the second coordinate of the nodes is `xi eta + 3 xi^2` -/
example (tmp x xi : Nat → ℚ) :
    Kind.quad8.position tmp x xi (fun v _ => quad8Ref v 0 * quad8Ref v 1 + 3 * quad8Ref v 0 ^ 2) 1 =
      xi 0 * xi 1 + 3 * xi 0 ^ 2 := by
  let i0 : Fin Kind.quad8.dim := ⟨0, by decide⟩
  let i1 : Fin Kind.quad8.dim := ⟨1, by decide⟩
  have hd : (X i0 * X i1 + C 3 * X i0 ^ 2 : MvPolynomial (Fin Kind.quad8.dim) ℚ).totalDegree ≤ 2 := by
    refine (totalDegree_add _ _).trans (max_le ((totalDegree_mul _ _).trans ?_) ((totalDegree_mul _ _).trans ?_))
    · rw [totalDegree_X, totalDegree_X]
    · rw [totalDegree_C, zero_add]; exact (totalDegree_pow _ _).trans (by rw [totalDegree_X])
  have h := C72_degree .quad8 tmp x xi (fun _ => X i0 * X i1 + C 3 * X i0 ^ 2) (fun _ => hd) 1 (by decide)
  simp only [map_add, map_mul, map_pow, eval_X, eval_C] at h
  exact h

end Verif.Elements
