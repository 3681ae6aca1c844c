import Verif.Elements.Lemmas

/-! Sums over the nodes of each element, values at the nodes, derivatives. -/

namespace Verif.Elements

variable {R : Type} [Field R]

/-- the weights `physical_position` uses -/
def Kind.shape : Kind → (Nat → R) → (Nat → R) → Nat → R
  | .quad4 => quad4Shape | .quad8 => quad8Shape | .quad12 => quad12Shape
  | .hex8 => hex8Shape | .hex20 => hex20Shape | .hex32 => hex32Shape

theorem position_eq (e : Kind) (tmp x xi : Nat → R) (vertices : Nat → Nat → R) (k : Nat) (hk : k < e.dim) :
    e.position tmp x xi vertices k = ∑ v ∈ Finset.range e.nodes, vertices v k * e.shape tmp xi v := by
  cases e <;> simp only [Kind.dim] at hk <;>
    simp only [Kind.position, quad4Position, quad8Position, quad12Position, hex8Position, hex20Position,
      hex32Position, accumulate_apply, accumulateByDim_apply] <;> rw [if_pos hk] <;> rfl

theorem basis_eq_shape (e : Kind) (he : e ≠ .quad12) (out xi : Nat → R) : e.basis out xi = e.shape out xi := by
  cases e <;> first | rfl | exact absurd rfl he

/-- evaluates sums over the nodes of an element -/
macro "node_sums" : tactic => `(tactic|
  (simp only [Kind.nodes, Kind.shape, Kind.ref, Kind.partials, Finset.sum_range_succ, Finset.sum_range_zero,
      quad4Shape, quad8Shape, quad12Shape, hex8Shape, hex20Shape, hex32Shape, tess16Shape,
      quad4Xi, quad4Eta, quad8Xi, quad8Eta, quad12Xi, quad12Eta, hex8Xi, hex8Eta, hex8Mu,
      hex20Xi, hex20Eta, hex20Mu, hex32Xi, hex32Eta, hex32Mu, tess16Xi, tess16Eta, tess16Mu, tess16Tau,
      tess16Partials, fill_apply]
   simp [steps, List.range', row, quad4Ref, quad8Ref, quad12Ref, hex8Ref, hex20Ref, hex32Ref, tess16Ref]
   try ring))

variable [CharZero R]

set_option maxHeartbeats 4000000 in
theorem shape_sum (e : Kind) (tmp xi : Nat → R) : ∑ v ∈ Finset.range e.nodes, e.shape tmp xi v = 1 := by
  cases e <;> node_sums

set_option maxHeartbeats 4000000 in
theorem shape_linear (e : Kind) (tmp xi : Nat → R) (k : Nat) (hk : k < e.dim) :
    ∑ v ∈ Finset.range e.nodes, e.ref v k * e.shape tmp xi v = xi k := by
  cases e <;> simp only [Kind.dim] at hk <;> interval_cases k <;> node_sums

set_option maxHeartbeats 4000000 in
theorem partial_sum (e : Kind) (out xi : Nat → R) (j : Nat) (hj : j < e.dim) :
    ∑ v ∈ Finset.range e.nodes, e.partials j out xi v = 0 := by
  cases e <;> simp only [Kind.dim] at hj <;> interval_cases j <;> node_sums

set_option maxHeartbeats 8000000 in
theorem partial_linear (e : Kind) (out xi : Nat → R) (j k : Nat) (hj : j < e.dim) (hk : k < e.dim) :
    ∑ v ∈ Finset.range e.nodes, e.ref v k * e.partials j out xi v = if j = k then 1 else 0 := by
  cases e <;> simp only [Kind.dim] at hj hk <;> interval_cases j <;> interval_cases k <;> node_sums

omit [CharZero R] in
theorem row_cast [CharZero R] (l : List (List ℚ)) (v d : Nat) :
    row (l.map (List.map (Rat.cast : ℚ → R))) v d = ((row l v d : ℚ) : R) := by
  simp only [row, List.getD_eq_getElem?_getD, List.getElem?_map]
  rcases l[v]? with _ | r
  · simp
  · simp only [Option.map_some, Option.getD_some, List.getElem?_map]
    rcases r[d]? <;> simp

theorem ref_cast (e : Kind) (v d : Nat) : ((e.ref v d : ℚ) : R) = e.ref v d := by
  cases e <;> simp only [Kind.ref, quad4Ref, quad8Ref, quad12Ref, hex8Ref, hex20Ref, hex32Ref] <;>
    rw [← row_cast] <;> simp

/-- shape functions over ℚ and over `R` agree at rational points -/
theorem shape_cast (e : Kind) (out : Nat → R) (out' xi : Nat → ℚ) (v : Nat) (hv : v < e.nodes) :
    ((e.shape out' xi v : ℚ) : R) = e.shape out (fun d => (xi d : R)) v := by
  cases e <;> simp only [Kind.nodes] at hv <;>
    [have h := fun d => ref_cast (R := R) .quad4 v d; have h := fun d => ref_cast (R := R) .quad8 v d;
     have h := fun d => ref_cast (R := R) .quad12 v d; have h := fun d => ref_cast (R := R) .hex8 v d;
     have h := fun d => ref_cast (R := R) .hex20 v d; have h := fun d => ref_cast (R := R) .hex32 v d] <;>
    simp only [Kind.ref] at h <;>
    simp only [Kind.shape, quad4Shape, quad8Shape, quad12Shape, hex8Shape, hex20Shape, hex32Shape, fill_apply, ← h]
  · have hm : v ∈ steps 0 4 1 := by simp [steps]; omega
    simp only [hm, if_true]; push_cast; rfl
  · have hm : v ∈ steps 0 4 1 ∨ v ∈ steps 4 7 2 ∨ v ∈ steps 5 8 2 := by
      simp only [steps, List.range', List.mem_cons]; omega
    split_ifs <;> first | (push_cast; rfl) | tauto
  · have hm : v ∈ steps 0 4 1 ∨ v ∈ steps 4 8 1 ∨ v ∈ steps 8 12 1 := by
      simp only [steps, List.mem_range'_1]; omega
    split_ifs <;> first | (push_cast; rfl) | tauto
  · have hm : v ∈ steps 0 8 1 := by simp [steps]; omega
    simp only [hm, if_true]; push_cast; rfl
  · have hm : v ∈ steps 0 8 1 ∨ v ∈ steps 8 15 2 ∨ v ∈ steps 9 16 2 ∨ v ∈ steps 16 20 1 := by
      simp [steps, List.range']; omega
    split_ifs <;> first | (push_cast; rfl) | tauto
  · have hm : v ∈ steps 0 8 1 ∨ v ∈ steps 8 16 1 ∨ v ∈ steps 16 24 1 ∨ v ∈ steps 24 32 1 := by
      simp only [steps, List.mem_range'_1]; omega
    split_ifs <;> first | (push_cast; rfl) | tauto

theorem kronecker_rat : ∀ e : Kind, ∀ i < e.nodes, ∀ j < e.nodes,
    e.shape (fun _ => 0) (e.ref (R := ℚ) i) j = if i = j then 1 else 0 := by
  intro e
  cases e <;> decide +kernel

/-- each weight is one at its own node and zero at the others -/
theorem shape_node (e : Kind) (out : Nat → R) (i j : Nat) (hi : i < e.nodes) (hj : j < e.nodes) :
    e.shape out (e.ref i) j = if i = j then 1 else 0 := by
  have h := shape_cast e out (fun _ => 0) (e.ref i) j hj
  rw [kronecker_rat e i hi j hj] at h
  have hr : (fun d => ((e.ref i d : ℚ) : R)) = e.ref i := by funext d; exact ref_cast e i d
  rw [hr] at h
  rw [← h]
  split <;> simp

/-! ## derivatives -/

theorem dmul {f g : ℝ → ℝ} {f' g' x : ℝ} (hf : HasDerivAt f f' x) (hg : HasDerivAt g g' x) :
    HasDerivAt (fun t => f t * g t) (f' * g x + f x * g') x := hf.mul hg
theorem dadd {f g : ℝ → ℝ} {f' g' x : ℝ} (hf : HasDerivAt f f' x) (hg : HasDerivAt g g' x) :
    HasDerivAt (fun t => f t + g t) (f' + g') x := hf.add hg
theorem dsub {f g : ℝ → ℝ} {f' g' x : ℝ} (hf : HasDerivAt f f' x) (hg : HasDerivAt g g' x) :
    HasDerivAt (fun t => f t - g t) (f' - g') x := hf.sub hg
theorem dconst (c x : ℝ) : HasDerivAt (fun _ => c) 0 x := hasDerivAt_const x c
theorem did (x : ℝ) : HasDerivAt (fun t => t) 1 x := hasDerivAt_id' x

macro "poly_deriv" : tactic => `(tactic|
  (apply HasDerivAt.congr_deriv
   · repeat' first | exact dconst _ _ | exact did _ | with_reducible apply dmul |
       with_reducible apply dadd | with_reducible apply dsub
   · ring))

/-- the weights as functions of one coordinate have the coded partials as derivatives -/
theorem shape_deriv (e : Kind) (out out' xi : Nat → ℝ) (j : Nat) (hj : j < e.dim) (v : Nat) (hv : v < e.nodes) :
    HasDerivAt (fun t => e.shape out (Function.update xi j t) v) (e.partials j out' xi v) (xi j) := by
  cases e <;> simp only [Kind.nodes] at hv <;> simp only [Kind.dim] at hj <;> interval_cases j <;>
    simp only [Kind.shape, quad4Shape, quad8Shape, quad12Shape, hex8Shape, hex20Shape, hex32Shape, Kind.partials,
      quad4Xi, quad4Eta, quad8Xi, quad8Eta, quad12Xi, quad12Eta, hex8Xi, hex8Eta, hex8Mu,
      hex20Xi, hex20Eta, hex20Mu, hex32Xi, hex32Eta, hex32Mu, fill_apply, Function.update_self,
      Function.update_of_ne (show (0 : Nat) ≠ 1 by decide), Function.update_of_ne (show (0 : Nat) ≠ 2 by decide),
      Function.update_of_ne (show (1 : Nat) ≠ 0 by decide), Function.update_of_ne (show (1 : Nat) ≠ 2 by decide),
      Function.update_of_ne (show (2 : Nat) ≠ 0 by decide), Function.update_of_ne (show (2 : Nat) ≠ 1 by decide)]
  case quad4.«0» | quad4.«1» =>
    have hm : v ∈ steps 0 4 1 := by simp [steps]; omega
    simp only [hm, if_true]; poly_deriv
  case quad8.«0» | quad8.«1» =>
    have hm : v ∈ steps 0 4 1 ∨ v ∈ steps 4 7 2 ∨ v ∈ steps 5 8 2 := by
      simp [steps, List.range']; omega
    split_ifs <;> first | poly_deriv | tauto
  case quad12.«0» | quad12.«1» =>
    have hm : v ∈ steps 0 4 1 ∨ v ∈ steps 4 8 1 ∨ v ∈ steps 8 12 1 := by
      simp only [steps, List.mem_range'_1]; omega
    split_ifs <;> first | poly_deriv | tauto
  case hex8.«0» | hex8.«1» | hex8.«2» =>
    have hm : v ∈ steps 0 8 1 := by simp [steps]; omega
    simp only [hm, if_true]; poly_deriv
  case hex20.«0» | hex20.«1» | hex20.«2» =>
    have hm : v ∈ steps 0 8 1 ∨ v ∈ steps 8 15 2 ∨ v ∈ steps 9 16 2 ∨ v ∈ steps 16 20 1 := by
      simp [steps, List.range']; omega
    have hd : v ∈ steps 9 16 2 → v ∉ steps 16 20 1 := by
      simp [steps, List.range']; omega
    split_ifs <;> first | poly_deriv | tauto
  case hex32.«0» | hex32.«1» | hex32.«2» =>
    have hm : v ∈ steps 0 8 1 ∨ v ∈ steps 8 16 1 ∨ v ∈ steps 16 24 1 ∨ v ∈ steps 24 32 1 := by
      simp only [steps, List.mem_range'_1]; omega
    split_ifs <;> first | poly_deriv | tauto

end Verif.Elements
