import Verif.Lagrange.Model
import Mathlib.LinearAlgebra.Lagrange
import Mathlib.Algebra.BigOperators.Field

/-! Helper lemmas for the arbitrary-order elements. -/

namespace Verif.Lagrange

open Finset Polynomial

theorem loop_zero {σ : Type} (body : σ → Nat → σ) (s : σ) : loop 0 body s = s := rfl

theorem loop_succ {σ : Type} (n : Nat) (body : σ → Nat → σ) (s : σ) :
    loop (n + 1) body s = body (loop n body s) n := by
  simp [loop, List.range_succ]

theorem loopM_succ {σ : Type} (n : Nat) (body : σ → Nat → Outcome σ) (s : σ) :
    loopM (n + 1) body s = (loopM n body s >>= fun s => body s n) := by
  unfold loopM
  rw [List.range_succ]
  generalize List.range n = l
  induction l generalizing s with
  | nil =>
    simp only [List.nil_append, List.foldlM_cons, List.foldlM_nil, Outcome.pure_eq, Outcome.bind_ok]
    cases body s n <;> rfl
  | cons a l ih =>
    simp only [List.cons_append, List.foldlM_cons]
    cases body s a with
    | ok s' => simpa using ih s'
    | _ => rfl

theorem loop_zeros {R : Type} [Zero R] (n : Nat) (s : Nat → R) (i : Nat) :
    loop n (fun (s : Nat → R) i => Function.update s i 0) s i = if i < n then 0 else s i := by
  induction n with
  | zero => rfl
  | succ n ih =>
    rw [loop_succ]
    by_cases h : i = n
    · subst h; simp
    · rw [Function.update_of_ne h, ih]
      have : i < n + 1 ↔ i < n := by omega
      simp [this]

section
variable {R : Type} [Field R] [DecidableEq R]

omit [DecidableEq R] in
theorem lagrangeS_eq (x : R) (xi : Nat → R) (o i j : Nat) :
    lagrangeS x xi o i j = ∏ N ∈ ((range (o + 1)).erase i).erase j, (x - xi N) := by
  unfold lagrangeS
  generalize o + 1 = k
  induction k with
  | zero => simp [loop_zero]
  | succ k ih =>
    rw [loop_succ, ih]
    by_cases h : k ≠ j ∧ k ≠ i
    · rw [if_pos h]
      have : ((range (k + 1)).erase i).erase j = insert k (((range k).erase i).erase j) := by
        ext a; simp only [mem_erase, mem_range, mem_insert]; omega
      rw [this, prod_insert (by simp), mul_comm]
    · rw [if_neg h]
      have : ((range (k + 1)).erase i).erase j = ((range k).erase i).erase j := by
        ext a; simp only [mem_erase, mem_range]; omega
      rw [this]

/-- the divisor of basis function `i` -/
def den (xi : Nat → R) (o i : Nat) : R := ∏ j ∈ (range (o + 1)).erase i, (xi i - xi j)

theorem lagrangeI_aux (x : R) (xi : Nat → R) (o i : Nat) (q : R) (fin : Bool) (k : Nat) :
    let t := loop k (lagrangeJ x xi o i) ⟨1, 1, 1, 0, q, fin⟩
    t.n = ∏ j ∈ (range k).erase i, (x - xi j) ∧
    t.d = ∏ j ∈ (range k).erase i, (xi i - xi j) ∧
    t.p = ∑ j ∈ (range k).erase i, lagrangeS x xi o i j ∧
    (0 < k → t.c = t.n / t.d ∧ t.q = t.p / t.d) ∧
    t.finite = (fin && (t.d != 0)) := by
  induction k with
  | zero => simp [loop_zero]
  | succ k ih =>
    rw [loop_succ]
    revert ih
    generalize loop k (lagrangeJ x xi o i) ⟨1, 1, 1, 0, q, fin⟩ = t
    rintro ⟨hn, hd, hp, hc, hf⟩
    by_cases h : k = i
    · subst h
      have : (range (k + 1)).erase k = (range k).erase k := by
        ext a; simp only [mem_erase, mem_range]; omega
      rw [this]
      simp only [lagrangeJ, ne_eq, not_true, if_false]
      refine ⟨hn, hd, hp, fun _ => ⟨trivial, trivial⟩, ?_⟩
      rw [hf]; cases fin <;> simp
    · have : (range (k + 1)).erase i = insert k ((range k).erase i) := by
        ext a; simp only [mem_erase, mem_range, mem_insert]; omega
      rw [this, prod_insert (by simp), prod_insert (by simp), sum_insert (by simp)]
      simp only [lagrangeJ, ne_eq, h, not_false_eq_true, if_true]
      refine ⟨by rw [hn, mul_comm], by rw [hd, mul_comm], by rw [hp, add_comm], fun _ => ⟨trivial, trivial⟩, ?_⟩
      rw [hf]
      cases fin
      · simp
      · by_cases h0 : t.d = 0 <;> simp [h0]

theorem lagrangeI_eq (x : R) (xi : Nat → R) (o i : Nat) (q : R) (fin : Bool) :
    (lagrangeI x xi o i q fin).c = (∏ j ∈ (range (o + 1)).erase i, (x - xi j)) / den xi o i ∧
    (lagrangeI x xi o i q fin).q = (∑ j ∈ (range (o + 1)).erase i, lagrangeS x xi o i j) / den xi o i ∧
    (lagrangeI x xi o i q fin).finite = (fin && (den xi o i != 0)) := by
  obtain ⟨hn, hd, hp, hc, hf⟩ := lagrangeI_aux x xi o i q fin (o + 1)
  obtain ⟨hc, hq⟩ := hc (by omega)
  refine ⟨?_, ?_, ?_⟩
  · rw [lagrangeI, hc, hn, hd]; rfl
  · rw [lagrangeI, hq, hp, hd]; rfl
  · rw [lagrangeI, hf, hd]; rfl

/-- the values `lagrange_1D` writes -/
def lagC (x : R) (xi : Nat → R) (o i : Nat) : R := (∏ j ∈ (range (o + 1)).erase i, (x - xi j)) / den xi o i

/-- the derivatives `lagrange_1D` writes -/
def lagQ (x : R) (xi : Nat → R) (o i : Nat) : R :=
  (∑ j ∈ (range (o + 1)).erase i, lagrangeS x xi o i j) / den xi o i

theorem lagrange1D_eq (interp dinterp : Nat → R) (x : R) (xi : Nat → R) (o : Nat) :
    lagrange1D interp dinterp x xi o =
      if ∀ i ≤ o, den xi o i ≠ 0 then
        .ok (fun i => if i ≤ o then lagC x xi o i else interp i,
          fun i => if i ≤ o then lagQ x xi o i else dinterp i)
      else .throws "NaN" := by
  have key : ∀ k, 
      let st := loop k (fun (st : (Nat → R) × (Nat → R) × R × Bool) i =>
        let t := lagrangeI x xi o i st.2.2.1 st.2.2.2
        (Function.update st.1 i t.c, Function.update st.2.1 i t.q, t.q, t.finite))
        (interp, dinterp, 0, true)
      (st.1 = fun i => if i < k then lagC x xi o i else interp i) ∧
      (st.2.1 = fun i => if i < k then lagQ x xi o i else dinterp i) ∧
      (st.2.2.2 = true ↔ ∀ i < k, den xi o i ≠ 0) := by
    intro k
    induction k with
    | zero => simp [loop_zero]
    | succ k ih =>
      rw [loop_succ]
      revert ih
      generalize loop k (fun (st : (Nat → R) × (Nat → R) × R × Bool) i =>
        let t := lagrangeI x xi o i st.2.2.1 st.2.2.2
        (Function.update st.1 i t.c, Function.update st.2.1 i t.q, t.q, t.finite))
        (interp, dinterp, 0, true) = st
      rintro ⟨h1, h2, h3⟩
      obtain ⟨hc, hq, hf⟩ := lagrangeI_eq x xi o k st.2.2.1 st.2.2.2
      refine ⟨?_, ?_, ?_⟩
      · funext i
        dsimp only
        by_cases h : i = k
        · subst h; rw [Function.update_self, hc, if_pos (by omega)]; rfl
        · rw [Function.update_of_ne h, h1]
          have : i < k + 1 ↔ i < k := by omega
          simp [this]
      · funext i
        dsimp only
        by_cases h : i = k
        · subst h; rw [Function.update_self, hq, if_pos (by omega)]; rfl
        · rw [Function.update_of_ne h, h2]
          have : i < k + 1 ↔ i < k := by omega
          simp [this]
      · dsimp only
        rw [hf, Bool.and_eq_true, h3, bne_iff_ne]
        constructor
        · rintro ⟨h, h'⟩ i hi
          rcases Nat.lt_succ_iff_lt_or_eq.1 hi with hi | rfl
          · exact h i hi
          · exact h'
        · exact fun h => ⟨fun i hi => h i (by omega), h k (by omega)⟩
  obtain ⟨h1, h2, h3⟩ := key (o + 1)
  unfold lagrange1D
  dsimp only
  dsimp only at h1 h2 h3
  by_cases h : ∀ i ≤ o, den xi o i ≠ 0
  · rw [if_pos h, if_pos (h3.2 fun i hi => h i (by omega)), h1, h2]
    simp only [Nat.lt_succ_iff]
  · rw [if_neg h, if_neg]
    intro hh
    exact h fun i hi => h3.1 hh i (by omega)

/-- nodes `0 … o` differ -/
abbrev Distinct (xi : Nat → R) (o : Nat) : Prop := Set.InjOn xi (range (o + 1) : Finset Nat)

omit [DecidableEq R] in
theorem den_ne_zero (xi : Nat → R) (o : Nat) : (∀ i ≤ o, den xi o i ≠ 0) ↔ Distinct xi o := by
  constructor
  · intro h a ha b hb e
    by_contra hne
    refine h a (by simpa [Nat.lt_succ_iff] using ha) ?_
    refine prod_eq_zero (i := b) (by simp only [mem_erase, mem_range]; exact ⟨fun e => hne e.symm, by simpa using hb⟩) ?_
    rw [e, sub_self]
  · intro h i hi
    refine prod_ne_zero_iff.2 fun j hj => ?_
    rw [mem_erase] at hj
    exact sub_ne_zero.2 fun e => hj.1 (h (by simpa using hj.2) (by simpa [Nat.lt_succ_iff] using hi) e.symm)

omit [DecidableEq R] in
theorem lagC_eq (x : R) (xi : Nat → R) (o i : Nat) :
    lagC x xi o i = (Lagrange.basis (range (o + 1)) xi i).eval x := by
  rw [Lagrange.basis, eval_prod, lagC, den, ← prod_div_distrib]
  refine prod_congr rfl fun j _ => ?_
  simp [Lagrange.basisDivisor, div_eq_inv_mul]

omit [DecidableEq R] in
theorem lagQ_eq (x : R) (xi : Nat → R) (o i : Nat) :
    lagQ x xi o i = (derivative (Lagrange.basis (range (o + 1)) xi i)).eval x := by
  rw [Lagrange.basis, derivative_prod_finset, eval_finsetSum, lagQ, den, Finset.sum_div]
  refine sum_congr rfl fun j hj => ?_
  rw [lagrangeS_eq, eval_mul, eval_prod, ← mul_prod_erase _ _ hj]
  simp only [Lagrange.basisDivisor, derivative_mul, derivative_C, zero_mul, derivative_sub, derivative_X,
    sub_zero, mul_one, zero_add, eval_mul, eval_C, eval_sub, eval_X, prod_mul_distrib, prod_inv_distrib]
  rw [div_eq_mul_inv, mul_inv]
  ring

theorem lagrange1D_ok (interp dinterp : Nat → R) (x : R) (xi : Nat → R) (o : Nat) (h : Distinct xi o) :
    lagrange1D interp dinterp x xi o =
      .ok (fun i => if i ≤ o then lagC x xi o i else interp i,
          fun i => if i ≤ o then lagQ x xi o i else dinterp i) := by
  rw [lagrange1D_eq, if_pos ((den_ne_zero xi o).2 h)]

end
end Verif.Lagrange
