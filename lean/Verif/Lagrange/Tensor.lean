import Verif.Lagrange.Lemmas

/-! Helper lemmas for `basis_partials`. -/

namespace Verif.Lagrange

open Finset Polynomial

theorem indices2_eq (N m : Nat) :
    indices2 N m = (((m % N : Nat) : Int) + 1, ((m / N : Nat) : Int) + 1) := by
  have h : (N : Int) * ((m / N : Nat) : Int) + ((m % N : Nat) : Int) = m := by
    exact_mod_cast Nat.div_add_mod m N
  have ht : (m : Int).tdiv N = ((m / N : Nat) : Int) := rfl
  simp only [indices2, ht, add_sub_cancel_right]
  ext
  · dsimp only; omega
  · rfl

theorem indices3_eq (N m : Nat) :
    indices3 N m = (((m % N : Nat) : Int) + 1, ((m / N % N : Nat) : Int) + 1,
      ((m / (N * N) : Nat) : Int) + 1) := by
  have ht : (m : Int).tdiv ((N : Int) * N) = ((m / (N * N) : Nat) : Int) := by
    rw [← Nat.cast_mul]; rfl
  have h : ((N : Int) * N) * ((m / (N * N) : Nat) : Int) + ((m % (N * N) : Nat) : Int) = m := by
    exact_mod_cast Nat.div_add_mod m (N * N)
  have h1 : (m : Int) + 1 - (N : Int) * N * ((m / (N * N) : Nat) : Int) = ((m % (N * N) : Nat) : Int) + 1 := by
    rw [← h]; ring
  have ht2 : ((m % (N * N) : Nat) : Int).tdiv N = ((m % (N * N) / N : Nat) : Int) := rfl
  have h2 : m % (N * N) / N = m / N % N := Nat.mod_mul_right_div_self m N N
  have h3 : (N : Int) * ((m % (N * N) / N : Nat) : Int) + ((m % (N * N) % N : Nat) : Int)
      = ((m % (N * N) : Nat) : Int) := by
    exact_mod_cast Nat.div_add_mod (m % (N * N)) N
  have h4 : m % (N * N) % N = m % N := Nat.mod_mul_right_mod m N N
  simp only [indices3, ht, add_sub_cancel_right, h1, ht2]
  rw [h2, h4] at h3
  rw [h2]
  ext
  · dsimp only; omega
  · rfl
  · rfl

section
variable {R : Type} [Field R] [DecidableEq R]

omit [Field R] [DecidableEq R] in
theorem set2_same (a : Nat → Nat → R) (m d : Nat) (v : R) : set2 a m d v m d = v := by simp [set2]
omit [Field R] [DecidableEq R] in
theorem set2_col (a : Nat → Nat → R) (m d d' : Nat) (v : R) (h : d' ≠ d) : set2 a m d v m d' = a m d' := by
  simp [set2, h]
omit [Field R] [DecidableEq R] in
theorem set2_row (a : Nat → Nat → R) (m d m' : Nat) (v : R) (h : m' ≠ m) : set2 a m d v m' = a m' := by
  simp [set2, h]

theorem evalDirection_ok (w : Work R) (nodes1d xi : Nat → R) (o m d i : Nat) (hd : Distinct nodes1d o)
    (hi : i ≤ o) : ∃ v1 d1, evalDirection w nodes1d xi o m d ((i : Int) + 1) = .ok { w with
      val := set2 w.val m d (lagC (xi d) nodes1d o i), dval := set2 w.dval m d (lagQ (xi d) nodes1d o i),
      val1 := v1, dval1 := d1 } := by
  unfold evalDirection
  rw [lagrange1D_ok _ _ _ _ _ hd]
  refine ⟨?v1, ?d1, ?_⟩
  rotate_left 2
  · simp only [Outcome.bind_ok, Outcome.pure_eq, add_sub_cancel_right, Int.toNat_natCast, hi, if_true]
    rfl

theorem quadNBody_ok (w : Work R) (nodes1d xi : Nat → R) (o m : Nat) (hd : Distinct nodes1d o)
    (hm : m < (o + 1) * (o + 1)) : ∃ w', quadNBody nodes1d xi o w m = .ok w' ∧
      (w'.nodes m 0 = nodes1d (m % (o + 1)) ∧ w'.nodes m 1 = nodes1d (m / (o + 1))) ∧
      w'.basis m = lagC (xi 0) nodes1d o (m % (o + 1)) * lagC (xi 1) nodes1d o (m / (o + 1)) ∧
      w'.partials m 0 = lagQ (xi 0) nodes1d o (m % (o + 1)) * lagC (xi 1) nodes1d o (m / (o + 1)) ∧
      w'.partials m 1 = lagC (xi 0) nodes1d o (m % (o + 1)) * lagQ (xi 1) nodes1d o (m / (o + 1)) ∧
      ∀ m', m' ≠ m → w'.nodes m' = w.nodes m' ∧ w'.basis m' = w.basis m' ∧ w'.partials m' = w.partials m' := by
  have hi : m % (o + 1) ≤ o := Nat.lt_succ_iff.1 (Nat.mod_lt _ (by omega))
  have hj : m / (o + 1) ≤ o := Nat.lt_succ_iff.1 (Nat.div_lt_of_lt_mul hm)
  have hidx := indices2_eq (o + 1) m
  rw [Nat.cast_add, Nat.cast_one] at hidx
  unfold quadNBody
  dsimp only
  rw [hidx]
  dsimp only
  clear hidx
  generalize m % (o + 1) = i at *
  generalize m / (o + 1) = j at *
  simp only [add_sub_cancel_right, Int.toNat_natCast]
  generalize hw1 : ({ w with nodes := set2 (set2 w.nodes m 0 (nodes1d i)) m 1 (nodes1d j) } : Work R) = w1
  obtain ⟨v1, d1, e1⟩ := evalDirection_ok w1 nodes1d xi o m 0 i hd hi
  subst hw1
  rw [e1, Outcome.bind_ok]
  clear e1
  generalize hw2 : Work.mk _ _ _ _ _ _ _ = w2
  obtain ⟨v2, d2, e2⟩ := evalDirection_ok w2 nodes1d xi o m 1 j hd hj
  subst hw2
  rw [e2, Outcome.bind_ok]
  clear e2
  refine ⟨_, rfl, ⟨?_, ?_⟩, ?_, ?_, ?_, fun m' h => ⟨?_, ?_, ?_⟩⟩
  all_goals simp [set2, Function.update_of_ne, *]

theorem quadN_ok (w : Work R) (nodes1d xi : Nat → R) (o : Nat) (hd : Distinct nodes1d o) :
    ∃ w', quadNBasisPartials w nodes1d xi o = .ok w' ∧
      (∀ m < (o + 1) * (o + 1),
        (w'.nodes m 0 = nodes1d (m % (o + 1)) ∧ w'.nodes m 1 = nodes1d (m / (o + 1))) ∧
        w'.basis m = lagC (xi 0) nodes1d o (m % (o + 1)) * lagC (xi 1) nodes1d o (m / (o + 1)) ∧
        w'.partials m 0 = lagQ (xi 0) nodes1d o (m % (o + 1)) * lagC (xi 1) nodes1d o (m / (o + 1)) ∧
        w'.partials m 1 = lagC (xi 0) nodes1d o (m % (o + 1)) * lagQ (xi 1) nodes1d o (m / (o + 1))) ∧
      ∀ m, (o + 1) * (o + 1) ≤ m →
        w'.nodes m = w.nodes m ∧ w'.basis m = w.basis m ∧ w'.partials m = w.partials m := by
  have key : ∀ k ≤ (o + 1) * (o + 1), ∃ w', loopM k (quadNBody nodes1d xi o) w = .ok w' ∧
      (∀ m < k,
        (w'.nodes m 0 = nodes1d (m % (o + 1)) ∧ w'.nodes m 1 = nodes1d (m / (o + 1))) ∧
        w'.basis m = lagC (xi 0) nodes1d o (m % (o + 1)) * lagC (xi 1) nodes1d o (m / (o + 1)) ∧
        w'.partials m 0 = lagQ (xi 0) nodes1d o (m % (o + 1)) * lagC (xi 1) nodes1d o (m / (o + 1)) ∧
        w'.partials m 1 = lagC (xi 0) nodes1d o (m % (o + 1)) * lagQ (xi 1) nodes1d o (m / (o + 1))) ∧
      ∀ m, k ≤ m →
        w'.nodes m = w.nodes m ∧ w'.basis m = w.basis m ∧ w'.partials m = w.partials m := by
    intro k hk
    induction k with
    | zero => exact ⟨w, rfl, fun m h => absurd h (by omega), fun m _ => ⟨rfl, rfl, rfl⟩⟩
    | succ k ih =>
      obtain ⟨w1, e1, h1, h2⟩ := ih (by omega)
      obtain ⟨w2, e2, hn, hb, hp0, hp1, hrest⟩ := quadNBody_ok w1 nodes1d xi o k hd (by omega)
      refine ⟨w2, by rw [loopM_succ, e1, Outcome.bind_ok, e2], fun m hm => ?_, fun m hm => ?_⟩
      · by_cases h : m = k
        · subst h; exact ⟨hn, hb, hp0, hp1⟩
        · obtain ⟨r1, r2, r3⟩ := hrest m h
          rw [r1, r2, r3]
          exact h1 m (by omega)
      · obtain ⟨r1, r2, r3⟩ := hrest m (by omega)
        rw [r1, r2, r3]
        exact h2 m (by omega)
  exact key _ le_rfl

theorem hexNBody_ok (w : Work R) (nodes1d xi : Nat → R) (o m : Nat) (hd : Distinct nodes1d o)
    (hm : m < (o + 1) * (o + 1) * (o + 1)) : ∃ w', hexNBody nodes1d xi o w m = .ok w' ∧
      (w'.nodes m 0 = nodes1d (m % (o + 1)) ∧ w'.nodes m 1 = nodes1d (m / (o + 1) % (o + 1)) ∧
        w'.nodes m 2 = nodes1d (m / ((o + 1) * (o + 1)))) ∧
      w'.basis m = lagC (xi 0) nodes1d o (m % (o + 1)) * lagC (xi 1) nodes1d o (m / (o + 1) % (o + 1))
        * lagC (xi 2) nodes1d o (m / ((o + 1) * (o + 1))) ∧
      w'.partials m 0 = lagQ (xi 0) nodes1d o (m % (o + 1)) * lagC (xi 1) nodes1d o (m / (o + 1) % (o + 1))
        * lagC (xi 2) nodes1d o (m / ((o + 1) * (o + 1))) ∧
      w'.partials m 1 = lagC (xi 0) nodes1d o (m % (o + 1)) * lagQ (xi 1) nodes1d o (m / (o + 1) % (o + 1))
        * lagC (xi 2) nodes1d o (m / ((o + 1) * (o + 1))) ∧
      w'.partials m 2 = lagC (xi 0) nodes1d o (m % (o + 1)) * lagC (xi 1) nodes1d o (m / (o + 1) % (o + 1))
        * lagQ (xi 2) nodes1d o (m / ((o + 1) * (o + 1))) ∧
      ∀ m', m' ≠ m → w'.nodes m' = w.nodes m' ∧ w'.basis m' = w.basis m' ∧ w'.partials m' = w.partials m' := by
  have hi : m % (o + 1) ≤ o := Nat.lt_succ_iff.1 (Nat.mod_lt _ (by omega))
  have hj : m / (o + 1) % (o + 1) ≤ o := Nat.lt_succ_iff.1 (Nat.mod_lt _ (by omega))
  have hk : m / ((o + 1) * (o + 1)) ≤ o := Nat.lt_succ_iff.1 (Nat.div_lt_of_lt_mul hm)
  have hidx := indices3_eq (o + 1) m
  rw [Nat.cast_add, Nat.cast_one] at hidx
  unfold hexNBody
  dsimp only
  rw [hidx]
  clear hidx
  generalize m % (o + 1) = i at *
  generalize m / (o + 1) % (o + 1) = j at *
  generalize m / ((o + 1) * (o + 1)) = k at *
  dsimp only
  simp only [add_sub_cancel_right, Int.toNat_natCast]
  generalize hw1 : ({ w with nodes := set2 (set2 (set2 w.nodes m 0 (nodes1d i)) m 1 (nodes1d j)) m 2 (nodes1d k) }
    : Work R) = w1
  obtain ⟨v1, d1, e1⟩ := evalDirection_ok w1 nodes1d xi o m 0 i hd hi
  subst hw1
  rw [e1, Outcome.bind_ok]
  clear e1
  generalize hw2 : Work.mk _ _ _ _ _ _ _ = w2
  obtain ⟨v2, d2, e2⟩ := evalDirection_ok w2 nodes1d xi o m 1 j hd hj
  subst hw2
  rw [e2, Outcome.bind_ok]
  clear e2
  generalize hw3 : Work.mk _ _ _ _ _ _ _ = w3
  obtain ⟨v3, d3, e3⟩ := evalDirection_ok w3 nodes1d xi o m 2 k hd hk
  subst hw3
  rw [e3, Outcome.bind_ok]
  clear e3
  refine ⟨_, rfl, ⟨?_, ?_, ?_⟩, ?_, ?_, ?_, ?_, fun m' h => ⟨?_, ?_, ?_⟩⟩
  all_goals simp [set2, Function.update_of_ne, *]

theorem hexN_ok (w : Work R) (nodes1d xi : Nat → R) (o : Nat) (hd : Distinct nodes1d o) :
    ∃ w', hexNBasisPartials w nodes1d xi o = .ok w' ∧
      (∀ m < (o + 1) * (o + 1) * (o + 1),
      (w'.nodes m 0 = nodes1d (m % (o + 1)) ∧ w'.nodes m 1 = nodes1d (m / (o + 1) % (o + 1)) ∧
        w'.nodes m 2 = nodes1d (m / ((o + 1) * (o + 1)))) ∧
      w'.basis m = lagC (xi 0) nodes1d o (m % (o + 1)) * lagC (xi 1) nodes1d o (m / (o + 1) % (o + 1))
        * lagC (xi 2) nodes1d o (m / ((o + 1) * (o + 1))) ∧
      w'.partials m 0 = lagQ (xi 0) nodes1d o (m % (o + 1)) * lagC (xi 1) nodes1d o (m / (o + 1) % (o + 1))
        * lagC (xi 2) nodes1d o (m / ((o + 1) * (o + 1))) ∧
      w'.partials m 1 = lagC (xi 0) nodes1d o (m % (o + 1)) * lagQ (xi 1) nodes1d o (m / (o + 1) % (o + 1))
        * lagC (xi 2) nodes1d o (m / ((o + 1) * (o + 1))) ∧
      w'.partials m 2 = lagC (xi 0) nodes1d o (m % (o + 1)) * lagC (xi 1) nodes1d o (m / (o + 1) % (o + 1))
        * lagQ (xi 2) nodes1d o (m / ((o + 1) * (o + 1)))) ∧
      ∀ m, (o + 1) * (o + 1) * (o + 1) ≤ m →
        w'.nodes m = w.nodes m ∧ w'.basis m = w.basis m ∧ w'.partials m = w.partials m := by
  have key : ∀ K ≤ (o + 1) * (o + 1) * (o + 1), ∃ w', loopM K (hexNBody nodes1d xi o) w = .ok w' ∧
      (∀ m < K,
      (w'.nodes m 0 = nodes1d (m % (o + 1)) ∧ w'.nodes m 1 = nodes1d (m / (o + 1) % (o + 1)) ∧
        w'.nodes m 2 = nodes1d (m / ((o + 1) * (o + 1)))) ∧
      w'.basis m = lagC (xi 0) nodes1d o (m % (o + 1)) * lagC (xi 1) nodes1d o (m / (o + 1) % (o + 1))
        * lagC (xi 2) nodes1d o (m / ((o + 1) * (o + 1))) ∧
      w'.partials m 0 = lagQ (xi 0) nodes1d o (m % (o + 1)) * lagC (xi 1) nodes1d o (m / (o + 1) % (o + 1))
        * lagC (xi 2) nodes1d o (m / ((o + 1) * (o + 1))) ∧
      w'.partials m 1 = lagC (xi 0) nodes1d o (m % (o + 1)) * lagQ (xi 1) nodes1d o (m / (o + 1) % (o + 1))
        * lagC (xi 2) nodes1d o (m / ((o + 1) * (o + 1))) ∧
      w'.partials m 2 = lagC (xi 0) nodes1d o (m % (o + 1)) * lagC (xi 1) nodes1d o (m / (o + 1) % (o + 1))
        * lagQ (xi 2) nodes1d o (m / ((o + 1) * (o + 1)))) ∧
      ∀ m, K ≤ m →
        w'.nodes m = w.nodes m ∧ w'.basis m = w.basis m ∧ w'.partials m = w.partials m := by
    intro k hk
    induction k with
    | zero => exact ⟨w, rfl, fun m h => absurd h (by omega), fun m _ => ⟨rfl, rfl, rfl⟩⟩
    | succ k ih =>
      obtain ⟨w1, e1, h1, h2⟩ := ih (by omega)
      obtain ⟨w2, e2, hn, hb, hp0, hp1, hp2, hrest⟩ := hexNBody_ok w1 nodes1d xi o k hd (by omega)
      refine ⟨w2, by rw [loopM_succ, e1, Outcome.bind_ok, e2], fun m hm => ?_, fun m hm => ?_⟩
      · by_cases h : m = k
        · subst h; exact ⟨hn, hb, hp0, hp1, hp2⟩
        · obtain ⟨r1, r2, r3⟩ := hrest m h
          rw [r1, r2, r3]
          exact h1 m (by omega)
      · obtain ⟨r1, r2, r3⟩ := hrest m (by omega)
        rw [r1, r2, r3]
        exact h2 m (by omega)
  exact key _ le_rfl

/-- a sum over a flattened grid -/
theorem sum_grid {M : Type} [AddCommMonoid M] (N K : Nat) (f : Nat → Nat → M) (hN : 0 < N) :
    ∑ m ∈ range (N * K), f (m % N) (m / N) = ∑ j ∈ range K, ∑ i ∈ range N, f i j := by
  induction K with
  | zero => simp
  | succ K ih =>
    rw [Nat.mul_succ, sum_range_add, ih, sum_range_succ]
    congr 1
    refine sum_congr rfl fun i hi => ?_
    rw [mem_range] at hi
    rw [Nat.mul_add_mod, Nat.mod_eq_of_lt hi, Nat.mul_add_div hN, Nat.div_eq_of_lt hi, add_zero]

end
end Verif.Lagrange
