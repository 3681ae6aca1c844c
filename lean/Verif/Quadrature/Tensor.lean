import Verif.Quadrature.Lemmas

/-! Helper lemmas for the multi-dimensional rules. -/

namespace Verif.Quadrature

open Finset

theorem indices2_eq (q m : Nat) :
    indices2 q m = (((m % q : Nat) : Int) + 1, ((m / q : Nat) : Int) + 1) := Lagrange.indices2_eq q m

theorem indices3_eq (q m : Nat) :
    indices3 q m = (((m % q : Nat) : Int) + 1, ((m / q % q : Nat) : Int) + 1,
      ((m / (q * q) : Nat) : Int) + 1) := Lagrange.indices3_eq q m

theorem toInt_intCast (z : Int) : toInt (z : ℚ) = z := by
  unfold toInt; split <;> simp

theorem indices4_eq (q m : Nat) (hq : 0 < q) :
    indices4 q m 4 = (((m % q : Nat) : Int) + 1, ((m / q % q : Nat) : Int) + 1,
      ((m / (q * q) % q : Nat) : Int) + 1, ((m / (q * q * q) : Nat) : Int) + 1) := by
  have ea : ((q : Int) : ℚ) ^ ((4 : Int) - 1) = ((q * q * q : Nat) : ℚ) := by
    rw [show (4 : Int) - 1 = ((3 : Nat) : Int) by norm_num, zpow_natCast]; push_cast; ring
  have eb : ((q : Int) : ℚ) ^ ((4 : Int) - 2) = ((q * q : Nat) : ℚ) := by
    rw [show (4 : Int) - 2 = ((2 : Nat) : Int) by norm_num, zpow_natCast]; push_cast; ring
  have fl : ∀ a b : Nat, ⌊((a : Int) : ℚ) / (b : ℚ)⌋ = ((a / b : Nat) : Int) := by
    intro a b
    rw [Rat.floor_intCast_div_natCast]; rfl
  simp only [indices4, ea, eb, fl]
  have hl : toInt (((m / (q * q * q) : Nat) : Int) + 1 : ℚ) = ((m / (q * q * q) : Nat) : Int) + 1 := by
    have := toInt_intCast (((m / (q * q * q) : Nat) : Int) + 1)
    push_cast at this ⊢; exact this
  have hm3 : q * q * q * (m / (q * q * q)) + m % (q * q * q) = m := Nat.div_add_mod m (q * q * q)
  have hkk : toInt ((((m : Nat) : Int) : ℚ) + 1 - ((q * q * q : Nat) : ℚ) * (((((m / (q * q * q) : Nat) : Int) + 1 : Int) : ℚ) - 1))
      = ((m % (q * q * q) : Nat) : Int) + 1 := by
    rw [← toInt_intCast (((m % (q * q * q) : Nat) : Int) + 1)]
    congr 1
    have : (m : ℚ) = ((q * q * q * (m / (q * q * q)) + m % (q * q * q) : Nat) : ℚ) := by rw [hm3]
    clear hl hm3
    generalize m / (q * q * q) = A at *
    generalize m % (q * q * q) = B at *
    push_cast at this ⊢
    rw [this]; ring
  rw [hl, hkk]
  have hk1 : ((((m % (q * q * q) : Nat) : Int) + 1 : Int) : ℚ) - 1 = (((m % (q * q * q) : Nat) : Int) : ℚ) := by
    push_cast; ring
  rw [hk1, fl]
  have hk : toInt (((m % (q * q * q) / (q * q) : Nat) : Int) + 1 : ℚ) = ((m % (q * q * q) / (q * q) : Nat) : Int) + 1 := by
    have := toInt_intCast (((m % (q * q * q) / (q * q) : Nat) : Int) + 1)
    push_cast at this ⊢; exact this
  rw [hk]
  have hm2 : q * q * (m % (q * q * q) / (q * q)) + m % (q * q * q) % (q * q) = m % (q * q * q) :=
    Nat.div_add_mod _ _
  have hjj : toInt ((((m : Nat) : Int) : ℚ) + 1 - ((q * q : Nat) : ℚ) * (((((m % (q * q * q) / (q * q) : Nat) : Int) + 1 : Int) : ℚ) - 1)
      - ((q * q * q : Nat) : ℚ) * (((((m / (q * q * q) : Nat) : Int) + 1 : Int) : ℚ) - 1))
      = ((m % (q * q * q) % (q * q) : Nat) : Int) + 1 := by
    rw [← toInt_intCast (((m % (q * q * q) % (q * q) : Nat) : Int) + 1)]
    congr 1
    have h1 : (m : ℚ) = ((q * q * q * (m / (q * q * q)) + m % (q * q * q) : Nat) : ℚ) := by rw [hm3]
    have h2 : ((m % (q * q * q) : Nat) : ℚ)
      = ((q * q * (m % (q * q * q) / (q * q)) + m % (q * q * q) % (q * q) : Nat) : ℚ) := by rw [hm2]
    clear hk hm2 hk1 hkk hl hm3
    generalize m / (q * q * q) = A at *
    generalize m % (q * q * q) / (q * q) = D at *
    generalize m % (q * q * q) % (q * q) = C at *
    generalize m % (q * q * q) = B at *
    push_cast at h1 h2 ⊢
    linear_combination h1 + h2
  rw [hjj]
  have e1 : m % (q * q * q) % (q * q) = m % (q * q) := Nat.mod_mul_right_mod m (q * q) q
  have e2 : m % (q * q * q) / (q * q) = m / (q * q) % q := Nat.mod_mul_right_div_self m (q * q) q
  rw [e1, e2]
  simp only [add_sub_cancel_right]
  have ht : ((m % (q * q) : Nat) : Int).tdiv q = ((m % (q * q) / q : Nat) : Int) := rfl
  have e3 : m % (q * q) / q = m / q % q := Nat.mod_mul_right_div_self m q q
  have h3 : (q : Int) * ((m % (q * q) / q : Nat) : Int) + ((m % (q * q) % q : Nat) : Int)
      = ((m % (q * q) : Nat) : Int) := by
    exact_mod_cast Nat.div_add_mod (m % (q * q)) q
  have e4 : m % (q * q) % q = m % q := Nat.mod_mul_right_mod m q q
  rw [ht, e3]
  rw [e3, e4] at h3
  ext
  · dsimp only; omega
  all_goals rfl

/-- what a line rule does when it is one of the supported ones -/
def Good (rule : Rule) (q : Nat) (x w : Nat → ℝ) : Prop :=
  ∀ i < q, ∀ x0 w0, rule ⟨x0, w0, (i : Int) + 1⟩ q = .ok ⟨some (x i), some (w i), i⟩

theorem direction_ok {rule : Rule} {q : Nat} {x w : Nat → ℝ} (h : Good rule q x w) (m d i : Nat) (hi : i < q)
    (o : Out) (x0 w0 : Option ℝ) : direction rule q m d ((i : Int) + 1) (o, x0, w0)
      = .ok ({ o with pts := set2 o.pts m d (x i), wts := set2 o.wts m d (o.wts m d * w i) }, some (x i), some (w i)) := by
  simp [direction, h i hi x0 w0, read]

/-- loops that fill one row at a time -/
theorem fill_rows (n D : Nat) (body : Out → Nat → Outcome Out) (A B : Nat → Nat → ℝ)
    (hb : ∀ o, ∀ m < n, ∃ o', body o m = .ok o' ∧ o'.tot = o.tot ∧
      (∀ d < D, o'.pts m d = A m d ∧ o'.wts m d = B m d) ∧
      ∀ m', m' ≠ m → o'.pts m' = o.pts m' ∧ o'.wts m' = o.wts m') (o : Out) :
    ∃ o', loopM n body o = .ok o' ∧ o'.tot = o.tot ∧
      (∀ m < n, ∀ d < D, o'.pts m d = A m d ∧ o'.wts m d = B m d) ∧
      ∀ m, n ≤ m → o'.pts m = o.pts m ∧ o'.wts m = o.wts m := by
  have key : ∀ k ≤ n, ∃ o', loopM k body o = .ok o' ∧ o'.tot = o.tot ∧
      (∀ m < k, ∀ d < D, o'.pts m d = A m d ∧ o'.wts m d = B m d) ∧
      ∀ m, k ≤ m → o'.pts m = o.pts m ∧ o'.wts m = o.wts m := by
    intro k hk
    induction k with
    | zero => exact ⟨o, rfl, rfl, fun m h => absurd h (by omega), fun m _ => ⟨rfl, rfl⟩⟩
    | succ k ih =>
      obtain ⟨o1, e1, ht, h1, h2⟩ := ih (by omega)
      obtain ⟨o2, e2, ht2, hrow, hrest⟩ := hb o1 k (by omega)
      refine ⟨o2, ?_, ht2.trans ht, fun m hm => ?_, fun m hm => ?_⟩
      · have := Lagrange.loopM_succ k body o
        rw [show loopM (k + 1) body o = Lagrange.loopM (k + 1) body o from rfl, this,
          show Lagrange.loopM k body o = loopM k body o from rfl, e1, Outcome.bind_ok, e2]
      · by_cases h : m = k
        · subst h; exact hrow
        · obtain ⟨r1, r2⟩ := hrest m h
          rw [r1, r2]; exact h1 m (by omega)
      · obtain ⟨r1, r2⟩ := hrest m (by omega)
        rw [r1, r2]; exact h2 m (by omega)
  exact key n le_rfl

theorem rule2_ok {rule : Rule} {q : Nat} {x w : Nat → ℝ} (h : Good rule q x w) (o : Out) :
    ∃ o', rule2 rule o q = .ok o' ∧ o'.tot = o.tot ∧
      (∀ m < q * q, (o'.pts m 0 = x (m % q) ∧ o'.pts m 1 = x (m / q)) ∧
        o'.wts m 0 = w (m % q) ∧ o'.wts m 1 = w (m / q)) ∧
      ∀ m, q * q ≤ m → o'.pts m = o.pts m ∧ o'.wts m = o.wts m := by
  obtain ⟨o', e, ht, h1, h2⟩ := fill_rows (q * q) 2 (fun o m => do
    let (i, j) := indices2 q m
    let o := { o with wts := Function.update o.wts m (ones 2) }
    let st ← direction rule q m 0 i (o, none, none)
    let st ← direction rule q m 1 j st
    return st.1) (fun m d => if d = 0 then x (m % q) else x (m / q))
    (fun m d => if d = 0 then w (m % q) else w (m / q)) (by
      intro o m hm
      have hq : 0 < q := Nat.pos_of_ne_zero (by rintro rfl; simp at hm)
      have hi : m % q < q := Nat.mod_lt _ hq
      have hj : m / q < q := Nat.div_lt_of_lt_mul hm
      dsimp only
      rw [indices2_eq]
      dsimp only
      rw [direction_ok h _ _ _ hi, Outcome.bind_ok, direction_ok h _ _ _ hj, Outcome.bind_ok]
      refine ⟨_, rfl, rfl, fun d hd => ?_, fun m' hne => ?_⟩
      · match d, hd with
        | 0, _ => norm_num [set2, ones]
        | 1, _ => norm_num [set2, ones]
      · simp [set2, hne]) o
  refine ⟨o', e, ht, fun m hm => ⟨⟨?_, ?_⟩, ?_, ?_⟩, h2⟩
  · exact (h1 m hm 0 (by omega)).1
  · exact (h1 m hm 1 (by omega)).1
  · exact (h1 m hm 0 (by omega)).2
  · exact (h1 m hm 1 (by omega)).2

theorem rule3_ok {rule : Rule} {q : Nat} {x w : Nat → ℝ} (h : Good rule q x w) (o : Out) :
    ∃ o', rule3 rule o q = .ok o' ∧ o'.tot = o.tot ∧
      (∀ m < q * q * q, (o'.pts m 0 = x (m % q) ∧ o'.pts m 1 = x (m / q % q) ∧ o'.pts m 2 = x (m / (q * q))) ∧
        o'.wts m 0 = w (m % q) ∧ o'.wts m 1 = w (m / q % q) ∧ o'.wts m 2 = w (m / (q * q))) ∧
      ∀ m, q * q * q ≤ m → o'.pts m = o.pts m ∧ o'.wts m = o.wts m := by
  obtain ⟨o', e, ht, h1, h2⟩ := fill_rows (q * q * q) 3 (fun o m => do
    let (i, j, k) := indices3 q m
    let o := { o with wts := Function.update o.wts m (ones 3) }
    let st ← direction rule q m 0 i (o, none, none)
    let st ← direction rule q m 1 j st
    let st ← direction rule q m 2 k st
    return st.1)
    (fun m d => if d = 0 then x (m % q) else if d = 1 then x (m / q % q) else x (m / (q * q)))
    (fun m d => if d = 0 then w (m % q) else if d = 1 then w (m / q % q) else w (m / (q * q))) (by
      intro o m hm
      have hq : 0 < q := Nat.pos_of_ne_zero (by rintro rfl; simp at hm)
      have hi : m % q < q := Nat.mod_lt _ hq
      have hj : m / q % q < q := Nat.mod_lt _ hq
      have hk : m / (q * q) < q := Nat.div_lt_of_lt_mul hm
      dsimp only
      rw [indices3_eq]
      dsimp only
      rw [direction_ok h _ _ _ hi, Outcome.bind_ok, direction_ok h _ _ _ hj, Outcome.bind_ok,
        direction_ok h _ _ _ hk, Outcome.bind_ok]
      refine ⟨_, rfl, rfl, fun d hd => ?_, fun m' hne => ?_⟩
      · match d, hd with
        | 0, _ => norm_num [set2, ones]
        | 1, _ => norm_num [set2, ones]
        | 2, _ => norm_num [set2, ones]
      · simp [set2, hne]) o
  refine ⟨o', e, ht, fun m hm => ⟨⟨?_, ?_, ?_⟩, ?_, ?_, ?_⟩, h2⟩
  · exact (h1 m hm 0 (by omega)).1
  · exact (h1 m hm 1 (by omega)).1
  · exact (h1 m hm 2 (by omega)).1
  · exact (h1 m hm 0 (by omega)).2
  · exact (h1 m hm 1 (by omega)).2
  · exact (h1 m hm 2 (by omega)).2

theorem rule4_ok {rule : Rule} {q : Nat} {x w : Nat → ℝ} (h : Good rule q x w) (o : Out) :
    ∃ o', rule4 rule o q 4 = .ok o' ∧ o'.tot = o.tot ∧
      (∀ m < q * q * q * q, (o'.pts m 0 = x (m % q) ∧ o'.pts m 1 = x (m / q % q) ∧ o'.pts m 2 = x (m / (q * q) % q) ∧
          o'.pts m 3 = x (m / (q * q * q))) ∧
        o'.wts m 0 = w (m % q) ∧ o'.wts m 1 = w (m / q % q) ∧ o'.wts m 2 = w (m / (q * q) % q) ∧
          o'.wts m 3 = w (m / (q * q * q))) ∧
      ∀ m, q * q * q * q ≤ m → o'.pts m = o.pts m ∧ o'.wts m = o.wts m := by
  obtain ⟨o', e, ht, h1, h2⟩ := fill_rows (q * q * q * q) 4 (fun o m => do
    let (i, j, k, l) := indices4 q m 4
    let o := { o with wts := Function.update o.wts m (ones 4) }
    let st ← direction rule q m 0 i (o, none, none)
    let st ← direction rule q m 1 j st
    let st ← direction rule q m 2 k st
    let st ← direction rule q m 3 l st
    return st.1)
    (fun m d => if d = 0 then x (m % q) else if d = 1 then x (m / q % q) else if d = 2 then x (m / (q * q) % q)
      else x (m / (q * q * q)))
    (fun m d => if d = 0 then w (m % q) else if d = 1 then w (m / q % q) else if d = 2 then w (m / (q * q) % q)
      else w (m / (q * q * q))) (by
      intro o m hm
      have hq : 0 < q := Nat.pos_of_ne_zero (by rintro rfl; simp at hm)
      have hi : m % q < q := Nat.mod_lt _ hq
      have hj : m / q % q < q := Nat.mod_lt _ hq
      have hk : m / (q * q) % q < q := Nat.mod_lt _ hq
      have hl : m / (q * q * q) < q := Nat.div_lt_of_lt_mul hm
      dsimp only
      rw [indices4_eq _ _ hq]
      dsimp only
      rw [direction_ok h _ _ _ hi, Outcome.bind_ok, direction_ok h _ _ _ hj, Outcome.bind_ok,
        direction_ok h _ _ _ hk, Outcome.bind_ok, direction_ok h _ _ _ hl, Outcome.bind_ok]
      refine ⟨_, rfl, rfl, fun d hd => ?_, fun m' hne => ?_⟩
      · match d, hd with
        | 0, _ => norm_num [set2, ones]
        | 1, _ => norm_num [set2, ones]
        | 2, _ => norm_num [set2, ones]
        | 3, _ => norm_num [set2, ones]
      · simp [set2, hne]) o
  refine ⟨o', e, ht, fun m hm => ⟨⟨?_, ?_, ?_, ?_⟩, ?_, ?_, ?_, ?_⟩, h2⟩
  · exact (h1 m hm 0 (by omega)).1
  · exact (h1 m hm 1 (by omega)).1
  · exact (h1 m hm 2 (by omega)).1
  · exact (h1 m hm 3 (by omega)).1
  · exact (h1 m hm 0 (by omega)).2
  · exact (h1 m hm 1 (by omega)).2
  · exact (h1 m hm 2 (by omega)).2
  · exact (h1 m hm 3 (by omega)).2

theorem totals_eq (D n : Nat) (o : Out) (m : Nat) : (totals D n o).tot m =
    if m < n then (List.range D).foldl (fun a d => if d = 0 then o.wts m d else a * o.wts m d) 0 else o.tot m := by
  unfold totals
  dsimp only
  induction n with
  | zero => simp
  | succ n ih =>
    rw [List.range_succ, List.foldl_append, List.foldl_cons, List.foldl_nil]
    by_cases h : m = n
    · subst h; rw [Function.update_self, if_pos (by omega)]
    · rw [Function.update_of_ne h, ih]
      have : m < n + 1 ↔ m < n := by omega
      simp [this]

/-- sums over the flattened grids -/
theorem sum_grid3 (q : Nat) (hq : 0 < q) (f : Nat → Nat → Nat → ℝ) :
    ∑ m ∈ range (q * q * q), f (m % q) (m / q % q) (m / (q * q))
      = ∑ k ∈ range q, ∑ j ∈ range q, ∑ i ∈ range q, f i j k := by
  have e := Lagrange.sum_grid q (q * q) (fun i b => f i (b % q) (b / q)) hq
  have e' := Lagrange.sum_grid q q (fun j k => ∑ i ∈ range q, f i j k) hq
  rw [← e', ← e, Nat.mul_assoc]
  exact sum_congr rfl fun m _ => by rw [Nat.div_div_eq_div_mul]

theorem sum_grid4 (q : Nat) (hq : 0 < q) (f : Nat → Nat → Nat → Nat → ℝ) :
    ∑ m ∈ range (q * q * q * q), f (m % q) (m / q % q) (m / (q * q) % q) (m / (q * q * q))
      = ∑ l ∈ range q, ∑ k ∈ range q, ∑ j ∈ range q, ∑ i ∈ range q, f i j k l := by
  have e := Lagrange.sum_grid q (q * q * q) (fun i b => f i (b % q) (b / q % q) (b / (q * q))) hq
  have e' := sum_grid3 q hq (fun j k l => ∑ i ∈ range q, f i j k l)
  rw [← e', ← e]
  rw [show q * q * q * q = q * (q * q * q) by ring]
  exact sum_congr rfl fun m _ => by rw [Nat.div_div_eq_div_mul, Nat.div_div_eq_div_mul, Nat.mul_assoc]

end Verif.Quadrature
