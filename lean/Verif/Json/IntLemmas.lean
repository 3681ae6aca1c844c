import Verif.Json.WriterModel
import Verif.Json.Spec

/-!
# Lemmas about the writing of integers
-/

namespace Verif.Json
open Spec

/-- the decimal digits of a number, without leading zeros -/
def Spec.digits (x : Nat) : Bytes :=
  if x < 10 then [0x30 + x] else Spec.digits (x / 10) ++ [0x30 + x % 10]
termination_by x
decreasing_by omega

theorem digits_small {x : Nat} (h : x < 10) : digits x = [0x30 + x] := by rw [digits, if_pos h]

theorem digits_step {x : Nat} (h : 10 ≤ x) : digits x = digits (x / 10) ++ [0x30 + x % 10] := by
  rw [digits, if_neg (by omega)]

theorem digits_pos (x : Nat) : 0 < (digits x).length := by
  by_cases h : x < 10
  · rw [digits_small h]; simp
  · rw [digits_step (by omega)]; simp

theorem decimal_snoc (ds : Bytes) (d : Nat) : decimal (ds ++ [d]) = decimal ds * 10 + (d - 0x30) := by
  induction ds with
  | nil => simp [decimal]
  | cons c ds ih =>
    simp only [List.cons_append, decimal, ih, List.length_append, List.length_cons, List.length_nil,
      Nat.pow_succ, Nat.zero_add]
    rw [Nat.add_mul, Nat.mul_assoc]
    omega

theorem decimal_digits (x : Nat) : decimal (digits x) = x := by
  induction x using Nat.strongRecOn with
  | _ x ih =>
    by_cases h : x < 10
    · rw [digits_small h]; simp [decimal]
    · rw [digits_step (by omega), decimal_snoc, ih (x / 10) (by omega)]
      omega

theorem digits_digit (x : Nat) : ∀ c ∈ digits x, Digit c := by
  induction x using Nat.strongRecOn with
  | _ x ih =>
    intro c hc
    by_cases h : x < 10
    · rw [digits_small h] at hc
      simp at hc
      unfold Digit
      omega
    · rw [digits_step (by omega)] at hc
      rcases List.mem_append.mp hc with hc | hc
      · exact ih _ (by omega) c hc
      · simp at hc
        unfold Digit
        omega

theorem digits_head {x : Nat} (hx : 0 < x) : (digits x).head? ≠ some 0x30 := by
  induction x using Nat.strongRecOn with
  | _ x ih =>
    by_cases h : x < 10
    · rw [digits_small h]; simp; omega
    · rw [digits_step (by omega)]
      have h1 := ih (x / 10) (by omega) (by omega)
      have h2 := digits_pos (x / 10)
      cases hd : digits (x / 10) with
      | nil => rw [hd] at h2; simp at h2
      | cons a t => rw [hd] at h1; simpa using h1

theorem digits_intPart (x : Nat) : IntPart (digits x) := by
  by_cases hx : x = 0
  · subst hx; exact .inl (by rw [digits_small (by omega)])
  · refine .inr ⟨⟨fun h => ?_, digits_digit x⟩, digits_head (by omega)⟩
    have := digits_pos x
    rw [h] at this
    simp at this

theorem digits_two {x : Nat} (h : 100 ≤ x) :
    digits x = digits (x / 100) ++ [0x30 + x % 100 / 10, 0x30 + x % 100 % 10] := by
  rw [digits_step (by omega), digits_step (x := x / 10) (by omega)]
  have e1 : x / 10 / 10 = x / 100 := by omega
  have e2 : x / 10 % 10 = x % 100 / 10 := by omega
  have e3 : x % 10 = x % 100 % 10 := by omega
  rw [e1, e2, e3]
  simp

theorem digits_length_lt {x k : Nat} (h : x < 10 ^ (k + 1)) : (digits x).length ≤ k + 1 := by
  induction k generalizing x with
  | zero => rw [digits_small (by simpa using h)]; simp
  | succ k ih =>
    by_cases hx : x < 10
    · rw [digits_small hx]; simp
    · rw [digits_step (by omega)]
      have := ih (x := x / 10) (by rw [Nat.pow_succ] at h; omega)
      simp
      omega

theorem countDigits_eq (fuel : Nat) : ∀ (n x : Nat), x < 10000 ^ (fuel + 1) →
    countDigits (fuel + 1) (n + 1) x = some (n + (digits x).length) := by
  induction fuel with
  | zero =>
    intro n x h
    simp only [Nat.zero_add, Nat.pow_one] at h
    rw [countDigits]
    by_cases h1 : x < 10
    · rw [if_pos h1, digits_small h1]; rfl
    rw [if_neg h1]
    by_cases h2 : x < 100
    · rw [if_pos h2, digits_step (by omega), digits_small (by omega)]; rfl
    rw [if_neg h2]
    by_cases h3 : x < 1000
    · rw [if_pos h3, digits_step (by omega), digits_step (by omega), digits_small (by omega)]; rfl
    rw [if_neg h3]
    rw [if_pos h, digits_step (by omega), digits_step (by omega), digits_step (by omega),
        digits_small (by omega)]; rfl
  | succ fuel ih =>
    intro n x h
    rw [countDigits]
    by_cases h1 : x < 10
    · rw [if_pos h1, digits_small h1]; rfl
    rw [if_neg h1]
    by_cases h2 : x < 100
    · rw [if_pos h2, digits_step (by omega), digits_small (by omega)]; rfl
    rw [if_neg h2]
    by_cases h3 : x < 1000
    · rw [if_pos h3, digits_step (by omega), digits_step (by omega), digits_small (by omega)]; rfl
    rw [if_neg h3]
    by_cases h4 : x < 10000
    · rw [if_pos h4, digits_step (by omega), digits_step (by omega), digits_step (by omega),
        digits_small (by omega)]; rfl
    rw [if_neg h4]
    have := ih (n + 4) (x / 10000) (by rw [Nat.pow_succ] at h; omega)
    rw [show n + 1 + 4 = n + 4 + 1 by omega, this, digits_step (x := x) (by omega),
      digits_step (x := x / 10) (by omega), digits_step (x := x / 10 / 10) (by omega),
      digits_step (x := x / 10 / 10 / 10) (by omega),
      show x / 10 / 10 / 10 / 10 = x / 10000 by omega]
    simp
    omega

theorem backward_eq (a r : Bytes) (v c : Nat) :
    backward (a ++ v :: r) (a.length + 1) c = some (a ++ c :: r, a.length) := by
  rw [backward, if_pos (by simp)]
  simp

theorem fillDigits_eq (fuel : Nat) : ∀ (x : Nat) (a m r : Bytes), m.length = (digits x).length →
    x < 100 ^ (fuel + 1) →
    fillDigits (fuel + 1) x (a ++ m ++ r) (a.length + m.length) = some (a ++ digits x ++ r) := by
  have snoc : ∀ (m : Bytes), 0 < m.length → ∃ m' v, m = m' ++ [v] := by
    intro m hm
    have : m ≠ [] := fun h => by rw [h] at hm; simp at hm
    exact ⟨m.dropLast, m.getLast this, (List.dropLast_concat_getLast this).symm⟩
  have small : ∀ (fuel x : Nat) (a m r : Bytes), x < 100 → m.length = (digits x).length →
      fillDigits (fuel + 1) x (a ++ m ++ r) (a.length + m.length) = some (a ++ digits x ++ r) := by
    intro fuel x a m r hx hm
    rw [fillDigits, if_neg (by omega)]
    by_cases h1 : x < 10
    · rw [if_neg (by omega)]
      rw [digits_small h1] at hm ⊢
      obtain ⟨v, rfl⟩ := List.length_eq_one_iff.mp hm
      have := backward_eq a r v (0x30 + x)
      simp only [List.append_assoc, List.cons_append, List.nil_append, List.length_cons,
        List.length_nil, Nat.zero_add, this, Option.bind_some]
    · rw [if_pos (by omega)]
      rw [digits_step (by omega), digits_small (by omega)] at hm ⊢
      obtain ⟨m1, v, rfl⟩ := snoc m (by rw [hm]; simp)
      obtain ⟨u, rfl⟩ := List.length_eq_one_iff.mp (show m1.length = 1 by simp at hm; omega)
      have e1 := backward_eq (a ++ [u]) r v (0x30 + x % 10)
      have e2 := backward_eq a ((0x30 + x % 10) :: r) u (0x30 + x / 10)
      simp only [List.append_assoc, List.cons_append, List.nil_append, List.length_append,
        List.length_cons, List.length_nil, Nat.zero_add] at e1 e2 ⊢
      rw [show a.length + (1 + 1) = a.length + 1 + 1 from rfl, e1]
      simp only [Option.bind_some, e2]
  induction fuel with
  | zero =>
    intro x a m r hm hx
    exact small 0 x a m r (by simpa using hx) hm
  | succ fuel ih =>
    intro x a m r hm hx
    by_cases h : x < 100
    · exact small _ x a m r h hm
    · rw [fillDigits, if_pos (by omega)]
      rw [digits_two (by omega)] at hm ⊢
      obtain ⟨m1, v, rfl⟩ := snoc m (by rw [hm]; simp)
      obtain ⟨m2, u, rfl⟩ := snoc m1 (by simp at hm; omega)
      have e1 := backward_eq (a ++ m2 ++ [u]) r v (0x30 + x % 100 % 10)
      have e2 := backward_eq (a ++ m2) ((0x30 + x % 100 % 10) :: r) u (0x30 + x % 100 / 10)
      have e3 := ih (x / 100) a m2 ((0x30 + x % 100 / 10) :: (0x30 + x % 100 % 10) :: r)
        (by simp at hm; omega) (by rw [Nat.pow_succ] at hx; omega)
      simp only [List.append_assoc, List.cons_append, List.nil_append, List.length_append,
        List.length_cons, List.length_nil, Nat.zero_add] at e1 e2 e3 ⊢
      rw [show a.length + (m2.length + (1 + 1)) = a.length + (m2.length + 1) + 1 by omega, e1]
      simp only [Option.bind_some]
      rw [show a.length + (m2.length + 1) = a.length + m2.length + 1 by omega, e2]
      simp only [Option.bind_some, e3]

/-- the text of an integer -/
def Spec.integer (x : Int) : Bytes := if x < 0 then 0x2D :: digits x.natAbs else digits x.natAbs

theorem dumpInteger_eq {x : Int} (h1 : -(2 ^ 63) ≤ x) (h2 : x < 2 ^ 64) :
    dumpInteger x = .ok (Spec.integer x) := by
  unfold dumpInteger
  by_cases h0 : x = 0
  · subst h0
    rw [if_pos rfl, Spec.integer, if_neg (by omega), Int.natAbs_zero, digits_small (by omega)]
  rw [if_neg h0]
  have e64 : (64 : Nat) = 63 + 1 := rfl
  have hlen : ∀ y : Nat, y < 2 ^ 65 → (digits y).length ≤ 20 :=
    fun y hy => digits_length_lt (k := 19) (Nat.lt_of_lt_of_le hy (by decide))
  have hcd : ∀ y : Nat, y < 2 ^ 65 → countDigits 64 1 y = some (digits y).length := by
    intro y hy
    have := countDigits_eq 63 0 y (Nat.lt_of_lt_of_le hy (by decide))
    rw [Nat.zero_add (digits y).length] at this
    exact this
  by_cases hn : 0 ≤ x
  · have habs : (x.toNat : Nat) = x.natAbs := by omega
    have hlt : x.natAbs < 2 ^ 65 := by omega
    simp only [hn, not_true_eq_false, if_false]
    rw [habs, hcd _ hlt]
    have hl := hlen _ hlt
    simp only
    rw [if_pos (by omega)]
    have := fillDigits_eq 63 x.natAbs [] (List.replicate (digits x.natAbs).length 0)
      (List.replicate (64 - (digits x.natAbs).length) 0) (by simp) (Nat.lt_of_lt_of_le hlt (by decide))
    rw [List.nil_append, List.replicate_append_replicate,
      show (digits x.natAbs).length + (64 - (digits x.natAbs).length) = 64 by omega,
      List.length_replicate, List.length_nil, Nat.zero_add, List.nil_append] at this
    rw [this]
    simp only [List.take_left]
    rw [Spec.integer, if_neg (by omega)]
  · have habs : ((-(x + 1)).toNat + 1 : Nat) = x.natAbs := by omega
    have hlt : x.natAbs < 2 ^ 65 := by omega
    simp only [hn, not_false_eq_true, if_true]
    rw [habs, hcd _ hlt]
    have hl := hlen _ hlt
    simp only
    rw [if_pos (by omega)]
    have := fillDigits_eq 63 x.natAbs [0x2D] (List.replicate (digits x.natAbs).length 0)
      (List.replicate (63 - (digits x.natAbs).length) 0) (by simp) (Nat.lt_of_lt_of_le hlt (by decide))
    rw [List.append_assoc, List.replicate_append_replicate,
      show (digits x.natAbs).length + (63 - (digits x.natAbs).length) = 63 by omega,
      List.length_replicate] at this
    have hset : (List.replicate 64 0).set 0 0x2D = [0x2D] ++ List.replicate 63 0 := rfl
    rw [hset]
    have hl1 : ([0x2D] : Bytes).length = 1 := rfl
    rw [hl1] at this
    rw [this]
    simp only [List.cons_append, List.nil_append, Nat.add_comm 1, List.take_succ_cons, List.take_left]
    rw [Spec.integer, if_pos (by omega)]

end Verif.Json
