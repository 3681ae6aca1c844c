import Verif.Inflate.Model
import Verif.Inflate.Spec
import Mathlib.Tactic.IntervalCases

/-!
# Lemmas about bits: numbers at places of a stream, the bit buffer, and reversed bits
-/

namespace Verif.Inflate

variable {inp : List UInt8}

theorem bitAt_lt (i : Nat) : bitAt inp i < 2 := Nat.mod_lt _ (by decide)

theorem lsb_lt (p n : Nat) : lsb inp p n < 2 ^ n := by
  induction n with
  | zero => simp [lsb]
  | succ n ih =>
    rw [lsb, Nat.pow_succ]
    have := bitAt_lt (inp := inp) (p + n)
    have h : 2 ^ n * bitAt inp (p + n) ≤ 2 ^ n * 1 := Nat.mul_le_mul_left _ (by omega)
    omega

theorem msb_lt (p n : Nat) : msb inp p n < 2 ^ n := by
  induction n with
  | zero => simp [msb]
  | succ n ih =>
    rw [msb, Nat.pow_succ]
    have := bitAt_lt (inp := inp) (p + n)
    omega

theorem lsb_add (p m n : Nat) : lsb inp p (m + n) = lsb inp p m + 2 ^ m * lsb inp (p + m) n := by
  induction n with
  | zero => simp [lsb]
  | succ n ih =>
    rw [← Nat.add_assoc, lsb, lsb, ih, Nat.mul_add, ← Nat.mul_assoc, ← Nat.pow_add, Nat.add_assoc, Nat.add_assoc p m n]

theorem msb_add (p m n : Nat) : msb inp p (m + n) = msb inp p m * 2 ^ n + msb inp (p + m) n := by
  induction n with
  | zero => simp [msb]
  | succ n ih =>
    rw [← Nat.add_assoc, msb, msb, ih, Nat.mul_add, Nat.pow_succ, Nat.add_assoc p m n]
    rw [← Nat.mul_assoc, Nat.mul_comm 2 (msb inp p m), Nat.mul_assoc, Nat.mul_comm 2 (2 ^ n)]
    omega

theorem msb_div (p m n : Nat) : msb inp p (m + n) / 2 ^ n = msb inp p m := by
  rw [msb_add, Nat.mul_comm, Nat.mul_add_div (Nat.two_pow_pos n), Nat.div_eq_of_lt (msb_lt _ _), Nat.add_zero]

theorem lsb_mod (p m n : Nat) : lsb inp p (m + n) % 2 ^ m = lsb inp p m := by
  rw [lsb_add, Nat.add_mul_mod_self_left, Nat.mod_eq_of_lt (lsb_lt _ _)]

theorem lsb_div (p m n : Nat) : lsb inp p (m + n) / 2 ^ m = lsb inp (p + m) n := by
  rw [lsb_add, Nat.add_mul_div_left _ _ (Nat.two_pow_pos m), Nat.div_eq_of_lt (lsb_lt _ _), Nat.zero_add]

theorem lsb_byte (k : Nat) : lsb inp (8 * k) 8 = (inp[k]?.getD 0).toNat := by
  have h : ∀ i, i < 8 → bitAt inp (8 * k + i) = (inp[k]?.getD 0).toNat / 2 ^ i % 2 := by
    intro i hi
    rw [bitAt]
    have h1 : (8 * k + i) / 8 = k := by omega
    have h2 : (8 * k + i) % 8 = i := by omega
    rw [h1, h2]
  simp only [lsb]
  rw [h 0 (by decide), h 1 (by decide), h 2 (by decide), h 3 (by decide), h 4 (by decide), h 5 (by decide), h 6 (by decide), h 7 (by decide)]
  have := (inp[k]?.getD 0).toNat_lt
  generalize (inp[k]?.getD 0).toNat = x at *
  norm_num at *
  omega

/-- the bit buffer and the bytes behind it are the stream from a place on -/
def Rep (inp : List UInt8) (z : ZBuf) (p : Nat) : Prop :=
  (p + z.num) % 8 = 0 ∧ z.rest = inp.drop ((p + z.num) / 8) ∧ z.code = lsb inp p z.num ∧ z.num ≤ 32

/-- what is written, and where -/
def dst (z : ZBuf) : List UInt8 × Nat × Bool × Nat := (z.out, z.cap, z.exp, z.room)

theorem rep_round {z : ZBuf} {p : Nat} (h : Rep inp z p) (hn : z.num ≤ 24) :
    Rep inp { (get8 z).2 with code := z.code ||| ((get8 z).1.toNat <<< z.num) % 2 ^ 32, num := z.num + 8 } p ∧
    z.code < 2 ^ z.num ∧ dst (get8 z).2 = dst z := by
  obtain ⟨h1, h2, h3, h4⟩ := h
  have hlt : z.code < 2 ^ z.num := by rw [h3]; exact lsb_lt _ _
  have hb : (get8 z).1.toNat = lsb inp (p + z.num) 8 ∧ (get8 z).2.rest = inp.drop ((p + z.num) / 8 + 1) ∧ dst (get8 z).2 = dst z := by
    have hk : p + z.num = 8 * ((p + z.num) / 8) := by omega
    have hby := lsb_byte (inp := inp) ((p + z.num) / 8)
    rw [← hk] at hby
    rw [hby, get8]
    cases hr : z.rest with
    | nil =>
      rw [hr] at h2
      have hle : inp.length ≤ (p + z.num) / 8 := List.drop_eq_nil_iff.mp h2.symm
      simp only
      rw [List.getElem?_eq_none hle, hr, List.drop_eq_nil_iff.mpr (by omega)]
      simp
    | cons b r =>
      rw [hr] at h2
      simp only
      have hlen : (p + z.num) / 8 < inp.length := by
        rcases Nat.lt_or_ge ((p + z.num) / 8) inp.length with h | h
        · exact h
        · rw [List.drop_eq_nil_iff.mpr h] at h2
          cases h2
      rw [List.drop_eq_getElem_cons hlen] at h2
      injection h2 with e1 e2
      rw [List.getElem?_eq_getElem hlen, ← e1]
      simp [dst, e2]
  have hbl : (get8 z).1.toNat < 256 := (get8 z).1.toNat_lt
  have hsh : ((get8 z).1.toNat <<< z.num) % 2 ^ 32 = (get8 z).1.toNat * 2 ^ z.num := by
    rw [Nat.shiftLeft_eq]
    apply Nat.mod_eq_of_lt
    have : 2 ^ z.num ≤ 2 ^ 24 := Nat.pow_le_pow_right (by decide) hn
    have : (get8 z).1.toNat * 2 ^ z.num ≤ 255 * 2 ^ 24 := Nat.mul_le_mul (by omega) this
    omega
  refine ⟨⟨?_, ?_, ?_, ?_⟩, hlt, hb.2.2⟩
  · simp only; omega
  · simp only
    rw [hb.2.1]
    congr 1
    omega
  · simp only
    rw [hsh, Nat.or_comm, Nat.mul_comm, ← Nat.two_pow_add_eq_or_of_lt hlt, lsb_add, h3, hb.1]
    omega
  · simp only; omega

theorem fillLoop_ok {z : ZBuf} {p : Nat} : ∀ n, Rep inp z p → z.num ≤ 24 → 24 < z.num + 8 * n →
    ∃ z', fillLoop n z = .ok z' ∧ Rep inp z' p ∧ 25 ≤ z'.num ∧ dst z' = dst z := by
  intro n
  induction n generalizing z with
  | zero => intro _ h1 h2; omega
  | succ n ih =>
    intro h h1 h2
    obtain ⟨r1, r2, r3⟩ := rep_round h h1
    rw [fillLoop, if_neg (by omega), if_neg (by omega)]
    simp only
    split
    · rename_i hle
      obtain ⟨z', e1, e2, e3, e4⟩ := ih r1 hle (by simp only; omega)
      refine ⟨z', e1, e2, e3, ?_⟩
      rw [e4, ← r3]
      rfl
    · rename_i hle
      refine ⟨_, rfl, r1, by simp only; omega, ?_⟩
      rw [← r3]
      rfl

theorem fillBits_ok {z : ZBuf} {p : Nat} (h : Rep inp z p) (hn : z.num ≤ 24) :
    ∃ z', fillBits z = .ok z' ∧ Rep inp z' p ∧ 25 ≤ z'.num ∧ dst z' = dst z :=
  fillLoop_ok 4 h hn (by omega)

/-- bits are taken from the buffer -/
theorem rep_shift {z : ZBuf} {p n : Nat} (h : Rep inp z p) (hn : n ≤ z.num) :
    Rep inp { z with code := z.code >>> n, num := z.num - n } (p + n) := by
  obtain ⟨h1, h2, h3, h4⟩ := h
  have e : p + n + (z.num - n) = p + z.num := by omega
  refine ⟨by simp only; omega, by simp only; rw [e, h2], ?_, by simp only; omega⟩
  simp only
  rw [h3, Nat.shiftRight_eq_div_pow]
  have : z.num = n + (z.num - n) := by omega
  rw [this, lsb_div, Nat.add_sub_cancel_left]

theorem receive_ok {z : ZBuf} {p n : Nat} (h : Rep inp z p) (hn : n ≤ 25) :
    ∃ z', receive n z = .ok (lsb inp p n, z') ∧ Rep inp z' (p + n) ∧ z'.num + n ≤ 32 ∧ dst z' = dst z := by
  have main : ∀ y : ZBuf, Rep inp y p → n ≤ y.num → dst y = dst z →
      ∃ z', (Outcome.ok (y.code &&& ((1 <<< n) - 1), { y with code := y.code >>> n, num := y.num - n }) : Outcome (Nat × ZBuf)) =
        .ok (lsb inp p n, z') ∧ Rep inp z' (p + n) ∧ z'.num + n ≤ 32 ∧ dst z' = dst z := by
    intro y hy hny hd
    refine ⟨{ y with code := y.code >>> n, num := y.num - n }, ?_, rep_shift hy hny, by simp only; have := hy.2.2.2; omega, ?_⟩
    · rw [Nat.one_shiftLeft, Nat.and_two_pow_sub_one_eq_mod, hy.2.2.1]
      have : y.num = n + (y.num - n) := by omega
      rw [this, lsb_mod]
    · rw [← hd]; rfl
  rw [receive]
  split
  · rename_i hlt
    obtain ⟨y, e1, e2, e3, e4⟩ := fillBits_ok h (by omega)
    rw [e1, Outcome.bind_ok]
    exact main y e2 (by omega) e4
  · rw [Outcome.bind_ok]
    exact main z h (by omega) rfl

/-! ## Reversed bits -/

theorem testBit_lsb (p n i : Nat) : (lsb inp p n).testBit i = (decide (i < n) && decide (bitAt inp (p + i) = 1)) := by
  induction n with
  | zero => simp [lsb]
  | succ n ih =>
    rw [lsb, Nat.add_comm]
    rcases Nat.lt_trichotomy i n with h | h | h
    · rw [Nat.testBit_two_pow_mul_add _ (lsb_lt _ _), if_pos h, ih]
      simp [h, Nat.lt_succ_of_lt h]
    · subst h
      rw [Nat.testBit_two_pow_mul_add _ (lsb_lt _ _), if_neg (by omega)]
      have := bitAt_lt (inp := inp) (p + i)
      simp only [Nat.sub_self, Nat.testBit_zero, Nat.lt_succ_self, decide_true, Bool.true_and]
      congr 1
      apply propext
      omega
    · rw [Nat.testBit_two_pow_mul_add _ (lsb_lt _ _), if_neg (by omega)]
      have := bitAt_lt (inp := inp) (p + n)
      have h1 : ¬ i < n + 1 := by omega
      simp only [h1, decide_false, Bool.false_and]
      apply Nat.testBit_lt_two_pow
      calc bitAt inp (p + n) < 2 ^ 1 := by omega
        _ ≤ 2 ^ (i - n) := Nat.pow_le_pow_right (by decide) (by omega)

theorem testBit_msb (p n i : Nat) : (msb inp p n).testBit i = (decide (i < n) && decide (bitAt inp (p + (n - 1 - i)) = 1)) := by
  induction n generalizing i with
  | zero => simp [msb]
  | succ n ih =>
    rw [msb]
    have hb := bitAt_lt (inp := inp) (p + n)
    cases i with
    | zero =>
      simp only [Nat.testBit_zero, Nat.add_sub_cancel, Nat.sub_zero, Nat.zero_lt_succ, decide_true, Bool.true_and]
      congr 1
      apply propext
      omega
    | succ i =>
      rw [Nat.testBit_succ]
      have : (2 * msb inp p n + bitAt inp (p + n)) / 2 = msb inp p n := by omega
      rw [this, ih]
      have e1 : (i + 1 < n + 1) = (i < n) := by simp
      have e2 : n + 1 - 1 - (i + 1) = n - 1 - i := by omega
      rw [e2]
      simp only [e1]

theorem testBit_reverse (n i : Nat) : (bitreverse16 n).testBit i = (decide (i < 16) && n.testBit (15 - i)) := by
  rcases Nat.lt_or_ge i 16 with h | h
  · rw [bitreverse16]
    interval_cases i <;>
      simp [Nat.testBit_or, Nat.testBit_and, Nat.testBit_shiftRight, Nat.testBit_shiftLeft] <;> simp [Nat.testBit, Nat.shiftRight_eq_div_pow]
  · have h1 : (65280 : Nat).testBit (8 + i) = false :=
      Nat.testBit_lt_two_pow (Nat.lt_of_lt_of_le (by decide : 65280 < 2 ^ 16) (Nat.pow_le_pow_right (by decide) (by omega)))
    have h2 : (255 : Nat).testBit (i - 8) = false :=
      Nat.testBit_lt_two_pow (Nat.lt_of_lt_of_le (by decide : 255 < 2 ^ 8) (Nat.pow_le_pow_right (by decide) (by omega)))
    rw [bitreverse16]
    simp only [Nat.testBit_or, Nat.testBit_and, Nat.testBit_shiftRight, Nat.testBit_shiftLeft, h1, h2, Bool.and_false, Bool.or_self]
    simp [Nat.not_lt.mpr h]

theorem reverse_msb (p : Nat) (x : Nat) : bitreverse16 (lsb inp p (16 + x)) = msb inp p 16 := by
  apply Nat.eq_of_testBit_eq
  intro i
  rw [testBit_reverse, testBit_msb, testBit_lsb]
  by_cases h : i < 16
  · have h1 : 15 - i < 16 + x := by omega
    simp [h, h1]
  · simp [h]

end Verif.Inflate
