import Verif.Json.GrisuDigits
import Mathlib.Algebra.Order.Field.Basic
import Mathlib.Data.Rat.Cast.Order
import Mathlib.Tactic.FieldSimp

/-!
# The text of digits and a decimal exponent
-/

namespace Verif.Json

/-- the number that the `exp` part of a number stands for (RFC 8259, section 6) -/
def Spec.expVal : Bytes → Int
  | [] => 0
  | [_] => 0
  | _ :: c :: ds =>
    if c = 0x2D then -(Spec.decimal ds : Int) else if c = 0x2B then Spec.decimal ds else Spec.decimal (c :: ds)

/-- the number that the digits, the fraction and the exponent stand for -/
def Spec.numVal (i f e : Bytes) : ℚ :=
  Spec.decimal (i ++ f.tail) * 10 ^ (Spec.expVal e - f.tail.length)

namespace Grisu
open Spec

theorem decimal_append (a b : Bytes) : decimal (a ++ b) = decimal a * 10 ^ b.length + decimal b := by
  induction a with
  | nil => simp [decimal]
  | cons c a ih =>
    simp only [List.cons_append, decimal, ih, List.length_append, pow_add]
    ring

theorem decimal_zeros (n : Nat) : decimal (List.replicate n 0x30) = 0 := by
  induction n with
  | zero => rfl
  | succ n ih => simp [List.replicate_succ, decimal, ih]

theorem decimal_lt {ds : Bytes} (h : ∀ c ∈ ds, Digit c) : decimal ds < 10 ^ ds.length := by
  induction ds with
  | nil => simp [decimal]
  | cons c ds ih =>
    have h1 := ih fun c hc => h c (by simp [hc])
    have h2 := h c (by simp)
    unfold Digit at h2
    have : (c - 0x30) * 10 ^ ds.length ≤ 9 * 10 ^ ds.length := Nat.mul_le_mul_right _ (by omega)
    simp only [decimal, List.length_cons, pow_succ]
    omega

theorem exponent_eq {x : Int} (h1 : -1000 < x) (h2 : x < 1000) :
    ∃ t, exponent x = .ok t ∧ Exp (0x65 :: t) ∧ expVal (0x65 :: t) = x ∧ t.length ≤ 4 := by
  unfold exponent
  simp only [h1, h2, decide_true, Outcome.assert_true, Outcome.bind_ok, Outcome.pure_eq]
  have key : ∀ (c : Nat) (ds : Bytes), c = (if x < 0 then 0x2D else 0x2B) → (∀ c ∈ ds, Digit c) → ds ≠ [] →
      decimal ds = x.natAbs → ds.length ≤ 3 →
      Exp (0x65 :: (c :: ds)) ∧ expVal (0x65 :: (c :: ds)) = x ∧ (c :: ds).length ≤ 4 := by
    intro c ds hc hds hne hval hl
    refine ⟨.inr ⟨0x65, [c], ds, .inl rfl, ?_, ⟨hne, hds⟩, rfl⟩, ?_, by simpa using hl⟩
    · split at hc
      · exact .inr (.inr (by rw [hc]))
      · exact .inr (.inl (by rw [hc]))
    · rw [expVal]
      split at hc
      · rw [if_pos hc]; omega
      · rw [if_neg (by omega), if_pos hc]; omega
  by_cases h10 : x.natAbs < 10
  · rw [if_pos h10]
    obtain ⟨a, b, c⟩ := key _ [0x30, 0x30 + x.natAbs] rfl (by simp [Digit]; omega) (by simp) (by simp [decimal]) (by simp)
    exact ⟨_, rfl, a, b, c⟩
  rw [if_neg h10]
  by_cases h100 : x.natAbs < 100
  · rw [if_pos h100]
    obtain ⟨a, b, c⟩ := key _ [0x30 + x.natAbs / 10, 0x30 + x.natAbs % 10] rfl (by simp [Digit]; omega) (by simp)
      (by simp [decimal]; omega) (by simp)
    exact ⟨_, rfl, a, b, c⟩
  rw [if_neg h100]
  obtain ⟨a, b, c⟩ := key _ [0x30 + x.natAbs / 100, 0x30 + x.natAbs % 100 / 10, 0x30 + x.natAbs % 100 % 10] rfl
    (by simp [Digit]; omega) (by simp) (by simp [decimal]; omega) (by simp)
  exact ⟨_, rfl, a, b, c⟩

/-- what is written for digits and an exponent -/
structure Text (cap : Nat) (q : ℚ) (r : Outcome Bytes) (i f e : Bytes) : Prop where
  result : r = .ok (i ++ f ++ e)
  int : IntPart i
  frac : Frac f
  exp : Exp e
  float : f ≠ [] ∨ e ≠ []
  val : numVal i f e = q
  len : (i ++ f ++ e).length ≤ 23

theorem formatBuffer_eq {cap : Nat} (hcap : 23 ≤ cap) {buf : Bytes} (hb : Proper buf) (hne : buf ≠ [])
    (hl : buf.length ≤ 17) {x : Int} (hx1 : -900 ≤ x) (hx2 : x ≤ 900) :
    ∃ i f e, Text cap (decimal buf * 10 ^ x) (formatBuffer cap buf x) i f e := by
  have hpos : 0 < buf.length := List.length_pos_iff.mpr hne
  have h10 : (10 : ℚ) ≠ 0 := by norm_num
  unfold formatBuffer
  simp only
  by_cases c1 : (buf.length : Int) ≤ buf.length + x ∧ (buf.length : Int) + x ≤ 15
  · rw [if_pos c1]
    obtain ⟨m, rfl⟩ : ∃ m : Nat, x = m := ⟨x.toNat, by omega⟩
    rw [show ((buf.length : Int) + m - buf.length).toNat = m by omega]
    refine ⟨buf ++ List.replicate m 0x30, [0x2E, 0x30], [], ⟨?_, ?_, ?_, .inl rfl, .inl (by simp), ?_, ?_⟩⟩
    · rw [fits, if_pos (by simp; omega)]; simp
    · refine .inr ⟨⟨by simp [hne], fun c hc => ?_⟩, ?_⟩
      · rcases List.mem_append.mp hc with hc | hc
        · exact hb.digits c hc
        · rw [List.mem_replicate] at hc; unfold Digit; omega
      · cases buf with
        | nil => exact absurd rfl hne
        | cons c buf => simpa using hb.head
    · exact .inr ⟨[0x30], ⟨by simp, by simp [Digit]⟩, rfl⟩
    · simp only [numVal, expVal, List.tail_cons, decimal_append, decimal_zeros, List.length_replicate,
        List.length_singleton]
      simp [decimal]
    · simp; omega
  rw [if_neg c1]
  by_cases c2 : 0 < (buf.length : Int) + x ∧ (buf.length : Int) + x ≤ 15
  · rw [if_pos c2]
    obtain ⟨n, hn⟩ : ∃ n : Nat, (buf.length : Int) + x = n := ⟨((buf.length : Int) + x).toNat, by omega⟩
    have hnk : n < buf.length := by omega
    rw [hn, Int.toNat_natCast]
    simp only [Nat.cast_lt, hnk, decide_true, Outcome.assert_true, Outcome.bind_ok]
    refine ⟨buf.take n, 0x2E :: buf.drop n, [], ⟨?_, ?_, ?_, .inl rfl, .inl (by simp), ?_, ?_⟩⟩
    · rw [fits, if_pos (by simp; omega)]; simp
    · refine .inr ⟨⟨?_, fun c hc => hb.digits c (List.mem_of_mem_take hc)⟩, ?_⟩
      · intro h
        have := congrArg List.length h
        rw [List.length_take, List.length_nil] at this
        omega
      · rw [List.head?_take, if_neg (by omega)]; exact hb.head
    · refine .inr ⟨buf.drop n, ⟨?_, fun c hc => hb.digits c (List.mem_of_mem_drop hc)⟩, rfl⟩
      intro h
      have := congrArg List.length h
      simp at this
      omega
    · simp only [numVal, expVal, List.tail_cons, List.take_append_drop, List.length_drop]
      congr 2
      omega
    · simp; omega
  rw [if_neg c2]
  by_cases c3 : -4 < (buf.length : Int) + x ∧ (buf.length : Int) + x ≤ 0
  · rw [if_pos c3]
    obtain ⟨m, hm⟩ : ∃ m : Nat, -((buf.length : Int) + x) = m := ⟨(-((buf.length : Int) + x)).toNat, by omega⟩
    rw [hm, Int.toNat_natCast]
    refine ⟨[0x30], 0x2E :: (List.replicate m 0x30 ++ buf), [], ⟨?_, .inl rfl, ?_, .inl rfl, .inl (by simp), ?_, ?_⟩⟩
    · rw [fits, if_pos (by simp; omega)]; simp
    · refine .inr ⟨_, ⟨by simp [hne], fun c hc => ?_⟩, rfl⟩
      rcases List.mem_append.mp hc with hc | hc
      · rw [List.mem_replicate] at hc; unfold Digit; omega
      · exact hb.digits c hc
    · simp only [numVal, expVal, List.tail_cons, decimal_append, decimal_zeros, List.length_append,
        List.length_replicate]
      rw [show decimal [0x30] = 0 from rfl]
      simp only [Nat.zero_mul, Nat.zero_add]
      congr 2
      omega
    · simp; omega
  rw [if_neg c3]
  obtain ⟨t, t1, t2, t3, t4⟩ := @exponent_eq ((buf.length : Int) + x - 1) (by omega) (by omega)
  rw [t1]
  simp only [Outcome.bind_ok]
  by_cases hk : (buf.length : Int) = 1
  · rw [if_pos hk]
    refine ⟨buf, [], 0x65 :: t, ⟨?_, .inr ⟨⟨hne, hb.digits⟩, hb.head⟩, .inl rfl, t2, .inr (by simp), ?_, ?_⟩⟩
    · rw [fits, if_pos (by simp; omega)]; simp
    · simp only [numVal, t3, List.tail_nil, List.append_nil, List.length_nil]
      congr 2
      omega
    · simp; omega
  · rw [if_neg hk]
    refine ⟨buf.take 1, 0x2E :: buf.drop 1, 0x65 :: t, ⟨?_, ?_, ?_, t2, .inl (by simp), ?_, ?_⟩⟩
    · rw [fits, if_pos (by simp; omega)]
    · refine .inr ⟨⟨?_, fun c hc => hb.digits c (List.mem_of_mem_take hc)⟩, ?_⟩
      · intro h
        have := congrArg List.length h
        rw [List.length_take, List.length_nil] at this
        omega
      · rw [List.head?_take, if_neg (by omega)]; exact hb.head
    · refine .inr ⟨buf.drop 1, ⟨?_, fun c hc => hb.digits c (List.mem_of_mem_drop hc)⟩, rfl⟩
      intro h
      have := congrArg List.length h
      simp at this
      omega
    · simp only [numVal, t3, List.tail_cons, List.take_append_drop, List.length_drop]
      congr 2
      omega
    · simp; omega

end Grisu
end Verif.Json
