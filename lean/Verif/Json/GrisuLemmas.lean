import Verif.Json.GrisuModel
import Mathlib.Tactic.Linarith
import Mathlib.Tactic.Ring
import Mathlib.Tactic.NormNum
import Mathlib.Tactic.Positivity

/-!
# Lemmas on the arithmetic of Grisu2
-/

namespace Verif.Json.Grisu

theorem u64_small {n : Nat} (h : n < 2 ^ 64) : u64 n = n := Nat.mod_eq_of_lt h

theorem and_mask (n k : Nat) : n &&& (2 ^ k - 1) = n % 2 ^ k := Nat.and_two_pow_sub_one_eq_mod n k

/-! ## The product -/

theorem mul_f (x y : Diyfp) (hx : x.f < 2 ^ 64) (hy : y.f < 2 ^ 64) :
    (mul x y).f = (x.f * y.f + 2 ^ 63) / 2 ^ 64 := by
  obtain ⟨u, e⟩ := x
  obtain ⟨v, e'⟩ := y
  simp only at hx hy
  have m32 : ∀ n : Nat, n &&& 0xFFFFFFFF = n % 2 ^ 32 := fun n => and_mask n 32
  simp only [mul, m32, Nat.shiftRight_eq_div_pow]
  have hu := Nat.div_add_mod u (2 ^ 32)
  have hv := Nat.div_add_mod v (2 ^ 32)
  have ha : u % 2 ^ 32 < 2 ^ 32 := Nat.mod_lt _ (by norm_num)
  have hc : v % 2 ^ 32 < 2 ^ 32 := Nat.mod_lt _ (by norm_num)
  have hb : u / 2 ^ 32 < 2 ^ 32 := by omega
  have hd : v / 2 ^ 32 < 2 ^ 32 := by omega
  generalize u % 2 ^ 32 = a at *
  generalize u / 2 ^ 32 = b at *
  generalize v % 2 ^ 32 = c at *
  generalize v / 2 ^ 32 = d at *
  have e : u * v = a * c + 2 ^ 32 * (a * d) + 2 ^ 32 * (b * c) + 2 ^ 64 * (b * d) := by
    rw [← hu, ← hv]; ring
  rw [e]
  have bnd : ∀ x y : Nat, x < 2 ^ 32 → y < 2 ^ 32 → x * y ≤ (2 ^ 32 - 1) * (2 ^ 32 - 1) := fun x y h h' =>
    Nat.mul_le_mul (by omega) (by omega)
  have h0 := bnd a c ha hc
  have h1 := bnd a d ha hd
  have h2 := bnd b c hb hc
  have h3 := bnd b d hb hd
  generalize a * c = p0 at *
  generalize a * d = p1 at *
  generalize b * c = p2 at *
  generalize b * d = p3 at *
  norm_num at h0 h1 h2 h3
  simp only [u64, Nat.shiftLeft_eq]
  norm_num
  omega

theorem mul_e (x y : Diyfp) : (mul x y).e = x.e + y.e + 64 := rfl

/-- what the product is in terms of products -/
theorem mul_bounds (x y : Diyfp) (hx : x.f < 2 ^ 64) (hy : y.f < 2 ^ 64) :
    2 ^ 64 * (mul x y).f ≤ x.f * y.f + 2 ^ 63 ∧ x.f * y.f + 2 ^ 63 < 2 ^ 64 * (mul x y).f + 2 ^ 64 := by
  rw [mul_f x y hx hy]
  generalize x.f * y.f + 2 ^ 63 = n
  omega

/-! ## Normalizing -/

theorem normalizeLoop_eq (s : Nat) : ∀ (n f : Nat) (e : Int), s < n → 2 ^ 63 ≤ f * 2 ^ s →
    f * 2 ^ s < 2 ^ 64 → normalizeLoop n ⟨f, e⟩ = .ok ⟨f * 2 ^ s, e - s⟩ := by
  induction s with
  | zero =>
    intro n f e hn h1 h2
    obtain ⟨n, rfl⟩ : ∃ m, n = m + 1 := ⟨n - 1, by omega⟩
    simp only [normalizeLoop, Nat.shiftRight_eq_div_pow]
    rw [if_neg (by omega)]
    simp
  | succ s ih =>
    intro n f e hn h1 h2
    obtain ⟨n, rfl⟩ : ∃ m, n = m + 1 := ⟨n - 1, by omega⟩
    have e2 : f * 2 ^ (s + 1) = (f * 2) * 2 ^ s := by rw [pow_succ]; ring
    rw [e2] at h1 h2 ⊢
    have hf : f * 2 < 2 ^ 64 := lt_of_le_of_lt (Nat.le_mul_of_pos_right _ (by positivity)) h2
    simp only [normalizeLoop, Nat.shiftRight_eq_div_pow]
    rw [if_pos (by omega)]
    rw [show u64 (f <<< 1) = f * 2 by rw [Nat.shiftLeft_eq, pow_one, u64_small hf]]
    rw [ih n (f * 2) (e - 1) (by omega) h1 h2]
    congr 2
    push_cast; ring

theorem exists_shift {f : Nat} (h0 : 0 < f) (h : f < 2 ^ 64) :
    ∃ s, s < 64 ∧ 2 ^ 63 ≤ f * 2 ^ s ∧ f * 2 ^ s < 2 ^ 64 := by
  refine ⟨63 - Nat.log2 f, by omega, ?_, ?_⟩
  · have h1 : 2 ^ Nat.log2 f ≤ f := Nat.log2_self_le (by omega)
    have h2 : Nat.log2 f < 64 := (Nat.log2_lt (by omega)).mpr h
    calc 2 ^ 63 = 2 ^ Nat.log2 f * 2 ^ (63 - Nat.log2 f) := by rw [← pow_add]; congr 1; omega
      _ ≤ _ := Nat.mul_le_mul_right _ h1
  · have h1 : f < 2 ^ (Nat.log2 f + 1) := Nat.lt_log2_self
    have h2 : Nat.log2 f < 64 := (Nat.log2_lt (by omega)).mpr h
    calc f * 2 ^ (63 - Nat.log2 f) < 2 ^ (Nat.log2 f + 1) * 2 ^ (63 - Nat.log2 f) :=
          Nat.mul_lt_mul_of_pos_right h1 (by positivity)
      _ = 2 ^ 64 := by rw [← pow_add]; congr 1; omega

theorem normalizeTo_eq (f : Nat) (e : Int) (s : Nat) (hs : s < 64) (h : f * 2 ^ s < 2 ^ 64) :
    normalizeTo ⟨f, e⟩ (e - s) = .ok ⟨f * 2 ^ s, e - s⟩ := by
  have hd : e - (e - (s : Int)) = s := by ring
  simp only [normalizeTo, hd]
  have h1 : shl f s = .ok (f * 2 ^ s) := by
    rw [shl, if_pos (by omega), Int.toNat_natCast, Nat.shiftLeft_eq, u64_small h]
  have h2 : shr (f * 2 ^ s) s = .ok f := by
    rw [shr, if_pos (by omega), Int.toNat_natCast, Nat.shiftRight_eq_div_pow, Nat.mul_div_cancel _ (by positivity)]
  simp [h1, h2]

end Verif.Json.Grisu
