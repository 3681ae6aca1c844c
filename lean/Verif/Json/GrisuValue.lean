import Verif.Json.GrisuFormat
import Mathlib.Algebra.Order.Field.Power

/-!
# The numbers of `double`, and that Grisu2 finds the right one
-/

namespace Verif.Json

/-- the value of a `double` without a sign, given by its bits (IEEE 754, binary64); 2^1024 for the bits of
infinity -/
def Spec.double (b : Nat) : ℚ :=
  if b / 2 ^ 52 = 0 then (b % 2 ^ 52 : Nat) * 2 ^ (-1074 : Int)
  else (2 ^ 52 + b % 2 ^ 52 : Nat) * 2 ^ ((b / 2 ^ 52 : Nat) - 1075 : Int)

/-- the bits of infinity -/
def Spec.infinity : Nat := 0x7FF0000000000000

/-- `q` is nearer to the number with the bits `b` than to every other one -/
def Spec.Closest (q : ℚ) (b : Nat) : Prop :=
  ∀ c ≤ Spec.infinity, c ≠ b → |q - Spec.double b| < |q - Spec.double c|

namespace Grisu
open Spec

theorem double_eq (b : Nat) : double b = sig b * 2 ^ expo b := by
  unfold double sig expo
  by_cases h : b / 2 ^ 52 = 0
  · simp only [if_pos h]
  · simp only [if_neg h, Nat.add_comm]

theorem two_ne : (2 : ℚ) ≠ 0 := by norm_num

theorem double_succ (b : Nat) : double (b + 1) = double b + 2 ^ expo b := by
  rw [double_eq, double_eq]
  have h1 := Nat.div_add_mod b (2 ^ 52)
  have h2 := Nat.mod_lt b (show 0 < 2 ^ 52 by norm_num)
  by_cases hF : b % 2 ^ 52 + 1 < 2 ^ 52
  · have e1 : (b + 1) / 2 ^ 52 = b / 2 ^ 52 := by omega
    have e2 : (b + 1) % 2 ^ 52 = b % 2 ^ 52 + 1 := by omega
    have es : sig (b + 1) = sig b + 1 := by unfold sig; rw [e1, e2]; split <;> omega
    have ee : expo (b + 1) = expo b := by unfold expo; rw [e1]
    rw [es, ee]; push_cast; ring
  · have e1 : (b + 1) / 2 ^ 52 = b / 2 ^ 52 + 1 := by omega
    have e2 : (b + 1) % 2 ^ 52 = 0 := by omega
    have es : sig (b + 1) = 2 ^ 52 := by unfold sig; rw [e1, e2, if_neg (by omega)]; omega
    by_cases hE : b / 2 ^ 52 = 0
    · have es' : sig b = 2 ^ 52 - 1 := by unfold sig; rw [if_pos hE]; omega
      have ee : expo (b + 1) = expo b := by
        unfold expo; rw [e1, if_neg (by omega), if_pos hE]; omega
      rw [es, es', ee]; push_cast; ring
    · have es' : sig b = 2 ^ 53 - 1 := by unfold sig; rw [if_neg hE]; omega
      have ee : expo (b + 1) = expo b + 1 := by
        unfold expo; rw [e1, if_neg (by omega), if_neg hE]; push_cast; ring
      rw [es, es', ee, zpow_add₀ two_ne]; push_cast; ring

theorem double_strictMono : StrictMono double :=
  strictMono_nat_of_lt_succ fun b => by
    rw [double_succ]
    have : (0 : ℚ) < 2 ^ expo b := by positivity
    linarith

theorem double_zero : double 0 = 0 := by simp [double]

/-- between the middles of the gaps on both sides -/
theorem closest_of {q : ℚ} {b : Nat} (h0 : 0 < b) (h1 : double (b - 1) + double b < 2 * q)
    (h2 : 2 * q < double b + double (b + 1)) : Closest q b := by
  intro c _ hc
  have hm := double_strictMono.monotone
  have hq : |q - double b| = q - double b ∨ |q - double b| = double b - q := by
    rcases abs_choice (q - double b) with h | h
    · exact .inl h
    · right; rw [h]; ring
  rcases Nat.lt_or_gt_of_ne hc with h | h
  · have := hm (show c ≤ b - 1 by omega)
    have h3 := double_strictMono h
    rcases hq with e | e <;> rw [e] <;> refine lt_of_lt_of_le ?_ (le_abs_self _) <;> linarith
  · have := hm (show b + 1 ≤ c by omega)
    have h3 := double_strictMono h
    rcases hq with e | e <;> rw [e] <;> refine lt_of_lt_of_le ?_ (neg_le_abs _) <;> linarith

theorem closest_zero : Closest 0 0 := by
  intro c _ hc
  rw [double_zero]
  have := double_strictMono (show 0 < c by omega)
  rw [double_zero] at this
  rw [sub_self, abs_zero, zero_sub, abs_neg, abs_of_pos this]
  exact this

/-- the upper boundary -/
def upper (b : Nat) : ℚ := (double b + double (b + 1)) / 2

/-- the lower boundary -/
def lower (b : Nat) : ℚ := (double (b - 1) + double b) / 2

theorem plus_eq {bits s : Nat} {b : Boundaries} (h : Scaled bits s b) :
    (b.plus.f : ℚ) * 2 ^ b.plus.e = upper bits := by
  rw [upper, double_succ, double_eq, h.pf, h.pe, zpow_sub₀ two_ne, zpow_sub₀ two_ne, zpow_natCast]
  push_cast
  field_simp
  ring

theorem w_eq {bits s : Nat} {b : Boundaries} (h : Scaled bits s b) :
    (b.w.f : ℚ) * 2 ^ b.w.e = double bits := by
  rw [double_eq, h.wf, h.we, zpow_sub₀ two_ne, zpow_sub₀ two_ne, zpow_natCast]
  push_cast
  field_simp
  ring

theorem expo_pred {bits : Nat} (h0 : 0 < bits) :
    expo (bits - 1) = if closer bits then expo bits - 1 else expo bits := by
  have h1 := Nat.div_add_mod bits (2 ^ 52)
  have h2 := Nat.mod_lt bits (show 0 < 2 ^ 52 by norm_num)
  by_cases hF : bits % 2 ^ 52 = 0
  · have e1 : (bits - 1) / 2 ^ 52 = bits / 2 ^ 52 - 1 := by omega
    by_cases hE : 1 < bits / 2 ^ 52
    · rw [if_pos (show closer bits from ⟨hF, hE⟩)]
      unfold expo
      rw [e1, if_neg (by omega), if_neg (by omega)]; omega
    · rw [if_neg (show ¬ closer bits from fun h => hE h.2)]
      unfold expo
      rw [e1, if_pos (by omega), if_neg (by omega)]; omega
  · have e1 : (bits - 1) / 2 ^ 52 = bits / 2 ^ 52 := by omega
    rw [if_neg (show ¬ closer bits from fun h => hF h.1)]
    unfold expo
    rw [e1]

theorem minus_eq {bits s : Nat} {b : Boundaries} (h0 : 0 < bits) (h : Scaled bits s b) :
    (b.minus.f : ℚ) * 2 ^ b.minus.e = lower bits := by
  have hs := double_succ (bits - 1)
  rw [Nat.sub_add_cancel h0] at hs
  have e1 : double (bits - 1) = double bits - 2 ^ expo (bits - 1) := by linarith
  have hpos := (sig_bounds h0).1
  rw [lower, e1, expo_pred h0, double_eq, h.mf, h.me]
  by_cases hc : closer bits
  · rw [if_pos hc, if_pos hc]
    obtain ⟨s', rfl⟩ : ∃ s', s = s' + 1 := ⟨s - 1, by have := h.lo; omega⟩
    rw [zpow_sub₀ two_ne, zpow_sub₀ two_ne, zpow_natCast, Nat.add_sub_cancel,
      Nat.cast_mul, Nat.cast_sub (by omega)]
    push_cast
    field_simp
    ring
  · rw [if_neg hc, if_neg hc, zpow_sub₀ two_ne, zpow_sub₀ two_ne, zpow_natCast,
      Nat.cast_mul, Nat.cast_sub (by omega)]
    push_cast
    field_simp
    ring

/-! ## The interval -/

/-- the interval in which digits are looked for -/
theorem interval {bits s : Nat} {b : Boundaries} (h0 : 0 < bits) (h : Scaled bits s b) {c : Power}
    (hc : c.good = true) :
    ∃ P M w : Nat, (mul b.plus ⟨c.f, c.e⟩).f = P + 1 ∧ (mul b.minus ⟨c.f, c.e⟩).f + 1 = M ∧
      (mul b.w ⟨c.f, c.e⟩).f = w ∧ P + 1 < 2 ^ 64 ∧ 2 ^ 61 ≤ P ∧ 0 < M ∧ M ≤ w ∧ w ≤ P ∧ M < P ∧
      P < 10 ^ 16 * (P - M) := by
  have hc' := hc
  simp only [Power.good, Bool.decide_and, Bool.and_eq_true, decide_eq_true_eq] at hc
  obtain ⟨c1, c2, -⟩ := hc
  have hsig := sig_bounds h0
  have hs : 2 ^ 10 ≤ 2 ^ s := Nat.pow_le_pow_right (by norm_num) h.lo
  have hss : 2 ^ s = 2 * 2 ^ (s - 1) := by
    rw [← pow_succ']; congr 1; have := h.lo; omega
  have hs1 : 2 ^ (s + 1) = 2 * 2 ^ s := pow_succ' _ _
  -- on the common scale
  have hP := h.pf
  have hW := h.wf
  have hM := h.mf
  have hp1 := h.p1
  have hp2 := h.p2
  have eW : b.w.f + 2 ^ s = b.plus.f := by rw [hP, hW, hs1]; ring
  have eM : b.minus.f + 2 ^ (s - 1) ≤ b.w.f ∧ b.w.f ≤ b.minus.f + 2 ^ s := by
    rw [hM, hW, hs1]
    by_cases hcl : closer bits
    · rw [if_pos hcl, hss]
      obtain ⟨k, hk⟩ : ∃ k, 4 * sig bits = k + 1 := ⟨4 * sig bits - 1, by omega⟩
      rw [hk, Nat.add_sub_cancel]
      have : sig bits * (2 * (2 * 2 ^ (s - 1))) = (k + 1) * 2 ^ (s - 1) := by rw [← hk]; ring
      rw [this, Nat.add_mul]
      omega
    · rw [if_neg hcl]
      obtain ⟨k, hk⟩ : ∃ k, 2 * sig bits = k + 1 := ⟨2 * sig bits - 1, by omega⟩
      rw [hk, Nat.add_sub_cancel]
      have : sig bits * (2 * 2 ^ s) = (k + 1) * 2 ^ s := by rw [← hk]; ring
      rw [this, Nat.add_mul]
      omega
  have hPs : b.plus.f + 2 ^ 53 * b.minus.f < 2 ^ 53 * b.plus.f := by
    rw [hM, hP]
    have hu : 0 < 2 ^ (s - 1) := by positivity
    by_cases hcl : closer bits
    · rw [if_pos hcl, hss, closer_sig hcl]
      generalize 2 ^ (s - 1) = u at *
      omega
    · rw [if_neg hcl, show (2 * sig bits + 1) * 2 ^ s = (2 * sig bits - 1) * 2 ^ s + 2 * 2 ^ s by
        rw [← Nat.add_mul]; congr 1; omega]
      have : (2 * sig bits - 1) * 2 ^ s ≤ (2 ^ 54 - 3) * 2 ^ s := Nat.mul_le_mul_right _ (by omega)
      generalize (2 * sig bits - 1) * 2 ^ s = t at *
      omega
  obtain ⟨a1, a2⟩ := mul_bounds b.plus ⟨c.f, c.e⟩ hp2 c2
  obtain ⟨b1, b2⟩ := mul_bounds b.minus ⟨c.f, c.e⟩ (by omega) c2
  obtain ⟨d1, d2⟩ := mul_bounds b.w ⟨c.f, c.e⟩ (by omega) c2
  simp only at a1 a2 b1 b2 d1 d2
  generalize (mul b.plus ⟨c.f, c.e⟩).f = p at *
  generalize (mul b.minus ⟨c.f, c.e⟩).f = m at *
  generalize (mul b.w ⟨c.f, c.e⟩).f = w at *
  generalize b.plus.f = x at *
  generalize b.minus.f = y at *
  generalize b.w.f = z at *
  generalize c.f = C at *
  generalize 2 ^ (s - 1) = u at *
  generalize 2 ^ s = v at *
  -- differences of products
  have k1 : z * C + v * C = x * C := by rw [← eW]; ring
  have k2 : y * C + u * C ≤ z * C := by
    calc y * C + u * C = (y + u) * C := by ring
      _ ≤ z * C := Nat.mul_le_mul_right _ eM.1
  have k3 : 2 ^ 9 * 2 ^ 63 ≤ u * C := Nat.mul_le_mul (by omega) c1
  have k4 : v * C = 2 * (u * C) := by rw [hss]; ring
  have k5 : x * C + 2 ^ 53 * (y * C) < 2 ^ 53 * (x * C) := by
    calc x * C + 2 ^ 53 * (y * C) = (x + 2 ^ 53 * y) * C := by ring
      _ < 2 ^ 53 * x * C := Nat.mul_lt_mul_of_pos_right hPs (by omega)
      _ = 2 ^ 53 * (x * C) := by ring
  have k6 : 2 ^ 63 * 2 ^ 63 ≤ x * C := Nat.mul_le_mul hp1 c1
  have k7 : x * C ≤ (2 ^ 64 - 1) * (2 ^ 64 - 1) := Nat.mul_le_mul (by omega) (by omega)
  generalize x * C = xC at *
  generalize y * C = yC at *
  generalize z * C = zC at *
  generalize u * C = uC at *
  generalize v * C = vC at *
  clear eM hPs hP hW hM hs hss hs1 hp1 hp2 eW c1 c2 h hsig
  refine ⟨p - 1, m + 1, w, ?_, rfl, rfl, ?_, ?_, ?_, ?_, ?_, ?_, ?_⟩ <;> omega

/-- what Grisu2 finds, on the scale of the number -/
theorem grisu2_eq {cap : Nat} (hcap : 17 ≤ cap) {bits : Nat} (h0 : 0 < bits) (h : bits < infinity) :
    ∃ b buf, ∃ x : Int, computeBoundaries bits = .ok b ∧ grisu2 cap b = .ok (buf, x) ∧
      Proper buf ∧ buf ≠ [] ∧ buf.length ≤ 17 ∧ buf.getLast? ≠ some 0x30 ∧ -400 ≤ x ∧ x ≤ 400 ∧
      lower bits < decimal buf * 10 ^ x ∧ decimal buf * 10 ^ x < upper bits ∧
      (∀ Z : Nat, upper bits / 2 ^ 60 + lower bits ≤ Z * 10 ^ (x + 1) →
        Z * 10 ^ (x + 1) ≤ upper bits - upper bits / 2 ^ 60 → False) ∧
      ∀ Z : Nat, upper bits / 2 ^ 60 + lower bits ≤ Z * 10 ^ x →
        Z * 10 ^ x ≤ upper bits - upper bits / 2 ^ 60 →
        |decimal buf * 10 ^ x - double bits| ≤ |Z * 10 ^ x - double bits| + upper bits / 2 ^ 60 := by
  obtain ⟨s, b, e1, e2, e3, e4⟩ := computeBoundaries_eq h0 h
  obtain ⟨c, c1, c2, c3, c4⟩ := cachedPower_eq e3 e4
  obtain ⟨P, M, w, i1, i2, i3, i4, i5, i6, i7, i8, i9, i10⟩ := interval h0 e2 c2
  obtain ⟨sh, hsh⟩ : ∃ sh : Nat, -(c.e + b.plus.e + 64) = sh := ⟨(-(c.e + b.plus.e + 64)).toNat, by omega⟩
  have ee : b.plus.e + c.e + 64 = -(sh : Int) := by omega
  have hsh1 : 32 ≤ sh := by omega
  have hsh2 : sh ≤ 60 := by omega
  have h60 : (2 : Nat) ^ sh ≤ 2 ^ 60 := Nat.pow_le_pow_right (by norm_num) hsh2
  obtain ⟨buf, a, d, g1, g2⟩ := digitGen_eq hcap (-c.k) hsh1 hsh2 (show P < 2 ^ 64 by omega) (by omega) i6 i7 i8 i9 i10
  have hg : grisu2 cap b = .ok (buf, -c.k + a - d) := by
    rw [grisu2, c1]
    simp only [e2.pe, e2.me, e2.we, decide_true, Outcome.assert_true, Outcome.bind_ok, mul_e, i1]
    rw [show u64 (P + 1 + (2 ^ 64 - 1)) = P by unfold u64; omega, i2, u64_small (show M < 2 ^ 64 by omega),
      ← e2.pe, ee, ← g1]
    congr 2
    rw [show mul b.w ⟨c.f, c.e⟩ = ⟨(mul b.w ⟨c.f, c.e⟩).f, (mul b.w ⟨c.f, c.e⟩).e⟩ from rfl, i3, mul_e, e2.we,
      ← e2.pe, ee]
  have hgood := c2
  simp only [Power.good, Bool.decide_and, Bool.and_eq_true, decide_eq_true_eq] at hgood
  obtain ⟨-, -, -, -, hk1, hk2⟩ := hgood
  have hbuf : buf ≠ [] := by
    obtain ⟨l, hl, -⟩ := g2.last
    rintro rfl
    simp at hl
  have hlast : buf.getLast? ≠ some 0x30 := by
    obtain ⟨l, hl, hl'⟩ := g2.last
    rw [hl]; simpa using hl'
  have hA := g2.expa
  have hB := g2.expb
  refine ⟨b, buf, -c.k + a - d, e1, hg, g2.proper, hbuf, g2.len, hlast, by omega, by omega, ?_⟩
  -- the exact products
  have hp2 := e2.p2
  obtain ⟨p1, p2⟩ := scaled_error c c2 b.plus hp2
  have hmle : b.minus.f < 2 ^ 64 := by
    have hsig := sig_bounds h0
    have : b.minus.f ≤ b.plus.f := by
      rw [e2.mf, e2.pf]
      split
      · have hss : 2 ^ s = 2 * 2 ^ (s - 1) := by
          rw [← pow_succ']; congr 1; have := e2.lo; omega
        rw [hss, ← Nat.mul_assoc]
        exact Nat.mul_le_mul_right _ (by omega)
      · exact Nat.mul_le_mul_right _ (by omega)
    omega
  obtain ⟨m1, m2⟩ := scaled_error c c2 b.minus hmle
  have hwle : b.w.f < 2 ^ 64 := by
    have : b.w.f ≤ b.plus.f := by
      rw [e2.wf, e2.pf, pow_succ', ← Nat.mul_assoc]
      exact Nat.mul_le_mul_right _ (by omega)
    omega
  obtain ⟨w1, w2⟩ := scaled_error c c2 b.w hwle
  rw [i1] at p1 p2
  rw [i3] at w1 w2
  obtain ⟨M', rfl⟩ : ∃ M', M = M' + 1 := ⟨M - 1, by omega⟩
  rw [show (mul b.minus ⟨c.f, c.e⟩).f = M' by omega] at m1 m2
  have hMP : P - (P - (M' + 1)) = M' + 1 := by omega
  have lo := g2.lo
  have hi := g2.hi
  have short := g2.short
  have near := g2.near
  rw [hMP, show P - (P - w) = w by omega] at near
  rw [hMP] at lo short
  -- in the rational numbers
  have hden : (0 : ℚ) < c.den := by unfold Power.den; positivity
  have hnum : (c.num : ℚ) = 10 ^ c.k * 2 ^ (-c.e) * c.den := by
    have h10 : (10 : ℚ) ≠ 0 := by norm_num
    unfold Power.num Power.den
    push_cast
    have t1 : (10 : ℚ) ^ c.k.toNat = 10 ^ c.k * 10 ^ (-c.k).toNat := by
      rw [← zpow_natCast, ← zpow_natCast, ← zpow_add₀ h10]; congr 1; omega
    have t2 : (2 : ℚ) ^ (-c.e).toNat = 2 ^ (-c.e) * 2 ^ c.e.toNat := by
      rw [← zpow_natCast, ← zpow_natCast, ← zpow_add₀ two_ne]; congr 1; omega
    rw [t1, t2]; ring
  -- the unit
  obtain ⟨u, hu⟩ : ∃ u : ℚ, u = 2 ^ (-(sh : Int)) * 10 ^ (-c.k) := ⟨_, rfl⟩
  have hu0 : 0 < u := by rw [hu]; positivity
  have conv : ∀ n : Nat, (n : ℚ) * c.num = (n : ℚ) * 2 ^ b.plus.e / u * 2 ^ 64 * c.den := by
    intro n
    have t : u = 2 ^ b.plus.e * 2 ^ c.e * 2 ^ 64 * (10 ^ c.k)⁻¹ := by
      rw [hu, ← ee, zpow_add₀ two_ne, zpow_add₀ two_ne, zpow_neg]
      norm_cast
    rw [hnum, t, zpow_neg]
    have h1 : (2 : ℚ) ^ b.plus.e ≠ 0 := by positivity
    have h2 : (2 : ℚ) ^ c.e ≠ 0 := by positivity
    have h3 : (10 : ℚ) ^ c.k ≠ 0 := by positivity
    field_simp
  have hden64 : (0 : ℚ) < 2 ^ 64 * c.den := by positivity
  have hup := plus_eq e2
  have hlo := minus_eq h0 e2
  rw [show b.minus.e = b.plus.e by rw [e2.me, e2.pe]] at hlo
  have P1 : (P : ℚ) * u < upper bits := by
    have t : (((P + 1) * 2 ^ 64 * c.den : Nat) : ℚ) < ((b.plus.f * c.num + 2 ^ 64 * c.den : Nat) : ℚ) := by
      exact_mod_cast p1
    push_cast at t
    rw [conv, hup] at t
    have : (P : ℚ) * (2 ^ 64 * c.den) < upper bits / u * (2 ^ 64 * c.den) := by linarith
    have := lt_of_mul_lt_mul_right this hden64.le
    rwa [lt_div_iff₀ hu0] at this
  have P2 : upper bits < ((P : ℚ) + 2) * u := by
    have t : ((b.plus.f * c.num : Nat) : ℚ) < (((P + 1 + 1) * 2 ^ 64 * c.den : Nat) : ℚ) := by
      exact_mod_cast p2
    push_cast at t
    rw [conv, hup] at t
    have : upper bits / u * (2 ^ 64 * c.den) < ((P : ℚ) + 2) * (2 ^ 64 * c.den) := by linarith
    have := lt_of_mul_lt_mul_right this hden64.le
    rwa [div_lt_iff₀ hu0] at this
  have M1 : ((M' : ℚ) - 1) * u < lower bits := by
    have t : ((M' * 2 ^ 64 * c.den : Nat) : ℚ) < ((b.minus.f * c.num + 2 ^ 64 * c.den : Nat) : ℚ) := by
      exact_mod_cast m1
    push_cast at t
    rw [conv, hlo] at t
    have : ((M' : ℚ) - 1) * (2 ^ 64 * c.den) < lower bits / u * (2 ^ 64 * c.den) := by linarith
    have := lt_of_mul_lt_mul_right this hden64.le
    rwa [lt_div_iff₀ hu0] at this
  have M2 : lower bits < ((M' : ℚ) + 1) * u := by
    have t : ((b.minus.f * c.num : Nat) : ℚ) < (((M' + 1) * 2 ^ 64 * c.den : Nat) : ℚ) := by
      exact_mod_cast m2
    push_cast at t
    rw [conv, hlo] at t
    have : lower bits / u * (2 ^ 64 * c.den) < ((M' : ℚ) + 1) * (2 ^ 64 * c.den) := by linarith
    have := lt_of_mul_lt_mul_right this hden64.le
    rwa [div_lt_iff₀ hu0] at this
  have hw := w_eq e2
  rw [show b.w.e = b.plus.e by rw [e2.we, e2.pe]] at hw
  have W1 : ((w : ℚ) - 1) * u < double bits := by
    have t : ((w * 2 ^ 64 * c.den : Nat) : ℚ) < ((b.w.f * c.num + 2 ^ 64 * c.den : Nat) : ℚ) := by
      exact_mod_cast w1
    push_cast at t
    rw [conv, hw] at t
    have : ((w : ℚ) - 1) * (2 ^ 64 * c.den) < double bits / u * (2 ^ 64 * c.den) := by linarith
    have := lt_of_mul_lt_mul_right this hden64.le
    rwa [lt_div_iff₀ hu0] at this
  have W2 : double bits < ((w : ℚ) + 1) * u := by
    have t : ((b.w.f * c.num : Nat) : ℚ) < (((w + 1) * 2 ^ 64 * c.den : Nat) : ℚ) := by
      exact_mod_cast w2
    push_cast at t
    rw [conv, hw] at t
    have : double bits / u * (2 ^ 64 * c.den) < ((w : ℚ) + 1) * (2 ^ 64 * c.den) := by linarith
    have := lt_of_mul_lt_mul_right this hden64.le
    rwa [div_lt_iff₀ hu0] at this
  have hPq : (2 : ℚ) ^ 61 ≤ P := by exact_mod_cast i5
  have hmargin : 2 * u ≤ upper bits / 2 ^ 60 := by
    rw [le_div_iff₀ (by positivity)]
    have : (2 : ℚ) ^ 61 * u ≤ P * u := mul_le_mul_of_nonneg_right hPq hu0.le
    have e : (2 : ℚ) * u * 2 ^ 60 = 2 ^ 61 * u := by ring
    linarith
  -- numbers of the form n 10^(a - d - k)
  have scale : ∀ n : Nat, (n : ℚ) * 10 ^ (-c.k + a - d) = ((n * 10 ^ a * 2 ^ sh : Nat) : ℚ) / 10 ^ d * u := by
    intro n
    have h10 : (10 : ℚ) ≠ 0 := by norm_num
    rw [hu, sub_eq_add_neg, zpow_add₀ h10, zpow_add₀ h10, zpow_neg, zpow_neg, zpow_neg, zpow_natCast, zpow_natCast, zpow_natCast]
    push_cast
    have h3 : (10 : ℚ) ^ c.k ≠ 0 := by positivity
    field_simp
  have h10d : (0 : ℚ) < 10 ^ d := by positivity
  refine ⟨?_, ?_, ?_, ?_⟩
  · rw [scale]
    have t : (((M' + 1) * 10 ^ d : Nat) : ℚ) ≤ ((decimal buf * 10 ^ a * 2 ^ sh : Nat) : ℚ) := by exact_mod_cast lo
    rw [Nat.cast_mul, Nat.cast_pow, ← le_div_iff₀ (by exact_mod_cast h10d)] at t
    push_cast at t ⊢
    exact lt_of_lt_of_le M2 (mul_le_mul_of_nonneg_right t hu0.le)
  · rw [scale]
    have t : ((decimal buf * 10 ^ a * 2 ^ sh : Nat) : ℚ) ≤ ((P * 10 ^ d : Nat) : ℚ) := by exact_mod_cast hi
    rw [Nat.cast_mul P, Nat.cast_pow, ← div_le_iff₀ (by exact_mod_cast h10d)] at t
    push_cast at t ⊢
    exact lt_of_le_of_lt (mul_le_mul_of_nonneg_right t hu0.le) P1
  · intro Z z1 z2
    have eZ : (Z : ℚ) * 10 ^ (-c.k + a - d + 1) = ((Z * 10 : Nat) : ℚ) * 10 ^ (-c.k + a - d) := by
      rw [zpow_add₀ (by norm_num : (10 : ℚ) ≠ 0)]; push_cast; ring
    rw [eZ, scale] at z1 z2
    have s1 : Z * 10 * 10 ^ a * 2 ^ sh ≤ P * 10 ^ d := by
      have : ((Z * 10 * 10 ^ a * 2 ^ sh : Nat) : ℚ) / 10 ^ d * u ≤ P * u := by linarith
      have := le_of_mul_le_mul_right this hu0
      rw [div_le_iff₀ h10d] at this
      exact_mod_cast this
    have s2 := short Z s1
    have s3 : ((Z * 10 * 10 ^ a * 2 ^ sh : Nat) : ℚ) < ((M' : ℚ) + 1) * 10 ^ d := by exact_mod_cast s2
    rw [← div_lt_iff₀ h10d] at s3
    have s4 := mul_lt_mul_of_pos_right s3 hu0
    linarith
  · intro Z z1 z2
    rw [scale] at z1 z2
    rw [scale, scale]
    have s1 : Z * 10 ^ a * 2 ^ sh ≤ P * 10 ^ d := by
      have : ((Z * 10 ^ a * 2 ^ sh : Nat) : ℚ) / 10 ^ d * u ≤ P * u := by linarith
      have := le_of_mul_le_mul_right this hu0
      rw [div_le_iff₀ h10d] at this
      exact_mod_cast this
    have s2 : (M' + 1) * 10 ^ d ≤ Z * 10 ^ a * 2 ^ sh := by
      have : ((M' : ℚ) + 1) * u ≤ ((Z * 10 ^ a * 2 ^ sh : Nat) : ℚ) / 10 ^ d * u := by linarith
      have := le_of_mul_le_mul_right this hu0
      rw [le_div_iff₀ h10d] at this
      exact_mod_cast this
    have s3 := near Z s1 s2
    have abs_eq : ∀ n : Nat, |(n : ℚ) / 10 ^ d * u - w * u| = ((((n : Int) - (w * 10 ^ d : Nat)).natAbs : Nat) : ℚ) * (u / 10 ^ d) := by
      intro n
      rw [Nat.cast_natAbs, Int.cast_abs]
      push_cast
      have : (n : ℚ) / 10 ^ d * u - w * u = ((n : ℚ) - w * 10 ^ d) * (u / 10 ^ d) := by field_simp
      rw [this, abs_mul, abs_of_pos (a := u / 10 ^ d) (by positivity)]
    have s4 : |((decimal buf * 10 ^ a * 2 ^ sh : Nat) : ℚ) / 10 ^ d * u - w * u| ≤
        |((Z * 10 ^ a * 2 ^ sh : Nat) : ℚ) / 10 ^ d * u - w * u| := by
      rw [abs_eq, abs_eq]
      exact mul_le_mul_of_nonneg_right (by exact_mod_cast s3) (by positivity)
    have s5 : |w * u - double bits| ≤ u := by
      rw [abs_le]; constructor <;> linarith
    have s6 := abs_sub_le (((decimal buf * 10 ^ a * 2 ^ sh : Nat) : ℚ) / 10 ^ d * u) (w * u) (double bits)
    have s7 := abs_sub_le (((Z * 10 ^ a * 2 ^ sh : Nat) : ℚ) / 10 ^ d * u) (double bits) (w * u)
    rw [abs_sub_comm (double bits)] at s7
    linarith

end Grisu
end Verif.Json
