import Verif.Json.GrisuLemmas

/-!
# The interval of Grisu2

The boundaries of a number, the table of powers, and the interval in which digits are looked for.
-/

namespace Verif.Json.Grisu

/-- the significand of a positive `double` -/
def sig (bits : Nat) : Nat := if bits / 2 ^ 52 = 0 then bits % 2 ^ 52 else bits % 2 ^ 52 + 2 ^ 52

/-- its exponent -/
def expo (bits : Nat) : Int := if bits / 2 ^ 52 = 0 then -1074 else (bits / 2 ^ 52 : Nat) - 1075

/-- the number before it is closer -/
def closer (bits : Nat) : Prop := bits % 2 ^ 52 = 0 ∧ 1 < bits / 2 ^ 52

instance (bits : Nat) : Decidable (closer bits) := by unfold closer; infer_instance

theorem sig_bounds {bits : Nat} (h0 : 0 < bits) : 0 < sig bits ∧ sig bits < 2 ^ 53 := by
  unfold sig
  split <;> omega

theorem sig_normal {bits : Nat} (h : expo bits ≠ -1074) : 2 ^ 52 ≤ sig bits := by
  unfold expo at h
  unfold sig
  split at h
  · exact absurd rfl h
  · rw [if_neg (by assumption)]; omega

theorem expo_bounds {bits : Nat} (h : bits < 0x7FF0000000000000) : -1074 ≤ expo bits ∧ expo bits ≤ 971 := by
  unfold expo
  split <;> omega

theorem closer_sig {bits : Nat} (h : closer bits) : sig bits = 2 ^ 52 := by
  unfold closer at h
  unfold sig
  rw [if_neg (by omega), h.1]; rfl

theorem isFinite_of {bits : Nat} (h : bits < 0x7FF0000000000000) : isFinite bits = true := by
  unfold isFinite
  rw [Nat.shiftRight_eq_div_pow]
  simp only [ne_eq, decide_not, Bool.not_eq_true', decide_eq_false_iff_not]
  omega

/-- the boundaries on a common scale: `p` and `m` are the significands of the upper and the lower one, `v` that of the
number -/
structure Scaled (bits : Nat) (s : Nat) (b : Boundaries) : Prop where
  pe : b.plus.e = expo bits - 1 - s
  me : b.minus.e = expo bits - 1 - s
  we : b.w.e = expo bits - 1 - s
  pf : b.plus.f = (2 * sig bits + 1) * 2 ^ s
  wf : b.w.f = sig bits * 2 ^ (s + 1)
  mf : b.minus.f = if closer bits then (4 * sig bits - 1) * 2 ^ (s - 1) else (2 * sig bits - 1) * 2 ^ s
  lo : 10 ≤ s
  hi : s ≤ 62
  p1 : 2 ^ 63 ≤ b.plus.f
  p2 : b.plus.f < 2 ^ 64

theorem computeBoundaries_eq {bits : Nat} (h0 : 0 < bits) (h : bits < 0x7FF0000000000000) :
    ∃ s b, computeBoundaries bits = .ok b ∧ Scaled bits s b ∧ -1137 ≤ b.plus.e ∧ b.plus.e ≤ 960 := by
  obtain ⟨f1, f2⟩ := sig_bounds h0
  obtain ⟨s, s1, s2, s3⟩ := @exists_shift (2 * sig bits + 1) (by omega) (by omega)
  have hs : 10 ≤ s := by
    by_contra hc
    have : 2 ^ s ≤ 2 ^ 9 := Nat.pow_le_pow_right (by norm_num) (by omega)
    have : (2 * sig bits + 1) * 2 ^ s < 2 ^ 54 * 2 ^ 9 := by
      calc (2 * sig bits + 1) * 2 ^ s ≤ (2 * sig bits + 1) * 2 ^ 9 := Nat.mul_le_mul_left _ this
        _ < _ := by omega
    omega
  have hs' : s ≤ 62 := by
    by_contra hc
    have : s = 63 := by omega
    subst this
    have : 3 * 2 ^ 63 ≤ (2 * sig bits + 1) * 2 ^ 63 := Nat.mul_le_mul_right _ (by omega)
    omega
  -- the number itself has one bit less
  have w1 : 2 ^ 63 ≤ sig bits * 2 ^ (s + 1) := by
    have e : 2 ^ 63 = 2 ^ (62 - s) * 2 * 2 ^ s := by
      rw [mul_assoc, ← pow_succ', ← pow_add]; congr 1; omega
    rw [e] at s2 ⊢
    have h1 : 2 ^ (62 - s) * 2 ≤ 2 * sig bits + 1 := Nat.le_of_mul_le_mul_right s2 (by positivity)
    have h2 : 2 ^ (62 - s) * 2 ≤ 2 * sig bits := by omega
    calc _ ≤ 2 * sig bits * 2 ^ s := Nat.mul_le_mul_right _ h2
      _ = _ := by rw [pow_succ]; ring
  have w2 : sig bits * 2 ^ (s + 1) < 2 ^ 64 := by
    calc sig bits * 2 ^ (s + 1) = 2 * sig bits * 2 ^ s := by rw [pow_succ]; ring
      _ ≤ (2 * sig bits + 1) * 2 ^ s := Nat.mul_le_mul_right _ (by omega)
      _ < _ := s3
  have hE : expo bits - 1 - s ≤ 960 ∧ -1137 ≤ expo bits - 1 - s := by
    obtain ⟨e1, e2⟩ := expo_bounds h
    refine ⟨by omega, by omega⟩
  refine ⟨s, ⟨⟨sig bits * 2 ^ (s + 1), expo bits - 1 - s⟩,
    ⟨if closer bits then (4 * sig bits - 1) * 2 ^ (s - 1) else (2 * sig bits - 1) * 2 ^ s, expo bits - 1 - s⟩,
    ⟨(2 * sig bits + 1) * 2 ^ s, expo bits - 1 - s⟩⟩, ?_,
    ⟨rfl, rfl, rfl, rfl, rfl, rfl, hs, hs', s2, s3⟩, hE.2, hE.1⟩
  have hv : (if bits >>> 52 = 0 then (⟨bits &&& (2 ^ 52 - 1), -1074⟩ : Diyfp)
      else ⟨(bits &&& (2 ^ 52 - 1)) + 2 ^ 52, ((bits >>> 52 : Nat) : Int) - 1075⟩) = ⟨sig bits, expo bits⟩ := by
    rw [Nat.shiftRight_eq_div_pow, and_mask, sig, expo]
    split <;> simp
  have nv : ∀ e, normalize ⟨sig bits, e⟩ = .ok ⟨sig bits * 2 ^ (s + 1), e - (s + 1 : Nat)⟩ := by
    intro e
    rw [normalize, normalizeLoop_eq (s + 1) 65 (sig bits) e (by omega) w1 w2]
    simp only [show sig bits ≠ 0 by omega, ne_eq, not_false_eq_true, decide_true, Outcome.assert_true,
      Outcome.bind_ok]
  have np : ∀ e, normalize ⟨2 * sig bits + 1, e⟩ = .ok ⟨(2 * sig bits + 1) * 2 ^ s, e - s⟩ := by
    intro e
    rw [normalize, normalizeLoop_eq s 65 _ e (by omega) s2 s3]
    simp only [show 2 * sig bits + 1 ≠ 0 by omega, ne_eq, not_false_eq_true, decide_true,
      Outcome.assert_true, Outcome.bind_ok]
  have nm : normalizeTo (if closer bits then ⟨4 * sig bits - 1, expo bits - 2⟩
      else ⟨2 * sig bits - 1, expo bits - 1⟩) (expo bits - 1 - s) =
      .ok ⟨if closer bits then (4 * sig bits - 1) * 2 ^ (s - 1) else (2 * sig bits - 1) * 2 ^ s,
        expo bits - 1 - s⟩ := by
    by_cases hc : closer bits
    · simp only [if_pos hc]
      have e1 : expo bits - 1 - (s : Int) = (expo bits - 2) - ((s - 1 : Nat) : Int) := by omega
      rw [e1]
      refine normalizeTo_eq _ _ _ (by omega) ?_
      have : 2 ^ s = 2 * 2 ^ (s - 1) := by rw [← pow_succ']; congr 1; omega
      calc (4 * sig bits - 1) * 2 ^ (s - 1) ≤ (2 * (2 * sig bits + 1)) * 2 ^ (s - 1) :=
            Nat.mul_le_mul_right _ (by omega)
        _ = (2 * sig bits + 1) * 2 ^ s := by rw [this]; ring
        _ < _ := s3
    · simp only [if_neg hc]
      refine normalizeTo_eq _ _ _ (by omega) ?_
      calc (2 * sig bits - 1) * 2 ^ s ≤ (2 * sig bits + 1) * 2 ^ s := Nat.mul_le_mul_right _ (by omega)
        _ < _ := s3
  have c1 : (decide (bits &&& (2 ^ 52 - 1) = 0 ∧ 1 < bits >>> 52) = true) = closer bits := by
    rw [Nat.shiftRight_eq_div_pow, and_mask, decide_eq_true_eq]; rfl
  have u1 : u64 (2 * sig bits + 1) = 2 * sig bits + 1 := u64_small (by omega)
  have u2 : u64 (4 * sig bits + (2 ^ 64 - 1)) = 4 * sig bits - 1 := by unfold u64; omega
  have u3 : u64 (2 * sig bits + (2 ^ 64 - 1)) = 2 * sig bits - 1 := by unfold u64; omega
  simp only [computeBoundaries, hv, isFinite_of h, Outcome.assert_true, Outcome.bind_ok,
    show bits < 2 ^ 63 ∧ bits ≠ 0 by omega, decide_true, u1, u2, u3, np, nv, c1, nm, ne_eq, not_false_eq_true, and_self]
  rw [show expo bits - ((s + 1 : Nat) : Int) = expo bits - 1 - s by push_cast; ring]
  rfl

/-! ## The table -/

/-- 10^k is `num / den` on the scale 2^e -/
def Power.num (c : Power) : Nat := 10 ^ c.k.toNat * 2 ^ (-c.e).toNat

/-- see `Power.num` -/
def Power.den (c : Power) : Nat := 10 ^ (-c.k).toNat * 2 ^ c.e.toNat

/-- the entries are rounded correctly -/
def Power.good (c : Power) : Bool :=
  2 ^ 63 ≤ c.f ∧ c.f < 2 ^ 64 ∧ 2 * c.f * c.den ≤ 2 * c.num + c.den ∧ 2 * c.num ≤ 2 * c.f * c.den + c.den ∧
  -300 ≤ c.k ∧ c.k ≤ 324

set_option maxRecDepth 4000 in
theorem powers_good : ∀ c ∈ powers, c.good = true := by
  decide +kernel

/-- what `cachedPower` gives is in the table, and brings the exponent into the range -/
def reaches (e : Int) : Bool :=
  match cachedPower e with
  | .ok c => powers.contains c && decide (-60 ≤ c.e + e + 64) && decide (c.e + e + 64 ≤ -32)
  | _ => false

theorem reaches_all : ∀ i : Nat, i < 2098 → reaches ((i : Int) - 1137) = true := by
  decide +kernel

theorem cachedPower_eq {e : Int} (h1 : -1137 ≤ e) (h2 : e ≤ 960) :
    ∃ c, cachedPower e = .ok c ∧ c.good = true ∧ -60 ≤ c.e + e + 64 ∧ c.e + e + 64 ≤ -32 := by
  have h := reaches_all (e + 1137).toNat (by omega)
  rw [show (((e + 1137).toNat : Nat) : Int) - 1137 = e by omega] at h
  unfold reaches at h
  split at h
  · rename_i c hc
    simp only [Bool.and_eq_true, List.contains_iff_mem, decide_eq_true_eq] at h
    exact ⟨c, hc, powers_good c h.1.1, h.1.2, h.2⟩
  · cases h

/-! ## The error of the products -/

/-- the exact product with the power of ten lies within one unit of the computed one -/
theorem scaled_error (c : Power) (hc : c.good = true) (x : Diyfp) (hx : x.f < 2 ^ 64) :
    (mul x ⟨c.f, c.e⟩).f * 2 ^ 64 * c.den < x.f * c.num + 2 ^ 64 * c.den ∧
    x.f * c.num < ((mul x ⟨c.f, c.e⟩).f + 1) * 2 ^ 64 * c.den := by
  simp only [Power.good, Bool.decide_and, Bool.and_eq_true, decide_eq_true_eq] at hc
  obtain ⟨c1, c2, c3, c4, _⟩ := hc
  obtain ⟨m1, m2⟩ := mul_bounds x ⟨c.f, c.e⟩ hx c2
  simp only at m1 m2
  have hd : 0 < c.den := by unfold Power.den; positivity
  generalize (mul x ⟨c.f, c.e⟩).f = W at *
  generalize c.den = B at *
  generalize c.num = A at *
  generalize c.f = C at *
  generalize x.f = m at *
  constructor
  · -- W B 2^64 ≤ (m C + 2^63) B ≤ m (A + B/2) + 2^63 B
    have h1 : 2 ^ 64 * W * B ≤ (m * C + 2 ^ 63) * B := Nat.mul_le_mul_right _ m1
    have h2 : m * (2 * C * B) ≤ m * (2 * A + B) := Nat.mul_le_mul_left _ c3
    have h3 : m * B < 2 ^ 64 * B := Nat.mul_lt_mul_of_pos_right hx hd
    nlinarith
  · have h1 : (m * C + 2 ^ 63) * B < (2 ^ 64 * W + 2 ^ 64) * B := Nat.mul_lt_mul_of_pos_right m2 hd
    have h2 : m * (2 * A) ≤ m * (2 * C * B + B) := Nat.mul_le_mul_left _ c4
    have h3 : m * B < 2 ^ 64 * B := Nat.mul_lt_mul_of_pos_right hx hd
    nlinarith

end Verif.Json.Grisu
