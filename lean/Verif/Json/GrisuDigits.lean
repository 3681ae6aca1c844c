import Verif.Json.GrisuBound
import Verif.Json.IntLemmas

/-!
# The digits of Grisu2
-/

namespace Verif.Json.Grisu

open Spec

/-! ## Rounding -/

theorem roundLoop_eq (D dist T : Nat) (hD : D < 2 ^ 64) (hdist : dist ≤ D) (pre : Bytes) :
    ∀ (fuel d rest : Nat), d < fuel → d ≤ 9 → rest ≤ D → D < rest + d * T →
    ∃ d', 1 ≤ d' ∧ d' ≤ d ∧ rest + (d - d') * T ≤ D ∧
      roundLoop D dist T fuel (pre ++ [0x30 + d]) rest = .ok (pre ++ [0x30 + d']) ∧
      ∀ j, rest + j * T ≤ D → (((rest + (d - d') * T : Nat) : Int) - dist).natAbs ≤
        (((rest + j * T : Nat) : Int) - dist).natAbs := by
  intro fuel
  induction fuel with
  | zero => intro d rest h; omega
  | succ fuel ih =>
    intro d rest h1 h2 h3 h4
    have hd1 : 1 ≤ d := by
      rcases Nat.eq_zero_or_pos d with rfl | h
      · omega
      · exact h
    rw [roundLoop]
    by_cases hc : rest < dist ∧ T ≤ D - rest ∧
        (u64 (rest + T) < dist ∨ u64 (rest + T + (2 ^ 64 - dist)) < dist - rest)
    · rw [if_pos hc]
      have hd2 : 2 ≤ d := by
        by_contra hn
        have : d = 1 := by omega
        subst this
        omega
      simp only [List.getLast?_append, List.getLast?_singleton, Option.some_or, ne_eq,
        show ¬ (0x30 + d = 0x30) by omega, not_false_eq_true, decide_true, Outcome.assert_true,
        Outcome.bind_ok, List.dropLast_append_of_ne_nil (List.cons_ne_nil _ _), List.dropLast_singleton, List.append_nil]
      have hu : u64 (rest + T) = rest + T := u64_small (by omega)
      rw [show 0x30 + d - 1 = 0x30 + (d - 1) by omega, hu]
      have e : (d - 1) * T + T = d * T := by rw [← Nat.succ_mul]; congr 1; omega
      obtain ⟨d', a1, a2, a3, a4, a5⟩ := ih (d - 1) (rest + T) (by omega) (by omega) (by omega) (by omega)
      have e2 : (d - 1 - d') * T + T = (d - d') * T := by rw [← Nat.succ_mul]; congr 1; omega
      refine ⟨d', a1, by omega, by omega, a4, fun j hj => ?_⟩
      rw [show rest + (d - d') * T = rest + T + (d - 1 - d') * T by omega]
      rcases Nat.eq_zero_or_pos j with rfl | hj0
      · have := a5 0 (by omega)
        have hcl : rest + T < dist ∨ rest + T - dist < dist - rest := by
          rcases hc.2.2 with h | h
          · left; omega
          · by_cases h' : rest + T < dist
            · exact .inl h'
            · right
              unfold u64 at h
              omega
        generalize (d - 1 - d') * T = y at *
        omega
      · have e3 : (j - 1) * T + T = j * T := by rw [← Nat.succ_mul]; congr 1; omega
        have := a5 (j - 1) (by omega)
        rwa [show rest + T + (j - 1) * T = rest + j * T by omega] at this
    · rw [if_neg hc]
      refine ⟨d, hd1, le_refl _, by simpa using h3, rfl, fun j hj => ?_⟩
      rw [Nat.sub_self, Nat.zero_mul, Nat.add_zero]
      rcases Nat.eq_zero_or_pos j with rfl | hj0
      · simp
      · have e3 : (j - 1) * T + T = j * T := by rw [← Nat.succ_mul]; congr 1; omega
        generalize (j - 1) * T = y at *
        by_cases h : dist ≤ rest
        · omega
        · have hu : u64 (rest + T) = rest + T := u64_small (by omega)
          rw [hu] at hc
          have hge : dist ≤ rest + T := by omega
          have hu2 : u64 (rest + T + (2 ^ 64 - dist)) = rest + T - dist := by unfold u64; omega
          rw [hu2] at hc
          omega

/-- the digits before the last one, the last one and the rest make up `S`; the result is within `D` of it, nothing
with a digit less is, and nothing with as many is closer to `S - dist` -/
theorem grisu2Round_eq {S D dist T rest d : Nat} {pre : Bytes} (hD : D < 2 ^ 64) (hdist : dist ≤ D) (hDS : D ≤ S)
    (hS : S = (decimal pre * 10 + d) * T + rest) (hrT : rest < T) (hrest : rest ≤ D) (hprev : D < rest + d * T)
    (hd : d ≤ 9) :
    ∃ d', 1 ≤ d' ∧ d' ≤ 9 ∧ grisu2Round (pre ++ [0x30 + d]) dist D rest T = .ok (pre ++ [0x30 + d']) ∧
      S - D ≤ decimal (pre ++ [0x30 + d']) * T ∧ decimal (pre ++ [0x30 + d']) * T ≤ S ∧
      (∀ Z, Z * 10 * T ≤ S → Z * 10 * T < S - D) ∧
      ∀ Z, Z * T ≤ S → S - D ≤ Z * T →
        (((decimal (pre ++ [0x30 + d']) * T : Nat) : Int) - (S - dist : Nat)).natAbs ≤
          (((Z * T : Nat) : Int) - (S - dist : Nat)).natAbs := by
  obtain ⟨d', a1, a2, a3, a4, a5⟩ := roundLoop_eq D dist T hD hdist pre 11 d rest (by omega) hd hrest hprev
  have hdec : decimal (pre ++ [0x30 + d']) * T + (rest + (d - d') * T) = S := by
    rw [decimal_snoc, show 0x30 + d' - 0x30 = d' by omega]
    have e : d * T = (d - d') * T + d' * T := by rw [← Nat.add_mul]; congr 1; omega
    rw [Nat.add_mul] at hS ⊢
    omega
  refine ⟨d', a1, by omega, ?_, by omega, by omega, ?_, ?_⟩
  · rw [grisu2Round, a4]
    simp only [List.length_append, List.length_singleton, show 1 ≤ pre.length + 1 by omega, decide_true,
      Outcome.assert_true, Outcome.bind_ok, hdist, hrest, show 0 < T by omega]
  · intro Z hZ
    have h1 : Z ≤ decimal pre := by
      by_contra hn
      have : (decimal pre * 10 + 10) * T ≤ Z * 10 * T := Nat.mul_le_mul_right _ (by omega)
      have h2 : (decimal pre * 10 + d) * T + T ≤ (decimal pre * 10 + 10) * T := by
        rw [← Nat.succ_mul]; exact Nat.mul_le_mul_right _ (by omega)
      omega
    have h2 : Z * 10 * T ≤ decimal pre * 10 * T := Nat.mul_le_mul_right _ (by omega)
    rw [Nat.add_mul] at hS
    omega
  · intro Z hZ1 hZ2
    have h1 : Z ≤ decimal pre * 10 + d := by
      by_contra hn
      have : (decimal pre * 10 + d + 1) * T ≤ Z * T := Nat.mul_le_mul_right _ (by omega)
      rw [Nat.add_mul (decimal pre * 10 + d)] at this
      omega
    have hZ : Z * T + (rest + (decimal pre * 10 + d - Z) * T) = S := by
      rw [hS, show (decimal pre * 10 + d) * T = Z * T + (decimal pre * 10 + d - Z) * T by
        rw [← Nat.add_mul]; congr 1; omega]
      omega
    have := a5 (decimal pre * 10 + d - Z) (by omega)
    generalize decimal (pre ++ [0x30 + d']) * T = u at *
    generalize (d - d') * T = v at *
    generalize (decimal pre * 10 + d - Z) * T = w at *
    generalize Z * T = z at *
    omega

/-! ## The loops -/

/-- digits so far: no zero at the front -/
structure Proper (buf : Bytes) : Prop where
  digits : ∀ c ∈ buf, Digit c
  head : buf.head? ≠ some 0x30

theorem Proper.nil : Proper [] := ⟨by simp, by simp⟩

theorem Proper.snoc {buf : Bytes} (h : Proper buf) {d : Nat} (hd : d ≤ 9) (h0 : buf = [] → d ≠ 0) :
    Proper (buf ++ [0x30 + d]) := by
  refine ⟨fun c hc => ?_, ?_⟩
  · rcases List.mem_append.mp hc with hc | hc
    · exact h.digits c hc
    · simp at hc; unfold Digit; omega
  · cases buf with
    | nil => simpa using h0 rfl
    | cons c buf => simpa using h.head

/-- what has been found: a number of the interval from `P - delta` to `P` on the scale of 2^-sh, times 10^b -/
structure Found (P delta dist sh : Nat) (buf : Bytes) (a b : Nat) : Prop where
  proper : Proper buf
  last : ∃ c, buf.getLast? = some c ∧ c ≠ 0x30
  len : buf.length ≤ 17
  lo : (P - delta) * 10 ^ b ≤ decimal buf * 10 ^ a * 2 ^ sh
  hi : decimal buf * 10 ^ a * 2 ^ sh ≤ P * 10 ^ b
  short : ∀ Z, Z * 10 * 10 ^ a * 2 ^ sh ≤ P * 10 ^ b → Z * 10 * 10 ^ a * 2 ^ sh < (P - delta) * 10 ^ b
  near : ∀ Z, Z * 10 ^ a * 2 ^ sh ≤ P * 10 ^ b → (P - delta) * 10 ^ b ≤ Z * 10 ^ a * 2 ^ sh →
    (((decimal buf * 10 ^ a * 2 ^ sh : Nat) : Int) - ((P - dist) * 10 ^ b : Nat)).natAbs ≤
      (((Z * 10 ^ a * 2 ^ sh : Nat) : Int) - ((P - dist) * 10 ^ b : Nat)).natAbs
  exps : a = 0 ∨ b = 0
  expa : a < 10
  expb : b ≤ 16

theorem shl_eq {x sh : Nat} (hs : sh < 64) (h : x * 2 ^ sh < 2 ^ 64) : shl x (sh : Int) = .ok (x * 2 ^ sh) := by
  rw [shl, if_pos (by omega), Int.toNat_natCast, Nat.shiftLeft_eq, u64_small h]

theorem integral_eq {cap sh p2 P delta dist k : Nat} (exp : Int) (hsh : sh < 64) (hcap : 17 ≤ cap)
    (hP : P < 2 ^ 64) (hdelta : delta < P) (hdist : dist ≤ delta) (hp2 : p2 < 2 ^ sh) (hk : k ≤ 10) :
    ∀ (n p1 : Nat) (buf : Bytes), buf.length + n = k → Proper buf → p1 < 10 ^ n →
    P = decimal buf * 10 ^ n * 2 ^ sh + p1 * 2 ^ sh + p2 → delta < p1 * 2 ^ sh + p2 →
    (buf = [] → 10 ^ (n - 1) ≤ p1 ∧ 0 < n) →
    (0 < n → 10 ^ (n - 1) * 2 ^ sh ≤ P) →
    (∃ buf', ∃ a : Nat, integral cap sh p2 delta dist exp n p1 (10 ^ (n - 1)) buf = .ok (.done buf' (exp + a)) ∧
      Found P delta dist sh buf' a 0) ∨
    (∃ buf', integral cap sh p2 delta dist exp n p1 (10 ^ (n - 1)) buf = .ok (.more buf') ∧
      Proper buf' ∧ buf' ≠ [] ∧ buf'.length = k ∧ P = decimal buf' * 2 ^ sh + p2 ∧ delta < p2) := by
  intro n
  induction n with
  | zero =>
    intro p1 buf hl hb hp hPe hd hne _
    right
    refine ⟨buf, rfl, hb, fun h => by have := (hne h).2; omega, by omega, ?_, ?_⟩
    · simpa [show p1 = 0 by simpa using hp] using hPe
    · simpa [show p1 = 0 by simpa using hp] using hd
  | succ n ih =>
    intro p1 buf hl hb hp hPe hd hne hpow
    simp only [Nat.add_sub_cancel] at hne hpow ⊢
    have hT : 0 < 10 ^ n := by positivity
    have hdm := Nat.div_add_mod p1 (10 ^ n)
    have hr : p1 % 10 ^ n < 10 ^ n := Nat.mod_lt _ hT
    have hd9 : p1 / 10 ^ n ≤ 9 := by
      have : p1 / 10 ^ n < 10 := (Nat.div_lt_iff_lt_mul hT).mpr (by rw [pow_succ] at hp; omega)
      omega
    have hd0 : buf = [] → p1 / 10 ^ n ≠ 0 := fun h => by
      have := (Nat.le_div_iff_mul_le hT).mpr (by simpa using (hne h).1 : 1 * 10 ^ n ≤ p1)
      omega
    generalize p1 / 10 ^ n = d at *
    generalize p1 % 10 ^ n = r at *
    have hrs : r * 2 ^ sh + p2 < 10 ^ n * 2 ^ sh := by
      have : (r + 1) * 2 ^ sh ≤ 10 ^ n * 2 ^ sh := Nat.mul_le_mul_right _ hr
      rw [Nat.add_mul] at this
      omega
    have hr64 : r * 2 ^ sh + p2 < 2 ^ 64 := by
      have : r * 2 ^ sh ≤ p1 * 2 ^ sh := Nat.mul_le_mul_right _ (by rw [← hdm]; omega)
      omega
    have hS : P = (decimal buf * 10 + d) * (10 ^ n * 2 ^ sh) + (r * 2 ^ sh + p2) := by
      rw [hPe, ← hdm, pow_succ]; ring
    rw [integral]
    simp only
    have hpush : push cap buf d = .ok (buf ++ [0x30 + d]) := by
      rw [push, if_pos (by omega)]
    have e1 : p1 / 10 ^ n = d := by
      rw [← hdm, Nat.add_comm, Nat.add_mul_div_left _ _ hT, Nat.div_eq_of_lt hr, Nat.zero_add]
    have e2 : p1 % 10 ^ n = r := by
      rw [← hdm, Nat.mul_add_mod, Nat.mod_eq_of_lt hr]
    rw [e1, e2, hpush, shl_eq hsh (by omega), shl_eq hsh (lt_of_le_of_lt (hpow (by omega)) hP)]
    simp only [hd9, decide_true, Outcome.assert_true, Outcome.bind_ok, u64_small hr64]
    by_cases hstop : r * 2 ^ sh + p2 ≤ delta
    · rw [if_pos hstop]
      left
      have hprev : delta < r * 2 ^ sh + p2 + d * (10 ^ n * 2 ^ sh) := by
        calc delta < p1 * 2 ^ sh + p2 := hd
          _ = _ := by rw [← hdm]; ring
      obtain ⟨d', b1, b2, b3, b4, b5, b6, b7⟩ := grisu2Round_eq (by omega) hdist (by omega) hS hrs hstop hprev hd9
      rw [b3]
      refine ⟨_, n, rfl, ⟨hb.snoc b2 (fun _ => by omega), ⟨0x30 + d', by simp, by omega⟩, ?_, ?_, ?_, ?_, ?_,
        .inr rfl, by omega, by omega⟩⟩
      · simp; omega
      · simpa [Nat.mul_assoc] using b4
      · simpa [Nat.mul_assoc] using b5
      · intro Z; simpa [Nat.mul_assoc] using b6 Z
      · intro Z; simpa [Nat.mul_assoc] using b7 Z
    · rw [if_neg hstop]
      have hp10 : 10 ^ n / 10 = 10 ^ (n - 1) ∨ n = 0 := by
        rcases Nat.eq_zero_or_pos n with h | h
        · exact .inr h
        · left
          obtain ⟨m, rfl⟩ : ∃ m, n = m + 1 := ⟨n - 1, by omega⟩
          rw [pow_succ, Nat.mul_div_cancel _ (by norm_num)]; rfl
      have hgo := ih r (buf ++ [0x30 + d]) (by simp; omega) (hb.snoc hd9 hd0) hr
        (by rw [decimal_snoc, show 0x30 + d - 0x30 = d by omega, hS]; ring) (by omega) (by simp)
        (fun hn => by
          have : 10 ^ (n - 1) ≤ 10 ^ n := Nat.pow_le_pow_right (by norm_num) (by omega)
          exact le_trans (Nat.mul_le_mul_right _ this) (hpow (by omega)))
      rcases hp10 with h | rfl
      · rw [h]; exact hgo
      · exact hgo

theorem fractional_eq {cap sh P delta dist k : Nat} (hsh : sh ≤ 60) (hcap : 17 ≤ cap)
    (hdist : dist ≤ delta) (hdP : delta < P) (hk : 10 ^ (k - 1) * 2 ^ sh ≤ P) (hk0 : 0 < k)
    (hPd : P < 10 ^ 16 * delta) (exp : Int) :
    ∀ (fuel m p2 : Nat) (buf : Bytes), 17 ≤ fuel + m → buf.length = k + m → Proper buf → buf ≠ [] →
    P * 10 ^ m = decimal buf * 2 ^ sh + p2 → p2 < 2 ^ sh → delta * 10 ^ m < p2 →
    ∃ buf', ∃ b : Nat, fractional cap sh fuel p2 (delta * 10 ^ m) (dist * 10 ^ m) (exp - m) buf = .ok (buf', exp - b) ∧
      Found P delta dist sh buf' 0 b := by
  intro fuel
  induction fuel with
  | zero =>
    intro m p2 buf hf hl hb hne hP hp hd
    exfalso
    have h1 : delta * 10 ^ 17 ≤ delta * 10 ^ m := Nat.mul_le_mul_left _ (Nat.pow_le_pow_right (by norm_num) (by omega))
    have h2 : 2 ^ sh ≤ 10 ^ (k - 1) * 2 ^ sh := Nat.le_mul_of_pos_left _ (by positivity)
    omega
  | succ fuel ih =>
    intro m p2 buf hf hl hb hne hP hp hd
    -- there are at most 16 digits so far
    have hkm : k + m ≤ 16 := by
      by_contra hn
      have h1 : 10 ^ 16 ≤ 10 ^ (k - 1) * 10 ^ m := by
        rw [← pow_add]; exact Nat.pow_le_pow_right (by norm_num) (by omega)
      have h2 : delta * 10 ^ 16 ≤ delta * (10 ^ (k - 1) * 10 ^ m) := Nat.mul_le_mul_left _ h1
      have h3 : 10 ^ (k - 1) * (delta * 10 ^ m) ≤ 10 ^ (k - 1) * 2 ^ sh := Nat.mul_le_mul_left _ (by omega)
      have h4 : delta * (10 ^ (k - 1) * 10 ^ m) = 10 ^ (k - 1) * (delta * 10 ^ m) := by ring
      omega
    have h60 : 2 ^ sh ≤ 2 ^ 60 := Nat.pow_le_pow_right (by norm_num) hsh
    have hd10 : dist * 10 ^ m ≤ delta * 10 ^ m := Nat.mul_le_mul_right _ hdist
    have eD : delta * 10 ^ m * 10 = delta * 10 ^ (m + 1) := by rw [pow_succ]; ring
    have eE : dist * 10 ^ m * 10 = dist * 10 ^ (m + 1) := by rw [pow_succ]; ring
    have hdm := Nat.div_add_mod (p2 * 10) (2 ^ sh)
    have hr : p2 * 10 % 2 ^ sh < 2 ^ sh := Nat.mod_lt _ (by positivity)
    have hd9 : p2 * 10 / 2 ^ sh ≤ 9 := by
      have : p2 * 10 / 2 ^ sh < 10 := (Nat.div_lt_iff_lt_mul (by positivity)).mpr (by omega)
      omega
    rw [fractional]
    simp only
    have hu : u64 (p2 * 10) = p2 * 10 := u64_small (by omega)
    have hshr : shr (p2 * 10) (sh : Int) = .ok (p2 * 10 / 2 ^ sh) := by
      rw [shr, if_pos (by omega), Int.toNat_natCast, Nat.shiftRight_eq_div_pow]
    rw [hu, hshr, and_mask, u64_small (show delta * 10 ^ m * 10 < 2 ^ 64 by omega),
      u64_small (show dist * 10 ^ m * 10 < 2 ^ 64 by omega), eD, eE]
    have hpush : push cap buf (p2 * 10 / 2 ^ sh) = .ok (buf ++ [0x30 + p2 * 10 / 2 ^ sh]) := by
      rw [push, if_pos (by omega)]
    have hmax : p2 ≤ (2 ^ 64 - 1) / 10 := by omega
    simp only [hmax, hd9, hpush, decide_true, Outcome.assert_true, Outcome.bind_ok]
    generalize p2 * 10 / 2 ^ sh = d at *
    generalize p2 * 10 % 2 ^ sh = r at *
    have hS : P * 10 ^ (m + 1) = (decimal buf * 10 + d) * 2 ^ sh + r := by
      have : P * 10 ^ (m + 1) = P * 10 ^ m * 10 := by rw [pow_succ]; ring
      rw [this, hP, Nat.add_mul, ← hdm]; ring
    by_cases hstop : r ≤ delta * 10 ^ (m + 1)
    · rw [if_pos hstop]
      have hprev : delta * 10 ^ (m + 1) < r + d * 2 ^ sh := by
        rw [← eD]
        calc delta * 10 ^ m * 10 < p2 * 10 := by omega
          _ = _ := by rw [← hdm]; ring
      obtain ⟨d', b1, b2, b3, b4, b5, b6, b7⟩ := grisu2Round_eq (show delta * 10 ^ (m + 1) < 2 ^ 64 by omega)
        (show dist * 10 ^ (m + 1) ≤ delta * 10 ^ (m + 1) from Nat.mul_le_mul_right _ hdist)
        (show delta * 10 ^ (m + 1) ≤ P * 10 ^ (m + 1) from Nat.mul_le_mul_right _ hdP.le) hS hr hstop hprev hd9
      rw [b3]
      rw [← Nat.sub_mul] at b4 b6 b7
      refine ⟨_, m + 1, ?_, ⟨hb.snoc b2 (fun h => absurd h hne), ⟨0x30 + d', by simp, by omega⟩, ?_, ?_, ?_, ?_, ?_,
        .inl rfl, by omega, by omega⟩⟩
      · simp only [Outcome.bind_ok, Outcome.pure_eq]
        congr 2
        push_cast; ring
      · simp; omega
      · simpa using b4
      · simpa using b5
      · intro Z; simpa using b6 Z
      · intro Z h1 h2
        simpa [Nat.sub_mul] using b7 Z (by simpa using h1) (by simpa [Nat.sub_mul] using h2)
    · rw [if_neg hstop]
      have := ih (m + 1) r (buf ++ [0x30 + d]) (by omega) (by simp; omega)
        (hb.snoc hd9 (fun h => absurd h hne)) (by simp)
        (by rw [decimal_snoc, show 0x30 + d - 0x30 = d by omega]; exact hS) hr (by omega)
      rw [show exp - ((m + 1 : Nat) : Int) = exp - m - 1 by push_cast; ring] at this
      exact this

theorem findLargestPow10_eq {n : Nat} (h0 : 0 < n) (h : n < 2 ^ 32) :
    ∃ k, findLargestPow10 n = (k, 10 ^ (k - 1)) ∧ 10 ^ (k - 1) ≤ n ∧ n < 10 ^ k ∧ 0 < k ∧ k ≤ 10 := by
  unfold findLargestPow10
  by_cases h9 : 1000000000 ≤ n
  · rw [if_pos h9]; exact ⟨10, rfl, h9, by omega, by omega, by omega⟩
  rw [if_neg h9]
  by_cases h8 : 100000000 ≤ n
  · rw [if_pos h8]; exact ⟨9, rfl, h8, by omega, by omega, by omega⟩
  rw [if_neg h8]
  by_cases h7 : 10000000 ≤ n
  · rw [if_pos h7]; exact ⟨8, rfl, h7, by omega, by omega, by omega⟩
  rw [if_neg h7]
  by_cases h6 : 1000000 ≤ n
  · rw [if_pos h6]; exact ⟨7, rfl, h6, by omega, by omega, by omega⟩
  rw [if_neg h6]
  by_cases h5 : 100000 ≤ n
  · rw [if_pos h5]; exact ⟨6, rfl, h5, by omega, by omega, by omega⟩
  rw [if_neg h5]
  by_cases h4 : 10000 ≤ n
  · rw [if_pos h4]; exact ⟨5, rfl, h4, by omega, by omega, by omega⟩
  rw [if_neg h4]
  by_cases h3 : 1000 ≤ n
  · rw [if_pos h3]; exact ⟨4, rfl, h3, by omega, by omega, by omega⟩
  rw [if_neg h3]
  by_cases h2 : 100 ≤ n
  · rw [if_pos h2]; exact ⟨3, rfl, h2, by omega, by omega, by omega⟩
  rw [if_neg h2]
  by_cases h1 : 10 ≤ n
  · rw [if_pos h1]; exact ⟨2, rfl, h1, by omega, by omega, by omega⟩
  rw [if_neg h1]
  exact ⟨1, rfl, by omega, by omega, by omega, by omega⟩

/-- the digits of a number of the interval -/
theorem digitGen_eq {cap : Nat} (hcap : 17 ≤ cap) (exp : Int) {sh P M w : Nat} (hsh : 32 ≤ sh) (hsh' : sh ≤ 60)
    (hP : P < 2 ^ 64) (hP1 : 2 ^ sh ≤ P) (hM0 : 0 < M) (hMw : M ≤ w) (hwP : w ≤ P) (hMP : M < P)
    (hPd : P < 10 ^ 16 * (P - M)) :
    ∃ buf, ∃ a b : Nat, digitGen cap exp ⟨M, -sh⟩ ⟨w, -sh⟩ ⟨P, -sh⟩ = .ok (buf, exp + a - b) ∧
      Found P (P - M) (P - w) sh buf a b := by
  have hone : shl 1 (sh : Int) = .ok (2 ^ sh) := by
    have : (2 : Nat) ^ sh ≤ 2 ^ 60 := Nat.pow_le_pow_right (by norm_num) hsh'
    rw [shl_eq (by omega) (by omega), Nat.one_mul]
  have hshr : shr P (sh : Int) = .ok (P / 2 ^ sh) := by
    rw [shr, if_pos (by omega), Int.toNat_natCast, Nat.shiftRight_eq_div_pow]
  have hp1 : P / 2 ^ sh < 2 ^ 32 := by
    rw [Nat.div_lt_iff_lt_mul (by positivity)]
    have : (2 : Nat) ^ 32 ≤ 2 ^ sh := Nat.pow_le_pow_right (by norm_num) hsh
    omega
  have hp0 : 0 < P / 2 ^ sh := Nat.div_pos hP1 (by positivity)
  obtain ⟨k, k1, k2, k3, k4, k5⟩ := findLargestPow10_eq hp0 hp1
  have hdm := Nat.div_add_mod P (2 ^ sh)
  have hp2 : P % 2 ^ sh < 2 ^ sh := Nat.mod_lt _ (by positivity)
  have hkP : 10 ^ (k - 1) * 2 ^ sh ≤ P := by
    calc 10 ^ (k - 1) * 2 ^ sh ≤ P / 2 ^ sh * 2 ^ sh := Nat.mul_le_mul_right _ k2
      _ ≤ P := Nat.div_mul_le_self _ _
  have hu32 : u32 (P / 2 ^ sh) = P / 2 ^ sh := Nat.mod_eq_of_lt hp1
  have hint := @integral_eq cap sh (P % 2 ^ sh) P (P - M) (P - w) k exp (by omega) hcap hP (by omega) (by omega)
    hp2 k5 k (P / 2 ^ sh) [] (by simp) .nil k3 (by
      rw [Nat.mul_comm (P / 2 ^ sh), show decimal [] = 0 from rfl]; omega)
    (by rw [Nat.mul_comm, hdm]; omega) (fun _ => ⟨k2, k4⟩) (fun _ => hkP)
  simp only [digitGen, sub, Int.neg_neg, hone, hshr, hu32, k1, Int.toNat_natCast,
      show (-60 : Int) ≤ -(sh : Int) by omega, show -(sh : Int) ≤ -32 by omega, decide_true, Outcome.assert_true,
      Outcome.bind_ok, Outcome.pure_eq, show M ≤ P by omega, hwP, hp0, and_mask]
  rcases hint with ⟨buf, a, h1, h2⟩ | ⟨buf, h1, h2, h3, h4, h5, h6⟩
  · rw [h1]
    exact ⟨buf, a, 0, by simp, h2⟩
  · rw [h1]
    simp only [Outcome.bind_ok, h6, decide_true, Outcome.assert_true]
    obtain ⟨buf', b, f1, f2⟩ := @fractional_eq cap sh P (P - M) (P - w) k hsh' hcap (by omega) (by omega)
      hkP k4 hPd exp 64 0 (P % 2 ^ sh) buf (by omega) (by simpa using h4) h2 h3 (by simpa using h5) hp2 (by simpa using h6)
    refine ⟨buf', 0, b, ?_, f2⟩
    simpa using f1

end Verif.Json.Grisu
