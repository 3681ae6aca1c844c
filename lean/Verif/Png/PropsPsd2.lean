import Verif.Png.PropsPsd
import Mathlib.Tactic.FieldSimp

/-! # C161, continued: colours that were laid over white -/

namespace Verif.Png

/-- the colour without the white, up to rounding -/
theorem matte_near {fl : ℚ → ℚ} (hfl : Catalyst.IsFloat fl) {a p : UInt8} (h0 : a ≠ 0) :
    |psdColour fl a p - 255 * ((p.toNat : ℚ) + a.toNat - 255) / a.toNat| ≤ 1 / 10 := by
  have ha0 : 1 ≤ a.toNat := by
    rcases Nat.eq_zero_or_pos a.toNat with h | h
    · exact absurd (UInt8.toNat_inj.1 h) h0
    · exact h
  have ha255 : a.toNat ≤ 255 := by have := a.toNat_lt; omega
  have hp255 : p.toNat ≤ 255 := by have := p.toNat_lt; omega
  have A1 : (1 : ℚ) ≤ a.toNat := by exact_mod_cast ha0
  have A2 : (a.toNat : ℚ) ≤ 255 := by exact_mod_cast ha255
  have P2 : (p.toNat : ℚ) ≤ 255 := by exact_mod_cast hp255
  have P1 : (0 : ℚ) ≤ p.toNat := by positivity
  rw [psdColour]
  generalize (a.toNat : ℚ) = A at A1 A2 ⊢
  generalize (p.toNat : ℚ) = P at P1 P2 ⊢
  -- the quotient
  have hx := abs_le.1 (hfl.err (A / 255))
  rw [abs_of_pos (by positivity : (0 : ℚ) < A / 255)] at hx
  generalize fl (A / 255) = fx at hx ⊢
  have hfx0 : 0 < fx := by
    have : 0 < A / 255 := by positivity
    norm_num at hx
    linarith [hx.1]
  have hr := abs_le.1 (hfl.err (1 / fx))
  rw [abs_of_pos (by positivity : (0 : ℚ) < 1 / fx)] at hr
  generalize fl (1 / fx) = r at hr ⊢
  -- R = 255 / A is what r should be
  have hR : ∃ R : ℚ, R * A = 255 ∧ 1 ≤ R ∧ R ≤ 255 ∧ R = 255 / A := by
    refine ⟨255 / A, by field_simp, ?_, ?_, rfl⟩
    · rw [le_div_iff₀ (by linarith)]; linarith
    · rw [div_le_iff₀ (by linarith)]; linarith
  obtain ⟨R, hRA, hR1, hR2, hRe⟩ := hR
  have hi1 : 1 / fx ≤ R * (1 + 2 / 2 ^ 24) := by
    rw [div_le_iff₀ hfx0]
    have h1 : A / 255 * (1 - 1 / 2 ^ 24) ≤ fx := by linarith [hx.1]
    have h2 : R * (A / 255) = 1 := by rw [← mul_div_assoc, hRA]; norm_num
    have h3 : R * (1 + 2 / 2 ^ 24) * (A / 255 * (1 - 1 / 2 ^ 24)) ≤ R * (1 + 2 / 2 ^ 24) * fx := mul_le_mul_of_nonneg_left h1 (by positivity)
    have h4 : R * (1 + 2 / 2 ^ 24) * (A / 255 * (1 - 1 / 2 ^ 24)) = (R * (A / 255)) * ((1 + 2 / 2 ^ 24) * (1 - 1 / 2 ^ 24)) := by ring
    rw [h4, h2] at h3
    norm_num at h3 ⊢
    linarith
  have hi2 : R * (1 - 2 / 2 ^ 24) ≤ 1 / fx := by
    rw [le_div_iff₀ hfx0]
    have h1 : fx ≤ A / 255 * (1 + 1 / 2 ^ 24) := by linarith [hx.2]
    have h2 : R * (A / 255) = 1 := by rw [← mul_div_assoc, hRA]; norm_num
    have h3 : R * (1 - 2 / 2 ^ 24) * fx ≤ R * (1 - 2 / 2 ^ 24) * (A / 255 * (1 + 1 / 2 ^ 24)) :=
      mul_le_mul_of_nonneg_left h1 (mul_nonneg (by linarith) (by norm_num))
    have h4 : R * (1 - 2 / 2 ^ 24) * (A / 255 * (1 + 1 / 2 ^ 24)) = (R * (A / 255)) * ((1 - 2 / 2 ^ 24) * (1 + 1 / 2 ^ 24)) := by ring
    rw [h4, h2] at h3
    norm_num at h3 ⊢
    linarith
  generalize 1 / fx = q at hi1 hi2 hr
  have r1 : r ≤ R + 1 / 10 ^ 4 := by norm_num at hi1 hi2 hr ⊢; linarith [hr.1, hr.2]
  have r2 : R - 1 / 10 ^ 4 ≤ r := by norm_num at hi1 hi2 hr ⊢; linarith [hr.1, hr.2]
  -- the product
  have hu := abs_le.1 (hfl.err (P * r))
  have hPr : 0 ≤ P * r := mul_nonneg P1 (by linarith)
  rw [abs_of_nonneg hPr] at hu
  have hPrR1 : P * r ≤ P * R + P * (1 / 10 ^ 4) := by rw [← mul_add]; exact mul_le_mul_of_nonneg_left r1 P1
  have hPrR2 : P * R - P * (1 / 10 ^ 4) ≤ P * r := by rw [← mul_sub]; exact mul_le_mul_of_nonneg_left r2 P1
  have hPR : P * R ≤ 255 * 255 := mul_le_mul P2 hR2 (by linarith) (by norm_num)
  generalize fl (P * r) = u at hu ⊢
  have ht := abs_le.1 (hfl.err (1 - r))
  have ht' : |1 - r| ≤ 255 := abs_le.2 ⟨by linarith, by linarith⟩
  generalize fl (1 - r) = t at ht ⊢
  have hv := abs_le.1 (hfl.err (255 * t))
  have hv' : |255 * t| ≤ 255 * 256 := by
    norm_num at ht
    exact abs_le.2 ⟨by linarith [ht.1], by linarith [ht.2]⟩
  generalize fl (255 * t) = v at hv ⊢
  have hex : 255 * (P + A - 255) / A = P * R + 255 * (1 - R) := by
    rw [hRe]; field_simp; ring
  rw [hex]
  have hw := abs_le.1 (hfl.err (u + v))
  have hsum1 : u + v - (P * R + 255 * (1 - R)) ≤ 8 / 100 := by
    norm_num at *
    linarith [hu.1, hu.2, hv.1, hv.2, ht.1, ht.2]
  have hsum2 : -(8 / 100) ≤ u + v - (P * R + 255 * (1 - R)) := by
    norm_num at *
    linarith [hu.1, hu.2, hv.1, hv.2, ht.1, ht.2]
  have huv : |u + v| ≤ 2 ^ 17 := by
    have : 0 ≤ P * R := mul_nonneg P1 (by linarith)
    exact abs_le.2 ⟨by norm_num; linarith, by norm_num; linarith⟩
  generalize fl (u + v) = z at hw ⊢
  refine abs_le.2 ⟨?_, ?_⟩
  · norm_num at huv hw ⊢
    linarith [hw.1, hw.2]
  · norm_num at huv hw ⊢
    linarith [hw.1, hw.2]

/-- a colour without the white as a byte -/
def freed (fl : ℚ → ℚ) (a p : UInt8) : UInt8 := if a ≠ 0 ∧ a ≠ 255 then UInt8.ofNat ⌊psdColour fl a p⌋.toNat else p

theorem psdByte_ok {fl : ℚ → ℚ} (hfl : Catalyst.IsFloat fl) {a p : UInt8} (h0 : a ≠ 0) (hs : 255 ≤ p.toNat + a.toNat) :
    psdByte (psdColour fl a p) = .ok (UInt8.ofNat ⌊psdColour fl a p⌋.toNat) ∧
      |((UInt8.ofNat ⌊psdColour fl a p⌋.toNat).toNat : ℚ) - 255 * ((p.toNat : ℚ) + a.toNat - 255) / a.toNat| ≤ 11 / 10 := by
  have hn := abs_le.1 (matte_near hfl (a := a) (p := p) h0)
  have ha0 : 1 ≤ a.toNat := by
    rcases Nat.eq_zero_or_pos a.toNat with h | h
    · exact absurd (UInt8.toNat_inj.1 h) h0
    · exact h
  have hp255 : p.toNat ≤ 255 := by have := p.toNat_lt; omega
  have A1 : (1 : ℚ) ≤ a.toNat := by exact_mod_cast ha0
  have P2 : (p.toNat : ℚ) ≤ 255 := by exact_mod_cast hp255
  have S : (255 : ℚ) ≤ p.toNat + a.toNat := by exact_mod_cast hs
  have e1 : 0 ≤ 255 * ((p.toNat : ℚ) + a.toNat - 255) / a.toNat := div_nonneg (by linarith) (by linarith)
  have e2 : 255 * ((p.toNat : ℚ) + a.toNat - 255) / a.toNat ≤ 255 := by
    rw [div_le_iff₀ (by linarith)]; linarith
  generalize 255 * ((p.toNat : ℚ) + a.toNat - 255) / a.toNat = x at hn e1 e2 ⊢
  generalize psdColour fl a p = z at hn ⊢
  refine ⟨by rw [psdByte, if_pos ⟨by linarith [hn.1], by linarith [hn.2]⟩], ?_⟩
  have f1 := Int.floor_le z
  have f2 := Int.lt_floor_add_one z
  have f3 : ⌊z⌋ < 256 := by
    rw [Int.floor_lt]
    push_cast
    linarith [hn.2]
  rw [UInt8.toNat_ofNat_of_lt' (by rw [UInt8.size]; omega)]
  by_cases hneg : 0 ≤ ⌊z⌋
  · have : ((⌊z⌋.toNat : ℕ) : ℚ) = (⌊z⌋ : ℚ) := by
      have : ((⌊z⌋.toNat : ℕ) : ℤ) = ⌊z⌋ := Int.toNat_of_nonneg hneg
      exact_mod_cast this
    rw [this]
    exact abs_le.2 ⟨by linarith [hn.1, hn.2], by linarith [hn.1, hn.2]⟩
  · have h1 : ⌊z⌋.toNat = 0 := by omega
    have h2 : z < 0 := by
      have : ⌊z⌋ < 0 := by omega
      rw [Int.floor_lt] at this
      exact_mod_cast this
    rw [h1]
    push_cast
    exact abs_le.2 ⟨by linarith [hn.1, hn.2], by linarith [hn.1, hn.2]⟩

theorem mattePixel_ok {fl : ℚ → ℚ} (hfl : Catalyst.IsFloat fl) {N i : Nat} {m : Buf} {val : Nat → UInt8} (hm : m.size = 4 * N) (hi : i < N)
    (hv : ∀ c < 4, m.at_ (4 * i + c) = some (val c)) (hs : val 3 = 0 ∨ ∀ c < 3, 255 ≤ (val c).toNat + (val 3).toNat) :
    ∃ m', psdMatte fl i m = .ok m' ∧ m'.size = m.size ∧ (∀ c < 3, m'.at_ (4 * i + c) = some (freed fl (val 3) (val c))) ∧
      ∀ j, (∀ c < 3, j ≠ 4 * i + c) → m'.at_ j = m.at_ j := by
  rw [psdMatte, show load m (4 * i + 3) = .ok (val 3) by rw [load, if_pos (by omega), hv 3 (by omega)], Outcome.bind_ok]
  by_cases ha : val 3 ≠ 0 ∧ val 3 ≠ 255
  · rw [if_pos ha]
    have hs' : ∀ c < 3, 255 ≤ (val c).toNat + (val 3).toNat := by
      rcases hs with h | h
      · exact absurd h ha.1
      · exact h
    have := loop_inv (n := 3) (s := m)
      (f := fun c m => load m (4 * i + c) >>= fun p => psdByte (psdColour fl (val 3) p) >>= fun v => store m (4 * i + c) v)
      (P := fun (t : Nat) (m' : Buf) => m'.size = m.size ∧ (∀ c < t, m'.at_ (4 * i + c) = some (freed fl (val 3) (val c))) ∧
        ∀ j, (∀ c < t, j ≠ 4 * i + c) → m'.at_ j = m.at_ j) ⟨rfl, fun c hc => absurd hc (by omega), fun _ _ => rfl⟩ ?_
    · obtain ⟨m', h0, h1, h2, h3⟩ := this
      exact ⟨m', h0, h1, h2, h3⟩
    rintro t ht m1 ⟨h1, h2, h3⟩
    rw [show load m1 (4 * i + t) = .ok (val t) by rw [load, if_pos (by omega), h3 _ (fun c hc => by omega), hv t (by omega)], Outcome.bind_ok,
      (psdByte_ok hfl ha.1 (hs' t ht)).1, Outcome.bind_ok]
    obtain ⟨m2, a1, a2, a3, a4⟩ := store_ok (m := m1) (i := 4 * i + t) (UInt8.ofNat ⌊psdColour fl (val 3) (val t)⌋.toNat) (by omega)
    refine ⟨m2, a1, by omega, fun c hc => ?_, fun j hj => ?_⟩
    · by_cases hct : c = t
      · rw [hct, a3, freed, if_pos ha]
      · rw [a4 _ (by omega), h2 c (by omega)]
    · rw [a4 _ (hj t (by omega)), h3 j (fun c hc => hj c (by omega))]
  · rw [if_neg ha]
    refine ⟨m, rfl, rfl, fun c hc => ?_, fun _ _ => rfl⟩
    rw [freed, if_neg ha, hv c (by omega)]

theorem matte_ok {fl : ℚ → ℚ} (hfl : Catalyst.IsFloat fl) {N : Nat} {m : Buf} {val : Nat → Nat → UInt8} (hm : m.size = 4 * N)
    (hv : ∀ c < 4, ∀ i < N, m.at_ (4 * i + c) = some (val c i)) (hs : ∀ i < N, val 3 i = 0 ∨ ∀ c < 3, 255 ≤ (val c i).toNat + (val 3 i).toNat) :
    ∃ m', loop N (psdMatte fl) m = .ok m' ∧ m'.size = 4 * N ∧
      ∀ i < N, m'.at_ (4 * i + 3) = some (val 3 i) ∧ ∀ c < 3, m'.at_ (4 * i + c) = some (freed fl (val 3 i) (val c i)) := by
  have := loop_inv (f := psdMatte fl) (n := N) (s := m)
    (P := fun (t : Nat) (m' : Buf) => m'.size = 4 * N ∧ (∀ i < N, m'.at_ (4 * i + 3) = some (val 3 i)) ∧
      (∀ i < t, ∀ c < 3, m'.at_ (4 * i + c) = some (freed fl (val 3 i) (val c i))) ∧ ∀ i, t ≤ i → i < N → ∀ c < 3, m'.at_ (4 * i + c) = some (val c i))
    ⟨hm, hv 3 (by omega), fun i hi => absurd hi (by omega), fun i _ hi c hc => hv c (by omega) i hi⟩ ?_
  · obtain ⟨m', h0, h1, h2, h3, _⟩ := this
    exact ⟨m', h0, h1, fun i hi => ⟨h2 i hi, h3 i hi⟩⟩
  rintro t ht m1 ⟨h1, h2, h3, h4⟩
  obtain ⟨m2, a1, a2, a3, a4⟩ := mattePixel_ok hfl (val := fun c => val c t) h1 ht (fun c hc => by
    by_cases h : c = 3
    · rw [h]; exact h2 t ht
    · exact h4 t (by omega) ht c (by omega)) (hs t ht)
  refine ⟨m2, a1, by omega, fun i hi => ?_, fun i hi c hc => ?_, fun i hi hi' c hc => ?_⟩
  · rw [a4 _ (fun c hc => by omega), h2 i hi]
  · by_cases hit : i = t
    · rw [hit]; exact a3 c hc
    · rw [a4 _ (fun c hc => by omega), h3 i (by omega) c hc]
  · rw [a4 _ (fun c hc => by omega), h4 i (by omega) hi' c hc]

/-- **C161** (what holds) Colours that were laid over white are freed of it: in a file with alpha that is not packed, if no colour of a pixel is darker than it can be over white, alpha is what
the file says, the colours of opaque and clear pixels are too, and others are `255 (p + a - 255) / a` up to one step and what rounding makes, of every pixel of a picture of any size. -/
theorem C161_matte (fl : ℚ → ℚ) (hfl : Catalyst.IsFloat fl) (room cc w h depth k : Nat) (file : List UInt8) (hf : IsPsd file cc w h depth k) (hp : num16 file k = 0)
    (hw0 : 0 < w) (hh0 : 0 < h) (hsize : 4 * w * h < 2 ^ 31) (hroom : 4 * w * h ≤ room) (hcc : 4 ≤ cc) (samp : Nat → Nat → UInt8)
    (hsamp : ∀ c i, samp c i = file.getD (k + 2 + (c * (w * h) + i) * (depth / 8)) 0)
    (hs : ∀ i < w * h, samp 3 i = 0 ∨ ∀ c < 3, 255 ≤ (samp c i).toNat + (samp 3 i).toNat) :
    ∃ i, loadPsd fl room file = .ok i ∧ i.x = w ∧ i.y = h ∧ i.n = 4 ∧ i.out.size = w * h * 4 ∧
      ∀ Y < h, ∀ X < w, load i.out ((Y * w + X) * 4 + 3) = .ok (samp 3 (Y * w + X)) ∧
        ∀ c < 3, ∃ v, load i.out ((Y * w + X) * 4 + c) = .ok v ∧
          (samp 3 (Y * w + X) = 0 ∨ samp 3 (Y * w + X) = 255 → v = samp c (Y * w + X)) ∧
          (samp 3 (Y * w + X) ≠ 0 → |(v.toNat : ℚ) - 255 * (((samp c (Y * w + X)).toNat : ℚ) + (samp 3 (Y * w + X)).toNat - 255) / (samp 3 (Y * w + X)).toNat| ≤ 11 / 10) := by
  obtain ⟨s, hs0, hl⟩ := psd_of hf
  rw [hl, hp]
  have e1 : 4 * w ≤ 4 * w * h := Nat.le_mul_of_pos_right _ hh0
  have e2 : h ≤ w * h := Nat.le_mul_of_pos_left _ hw0
  have e3 : 4 * w * h = 4 * (w * h) := Nat.mul_assoc _ _ _
  rw [psdRest, if_neg (by omega)]
  simp only
  rw [if_neg (by omega), if_neg (by omega), if_neg (by omega)]
  obtain ⟨q, a1, a2, a3⟩ := channels_ok (ks := fun ch => k + 2 + min ch cc * (w * h) * (depth / 8)) (s := if (0 : Nat) = 1 then skip s (h * cc * 2) else s)
    (raw_channel (file := file) (cc := cc) (N := w * h) (D := k + 2) hf.depths) (by rw [if_neg (by decide), hs0]; simp)
  have a3' : ∀ c < 4, ∀ i < w * h, q.1.at_ (4 * i + c) = some (samp c i) := fun c hc i hi => by
    rw [a3 c hc i hi, psdSample, if_pos (by omega), hsamp]
  rw [e3, a1, Outcome.bind_ok, if_pos hcc]
  obtain ⟨m', b1, b2, b3⟩ := matte_ok hfl a2 a3' hs
  rw [b1, Outcome.bind_ok]
  refine ⟨_, rfl, rfl, rfl, rfl, by simp only; rw [b2]; ring, fun Y hY X hX => ?_⟩
  simp only
  have hlt : Y * w + X < w * h := by
    have : (Y + 1) * w ≤ h * w := Nat.mul_le_mul_right _ hY
    rw [Nat.add_mul, Nat.one_mul, Nat.mul_comm h] at this
    omega
  generalize Y * w + X = j at hlt ⊢
  obtain ⟨c1, c2⟩ := b3 j hlt
  have hld : ∀ c < 4, ∀ v, m'.at_ (4 * j + c) = some v → load m' (j * 4 + c) = .ok v := fun c hc v hv => by
    rw [Nat.mul_comm j, load, if_pos (by omega), hv]
  refine ⟨hld 3 (by omega) _ c1, fun c hc => ⟨_, hld c (by omega) _ (c2 c hc), fun h => ?_, fun h0 => ?_⟩⟩
  · rw [freed, if_neg]
    rintro ⟨h1, h2⟩
    rcases h with h | h
    · exact h1 h
    · exact h2 h
  · have hsc : 255 ≤ (samp c j).toNat + (samp 3 j).toNat := by
      rcases hs j hlt with h | h
      · exact absurd h h0
      · exact h c hc
    by_cases h255 : samp 3 j = 255
    · rw [freed, if_neg (fun h => h.2 h255), h255]
      rw [show ((255 : UInt8).toNat : ℚ) = 255 by rfl]
      rw [show 255 * (((samp c j).toNat : ℚ) + 255 - 255) / 255 = (samp c j).toNat by ring, sub_self, abs_zero]
      norm_num
    · rw [freed, if_pos ⟨h0, h255⟩]
      exact (psdByte_ok hfl h0 hsc).2

/-- one pixel of alpha 51 and the colours 204, 255 and 230 -/
def halfPsd : List UInt8 := [56, 66, 80, 83, 0, 1, 0, 0, 0, 0, 0, 0, 0, 4, 0, 0, 0, 1, 0, 0, 0, 1, 0, 8, 0, 3, 0, 0, 0, 0, 0, 0, 0, 0, 0, 0, 0, 0, 0, 0, 204, 255, 230, 51]

example (fl : ℚ → ℚ) (hfl : Catalyst.IsFloat fl) : ∃ i v, loadPsd fl 100 halfPsd = .ok i ∧ load i.out 3 = .ok 51 ∧ load i.out 2 = .ok v ∧ |(v.toNat : ℚ) - 130| ≤ 11 / 10 := by
  obtain ⟨i, a1, _, _, _, _, a6⟩ := C161_matte fl hfl 100 4 1 1 8 38 halfPsd
    ⟨by decide, by decide, by decide, by decide, by decide, by decide, by decide, by decide, by decide, 30, 34, by decide⟩ (by decide) (by decide) (by decide) (by decide)
    (by decide) (by decide) _ (fun _ _ => rfl) (by decide)
  obtain ⟨b1, b2⟩ := a6 0 (by decide) 0 (by decide)
  obtain ⟨v, c1, _, c3⟩ := b2 2 (by decide)
  refine ⟨i, v, a1, b1, c1, ?_⟩
  have h1 : ((halfPsd.getD (38 + 2 + (2 * (1 * 1) + (0 * 1 + 0)) * (8 / 8)) 0).toNat : ℚ) = 230 := rfl
  have h2 : ((halfPsd.getD (38 + 2 + (3 * (1 * 1) + (0 * 1 + 0)) * (8 / 8)) 0).toNat : ℚ) = 51 := rfl
  have := c3 (by decide)
  rw [h1, h2] at this
  norm_num at this ⊢
  exact this

end Verif.Png
