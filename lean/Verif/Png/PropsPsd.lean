import Verif.Png.Psd
import Verif.Catalyst.PropsUtils
import Mathlib.Tactic.NormNum
import Mathlib.Tactic.Linarith

/-! # C161: PSD pictures -/

namespace Verif.Png

/-- a PSD file of three colours: how many channels there are, the size, the bits of a sample, and the place `k` behind three blocks of any length, where the file says whether the samples
are packed -/
structure IsPsd (file : List UInt8) (cc w h depth k : Nat) : Prop where
  id : num32 file 0 = 0x38425053
  version : num16 file 4 = 1
  chans : num16 file 12 = cc
  few : cc ≤ 16
  height : num32 file 14 = h
  width : num32 file 18 = w
  bits : num16 file 22 = depth
  depths : depth = 8 ∨ depth = 16
  mode : num16 file 24 = 3
  blocks : ∃ b c, b = 30 + num32 file 26 ∧ c = b + 4 + num32 file b ∧ k = c + 4 + num32 file c ∧
    num32 file 26 < 2 ^ 31 ∧ num32 file b < 2 ^ 31 ∧ num32 file c < 2 ^ 31

/-- the end of the reading -/
def psdRest (fl : ℚ → ℚ) (room : Nat) (t : Psd) (compression : Nat) (s : Src) : Outcome Image :=
  if 1 < compression then .throws "bad compression"
  else if 2 ^ 31 ≤ t.w ∨ 2 ^ 31 ≤ t.h ∨ 2 ^ 31 ≤ 4 * t.w ∨ 2 ^ 31 ≤ 4 * t.w * t.h then .throws "too large"
  else if room < 4 * t.w * t.h then .throws "outofmem"
  else if compression = 1 ∧ 2 ^ 31 ≤ t.h * t.cc * 2 then .ub
  else
    loop 4 (fun ch q => psdChannel (compression == 1) t.cc t.depth (t.w * t.h) ch q.1 q.2)
      (fresh (4 * t.w * t.h), if compression = 1 then skip s (t.h * t.cc * 2) else s) >>= fun q =>
      (if 4 ≤ t.cc then loop (t.w * t.h) (psdMatte fl) q.1 else .ok q.1) >>= fun m => .ok ⟨t.w, t.h, 4, 8, m⟩

theorem skip_to {file : List UInt8} {s : Src} {n k j : Nat} (hs : s.all = file.drop k) (hn : n < 2 ^ 31) (hj : j = k + n) : (skip s n).all = file.drop j := by
  rw [skip_drop hn, hs, List.drop_drop, hj]

theorem psd_of {file : List UInt8} {cc w h depth k : Nat} (hf : IsPsd file cc w h depth k) :
    ∃ s, s.all = file.drop (k + 2) ∧ ∀ fl room, loadPsd fl room file = psdRest fl room ⟨cc, h, w, depth⟩ (num16 file k) s := by
  have h0 : (start file).all = file.drop 0 := by rw [start_all]; rfl
  have a1 := get32_drop h0
  have a2 := get16_drop a1.2
  have a3 : (skip (get16 (get32 (start file)).2).2 6).all = file.drop 12 := by
    rw [skip_drop (by decide), a2.2, List.drop_drop]
  have a4 := get16_drop a3
  have a5 := get32_drop a4.2
  have a6 := get32_drop a5.2
  have a7 := get16_drop a6.2
  have a8 := get16_drop a7.2
  obtain ⟨b, c, hb, hc, hk, l1, l2, l3⟩ := hf.blocks
  have c1 := get32_drop a8.2
  have c2 := skip_to c1.2 l1 hb
  have d1 := get32_drop c2
  have d2 := skip_to d1.2 l2 hc
  have e1 := get32_drop d2
  have e2 := skip_to e1.2 l3 hk
  have f1 := get16_drop e2
  refine ⟨_, f1.2, fun fl room => ?_⟩
  have hfew := hf.few
  simp only [loadPsd, psdLoad]
  rw [a1.1, if_neg (by rw [hf.id]; decide), a2.1, if_neg (by rw [hf.version]; decide), a4.1, hf.chans, if_neg (by omega), a7.1, hf.bits,
    if_neg (by rcases hf.depths with h | h <;> omega), a8.1, if_neg (by rw [hf.mode]; decide), a5.1, a6.1, hf.height, hf.width]
  simp only [psdBody, psdRest]
  rw [c1.1, d1.1, e1.1, f1.1]

/-- the channels, one after the other -/
theorem channels_ok {file : List UInt8} {packed : Bool} {cc depth N : Nat} {ks : Nat → Nat} {val : Nat → Nat → UInt8} {s : Src}
    (hch : ∀ ch < 4, ∀ m s, m.size = 4 * N → s.all = file.drop (ks ch) →
      ∃ m' s', psdChannel packed cc depth N ch m s = .ok (m', s') ∧ Put ch 0 N (val ch) m m' ∧ s'.all = file.drop (ks (ch + 1)))
    (hs : s.all = file.drop (ks 0)) :
    ∃ q, loop 4 (fun ch (q : Buf × Src) => psdChannel packed cc depth N ch q.1 q.2) (fresh (4 * N), s) = .ok q ∧ q.1.size = 4 * N ∧
      ∀ c < 4, ∀ i < N, q.1.at_ (4 * i + c) = some (val c i) := by
  have := loop_inv (f := fun ch (q : Buf × Src) => psdChannel packed cc depth N ch q.1 q.2) (n := 4) (s := (fresh (4 * N), s))
    (P := fun (t : Nat) (q : Buf × Src) => t ≤ 4 ∧ q.1.size = 4 * N ∧ q.2.all = file.drop (ks t) ∧ ∀ c < t, ∀ i < N, q.1.at_ (4 * i + c) = some (val c i))
    ⟨by omega, rfl, hs, fun c hc => absurd hc (by omega)⟩ ?_
  · obtain ⟨q, h0, _, h1, _, h2⟩ := this
    exact ⟨q, h0, h1, h2⟩
  rintro t ht ⟨m, s1⟩ ⟨_, h1, h2, h3⟩
  simp only at h1 h2 h3
  obtain ⟨m', s', a1, a2, a3⟩ := hch t ht m s1 h1 h2
  refine ⟨(m', s'), a1, by omega, by simp only; rw [a2.size, h1], a3, fun c hc i hi => ?_⟩
  simp only
  by_cases hct : c = t
  · subst hct
    exact a2.here i (by omega) hi
  · rw [a2.else_ _ (fun j _ _ => by omega)]
    exact h3 c (by omega) i hi

theorem matte_none {fl : ℚ → ℚ} {N : Nat} {m : Buf} {alpha : Nat → UInt8} (hm : m.size = 4 * N) (ha : ∀ i < N, m.at_ (4 * i + 3) = some (alpha i))
    (hv : ∀ i < N, alpha i = 0 ∨ alpha i = 255) : loop N (psdMatte fl) m = .ok m := by
  obtain ⟨m', h0, h1⟩ := loop_inv (f := psdMatte fl) (n := N) (s := m) (P := fun (_ : Nat) (m' : Buf) => m' = m) rfl (by
    rintro i hi m' rfl
    refine ⟨m', ?_, rfl⟩
    rw [psdMatte, show load m' (4 * i + 3) = .ok (alpha i) by rw [load, if_pos (by omega), ha i hi], Outcome.bind_ok, if_neg]
    rintro ⟨h1, h2⟩
    rcases hv i hi with h | h
    · exact h1 h
    · exact h2 h)
  rw [h0, h1]

/-- reading ends with the samples of the channels -/
theorem psd_core {fl : ℚ → ℚ} {room cc w h depth compression : Nat} {file : List UInt8} {ks : Nat → Nat} {val : Nat → Nat → UInt8} {s : Src}
    (hc : compression ≤ 1) (hw0 : 0 < w) (hh0 : 0 < h) (hsize : 4 * w * h < 2 ^ 31) (hroom : 4 * w * h ≤ room) (hcomp : compression = 1 → h * cc * 2 < 2 ^ 31)
    (hch : ∀ ch < 4, ∀ m s, m.size = 4 * (w * h) → s.all = file.drop (ks ch) →
      ∃ m' s', psdChannel (compression == 1) cc depth (w * h) ch m s = .ok (m', s') ∧ Put ch 0 (w * h) (val ch) m m' ∧ s'.all = file.drop (ks (ch + 1)))
    (hs : (if compression = 1 then skip s (h * cc * 2) else s).all = file.drop (ks 0)) (hop : cc < 4 ∨ ∀ i < w * h, val 3 i = 0 ∨ val 3 i = 255) :
    ∃ i, psdRest fl room ⟨cc, h, w, depth⟩ compression s = .ok i ∧ i.x = w ∧ i.y = h ∧ i.n = 4 ∧ i.out.size = w * h * 4 ∧
      ∀ Y < h, ∀ X < w, ∀ c < 4, load i.out ((Y * w + X) * 4 + c) = .ok (val c (Y * w + X)) := by
  have e1 : 4 * w ≤ 4 * w * h := Nat.le_mul_of_pos_right _ hh0
  have e2 : h ≤ w * h := Nat.le_mul_of_pos_left _ hw0
  have e3 : 4 * w * h = 4 * (w * h) := Nat.mul_assoc _ _ _
  rw [psdRest, if_neg (by omega)]
  simp only
  rw [if_neg (by omega), if_neg (by omega), if_neg (by
    rintro ⟨h1, h2⟩
    have := hcomp h1
    omega)]
  obtain ⟨q, a1, a2, a3⟩ := channels_ok hch hs
  rw [e3, a1, Outcome.bind_ok]
  have hm : (if 4 ≤ cc then loop (w * h) (psdMatte fl) q.1 else .ok q.1) = .ok q.1 := by
    by_cases h4 : 4 ≤ cc
    · rw [if_pos h4]
      exact matte_none a2 (a3 3 (by omega)) (by
        rcases hop with h | h
        · omega
        · exact h)
    · rw [if_neg h4]
  rw [hm, Outcome.bind_ok]
  refine ⟨_, rfl, rfl, rfl, rfl, by simp only; rw [a2]; ring, fun Y hY X hX c hc => ?_⟩
  simp only
  have hlt : Y * w + X < w * h := by
    have : (Y + 1) * w ≤ h * w := Nat.mul_le_mul_right _ hY
    rw [Nat.add_mul, Nat.one_mul, Nat.mul_comm h] at this
    omega
  rw [show (Y * w + X) * 4 + c = 4 * (Y * w + X) + c by ring, load, if_pos (by omega), a3 c hc _ hlt]

theorem psdFill_ok {ch total : Nat} {m : Buf} (hch : ch < 4) (hm : m.size = 4 * total) :
    ∃ m', psdFill ch total m = .ok m' ∧ Put ch 0 total (fun _ => if ch = 3 then 255 else 0) m m' := by
  obtain ⟨m', h1, h2⟩ := psdRun_ok (count := 0) (len := total) (v := if ch = 3 then 255 else 0) hch hm (by omega)
  rw [Nat.zero_add] at h2
  exact ⟨m', h1, h2⟩

/-- a sample of a file that is not packed -/
def psdSample (file : List UInt8) (cc depth D N c i : Nat) : UInt8 :=
  if c < cc then file.getD (D + (c * N + i) * (depth / 8)) 0 else if c = 3 then 255 else 0

theorem raw_channel {file : List UInt8} {cc depth N D : Nat} (hd : depth = 8 ∨ depth = 16) : ∀ ch < 4, ∀ m s, m.size = 4 * N →
    s.all = file.drop (D + min ch cc * N * (depth / 8)) →
      ∃ m' s', psdChannel (0 == 1) cc depth N ch m s = .ok (m', s') ∧ Put ch 0 N (psdSample file cc depth D N ch) m m' ∧
        s'.all = file.drop (D + min (ch + 1) cc * N * (depth / 8)) := by
  intro ch hch m s hm hs
  rw [psdChannel]
  by_cases h1 : cc ≤ ch
  · rw [if_pos h1]
    obtain ⟨m', a1, a2⟩ := psdFill_ok hch hm
    rw [a1, Outcome.bind_ok]
    refine ⟨m', s, rfl, a2.congr fun i _ _ => ?_, ?_⟩
    · rw [psdSample, if_neg (show ¬ ch < cc by omega)]
    · rw [hs, show min ch cc = min (ch + 1) cc by omega]
  · rw [if_neg h1, if_neg (by decide)]
    rw [show min ch cc = ch by omega] at hs
    rw [show min (ch + 1) cc = ch + 1 by omega]
    rcases hd with rfl | rfl
    · rw [if_neg (by decide)]
      obtain ⟨m', s', a1, a2, a3⟩ := psdCopy_ok (count := 0) (len := N) hs hch hm (by omega)
      rw [Nat.zero_add] at a2
      refine ⟨m', s', a1, a2.congr fun i _ _ => ?_, ?_⟩
      · rw [psdSample, if_pos (by omega), byteAt]
        congr 1
        simp only [Nat.sub_zero, Nat.reduceDiv, Nat.mul_one]
        omega
      · rw [a3]
        congr 1
        simp only [Nat.reduceDiv, Nat.mul_one, Nat.add_mul, Nat.one_mul]
        omega
    · rw [if_pos rfl]
      obtain ⟨m', s', a1, a2, a3⟩ := psdHigh_ok hs hch hm
      refine ⟨m', s', a1, a2.congr fun i _ _ => ?_, ?_⟩
      · rw [psdSample, if_pos (by omega), byteAt]
        congr 1
        simp only [Nat.reduceDiv]
        ring
      · rw [a3]
        congr 1
        simp only [Nat.reduceDiv]
        ring

/-- **C161** (what holds) A PSD file that is not packed is read, with 8 or 16 bits for each sample and any blocks in front of them, unless a pixel is neither opaque nor clear: there are
four channels, one after the other in the file; of 16 bits the higher 8 are taken, and what the file does not have is 0, and 255 for alpha. -/
theorem C161_raw (fl : ℚ → ℚ) (room cc w h depth k : Nat) (file : List UInt8) (hf : IsPsd file cc w h depth k) (hp : num16 file k = 0) (hw0 : 0 < w) (hh0 : 0 < h)
    (hsize : 4 * w * h < 2 ^ 31) (hroom : 4 * w * h ≤ room)
    (hop : cc < 4 ∨ ∀ i < w * h, psdSample file cc depth (k + 2) (w * h) 3 i = 0 ∨ psdSample file cc depth (k + 2) (w * h) 3 i = 255) :
    ∃ i, loadPsd fl room file = .ok i ∧ i.x = w ∧ i.y = h ∧ i.n = 4 ∧ i.out.size = w * h * 4 ∧
      ∀ Y < h, ∀ X < w, ∀ c < 4, load i.out ((Y * w + X) * 4 + c) =
        .ok (if c < cc then file.getD (k + 2 + (c * (w * h) + (Y * w + X)) * (depth / 8)) 0 else if c = 3 then 255 else 0) := by
  obtain ⟨s, hs, hl⟩ := psd_of hf
  rw [hl, hp]
  exact psd_core (ks := fun ch => k + 2 + min ch cc * (w * h) * (depth / 8)) (val := psdSample file cc depth (k + 2) (w * h)) (by omega) hw0 hh0 hsize hroom
    (fun h => by omega) (raw_channel hf.depths) (by rw [if_neg (by decide), hs]; simp) hop

/-- one row of two pixels, three channels of 8 bits, and a block of one byte -/
def rowPsd : List UInt8 := [56, 66, 80, 83, 0, 1, 0, 0, 0, 0, 0, 0, 0, 3, 0, 0, 0, 1, 0, 0, 0, 2, 0, 8, 0, 3, 0, 0, 0, 1, 99, 0, 0, 0, 0, 0, 0, 0, 0, 0, 0, 1, 2, 3, 4, 5, 6]

theorem rowPsd_is : IsPsd rowPsd 3 2 1 8 39 :=
  ⟨by decide, by decide, by decide, by decide, by decide, by decide, by decide, by decide, by decide, 31, 35, by decide⟩

example : ∃ i, loadPsd id 100 rowPsd = .ok i ∧ i.x = 2 ∧ i.y = 1 ∧ load i.out 0 = .ok 1 ∧ load i.out 1 = .ok 3 ∧ load i.out 3 = .ok 255 ∧ load i.out 4 = .ok 2 := by
  obtain ⟨i, a1, a2, a3, _, _, a6⟩ := C161_raw id 100 3 2 1 8 39 rowPsd rowPsd_is (by decide) (by decide) (by decide) (by decide) (by decide) (.inl (by decide))
  exact ⟨i, a1, a2, a3, a6 0 (by decide) 0 (by decide) 0 (by decide), a6 0 (by decide) 0 (by decide) 1 (by decide), a6 0 (by decide) 0 (by decide) 3 (by decide),
    a6 0 (by decide) 1 (by decide) 0 (by decide)⟩

/-- **C161** (what holds) A PSD file that is packed is read, unless a pixel is neither opaque nor clear: each of up to four channels is what the packed bytes stand for, in whatever way
they are packed. -/
theorem C161_packed (fl : ℚ → ℚ) (room cc w h depth k : Nat) (file : List UInt8) (ks : Nat → Nat) (ls : Nat → List UInt8) (hf : IsPsd file cc w h depth k)
    (hp : num16 file k = 1) (hw0 : 0 < w) (hh0 : 0 < h) (hsize : 4 * w * h < 2 ^ 31) (hroom : 4 * w * h ≤ room) (hrows : h * cc * 2 < 2 ^ 31)
    (hk : ks 0 = k + 2 + h * cc * 2) (hl : ∀ c < 4, c < cc → (ls c).length = w * h ∧ PackBits file (ks c) (ls c) (ks (c + 1)))
    (hop : cc < 4 ∨ ∀ v ∈ ls 3, v = 0 ∨ v = 255) :
    ∃ i, loadPsd fl room file = .ok i ∧ i.x = w ∧ i.y = h ∧ i.n = 4 ∧ i.out.size = w * h * 4 ∧
      ∀ Y < h, ∀ X < w, ∀ c < 4, load i.out ((Y * w + X) * 4 + c) = .ok (if c < cc then (ls c).getD (Y * w + X) 0 else if c = 3 then 255 else 0) := by
  obtain ⟨s, hs, hload⟩ := psd_of hf
  rw [hload, hp]
  refine psd_core (file := file) (ks := fun ch => ks (min ch cc)) (val := fun c i => if c < cc then (ls c).getD i 0 else if c = 3 then 255 else 0) (by omega) hw0 hh0 hsize hroom
    (fun _ => hrows) ?_ ?_ ?_
  · intro ch hch m s hm hs
    rw [psdChannel]
    by_cases h1 : cc ≤ ch
    · rw [if_pos h1]
      obtain ⟨m', a1, a2⟩ := psdFill_ok hch hm
      rw [a1, Outcome.bind_ok]
      refine ⟨m', s, rfl, a2.congr fun i _ _ => ?_, ?_⟩
      · rw [if_neg (show ¬ ch < cc by omega)]
      · rw [hs, show min ch cc = min (ch + 1) cc by omega]
    · rw [if_neg h1, if_pos (by decide)]
      rw [show min ch cc = ch by omega] at hs
      rw [show min (ch + 1) cc = ch + 1 by omega]
      obtain ⟨g1, g2⟩ := hl ch hch (by omega)
      obtain ⟨m', s', a1, a2, a3⟩ := psdRle_ok (total := w * h) hch g2 (f := s.buf.length + s.rest.length + w * h + 1) (count := 0) hs hm (by omega) (by
        rw [Src.all, List.length_append]; omega)
      rw [a1, Outcome.bind_ok]
      refine ⟨m', s', rfl, a2.congr fun i _ _ => ?_, a3⟩
      rw [if_pos (by omega), Nat.sub_zero]
  · rw [if_pos rfl, skip_drop hrows, hs, List.drop_drop]
    simp only [Nat.zero_min]
    rw [hk]
  · rcases hop with h | h
    · exact .inl h
    · by_cases h4 : cc < 4
      · exact .inl h4
      · refine .inr fun i hi => ?_
        simp only
        rw [if_pos (by omega)]
        obtain ⟨g1, _⟩ := hl 3 (by omega) (by omega)
        rw [List.getD_eq_getElem?_getD, List.getElem?_eq_getElem (by omega)]
        exact h _ (List.getElem_mem _)

/-- one row of three pixels and one channel, packed: nothing, 7 twice, 9 -/
def packPsd : List UInt8 :=
  [56, 66, 80, 83, 0, 1, 0, 0, 0, 0, 0, 0, 0, 1, 0, 0, 0, 1, 0, 0, 0, 3, 0, 8, 0, 3, 0, 0, 0, 0, 0, 0, 0, 0, 0, 0, 0, 0, 0, 1, 0, 5, 128, 255, 7, 0, 9]

theorem packPsd_is : IsPsd packPsd 1 3 1 8 38 :=
  ⟨by decide, by decide, by decide, by decide, by decide, by decide, by decide, by decide, by decide, 30, 34, by decide⟩

example : ∃ i, loadPsd id 100 packPsd = .ok i ∧ i.x = 3 ∧ i.y = 1 ∧ load i.out 0 = .ok 7 ∧ load i.out 4 = .ok 7 ∧ load i.out 8 = .ok 9 ∧ load i.out 9 = .ok 0 := by
  have hp : PackBits packPsd 42 [7, 7, 9] 47 :=
    .noop 42 _ _ (by decide) (by decide) (.run 43 1 [9] 47 (by decide) (by decide) (by decide) (.copy 45 0 [] 47 (by decide) (by decide) (.nil _)))
  obtain ⟨i, a1, a2, a3, _, _, a6⟩ := C161_packed id 100 1 3 1 8 38 packPsd (fun c => if c = 0 then 42 else 47) (fun _ => [7, 7, 9]) packPsd_is (by decide) (by decide)
    (by decide) (by decide) (by decide) (by decide) (by decide) (by
      intro c _ hc
      have : c = 0 := by omega
      subst this
      exact ⟨rfl, hp⟩) (.inl (by decide))
  exact ⟨i, a1, a2, a3, a6 0 (by decide) 0 (by decide) 0 (by decide), a6 0 (by decide) 1 (by decide) 0 (by decide), a6 0 (by decide) 2 (by decide) 0 (by decide),
    a6 0 (by decide) 2 (by decide) 1 (by decide)⟩

/-- the colour below white -/
theorem matte_low {fl : ℚ → ℚ} (hfl : Catalyst.IsFloat fl) {a p : UInt8} (h0 : a ≠ 0) (ha : a.toNat ≤ 100) (hp : p.toNat ≤ 100) : psdColour fl a p ≤ -1 := by
  have ha0 : 1 ≤ a.toNat := by
    rcases Nat.eq_zero_or_pos a.toNat with h | h
    · exact absurd (UInt8.toNat_inj.1 h) h0
    · exact h
  have A1 : (1 : ℚ) ≤ a.toNat := by exact_mod_cast ha0
  have A2 : (a.toNat : ℚ) ≤ 100 := by exact_mod_cast ha
  have P2 : (p.toNat : ℚ) ≤ 100 := by exact_mod_cast hp
  have P1 : (0 : ℚ) ≤ p.toNat := by positivity
  have up : ∀ x : ℚ, 0 ≤ x → fl x ≤ x * (1 + 1 / 2 ^ 24) ∧ x * (1 - 1 / 2 ^ 24) ≤ fl x := by
    intro x hx
    have := abs_le.1 (hfl.err x)
    rw [abs_of_nonneg hx] at this
    constructor <;> linarith [this.1, this.2]
  have dn : ∀ x : ℚ, x ≤ 0 → fl x ≤ x * (1 - 1 / 2 ^ 24) := by
    intro x hx
    have := abs_le.1 (hfl.err x)
    rw [abs_of_nonpos hx] at this
    linarith [this.2]
  rw [psdColour]
  obtain ⟨x1, x2⟩ := up ((a.toNat : ℚ) / 255) (by positivity)
  generalize fl ((a.toNat : ℚ) / 255) = fx at x1 x2 ⊢
  have hfx0 : 0 < fx := by
    have : (0 : ℚ) < a.toNat / 255 * (1 - 1 / 2 ^ 24) := by
      have : (0 : ℚ) < a.toNat / 255 := by linarith
      exact mul_pos this (by norm_num)
    linarith
  have hfx : fx ≤ 2 / 5 := by
    have : (a.toNat : ℚ) / 255 ≤ 100 / 255 := by linarith
    have : (a.toNat : ℚ) / 255 * (1 + 1 / 2 ^ 24) ≤ 100 / 255 * (1 + 1 / 2 ^ 24) := mul_le_mul_of_nonneg_right this (by norm_num)
    have : (100 : ℚ) / 255 * (1 + 1 / 2 ^ 24) ≤ 2 / 5 := by norm_num
    linarith
  have hinv : 5 / 2 ≤ 1 / fx := by
    rw [le_div_iff₀ hfx0]; linarith
  obtain ⟨_, r2⟩ := up (1 / fx) (by linarith)
  generalize fl (1 / fx) = r at r2 ⊢
  have hr : 24 / 10 ≤ r := by
    have : (5 : ℚ) / 2 * (1 - 1 / 2 ^ 24) ≤ 1 / fx * (1 - 1 / 2 ^ 24) := mul_le_mul_of_nonneg_right hinv (by norm_num)
    have : (24 : ℚ) / 10 ≤ 5 / 2 * (1 - 1 / 2 ^ 24) := by norm_num
    linarith
  have hpr : (p.toNat : ℚ) * r ≤ 100 * r := mul_le_mul_of_nonneg_right P2 (by linarith)
  obtain ⟨s1, _⟩ := up ((p.toNat : ℚ) * r) (mul_nonneg P1 (by linarith))
  have s1' : fl ((p.toNat : ℚ) * r) ≤ 100 * r * (1 + 1 / 2 ^ 24) := by
    have : (p.toNat : ℚ) * r * (1 + 1 / 2 ^ 24) ≤ 100 * r * (1 + 1 / 2 ^ 24) := mul_le_mul_of_nonneg_right hpr (by norm_num)
    linarith
  generalize fl ((p.toNat : ℚ) * r) = u at s1' ⊢
  have t1 := dn (1 - r) (by linarith)
  generalize fl (1 - r) = t at t1 ⊢
  have ht : t ≤ 0 := by
    have : (1 - r) * (1 - 1 / 2 ^ 24) ≤ 0 := mul_nonpos_of_nonpos_of_nonneg (by linarith) (by norm_num)
    linarith
  have v1 := dn (255 * t) (by linarith)
  generalize fl (255 * t) = v at v1 ⊢
  have hsum : u + v ≤ -2 := by
    norm_num at *
    linarith
  have := dn (u + v) (by linarith)
  have : (u + v) * (1 - 1 / 2 ^ 24) ≤ -2 * (1 - 1 / 2 ^ 24) := mul_le_mul_of_nonneg_right hsum (by norm_num)
  have : (-2 : ℚ) * (1 - 1 / 2 ^ 24) ≤ -1 := by norm_num
  linarith

/-- **C161** (what does not hold) A file with an alpha channel may have no defined result: if alpha of the first pixel is not 0 but at most 100 and so is red, a negative number that does not fit
is converted to a byte, whatever the size of the picture.  The colours are taken to have been laid over white. -/
theorem C161_matte_fails (fl : ℚ → ℚ) (hfl : Catalyst.IsFloat fl) (room cc w h depth k : Nat) (file : List UInt8) (hf : IsPsd file cc w h depth k) (hp : num16 file k = 0)
    (hw0 : 0 < w) (hh0 : 0 < h) (hsize : 4 * w * h < 2 ^ 31) (hroom : 4 * w * h ≤ room) (hcc : 4 ≤ cc)
    (ha : 0 < (file.getD (k + 2 + 3 * (w * h) * (depth / 8)) 0).toNat ∧ (file.getD (k + 2 + 3 * (w * h) * (depth / 8)) 0).toNat ≤ 100)
    (hr : (file.getD (k + 2) 0).toNat ≤ 100) : loadPsd fl room file = .ub := by
  obtain ⟨s, hs, hl⟩ := psd_of hf
  rw [hl, hp]
  have e1 : 4 * w ≤ 4 * w * h := Nat.le_mul_of_pos_right _ hh0
  have e2 : h ≤ w * h := Nat.le_mul_of_pos_left _ hw0
  have e3 : 4 * w * h = 4 * (w * h) := Nat.mul_assoc _ _ _
  rw [psdRest, if_neg (by omega)]
  simp only
  rw [if_neg (by omega), if_neg (by omega), if_neg (by omega)]
  obtain ⟨q, a1, a2, a3⟩ := channels_ok (ks := fun ch => k + 2 + min ch cc * (w * h) * (depth / 8)) (s := if (0 : Nat) = 1 then skip s (h * cc * 2) else s)
    (raw_channel (file := file) (cc := cc) (N := w * h) (D := k + 2) hf.depths) (by rw [if_neg (by decide), hs]; simp)
  rw [e3, a1, Outcome.bind_ok, if_pos hcc]
  obtain ⟨N, hN⟩ : ∃ N, w * h = N + 1 := ⟨w * h - 1, by omega⟩
  have b3 := a3 3 (by omega) 0 (by omega)
  have b0 := a3 0 (by omega) 0 (by omega)
  simp only [psdSample, Nat.mul_zero, Nat.zero_add, Nat.add_zero, Nat.zero_mul] at b0 b3
  rw [if_pos (by omega)] at b0 b3
  have hstep : psdMatte fl 0 q.1 = .ub := by
    rw [psdMatte, Nat.mul_zero, Nat.zero_add, load, if_pos (by omega), b3]
    simp only [Outcome.bind_ok]
    rw [if_pos]
    · rw [loop, loopFrom, Nat.add_zero, load, if_pos (by omega), b0]
      simp only [Outcome.bind_ok]
      rw [psdByte, if_neg]
      · rfl
      · rintro ⟨h1, _⟩
        have := matte_low hfl (a := file.getD (k + 2 + 3 * (w * h) * (depth / 8)) 0) (p := file.getD (k + 2) 0) (by
          intro h
          rw [h] at ha
          exact absurd ha.1 (by decide)) ha.2 hr
        linarith
    · constructor
      · intro h
        rw [h] at ha
        exact absurd ha.1 (by decide)
      · intro h
        rw [h] at ha
        exact absurd ha.2 (by decide)
  rw [hN, loop, loopFrom, hstep]
  rfl

/-- one pixel, red 0, half clear -/
def clearPsd : List UInt8 := [56, 66, 80, 83, 0, 1, 0, 0, 0, 0, 0, 0, 0, 4, 0, 0, 0, 1, 0, 0, 0, 1, 0, 8, 0, 3, 0, 0, 0, 0, 0, 0, 0, 0, 0, 0, 0, 0, 0, 0, 0, 0, 0, 90]

example : loadPsd id 100 clearPsd = .ub :=
  C161_matte_fails id ⟨fun x => by simp; positivity⟩ 100 4 1 1 8 38 clearPsd
    ⟨by decide, by decide, by decide, by decide, by decide, by decide, by decide, by decide, by decide, 30, 34, by decide⟩ (by decide) (by decide) (by decide) (by decide)
    (by decide) (by decide) (by decide) (by decide)

/-- **C161** (what does not hold) The number of bytes to be left out in front of packed channels overflows an `int` for a high picture, though the picture is not too large: there is no defined result. -/
theorem C161_rows_fails (fl : ℚ → ℚ) (room cc w h depth k : Nat) (file : List UInt8) (hf : IsPsd file cc w h depth k) (hp : num16 file k = 1)
    (hw0 : 0 < w) (hh0 : 0 < h) (hsize : 4 * w * h < 2 ^ 31) (hroom : 4 * w * h ≤ room) (hrows : 2 ^ 31 ≤ h * cc * 2) : loadPsd fl room file = .ub := by
  obtain ⟨s, hs, hl⟩ := psd_of hf
  rw [hl, hp]
  have e1 : 4 * w ≤ 4 * w * h := Nat.le_mul_of_pos_right _ hh0
  have e2 : h ≤ w * h := Nat.le_mul_of_pos_left _ hw0
  have e3 : 4 * w * h = 4 * (w * h) := Nat.mul_assoc _ _ _
  rw [psdRest, if_neg (by omega)]
  simp only
  rw [if_neg (by omega), if_neg (by omega), if_pos ⟨trivial, hrows⟩]

/-- one column of 2^26 pixels, 16 channels -/
def highPsd : List UInt8 := [56, 66, 80, 83, 0, 1, 0, 0, 0, 0, 0, 0, 0, 16, 4, 0, 0, 0, 0, 0, 0, 1, 0, 8, 0, 3, 0, 0, 0, 0, 0, 0, 0, 0, 0, 0, 0, 0, 0, 1]

example : loadPsd id (2 ^ 30) highPsd = .ub :=
  C161_rows_fails id (2 ^ 30) 16 1 (2 ^ 26) 8 38 highPsd
    ⟨by decide, by decide, by decide, by decide, by decide, by decide, by decide, by decide, by decide, 30, 34, by decide⟩ (by decide) (by decide) (by decide) (by decide)
    (by decide) (by decide)

/-- the first sample of a picture, or that there is none -/
def psdFirst (o : Outcome Image) : Outcome UInt8 := o >>= fun i => load i.out 0

/-- one row of two pixels of one channel of 16 bits, packed as four bytes -/
def deepPsd : List UInt8 :=
  [56, 66, 80, 83, 0, 1, 0, 0, 0, 0, 0, 0, 0, 1, 0, 0, 0, 1, 0, 0, 0, 2, 0, 16, 0, 3, 0, 0, 0, 0, 0, 0, 0, 0, 0, 0, 0, 0, 0, 1, 0, 5, 3, 18, 52, 86, 120]

/-- **C161** (what does not hold) Packed samples of 16 bits are not read as such, though samples of 16 bits that are not packed are: a file whose channel has two bytes for each pixel, packed, is refused. -/
theorem C161_deep_fails : ∃ file, IsPsd file 1 2 1 16 38 ∧ num16 file 38 = 1 ∧ PackBits file 42 [18, 52, 86, 120] 47 ∧ psdFirst (loadPsd id 100 file) = .throws "corrupt" :=
  ⟨deepPsd, ⟨by decide, by decide, by decide, by decide, by decide, by decide, by decide, by decide, by decide, 30, 34, by decide⟩, by decide,
    .copy 42 3 [] 47 (by decide) (by decide) (.nil _), by decide +kernel⟩

theorem psdChannel_any {packed : Bool} {cc depth N ch : Nat} {m : Buf} {s : Src} (hch : ch < 4) (hm : m.size = 4 * N) :
    (∃ e, psdChannel packed cc depth N ch m s = .throws e) ∨ ∃ q, psdChannel packed cc depth N ch m s = .ok q ∧ q.1.size = 4 * N := by
  have hs : s.all = s.all.drop 0 := rfl
  rw [psdChannel]
  by_cases h1 : cc ≤ ch
  · rw [if_pos h1]
    obtain ⟨m', a1, a2⟩ := psdFill_ok hch hm
    rw [a1, Outcome.bind_ok]
    exact .inr ⟨_, rfl, by simp only; rw [a2.size, hm]⟩
  rw [if_neg h1]
  by_cases h2 : packed = true
  · rw [if_pos h2]
    rcases psdRle_any (total := N) hch (f := s.buf.length + s.rest.length + N + 1) (count := 0) (s := s) hm (by rw [Src.all, List.length_append]; omega) with h | ⟨m', s', h, h3⟩
    · rw [h, Outcome.bind_ok]
      exact .inl ⟨_, rfl⟩
    · rw [h, Outcome.bind_ok]
      exact .inr ⟨_, rfl, h3⟩
  rw [if_neg h2]
  by_cases h3 : depth = 16
  · rw [if_pos h3]
    obtain ⟨m', s', a1, a2, a3⟩ := psdHigh_ok hs hch hm
    exact .inr ⟨_, a1, by simp only; rw [a2.size, hm]⟩
  · rw [if_neg h3]
    obtain ⟨m', s', a1, a2, a3⟩ := psdCopy_ok (count := 0) (len := N) hs hch hm (by omega)
    exact .inr ⟨_, a1, by simp only; rw [a2.size, hm]⟩

theorem loop_any {f : Nat → Buf × Src → Outcome (Buf × Src)} {z : Nat}
    (hf : ∀ ch < 4, ∀ q : Buf × Src, q.1.size = z → (∃ e, f ch q = .throws e) ∨ ∃ q', f ch q = .ok q' ∧ q'.1.size = z) :
    ∀ (n a : Nat) (q : Buf × Src), a + n ≤ 4 → q.1.size = z → (∃ e, loopFrom f n a q = .throws e) ∨ ∃ q', loopFrom f n a q = .ok q' ∧ q'.1.size = z
  | 0, _, q, _, hq => .inr ⟨q, rfl, hq⟩
  | n + 1, a, q, ha, hq => by
    rw [loopFrom]
    rcases hf a (by omega) q hq with ⟨e, h⟩ | ⟨q', h, h'⟩
    · rw [h]
      exact .inl ⟨e, rfl⟩
    · rw [h, Outcome.bind_ok]
      exact loop_any hf n (a + 1) q' (by omega) h'

theorem psdRest_any {fl : ℚ → ℚ} {room compression : Nat} {t : Psd} {s : Src} (hcc : t.cc < 4) (hrows : t.h * t.cc * 2 < 2 ^ 31) :
    (∃ e, psdRest fl room t compression s = .throws e) ∨
      ∃ i, psdRest fl room t compression s = .ok i ∧ i.x = t.w ∧ i.y = t.h ∧ i.n = 4 ∧ i.out.size = t.w * t.h * 4 ∧ 4 * t.w * t.h ≤ room := by
  rw [psdRest]
  by_cases h1 : 1 < compression
  · rw [if_pos h1]; exact .inl ⟨_, rfl⟩
  rw [if_neg h1]
  by_cases h2 : 2 ^ 31 ≤ t.w ∨ 2 ^ 31 ≤ t.h ∨ 2 ^ 31 ≤ 4 * t.w ∨ 2 ^ 31 ≤ 4 * t.w * t.h
  · rw [if_pos h2]; exact .inl ⟨_, rfl⟩
  rw [if_neg h2]
  by_cases h3 : room < 4 * t.w * t.h
  · rw [if_pos h3]; exact .inl ⟨_, rfl⟩
  rw [if_neg h3, if_neg (by omega)]
  have e3 : 4 * t.w * t.h = 4 * (t.w * t.h) := Nat.mul_assoc _ _ _
  rcases loop_any (z := 4 * (t.w * t.h)) (f := fun ch q => psdChannel (compression == 1) t.cc t.depth (t.w * t.h) ch q.1 q.2)
    (fun ch hch q hq => psdChannel_any hch hq) 4 0 (fresh (4 * t.w * t.h), if compression = 1 then skip s (t.h * t.cc * 2) else s) (by omega) (by rw [← e3]; rfl)
    with ⟨e, h⟩ | ⟨q, h, hq⟩
  · rw [loop, h]
    exact .inl ⟨e, rfl⟩
  · rw [loop, h, Outcome.bind_ok, if_neg (by omega), Outcome.bind_ok]
    exact .inr ⟨_, rfl, rfl, rfl, rfl, by simp only; rw [hq]; ring, by omega⟩

/-- **C161** (what holds) Whatever the bytes of a file are, if it claims fewer than four channels and the numbers of bytes of its rows can be counted, loading it as PSD ends with an error
or with a picture of the size that the file says, of four samples for each pixel, and nothing outside of that memory is written. -/
theorem C161_any_partial (fl : ℚ → ℚ) (room : Nat) (file : List UInt8) (hcc : num16 file 12 < 4) (hrows : num32 file 14 * num16 file 12 * 2 < 2 ^ 31) :
    (∃ e, loadPsd fl room file = .throws e) ∨
      ∃ i, loadPsd fl room file = .ok i ∧ i.x = num32 file 18 ∧ i.y = num32 file 14 ∧ i.n = 4 ∧ i.out.size = i.x * i.y * 4 ∧ i.x * i.y * 4 ≤ room := by
  have h0 : (start file).all = file.drop 0 := by rw [start_all]; rfl
  have a1 := get32_drop h0
  have a2 := get16_drop a1.2
  have a3 := skip_to (n := 6) (j := 12) a2.2 (by decide) (by decide)
  have a4 := get16_drop a3
  have a5 := get32_drop a4.2
  have a6 := get32_drop a5.2
  simp only [loadPsd, psdLoad]
  split
  · exact .inl ⟨_, rfl⟩
  split
  · exact .inl ⟨_, rfl⟩
  split
  · exact .inl ⟨_, rfl⟩
  split
  · exact .inl ⟨_, rfl⟩
  split
  · exact .inl ⟨_, rfl⟩
  rw [a4.1, a5.1, a6.1]
  have key : ∀ (t : Psd) (s : Src), ∃ c s', psdBody fl room t s = psdRest fl room t c s' := fun t s => ⟨_, _, rfl⟩
  obtain ⟨c, s', hk⟩ := key ⟨num16 file 12, num32 file (12 + 2), num32 file (12 + 2 + 4),
    (get16 (get32 (get32 (get16 (skip (get16 (get32 (start file)).2).2 6)).2).2).2).1⟩
    (get16 (get16 (get32 (get32 (get16 (skip (get16 (get32 (start file)).2).2 6)).2).2).2).2).2
  rw [hk]
  rcases psdRest_any (fl := fl) (room := room) (compression := c) (s := s') (t := ⟨num16 file 12, num32 file (12 + 2), num32 file (12 + 2 + 4),
    (get16 (get32 (get32 (get16 (skip (get16 (get32 (start file)).2).2 6)).2).2).2).1⟩) hcc hrows with h | ⟨i, h1, h2, h3, h4, h5, h6⟩
  · exact .inl h
  · simp only at h2 h3 h5 h6
    refine .inr ⟨i, h1, h2, h3, h4, by rw [h5, h2, h3], ?_⟩
    rw [h2, h3]
    rw [Nat.mul_assoc] at h6
    omega

example : (∃ e, loadPsd id 100 deepPsd = .throws e) ∨
    ∃ i, loadPsd id 100 deepPsd = .ok i ∧ i.x = num32 deepPsd 18 ∧ i.y = num32 deepPsd 14 ∧ i.n = 4 ∧ i.out.size = i.x * i.y * 4 ∧ i.x * i.y * 4 ≤ 100 :=
  C161_any_partial id 100 deepPsd (by decide) (by decide)

/-- **C161** (what does not hold) A file that ends where its samples should begin, whatever its size says, is not refused: it is read as a picture that is black in all the channels it claims. -/
theorem C161_cut_fails (fl : ℚ → ℚ) (room cc w h depth k : Nat) (file : List UInt8) (hf : IsPsd file cc w h depth k) (hp : num16 file k = 0) (hw0 : 0 < w) (hh0 : 0 < h)
    (hsize : 4 * w * h < 2 ^ 31) (hroom : 4 * w * h ≤ room) (hcut : file.length = k + 2) :
    ∃ i, loadPsd fl room file = .ok i ∧ i.x = w ∧ i.y = h ∧ ∀ Y < h, ∀ X < w, ∀ c < 4, c < cc → load i.out ((Y * w + X) * 4 + c) = .ok 0 := by
  have hz : ∀ j, file.getD (k + 2 + j) 0 = 0 := fun j => by
    rw [List.getD_eq_getElem?_getD, List.getElem?_eq_none (by omega)]
    rfl
  obtain ⟨i, a1, a2, a3, _, _, a6⟩ := C161_raw fl room cc w h depth k file hf hp hw0 hh0 hsize hroom (by
    by_cases h4 : cc < 4
    · exact .inl h4
    · refine .inr fun i _ => .inl ?_
      rw [psdSample, if_pos (by omega), hz])
  refine ⟨i, a1, a2, a3, fun Y hY X hX c hc hcc => ?_⟩
  rw [a6 Y hY X hX c hc, if_pos hcc, hz]

example : ∃ i, loadPsd id 100 (rowPsd.take 41) = .ok i ∧ i.x = 2 ∧ i.y = 1 ∧ load i.out 4 = .ok 0 := by
  obtain ⟨i, a1, a2, a3, a4⟩ := C161_cut_fails id 100 3 2 1 8 39 (rowPsd.take 41)
    ⟨by decide, by decide, by decide, by decide, by decide, by decide, by decide, by decide, by decide, 31, 35, by decide⟩ (by decide) (by decide) (by decide) (by decide)
    (by decide) (by decide)
  exact ⟨i, a1, a2, a3, a4 0 (by decide) 1 (by decide) 0 (by decide) (by decide)⟩

end Verif.Png
