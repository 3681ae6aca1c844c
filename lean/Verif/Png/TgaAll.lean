import Verif.Png.TgaLoad

/-! # TGA pictures: from the file to the picture -/

namespace Verif.Png

/-- the number of channels of a colour of so many bits -/
def channels (bits : Nat) (grey : Bool) : Nat :=
  if bits = 8 then 1 else if bits = 16 ∧ grey = true then 2 else if bits = 32 then 4 else 3

/-- channel `c` of the colour of so many bits that is at `k` in a file: one byte; grey and alpha; five bits for each of red, green and blue, from the
highest to the lowest; or blue, green, red and alpha -/
def colour (bits : Nat) (grey : Bool) (file : List UInt8) (k c : Nat) : UInt8 :=
  if bits = 8 then file.getD k 0
  else if bits = 16 ∧ grey = true then file.getD (k + c) 0
  else if bits = 15 ∨ bits = 16 then UInt8.ofNat (le16 file k / 32 ^ (2 - c) % 32 * 255 / 31)
  else file.getD (k + if c < 3 then 2 - c else 3) 0

/-- what is known of a depth -/
structure Kind (bits : Nat) (grey : Bool) (rgb16 : Bool) : Prop where
  comp : tgaComp bits grey = (channels bits grey, rgb16)
  step : (if rgb16 then 2 else channels bits grey) = (bits + 7) / 8
  some : 0 < channels bits grey
  three : rgb16 = true → channels bits grey = 3
  col : ∀ file k c, c < channels bits grey → colour bits grey file k c =
    (rawAt rgb16 (channels bits grey) file k).getD (if 3 ≤ channels bits grey ∧ rgb16 = false then swapped (channels bits grey) c else c) 0

theorem kind_of {bits : Nat} {grey : Bool} (h : tgaDepth bits = true) : ∃ rgb16, Kind bits grey rgb16 := by
  have hb : bits = 8 ∨ bits = 15 ∨ bits = 16 ∨ bits = 24 ∨ bits = 32 := by
    simp only [tgaDepth, Bool.or_eq_true, beq_iff_eq] at h
    omega
  have hraw : ∀ (n : Nat) (file : List UInt8) (k j : Nat), j < n → (rawAt false n file k).getD j 0 = file.getD (k + j) 0 := by
    intro n file k j hj
    simp only [rawAt, Bool.false_eq_true, if_false]
    rw [List.getD_eq_getElem?_getD, List.getElem?_map, List.getElem?_range hj]
    rfl
  rcases hb with rfl | rfl | rfl | rfl | rfl
  · refine ⟨false, ⟨rfl, rfl, by cases grey <;> decide, fun h => (by cases h), fun file k c hc => ?_⟩⟩
    have hc : c < 1 := hc
    have : c = 0 := by omega
    subst this
    exact (hraw 1 file k 0 (by omega)).symm
  · refine ⟨true, ⟨by cases grey <;> rfl, rfl, by cases grey <;> decide, fun _ => (by cases grey <;> rfl), fun file k c hc => ?_⟩⟩
    have hc : c < 3 := by cases grey <;> exact hc
    have : c = 0 ∨ c = 1 ∨ c = 2 := by omega
    rcases this with rfl | rfl | rfl <;> cases grey <;> simp [colour, rawAt]
  · cases grey with
    | true =>
      refine ⟨false, ⟨rfl, rfl, by decide, fun h => (by cases h), fun file k c hc => ?_⟩⟩
      exact (hraw 2 file k c hc).symm
    | false =>
      refine ⟨true, ⟨rfl, rfl, by decide, fun _ => rfl, fun file k c hc => ?_⟩⟩
      have hc : c < 3 := hc
      have : c = 0 ∨ c = 1 ∨ c = 2 := by omega
      rcases this with rfl | rfl | rfl <;> simp [colour, rawAt]
  · refine ⟨false, ⟨by cases grey <;> rfl, by cases grey <;> rfl, by cases grey <;> decide, fun h => (by cases h), fun file k c hc => ?_⟩⟩
    have hc : c < 3 := by cases grey <;> exact hc
    have hch : channels 24 grey = 3 := by cases grey <;> rfl
    rw [hch, if_pos ⟨by omega, rfl⟩]
    have : c = 0 ∨ c = 1 ∨ c = 2 := by omega
    rcases this with rfl | rfl | rfl
    · exact (hraw 3 file k 2 (by omega)).symm
    · exact (hraw 3 file k 1 (by omega)).symm
    · exact (hraw 3 file k 0 (by omega)).symm
  · refine ⟨false, ⟨by cases grey <;> rfl, by cases grey <;> rfl, by cases grey <;> decide, fun h => (by cases h), fun file k c hc => ?_⟩⟩
    have hc : c < 4 := by cases grey <;> exact hc
    have hch : channels 32 grey = 4 := by cases grey <;> rfl
    rw [hch, if_pos ⟨by omega, rfl⟩]
    have : c = 0 ∨ c = 1 ∨ c = 2 ∨ c = 3 := by omega
    rcases this with rfl | rfl | rfl | rfl
    · exact (hraw 4 file k 2 (by omega)).symm
    · exact (hraw 4 file k 1 (by omega)).symm
    · exact (hraw 4 file k 0 (by omega)).symm
    · exact (hraw 4 file k 3 (by omega)).symm

theorem swapped_lt {n c : Nat} (hc : c < n) : swapped n c < n := by
  rw [swapped]
  split_ifs <;> omega

/-- the rest of the reading -/
def tgaBody (room : Nat) (t : Tga) (n : Nat) (rgb16 : Bool) (s : Src) : Outcome Image :=
  if n = 0 then .throws "bad format"
  else if 2 ^ 31 ≤ t.w * t.h ∨ 2 ^ 31 ≤ t.w * t.h * n then .throws "too large"
  else if room < t.w * t.h * n then .throws "outofmem"
  else
    (if !t.indexed && !t.rle && !rgb16 then tgaDirect t n (fresh (t.w * t.h * n)) s
     else tgaCoded room t n rgb16 (fresh (t.w * t.h * n)) s) >>= fun m =>
      (if 3 ≤ n ∧ rgb16 = false then tgaSwap n (t.w * t.h) m else .ok m) >>= fun m => .ok ⟨t.w, t.h, n, 8, m⟩

theorem tgaLoad_of (file : List UInt8) : ∃ s, s.all = file.drop (18 + (byteAt file 0).toNat) ∧ ∀ room n rgb16,
    (if (tgaOf file).indexed then tgaComp (tgaOf file).palBits false else tgaComp (tgaOf file).bpp ((tgaOf file).type == 3)) = (n, rgb16) →
      tgaLoad room (start file) = tgaBody room (tgaOf file) n rgb16 s := by
  have h := tgaHeader_of file
  refine ⟨skip (tgaHeader (start file)).2 (tgaOf file).offset, ?_, fun room n rgb16 hc => ?_⟩
  · have : (tgaOf file).offset < 2 ^ 31 := by
      have := (byteAt file 0).toNat_lt
      simp only [tgaOf]; omega
    rw [skip_drop this, h.2, List.drop_drop]
    rfl
  · simp only [tgaLoad]
    rw [h.1]
    simp only [hc, tgaBody]

/-- red and blue change places, or not -/
theorem tgaFinish_ok {t : Tga} {n : Nat} {rgb16 : Bool} {m : Buf} (hm : m.size = t.w * t.h * n) :
    ∃ m', (if 3 ≤ n ∧ rgb16 = false then tgaSwap n (t.w * t.h) m else .ok m) = .ok m' ∧ m'.size = t.w * t.h * n ∧
      ∀ i < t.w * t.h, ∀ c < n, m'.at_ (i * n + c) = m.at_ (i * n + if 3 ≤ n ∧ rgb16 = false then swapped n c else c) := by
  by_cases h : 3 ≤ n ∧ rgb16 = false
  · obtain ⟨m', h1, h2, h3⟩ := tgaSwap_ok (m := m) h.1 hm
    refine ⟨m', by rw [if_pos h]; exact h1, by omega, fun i hi c hc => ?_⟩
    rw [if_pos h]
    exact h3 i hi c hc
  · refine ⟨m, by rw [if_neg h], hm, fun i hi c hc => ?_⟩
    rw [if_neg h]

theorem pixel_lt {w h Y X : Nat} (hY : Y < h) (hX : X < w) : Y * w + X < w * h := by
  have : (Y + 1) * w ≤ h * w := Nat.mul_le_mul_right _ hY
  rw [Nat.add_mul, Nat.one_mul, Nat.mul_comm h] at this
  omega

theorem load_some {m : Buf} {i : Nat} {v : UInt8} (hi : i < m.size) (h : m.at_ i = some v) : load m i = .ok v := by
  rw [load, if_pos hi, h]

theorem load_none {m : Buf} {i : Nat} (hi : i < m.size) (h : m.at_ i = none) : load m i = .ub := by
  rw [load, if_pos hi, h]

/-- pixels that are not by a palette and not stored as they are; what the samples are before red and blue change places -/
theorem plain_ok {file : List UInt8} {room k n : Nat} {t : Tga} {rgb16 : Bool} {s : Src} {ps : List Nat} (ht : t.indexed = false)
    (hs : s.all = file.drop k) (hpl : Places file (if rgb16 then 2 else n) t.rle k ps) (hN : t.w * t.h ≤ ps.length)
    (hf : t.rle = false → rgb16 = false → k + t.w * t.h * n ≤ file.length) :
    ∃ m, (if !t.indexed && !t.rle && !rgb16 then tgaDirect t n (fresh (t.w * t.h * n)) s else tgaCoded room t n rgb16 (fresh (t.w * t.h * n)) s) = .ok m ∧
      m.size = t.w * t.h * n ∧ ∀ Y < t.h, ∀ X < t.w, ∀ c < n, m.at_ ((Y * t.w + X) * n + c) =
        some ((rawAt rgb16 n file (ps.getD ((if t.inverted then t.h - 1 - Y else Y) * t.w + X) 0)).getD c 0) := by
  by_cases hd : t.rle = false ∧ rgb16 = false
  · have hlen := hf hd.1 hd.2
    rw [if_pos (by rw [ht, hd.1, hd.2]; rfl)]
    obtain ⟨m, a1, a2, a3⟩ := tgaDirect_ok (t := t) (n := n) hs
    refine ⟨m, a1, a2, fun Y hY X hX c hc => ?_⟩
    have hXc : X * n + c < t.w * n := by
      have : (X + 1) * n ≤ t.w * n := Nat.mul_le_mul_right _ hX
      rw [Nat.add_mul, Nat.one_mul] at this
      omega
    rw [show (Y * t.w + X) * n + c = Y * (t.w * n) + (X * n + c) by ring, a3 Y hY _ hXc]
    generalize hYr : (if t.inverted then t.h - 1 - Y else Y) = Y'
    have hY' : Y' < t.h := by
      rw [← hYr]
      split <;> omega
    rw [Places, hd.1, hd.2, if_neg (by decide), if_neg (by decide)] at hpl
    obtain ⟨M, hM⟩ := hpl
    have hlt := pixel_lt hY' hX
    have hM' : t.w * t.h ≤ M := by rw [hM] at hN; simpa using hN
    have hp : ps.getD (Y' * t.w + X) 0 = k + (Y' * t.w + X) * n := by
      rw [hM, List.getD_eq_getElem?_getD, List.getElem?_map, List.getElem?_range (by omega)]
      rfl
    have hin : (Y' * t.w + X) * n + n ≤ t.w * t.h * n := by
      rw [← Nat.succ_mul]
      exact Nat.mul_le_mul_right _ hlt
    rw [hp, hd.2]
    simp only [rawAt, Bool.false_eq_true, if_false]
    rw [List.getD_eq_getElem?_getD, List.getElem?_map, List.getElem?_range hc]
    simp only [Option.map_some, Option.getD_some, byteAt, List.getD_eq_getElem?_getD]
    rw [show k + Y' * (t.w * n) + (X * n + c) = k + (Y' * t.w + X) * n + c by ring, List.getElem?_eq_getElem (by omega)]
    rfl
  · have : (!t.indexed && !t.rle && !rgb16) = false := by
      revert hd
      cases t.rle <;> cases rgb16 <;> simp
    rw [this, if_neg (by decide), tgaCoded, if_neg (by rw [ht]; decide), Outcome.bind_ok]
    exact coded_ok (reads_plain ht) hs hpl hN

/-- pixels by a palette -/
theorem pal_ok {file : List UInt8} {room k n : Nat} {t : Tga} {rgb16 : Bool} {s : Src} {ps : List Nat} (ht : t.indexed = true) (h0 : 0 < t.palLen)
    (hs : s.all = file.drop k) (hst : t.palStart < 2 ^ 31) (hroom : t.palLen * n ≤ room) (hn : rgb16 = true → n = 3)
    (hf : rgb16 = false → k + t.palStart + t.palLen * n ≤ file.length)
    (hpl : Places file (if t.bpp = 8 then 1 else 2) t.rle (k + t.palStart + t.palLen * (if rgb16 then 2 else n)) ps) (hN : t.w * t.h ≤ ps.length) :
    ∃ m, (if !t.indexed && !t.rle && !rgb16 then tgaDirect t n (fresh (t.w * t.h * n)) s else tgaCoded room t n rgb16 (fresh (t.w * t.h * n)) s) = .ok m ∧
      m.size = t.w * t.h * n ∧ ∀ Y < t.h, ∀ X < t.w, ∀ c < n, m.at_ ((Y * t.w + X) * n + c) =
        some ((rawAt rgb16 n file (k + t.palStart + idxAt t.bpp t.palLen file
          (ps.getD ((if t.inverted then t.h - 1 - Y else Y) * t.w + X) 0) * (if rgb16 then 2 else n))).getD c 0) := by
  obtain ⟨pal, s', a1, a2, a3, a4⟩ := tgaPalette_ok hs hst hroom hn hf
  have : (!t.indexed && !t.rle && !rgb16) = false := by rw [ht]; rfl
  rw [this, if_neg (by decide), tgaCoded, if_pos ht, a1, Outcome.bind_ok]
  obtain ⟨m, b1, b2, b3⟩ := coded_ok (reads_pal (rgb16 := rgb16) ht a2 h0) a3 hpl hN
  refine ⟨m, b1, b2, fun Y hY X hX c hc => ?_⟩
  rw [b3 Y hY X hX c hc, List.getD_eq_getElem?_getD, List.getElem?_map, List.getElem?_range hc]
  simp only [Option.map_some, Option.getD_some]
  rw [a4 _ ?_ c hc]
  simp only [idxAt]
  generalize (if t.bpp = 8 then _ else _ : Nat) = v
  split <;> omega

/-- a palette of no colours -/
theorem pal_empty {room n : Nat} {t : Tga} {rgb16 : Bool} {s : Src} (ht : t.indexed = true) (h0 : t.palLen = 0) (hn : 0 < n) (hwh : 0 < t.w * t.h) :
    (if !t.indexed && !t.rle && !rgb16 then tgaDirect t n (fresh (t.w * t.h * n)) s else tgaCoded room t n rgb16 (fresh (t.w * t.h * n)) s) = .ub := by
  have : (!t.indexed && !t.rle && !rgb16) = false := by rw [ht]; rfl
  rw [this, if_neg (by decide), tgaCoded, if_pos ht]
  have hp : ∃ s', tgaPalette room t n rgb16 s = .ok ([], s') := by
    simp only [tgaPalette]
    rw [h0, Nat.zero_mul, if_neg (by omega)]
    cases rgb16 with
    | true => exact ⟨_, rfl⟩
    | false =>
      rw [if_neg (by decide)]
      simp only [getn]
      rw [if_neg (by omega)]
      exact ⟨_, by simp only [List.take_zero]; rfl⟩
  obtain ⟨s', hp⟩ := hp
  rw [hp, Outcome.bind_ok]
  obtain ⟨N, hN⟩ : ∃ N, t.w * t.h = N + 1 := ⟨t.w * t.h - 1, by omega⟩
  obtain ⟨n', hn'⟩ : ∃ n', n = n' + 1 := ⟨n - 1, by omega⟩
  have hpix : ∀ s, tgaPixel t n rgb16 [] s = .ub := by
    intro s
    rw [tgaPixel, if_pos ht, h0, hn']
    simp only [Nat.zero_le, if_true]
    rfl
  have hst : ∀ p, p.count = 0 → tgaStep t n rgb16 [] 0 p = .ub := by
    intro p hp
    simp only [tgaStep]
    have : (tgaPacket t.rle p).next = true := by
      rw [tgaPacket]
      by_cases hr : t.rle = true
      · rw [if_pos hr, if_pos hp]
      · rw [if_neg hr]
    rw [if_pos this, hpix]
    rfl
  have hl : ∀ N (f : Nat → Tp → Outcome Tp) p, f 0 p = .ub → loop (N + 1) f p = .ub := by
    intro N f p hf
    rw [loop, loopFrom, hf]
    rfl
  rw [hN, hl N _ _ (hst _ rfl)]
  rfl

end Verif.Png
