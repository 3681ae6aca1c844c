import Verif.Png.BmpMask
import Verif.Png.PropsBmp

/-! # Properties of reading BMP files by masks, with long headers, and of what is refused -/

namespace Verif.Png

/-! ## C158: BMP files -/

/-- a channel of a pixel is in the picture -/
theorem insideOf {n w h X Y c s : Nat} (hs : s = n * w * h) (hY : Y < h) (hX : X < w) (hc : c < n) : (Y * w + X) * n + c < s := by
  have e1 : (Y + 1) * w ≤ h * w := Nat.mul_le_mul_right _ hY
  rw [Nat.add_mul, Nat.one_mul] at e1
  have e2 : (Y * w + X + 1) * n ≤ h * w * n := Nat.mul_le_mul_right _ (by omega)
  rw [Nat.add_mul, Nat.one_mul] at e2
  have e3 : n * w * h = h * w * n := by ring
  omega

theorem maskSample_of (q : Nat → Nat × Nat) (v c : Nat) (fa : Option (Nat × Nat)) (hc : c < 3) :
    maskSample (q 0) (q 1) (q 2) fa v c = UInt8.ofNat (fieldSample v (q c)) := by
  rcases (by omega : c = 0 ∨ c = 1 ∨ c = 2) with rfl | rfl | rfl <;> rfl

/-- **C158** (what holds) A file of 16 or 32 bits per pixel whose header has 40 or 56 bytes and is followed by three masks, each of one to eight bits without gaps, is read, for
every width and height: each sample is the value of the bits of its mask, as a part of the largest value they can have, of 256, rounded down, and 255 for the largest. -/
theorem C158_fields (room w h hsz bpp : Nat) (s b : Nat → Nat) (file : List UInt8) (hf : Starts file hsz) (hs : hsz = 40 ∨ hsz = 56)
    (hc : le32 file 30 = 3) (hbpp : le16 file 28 = bpp) (hb : bpp = 16 ∨ bpp = 32) (hl : 14 + hsz + 12 ≤ file.length) (ho : le32 file 10 = 14 + hsz + 12)
    (hm : ∀ c < 3, le32 file (14 + hsz + 4 * c) = (2 ^ b c - 1) * 2 ^ s c ∧ 1 ≤ b c ∧ b c ≤ 8 ∧ s c + b c ≤ 32)
    (hd : ¬ (le32 file (14 + hsz) = le32 file (14 + hsz + 4) ∧ le32 file (14 + hsz + 4) = le32 file (14 + hsz + 8))) (hw : le32 file 18 = w)
    (hh : int32 (le32 file 22) = h ∨ int32 (le32 file 22) = -h) (hlt : h < 2 ^ 31) (hx : 3 * w < 2 ^ 31) (hsize : 3 * w * h < 2 ^ 31)
    (hroom : 3 * w * h ≤ room) :
    ∃ i, loadBmp room file = .ok i ∧ i.x = w ∧ i.y = h ∧ i.n = 3 ∧ i.out.size = 3 * w * h ∧
      ∀ Y < h, ∀ X < w, ∀ c < 3, ∀ k v,
        k = 14 + hsz + 12 + (w * bpp + 31) / 32 * 4 * (if 0 < int32 (le32 file 22) then h - 1 - Y else Y) + bpp / 8 * X →
        v = (if bpp = 16 then le16 file k else le32 file k) →
        load i.out ((Y * w + X) * 3 + c) = .ok (UInt8.ofNat (min 255 (256 * (v / 2 ^ s c % 2 ^ b c) / (2 ^ b c - 1)))) := by
  subst hbpp
  have hlen := hf.long
  obtain ⟨r, hr, hhd⟩ := header_at hf (by omega) (by omega)
  rw [loadBmp, if_neg (by omega), hhd, if_pos hs, hc]
  obtain ⟨r', e0, e1⟩ := masks_fields (info := { bpp := le16 file 28, offset := le32 file 10, hsz := hsz, x := le32 file 18, y := le32 file 22 })
    hr hl hs hb hd
  rw [e0, Outcome.bind_ok]
  obtain ⟨m, g0, g1, g2⟩ := bmpLoad_masks (n := 3) (room := room) (file := file) (r := r') (fr := (s 0, b 0)) (fg := (s 1, b 1)) (fb := (s 2, b 2)) (fa := none)
    (info := { bpp := le16 file 28, offset := le32 file 10, hsz := hsz, x := le32 file 18, y := le32 file 22, mr := le32 file (14 + hsz), mg := le32 file (14 + hsz + 4), mb := le32 file (14 + hsz + 8), extra := 26 })
    (by simp only; rw [ho]; exact e1) (by simp only; omega) (by simp only; omega) (by simp only; omega) (by simp only; omega)
    (by simp only; exact ne_min hh hlt) hb ⟨hm 0 (by omega), hm 1 (by omega), hm 2 (by omega), rfl, fun _ h => nomatch h⟩ (by simp) (by simp) (by simp) (by simp only; omega)
    (by simp only; rw [natAbs_of hh, hw]; exact hsize) (by simp only; rw [natAbs_of hh, hw]; exact hroom)
  simp only [natAbs_of hh, hw, ho] at g0 g1 g2
  simp only [hw, ho]
  refine ⟨_, g0, rfl, rfl, rfl, g1, fun Y hY X hX c hc k v hk hv => ?_⟩
  have g3 := g2 Y hY X hX c hc
  rw [← hk, wordAt, ← hv, maskSample_of (fun c => (s c, b c)) _ _ _ hc] at g3
  exact load_ok (insideOf g1 hY hX hc) g3

/-- two pixels of 16 bits: five bits of red, six of green, five of blue -/
private def fieldFile : List UInt8 :=
  [66, 77, 70, 0, 0, 0, 0, 0, 0, 0, 66, 0, 0, 0, 40, 0, 0, 0, 2, 0, 0, 0, 1, 0, 0, 0, 1, 0, 16, 0, 3, 0, 0, 0, 0, 0, 0, 0, 0, 0, 0, 0, 0, 0,
    0, 0, 0, 0, 0, 0, 0, 0, 0, 0, 0, 248, 0, 0, 224, 7, 0, 0, 31, 0, 0, 0, 255, 255, 0, 32]

example : ∃ i, loadBmp 100 fieldFile = .ok i ∧ load i.out 1 = .ok 255 ∧ load i.out 3 = .ok 33 := by
  obtain ⟨i, h1, _, _, _, _, h2⟩ := C158_fields 100 2 1 40 16 (fun c => if c = 0 then 11 else if c = 1 then 5 else 0) (fun c => if c = 1 then 6 else 5) fieldFile
    ⟨by decide +kernel, by decide +kernel, by decide +kernel, by decide +kernel, by decide +kernel⟩ (by decide) (by decide +kernel) (by decide +kernel)
    (by decide) (by decide +kernel) (by decide +kernel) (by decide +kernel) (by decide +kernel) (by decide +kernel) (by decide +kernel) (by decide) (by decide)
    (by decide) (by decide)
  refine ⟨i, h1, ?_, ?_⟩
  · rw [show (1 : Nat) = (0 * 2 + 0) * 3 + 1 from rfl, h2 0 (by decide) 0 (by decide) 1 (by decide) _ _ rfl rfl]; decide +kernel
  · rw [show (3 : Nat) = (0 * 2 + 1) * 3 + 0 from rfl, h2 0 (by decide) 1 (by decide) 0 (by decide) _ _ rfl rfl]; decide +kernel

/-- **C158** (what holds) A file of 16 bits per pixel without masks whose header has 40 or 56 bytes is read with five bits for each colour, blue in the lowest and red in the
highest; the sample of eight bits has the five bits followed by their upper three. -/
theorem C158_sixteen (room w h hsz : Nat) (file : List UInt8) (hf : Starts file hsz) (hs : hsz = 40 ∨ hsz = 56)
    (hc : le32 file 30 = 0) (hb : le16 file 28 = 16) (ho : le32 file 10 = 14 + hsz) (hw : le32 file 18 = w)
    (hh : int32 (le32 file 22) = h ∨ int32 (le32 file 22) = -h) (hlt : h < 2 ^ 31) (hx : 3 * w < 2 ^ 31) (hsize : 3 * w * h < 2 ^ 31)
    (hroom : 3 * w * h ≤ room) :
    ∃ i, loadBmp room file = .ok i ∧ i.x = w ∧ i.y = h ∧ i.n = 3 ∧ i.out.size = 3 * w * h ∧
      ∀ Y < h, ∀ X < w, ∀ c < 3, ∀ f,
        f = le16 file (14 + hsz + (w + 1) / 2 * 4 * (if 0 < int32 (le32 file 22) then h - 1 - Y else Y) + 2 * X) / 2 ^ (5 * (2 - c)) % 32 →
        load i.out ((Y * w + X) * 3 + c) = .ok (UInt8.ofNat (f * 8 + f / 4)) := by
  have hlen := hf.long
  obtain ⟨r, hr, hhd⟩ := header_at hf (by omega) (by omega)
  rw [loadBmp, if_neg (by omega), hhd, if_pos hs, hc]
  obtain ⟨r', e0, e1⟩ := masks_16 (info := { bpp := le16 file 28, offset := le32 file 10, hsz := hsz, x := le32 file 18, y := le32 file 22 })
    hr hlen hs hb
  rw [e0, Outcome.bind_ok]
  obtain ⟨m, g0, g1, g2⟩ := bmpLoad_masks (n := 3) (room := room) (file := file) (r := r') (fr := (10, 5)) (fg := (5, 5)) (fb := (0, 5)) (fa := none)
    (info := { bpp := le16 file 28, offset := le32 file 10, hsz := hsz, x := le32 file 18, y := le32 file 22, mr := fieldMask (10, 5), mg := fieldMask (5, 5), mb := fieldMask (0, 5) })
    (by simp only; rw [ho]; exact e1) (by simp only; omega) (by simp only; omega) (by simp only; omega) (by simp only; omega)
    (by simp only; exact ne_min hh hlt) (Or.inl hb) ⟨⟨rfl, by decide⟩, ⟨rfl, by decide⟩, ⟨rfl, by decide⟩, rfl, fun _ h => nomatch h⟩ (by simp) (by simp) (by simp)
    (by simp only; omega) (by simp only; rw [natAbs_of hh, hw]; exact hsize) (by simp only; rw [natAbs_of hh, hw]; exact hroom)
  simp only [natAbs_of hh, hw, ho, hb] at g0 g1 g2
  simp only [hw, ho, hb]
  refine ⟨_, g0, rfl, rfl, rfl, g1, fun Y hY X hX c hc f hf' => ?_⟩
  have g3 := g2 Y hY X hX c hc
  rw [maskSample_of (fun c => (5 * (2 - c), 5)) _ _ _ hc, wordAt, if_pos rfl, fieldSample,
    show (w * 16 + 31) / 32 * 4 = (w + 1) / 2 * 4 by omega, show 16 / 8 = 2 from rfl] at g3
  simp only [show (2 : Nat) ^ 5 = 32 from rfl] at g3
  rw [← hf'] at g3
  have hf32 : f < 32 := by rw [hf']; exact Nat.mod_lt _ (by omega)
  have hall : ∀ f < 32, min 255 (256 * f / (32 - 1)) = f * 8 + f / 4 := by decide
  rw [hall f hf32] at g3
  exact load_ok (insideOf g1 hY hX hc) g3

/-- a white pixel and a blue one of half the brightness -/
private def sixteenFile : List UInt8 :=
  [66, 77, 58, 0, 0, 0, 0, 0, 0, 0, 54, 0, 0, 0, 40, 0, 0, 0, 2, 0, 0, 0, 1, 0, 0, 0, 1, 0, 16, 0, 0, 0, 0, 0, 0, 0, 0, 0, 0, 0, 0, 0, 0, 0,
    0, 0, 0, 0, 0, 0, 0, 0, 0, 0, 255, 127, 16, 0]

example : ∃ i, loadBmp 100 sixteenFile = .ok i ∧ load i.out 0 = .ok 255 ∧ load i.out 5 = .ok 132 := by
  obtain ⟨i, h1, _, _, _, _, h2⟩ := C158_sixteen 100 2 1 40 sixteenFile
    ⟨by decide +kernel, by decide +kernel, by decide +kernel, by decide +kernel, by decide +kernel⟩ (by decide) (by decide +kernel) (by decide +kernel)
    (by decide +kernel) (by decide +kernel) (by decide +kernel) (by decide) (by decide) (by decide) (by decide)
  refine ⟨i, h1, ?_, ?_⟩
  · rw [show (0 : Nat) = (0 * 2 + 0) * 3 + 0 from rfl, h2 0 (by decide) 0 (by decide) 0 (by decide) _ rfl]; decide +kernel
  · rw [show (5 : Nat) = (0 * 2 + 1) * 3 + 2 from rfl, h2 0 (by decide) 1 (by decide) 2 (by decide) _ rfl]; decide +kernel

theorem whole_byte : ∀ b < 9, ∀ s < 33, ∀ j < 4, (2 ^ b - 1) * 2 ^ s = 0xff * 2 ^ (8 * j) → b = 8 ∧ s = 8 * j := by decide +kernel

theorem le32_byte (file : List UInt8) (k j : Nat) (hj : j < 4) : le32 file k / 2 ^ (8 * j) % 2 ^ 8 = (byteAt file (k + j)).toNat := by
  have h0 := (byteAt file k).toNat_lt
  have h1 := (byteAt file (k + 1)).toNat_lt
  have h2 := (byteAt file (k + 2)).toNat_lt
  have h3 := (byteAt file (k + 3)).toNat_lt
  rw [le32, le16, le16]
  rcases (by omega : j = 0 ∨ j = 1 ∨ j = 2 ∨ j = 3) with rfl | rfl | rfl | rfl
  · simp only [Nat.add_zero]; omega
  · omega
  · omega
  · rw [show k + 2 + 1 = k + 3 by omega]; omega

/-- **C158** (what holds) A file of 16 or 32 bits per pixel whose header has 108 bytes is read by the masks of the header, for every width and height, and has a fourth channel
if and only if the header has a mask for it. -/
theorem C158_long (room w h n bpp : Nat) (s b : Nat → Nat) (file : List UInt8) (hf : Starts file 108)
    (hc : le32 file 30 ≠ 1 ∧ le32 file 30 ≠ 2) (hbpp : le16 file 28 = bpp) (hb : bpp = 16 ∨ bpp = 32) (ho : le32 file 10 = 122)
    (hn : n = if le32 file 66 = 0 then 3 else 4)
    (hm : ∀ c < n, le32 file (54 + 4 * c) = (2 ^ b c - 1) * 2 ^ s c ∧ 1 ≤ b c ∧ b c ≤ 8 ∧ s c + b c ≤ 32) (hw : le32 file 18 = w)
    (hh : int32 (le32 file 22) = h ∨ int32 (le32 file 22) = -h) (hlt : h < 2 ^ 31) (hx : n * w < 2 ^ 31) (hsize : n * w * h < 2 ^ 31)
    (hroom : n * w * h ≤ room) :
    ∃ i, loadBmp room file = .ok i ∧ i.x = w ∧ i.y = h ∧ i.n = n ∧ i.out.size = n * w * h ∧
      ∀ Y < h, ∀ X < w, ∀ c < n, ∀ k v,
        k = 122 + (w * bpp + 31) / 32 * 4 * (if 0 < int32 (le32 file 22) then h - 1 - Y else Y) + bpp / 8 * X →
        v = (if bpp = 16 then le16 file k else le32 file k) →
        load i.out ((Y * w + X) * n + c) = .ok (UInt8.ofNat (min 255 (256 * (v / 2 ^ s c % 2 ^ b c) / (2 ^ b c - 1)))) := by
  subst hbpp
  have hlen := hf.long
  have hn34 : n = 3 ∨ n = 4 := by rw [hn]; split <;> simp
  obtain ⟨r, hr, hhd⟩ := header_at hf (by omega) hc
  rw [loadBmp, if_neg (by omega), hhd, if_neg (by omega)]
  obtain ⟨r', e0, e1⟩ := long_ok (info := { bpp := le16 file 28, offset := le32 file 10, hsz := 108, x := le32 file 18, y := le32 file 22 })
    hr hlen (Or.inl rfl)
  rw [e0, Outcome.bind_ok]
  by_cases he : le16 file 28 = 32 ∧ le32 file 62 = 0xff ∧ le32 file 58 = 0xff00 ∧ le32 file 54 = 0xff0000 ∧ le32 file 66 = 0xff000000
  · obtain ⟨he1, he2, he3, he4, he5⟩ := he
    have hn4 : n = 4 := by rw [hn, if_neg (by omega)]
    subst hn4
    obtain ⟨m, g0, g1, g2⟩ := bmpLoad_easy (n := 4) (room := room) (file := file) (r := r') (four := true)
      (info := { bpp := le16 file 28, offset := le32 file 10, hsz := 108, x := le32 file 18, y := le32 file 22, mr := le32 file 54, mg := le32 file 58, mb := le32 file 62, ma := le32 file 66 })
      (by simp only; rw [ho]; exact e1) (by simp only; omega) (by simp only; omega) (by simp only; omega) (by simp only; omega)
      (by simp only; exact ne_min hh hlt) (Or.inr ⟨he1, he2, he3, he4, he5, rfl⟩) (by simp only; rw [if_neg (by omega), if_pos (by omega)]) (by simp only; omega)
      (by simp only; rw [natAbs_of hh, hw]; exact hsize) (by simp only; rw [natAbs_of hh, hw]; exact hroom)
    simp only [natAbs_of hh, hw, ho, if_true] at g0 g1 g2
    simp only [hw, ho]
    refine ⟨_, g0, rfl, rfl, rfl, g1, fun Y hY X hX c hc k v hk hv => ?_⟩
    have g3 := g2 Y hY X hX c hc
    rw [if_neg (fun h => by omega)] at g3
    rw [he1, show (w * 32 + 31) / 32 * 4 = 4 * w + 0 by omega] at hk
    rw [← hk] at g3
    have hcm := hm c hc
    obtain ⟨j, hj, hj1, hj2⟩ : ∃ j < 4, le32 file (54 + 4 * c) = 0xff * 2 ^ (8 * j) ∧ pixelAt true file k c = byteAt file (k + j) := by
      rcases (by omega : c = 0 ∨ c = 1 ∨ c = 2 ∨ c = 3) with rfl | rfl | rfl | rfl
      · exact ⟨2, by omega, he4.trans (by decide), rfl⟩
      · exact ⟨1, by omega, he3.trans (by decide), rfl⟩
      · exact ⟨0, by omega, he2.trans (by decide), rfl⟩
      · exact ⟨3, by omega, he5.trans (by decide), rfl⟩
    obtain ⟨hb8, hs8⟩ := whole_byte (b c) (by omega) (s c) (by omega) j hj (by rw [← hcm.1, hj1])
    rw [if_neg (by omega)] at hv
    rw [hb8, hs8, hv, le32_byte file k j hj]
    rw [hj2] at g3
    have h255 := (byteAt file (k + j)).toNat_lt
    have e : min 255 (256 * (byteAt file (k + j)).toNat / (2 ^ 8 - 1)) = (byteAt file (k + j)).toNat := by omega
    rw [e, UInt8.ofNat_toNat]
    exact load_ok (insideOf g1 hY hX hc) g3
  · have hma : le32 file 66 = ((if le32 file 66 = 0 then none else some (s 3, b 3)).map fieldMask).getD 0 ∧
        ∀ q ∈ (if le32 file 66 = 0 then none else some (s 3, b 3)), IsField q := by
      by_cases h66 : le32 file 66 = 0
      · rw [if_pos h66]
        exact ⟨h66, fun _ h => nomatch h⟩
      · rw [if_neg h66]
        have h3 := hm 3 (by rw [hn, if_neg h66]; omega)
        refine ⟨h3.1, fun q hq => ?_⟩
        cases hq
        exact h3.2
    obtain ⟨m, g0, g1, g2⟩ := bmpLoad_masks (n := n) (room := room) (file := file) (r := r') (fr := (s 0, b 0)) (fg := (s 1, b 1)) (fb := (s 2, b 2))
      (fa := if le32 file 66 = 0 then none else some (s 3, b 3))
      (info := { bpp := le16 file 28, offset := le32 file 10, hsz := 108, x := le32 file 18, y := le32 file 22, mr := le32 file 54, mg := le32 file 58, mb := le32 file 62, ma := le32 file 66 })
      (by simp only; rw [ho]; exact e1) (by simp only; omega) (by simp only; omega) (by simp only; omega) (by simp only; omega)
      (by simp only; exact ne_min hh hlt) hb ⟨hm 0 (by omega), hm 1 (by omega), hm 2 (by omega), hma⟩ he (by simp)
      (by simp only; rw [hn]; by_cases h0 : le32 file 66 = 0 <;> simp [h0]) (by simp only; rw [hw]; exact hx)
      (by simp only; rw [natAbs_of hh, hw]; exact hsize) (by simp only; rw [natAbs_of hh, hw]; exact hroom)
    simp only [natAbs_of hh, hw, ho] at g0 g1 g2
    simp only [hw, ho]
    refine ⟨_, g0, rfl, rfl, rfl, g1, fun Y hY X hX c hc k v hk hv => ?_⟩
    have g3 := g2 Y hY X hX c hc
    rw [← hk, wordAt, ← hv] at g3
    refine load_ok (insideOf g1 hY hX hc) ?_
    rw [g3]
    by_cases hc3 : c < 3
    · rw [maskSample_of (fun c => (s c, b c)) _ _ _ hc3]; rfl
    · have : c = 3 := by omega
      subst this
      have h66 : le32 file 66 ≠ 0 := fun h0 => by rw [if_pos h0] at hn; omega
      rw [if_neg h66]; rfl

/-- one pixel of 16 bits, four for each of four channels -/
private def longFile : List UInt8 :=
  [66, 77, 126, 0, 0, 0, 0, 0, 0, 0, 122, 0, 0, 0, 108, 0, 0, 0, 1, 0, 0, 0, 1, 0, 0, 0, 1, 0, 16, 0, 3, 0, 0, 0, 0, 0, 0, 0, 0, 0, 0, 0, 0, 0,
    0, 0, 0, 0, 0, 0, 0, 0, 0, 0, 0, 15, 0, 0, 240, 0, 0, 0, 15, 0, 0, 0, 0, 240, 0, 0] ++ List.replicate 52 0 ++ [0x34, 0x12, 0, 0]

example : ∃ i, loadBmp 100 longFile = .ok i ∧ load i.out 0 = .ok 0x22 ∧ load i.out 3 = .ok 0x11 := by
  obtain ⟨i, h1, _, _, _, _, h2⟩ := C158_long 100 1 1 4 16 (fun c => if c = 0 then 8 else if c = 1 then 4 else if c = 2 then 0 else 12) (fun _ => 4) longFile
    ⟨by decide +kernel, by decide +kernel, by decide +kernel, by decide +kernel, by decide +kernel⟩ (by decide +kernel) (by decide +kernel)
    (by decide) (by decide +kernel) (by decide +kernel) (by decide +kernel) (by decide +kernel) (by decide +kernel) (by decide) (by decide) (by decide) (by decide)
  refine ⟨i, h1, ?_, ?_⟩
  · rw [show (0 : Nat) = (0 * 1 + 0) * 4 + 0 from rfl, h2 0 (by decide) 0 (by decide) 0 (by decide) _ _ rfl rfl]; decide +kernel
  · rw [show (3 : Nat) = (0 * 1 + 0) * 4 + 3 from rfl, h2 0 (by decide) 0 (by decide) 3 (by decide) _ _ rfl rfl]; decide +kernel

/-- **C158** (what holds) A file of 24 bits per pixel whose header has 108 bytes and a mask for alpha other than the upper eight bits of 32 is read with four channels though its
pixels have three: the fourth is 255. -/
theorem C158_channels (room w h : Nat) (file : List UInt8) (hf : Starts file 108) (hc : le32 file 30 ≠ 1 ∧ le32 file 30 ≠ 2)
    (hb : le16 file 28 = 24) (ho : le32 file 10 = 122) (hm : le32 file 66 ≠ 0 ∧ le32 file 66 ≠ 0xff000000) (hw : le32 file 18 = w)
    (hh : int32 (le32 file 22) = h ∨ int32 (le32 file 22) = -h) (hlt : h < 2 ^ 31) (hx : 4 * w < 2 ^ 31) (hsize : 4 * w * h < 2 ^ 31)
    (hroom : 4 * w * h ≤ room) :
    ∃ i, loadBmp room file = .ok i ∧ i.x = w ∧ i.y = h ∧ i.n = 4 ∧ i.out.size = 4 * w * h ∧
      ∀ Y < h, ∀ X < w,
        (∀ c < 3, load i.out ((Y * w + X) * 4 + c) =
          .ok (file.getD (122 + (24 * w + 31) / 32 * 4 * (if 0 < int32 (le32 file 22) then h - 1 - Y else Y) + 3 * X + (2 - c)) 0)) ∧
        load i.out ((Y * w + X) * 4 + 3) = .ok 255 := by
  have hlen := hf.long
  obtain ⟨r, hr, hhd⟩ := header_at hf (by omega) hc
  rw [loadBmp, if_neg (by omega), hhd, if_neg (by omega)]
  obtain ⟨r', e0, e1⟩ := long_ok (info := { bpp := le16 file 28, offset := le32 file 10, hsz := 108, x := le32 file 18, y := le32 file 22 })
    hr hlen (Or.inl rfl)
  rw [e0, Outcome.bind_ok]
  obtain ⟨m, g0, g1, g2⟩ := bmpLoad_easy (n := 4) (room := room) (file := file) (r := r') (four := false)
    (info := { bpp := le16 file 28, offset := le32 file 10, hsz := 108, x := le32 file 18, y := le32 file 22, mr := le32 file 54, mg := le32 file 58, mb := le32 file 62, ma := le32 file 66 })
    (by simp only; rw [ho]; exact e1) (by simp only; omega) (by simp only; omega) (by simp only; omega) (by simp only; omega)
    (by simp only; exact ne_min hh hlt) (Or.inl ⟨hb, rfl⟩) (by simp only; rw [if_neg (by omega), if_pos (by omega)]) (by simp only; omega)
    (by simp only; rw [natAbs_of hh, hw]; exact hsize) (by simp only; rw [natAbs_of hh, hw]; exact hroom)
  simp only [natAbs_of hh, hw, ho, Bool.false_eq_true, if_false] at g0 g1 g2
  simp only [hw, ho]
  refine ⟨_, g0, rfl, rfl, rfl, g1, fun Y hY X hX => ⟨fun c hc => ?_, ?_⟩⟩
  · have g3 := g2 Y hY X hX c (by omega)
    rw [if_neg (by omega), pixelAt, if_neg (by omega), byteAt, show 3 * w + padOf (3 * w) = (24 * w + 31) / 32 * 4 by rw [padOf]; omega] at g3
    exact load_ok (insideOf g1 hY hX (by omega)) g3
  · have g3 := g2 Y hY X hX 3 (by omega)
    rw [if_neg (by omega), pixelAt, if_pos rfl] at g3
    exact load_ok (insideOf g1 hY hX (by omega)) g3

example : ∃ i, loadBmp 100 (longFile.set 28 24) = .ok i ∧ load i.out 2 = .ok 0x34 ∧ load i.out 3 = .ok 255 := by
  obtain ⟨i, h1, _, _, _, _, h2⟩ := C158_channels 100 1 1 (longFile.set 28 24)
    ⟨by decide +kernel, by decide +kernel, by decide +kernel, by decide +kernel, by decide +kernel⟩ (by decide +kernel) (by decide +kernel)
    (by decide +kernel) (by decide +kernel) (by decide +kernel) (by decide +kernel) (by decide) (by decide) (by decide) (by decide)
  refine ⟨i, h1, ?_, (h2 0 (by decide) 0 (by decide)).2⟩
  rw [show (2 : Nat) = (0 * 1 + 0) * 4 + 2 from rfl, (h2 0 (by decide) 0 (by decide)).1 2 (by decide)]; decide +kernel

/-- **C158** (what holds) A file of 1, 4 or 8 bits per pixel with a palette whose header has 108 or 124 bytes is read in the same way as with a shorter header; it has four
channels if the header has a mask for alpha, and the fourth is 255. -/
theorem C158_palette_long (room w h hsz size bpp n : Nat) (file : List UInt8) (hf : Starts file hsz) (hs : hsz = 108 ∨ hsz = 124)
    (hc : le32 file 30 ≠ 1 ∧ le32 file 30 ≠ 2) (hbpp : le16 file 28 = bpp) (hb : bpp = 1 ∨ bpp = 4 ∨ bpp = 8) (hp : 0 < size ∧ size ≤ 256)
    (hn : n = if le32 file 66 = 0 then 3 else 4)
    (ho : le32 file 10 = 14 + hsz + 4 * size) (hw : le32 file 18 = w) (hw0 : 0 < w)
    (hh : int32 (le32 file 22) = h ∨ int32 (le32 file 22) = -h) (hlt : h < 2 ^ 31) (hx : n * w < 2 ^ 31) (hsize : n * w * h < 2 ^ 31)
    (hroom : n * w * h ≤ room) : ∃ i, loadBmp room file = .ok i ∧ i.x = w ∧ i.y = h ∧ i.n = n ∧ i.out.size = n * w * h ∧
      ∀ Y < h, ∀ X < w, (n = 4 → load i.out ((Y * w + X) * n + 3) = .ok 255) ∧ ∀ c < 3, ∀ e,
        (file.getD (14 + hsz + 4 * size + (w * bpp + 31) / 32 * 4 * (if 0 < int32 (le32 file 22) then h - 1 - Y else Y) + X * bpp / 8) 0).toNat /
          2 ^ (8 - bpp - X * bpp % 8) % 2 ^ bpp = e →
        (e < size → load i.out ((Y * w + X) * n + c) = .ok (file.getD (14 + hsz + 4 * e + (2 - c)) 0)) ∧
        (size ≤ e → load i.out ((Y * w + X) * n + c) = .ub) := by
  subst hbpp
  have hlen := hf.long
  have hn34 : n = 3 ∨ n = 4 := by rw [hn]; split <;> simp
  obtain ⟨r, hr, hhd⟩ := header_at hf (by omega) hc
  rw [loadBmp, if_neg (by omega), hhd, if_neg (by omega)]
  obtain ⟨r', e0, e1⟩ := long_ok (info := { bpp := le16 file 28, offset := le32 file 10, hsz := hsz, x := le32 file 18, y := le32 file 22 })
    hr hlen hs
  rw [e0, Outcome.bind_ok]
  obtain ⟨m, g0, g1, g2⟩ := bmpLoad_indexed (n := n) (room := room) (file := file) (r := r') (k := 14 + hsz) (size := size)
    (info := { bpp := le16 file 28, offset := le32 file 10, hsz := hsz, x := le32 file 18, y := le32 file 22, mr := le32 file 54, mg := le32 file 58, mb := le32 file 62, ma := le32 file 66 })
    e1.all rfl (by omega)
    (by simp only; omega) hp ho hb (by simp only; omega) (by simp only; exact ne_min hh hlt) rfl
    (by simp only; rw [hn]; by_cases h0 : le32 file 66 = 0 <;> simp [h0]) (by simp only; rw [hw]; exact hx)
    (by simp only; rw [natAbs_of hh, hw]; exact hsize) (by simp only; rw [natAbs_of hh, hw]; exact hroom)
  simp only [natAbs_of hh, hw, ho] at g0 g1 g2
  simp only [hw, ho]
  refine ⟨_, g0, rfl, rfl, rfl, g1, fun Y hY X hX => ⟨fun h4 => ?_, fun c hc e he => ?_⟩⟩
  · have h4' := g2 Y hY X hX 3 (by omega)
    rw [colourAt, if_pos rfl] at h4'
    exact load_ok (insideOf g1 hY hX (by omega)) h4'
  · have h4 := g2 Y hY X hX c (by omega)
    rw [indexAt, byteAt, he, colourAt, if_neg (by omega)] at h4
    refine ⟨fun hlt => ?_, fun hge => ?_⟩
    · rw [if_pos hlt] at h4
      exact load_ok (insideOf g1 hY hX (by omega)) h4
    · rw [if_neg (by omega)] at h4
      rw [load, if_pos (insideOf g1 hY hX (by omega)), h4]

/-- two colours, one row of two pixels, version 5 -/
private def palLongFile : List UInt8 :=
  [66, 77, 150, 0, 0, 0, 0, 0, 0, 0, 146, 0, 0, 0, 124, 0, 0, 0, 2, 0, 0, 0, 1, 0, 0, 0, 1, 0, 1, 0] ++ List.replicate 39 0 ++ [255] ++ List.replicate 68 0 ++
    [1, 2, 3, 0, 4, 5, 6, 0, 64, 0, 0, 0]

example : ∃ i, loadBmp 100 palLongFile = .ok i ∧ load i.out 3 = .ok 255 ∧ load i.out 4 = .ok 6 := by
  obtain ⟨i, h1, _, _, _, _, h2⟩ := C158_palette_long 100 2 1 124 2 1 4 palLongFile
    ⟨by decide +kernel, by decide +kernel, by decide +kernel, by decide +kernel, by decide +kernel⟩ (by decide) (by decide +kernel) (by decide +kernel)
    (by decide) (by decide) (by decide +kernel) (by decide +kernel) (by decide +kernel) (by decide) (by decide +kernel) (by decide) (by decide) (by decide) (by decide)
  exact ⟨i, h1, (h2 0 (by decide) 0 (by decide)).1 rfl, ((h2 0 (by decide) 1 (by decide)).2 0 (by decide) 1 (by decide +kernel)).1 (by decide)⟩

/-- **C158** (what holds) What is refused: a header of another size, other than one plane, compression by run lengths, 16 or 32 bits with another compression, and 16 or 32 bits
with three equal masks. -/
theorem C158_refused (room hsz : Nat) (file : List UInt8) (hb : file.getD 0 0 = 66) (hm : file.getD 1 0 = 77) (hs : le32 file 14 = hsz) (hlen : 18 ≤ file.length) :
    (hsz ≠ 12 → hsz ≠ 40 → hsz ≠ 56 → hsz ≠ 108 → hsz ≠ 124 → ∃ e, loadBmp room file = .throws e) ∧
    (hsz = 40 ∨ hsz = 56 ∨ hsz = 108 ∨ hsz = 124 → 14 + hsz ≤ file.length →
      (le16 file 26 ≠ 1 → ∃ e, loadBmp room file = .throws e) ∧
      (le32 file 30 = 1 ∨ le32 file 30 = 2 → ∃ e, loadBmp room file = .throws e) ∧
      (hsz = 40 ∨ hsz = 56 → le16 file 28 = 16 ∨ le16 file 28 = 32 → le32 file 30 ≠ 0 → le32 file 30 ≠ 3 → ∃ e, loadBmp room file = .throws e) ∧
      (hsz = 40 ∨ hsz = 56 → 14 + hsz + 12 ≤ file.length → le16 file 28 = 16 ∨ le16 file 28 = 32 → le32 file 30 = 3 →
        le32 file (14 + hsz) = le32 file (14 + hsz + 4) → le32 file (14 + hsz + 4) = le32 file (14 + hsz + 8) → ∃ e, loadBmp room file = .throws e)) := by
  have hb' : byteAt file 0 = 66 := hb
  have hm' : byteAt file 1 = 77 := hm
  have h1 := rd8_at (start_at (file := file)) (by omega)
  have h2 := rd8_at h1.2 (by omega)
  have h3 := rdSkip_at 8 _ _ h2.2 (by omega)
  have h4 := rd32_at h3 (by omega)
  have h5 := rd32_at h4.2 (by omega)
  have e5 : (rd32 (rd32 (rdSkip 8 (rd8 (rd8 ⟨start file, 0⟩).2).2)).2).1 = hsz := by rw [h5.1]; exact hs
  rw [loadBmp, if_neg (by omega)]
  refine ⟨fun a1 a2 a3 a4 a5 => ?_, fun ha hl => ?_⟩
  · rw [bmpHeader]
    simp only [h1.1, hb', ne_eq, not_true_eq_false, if_false, h2.1, hm', e5]
    rw [if_pos ⟨a1, a2, a3, a4, a5⟩]
    exact ⟨_, rfl⟩
  · have h6 := rd32_at h5.2 (by omega)
    have h7 := rd32_at h6.2 (by omega)
    have h8 := rd16_at h7.2 (by omega)
    have h9 := rd16_at h8.2 (by omega)
    have h10 := rd32_at h9.2 (by omega)
    by_cases hp : le16 file 26 = 1
    · by_cases hc : le32 file 30 = 1 ∨ le32 file 30 = 2
      · have : ∃ e, (bmpHeader ⟨start file, 0⟩ >>= fun h => bmpLoad room h.1 h.2) = .throws e := by
          rw [bmpHeader]
          simp only [h1.1, hb', ne_eq, not_true_eq_false, if_false, h2.1, hm', e5, if_neg (show ¬ hsz = 12 by omega)]
          rw [if_neg (by omega)]
          simp only [h8.1, Nat.reduceAdd, hp, not_true_eq_false, if_false, h10.1]
          rw [if_pos (by omega), if_pos hc]
          exact ⟨_, rfl⟩
        exact ⟨fun h => absurd hp h, fun _ => this, fun _ _ _ _ => this, fun _ _ _ _ _ _ => this⟩
      · obtain ⟨r, hr, hhd⟩ := header_at (hsz := hsz) (file := file) ⟨hb', hm', hs, hl, by rw [if_neg (by omega)]; exact hp⟩ ha (by omega)
        rw [hhd]
        refine ⟨fun h => absurd hp h, fun h => absurd h hc, fun h40 hb h0 h3 => ?_, fun h40 hl2 hb hc3 q1 q2 => ?_⟩
        · rw [if_pos h40, bmpMasks]
          simp only
          rw [if_pos hb, if_neg h0, if_neg h3]
          exact ⟨_, rfl⟩
        · have k0 : (if hsz = 56 then rdSkip 16 r else r).At file (14 + hsz) := by
            rcases h40 with h | h
            · rw [h, if_neg (by omega)]; exact hr
            · rw [h, if_pos rfl]; exact rdSkip_at 16 54 _ hr (by omega)
          have k1 := rd32_at k0 (by omega)
          have k2 := rd32_at k1.2 (by omega)
          have k3 := rd32_at k2.2 (by omega)
          rw [if_pos h40, hc3, bmpMasks]
          simp only [k1.1, k2.1, k3.1]
          rw [if_pos hb, if_neg (by omega), if_pos trivial, if_pos ⟨q1, q2⟩]
          exact ⟨_, rfl⟩
    · have : ∃ e, (bmpHeader ⟨start file, 0⟩ >>= fun h => bmpLoad room h.1 h.2) = .throws e := by
        rw [bmpHeader]
        simp only [h1.1, hb', ne_eq, not_true_eq_false, if_false, h2.1, hm', e5, if_neg (show ¬ hsz = 12 by omega)]
        rw [if_neg (by omega)]
        simp only [h8.1, Nat.reduceAdd, hp, not_false_eq_true, if_true]
        exact ⟨_, rfl⟩
      exact ⟨fun _ => this, fun _ => this, fun _ _ _ _ => this, fun _ _ _ _ _ _ => this⟩

example : ∃ e, loadBmp 100 (sixteenFile.set 30 1) = .throws e :=
  ((C158_refused 100 40 (sixteenFile.set 30 1) (by decide) (by decide) (by decide +kernel) (by decide)).2 (by decide) (by decide)).2.1 (by decide +kernel)

/-- **C158** (what holds) Other numbers of bits per pixel below 16 than 1, 4 and 8 are refused, whatever the palette. -/
theorem C158_bits (room h hsz size : Nat) (file : List UInt8) (hf : Starts file hsz) (hs : hsz = 40 ∨ hsz = 56)
    (hc : le32 file 30 ≠ 1 ∧ le32 file 30 ≠ 2) (hb : le16 file 28 < 16 ∧ le16 file 28 ≠ 1 ∧ le16 file 28 ≠ 4 ∧ le16 file 28 ≠ 8)
    (hp : 0 < size ∧ size < 2 ^ 20) (ho : le32 file 10 = 14 + hsz + 4 * size)
    (hh : int32 (le32 file 22) = h ∨ int32 (le32 file 22) = -h) (hlt : h < 2 ^ 31) : ∃ e, loadBmp room file = .throws e := by
  have hlen := hf.long
  obtain ⟨r, hr, hhd⟩ := header_at hf (by omega) hc
  rw [loadBmp, if_neg (by omega), hhd, if_pos hs]
  obtain ⟨r', e0, e1⟩ := masks_none (info := { bpp := le16 file 28, offset := le32 file 10, hsz := hsz, x := le32 file 18, y := le32 file 22 })
    (c := le32 file 30) hr hlen hs (by simp only; omega)
  rw [e0, Outcome.bind_ok]
  have hoff : int32 (le32 file 10) = (le32 file 10 : Nat) := int32_small (by omega)
  have hps : paletteSize { bpp := le16 file 28, offset := le32 file 10, hsz := hsz, x := le32 file 18, y := le32 file 22 } = .ok (size : Int) := by
    rw [paletteSize, if_neg (by simp only; omega), if_pos (by simp only; omega), i32, if_pos (by simp only; rw [hoff]; omega), Outcome.bind_ok]
    simp only
    congr 1
    rw [hoff]; omega
  rw [bmpLoad, if_neg (ne_min hh hlt), hps]
  simp only [Outcome.bind_ok]
  rw [if_neg (by omega)]
  simp only [show ¬ (le16 file 28 = 24 ∧ (0 : Nat) = 0xff000000) by omega, ne_eq, not_true_eq_false, if_false]
  split
  · exact ⟨_, rfl⟩
  split
  · exact ⟨_, rfl⟩
  rw [if_pos hb.1, bmpIndexed]
  split
  · exact ⟨_, rfl⟩
  simp only
  rw [i32, if_pos (by rw [hoff]; omega), Outcome.bind_ok, if_neg (by omega), i32, if_pos (by rw [hoff]; omega), Outcome.bind_ok]
  rw [if_neg hb.2.1, if_neg hb.2.2.1, if_neg hb.2.2.2]
  exact ⟨_, rfl⟩

example : ∃ e, loadBmp 100 ([66, 77, 66, 0, 0, 0, 0, 0, 0, 0, 62, 0, 0, 0, 40, 0, 0, 0, 2, 0, 0, 0, 1, 0, 0, 0, 1, 0, 2, 0] ++ List.replicate 36 0) = .throws e :=
  C158_bits 100 1 40 2 _ ⟨by decide +kernel, by decide +kernel, by decide +kernel, by decide +kernel, by decide +kernel⟩ (by decide) (by decide +kernel)
    (by decide +kernel) (by decide) (by decide +kernel) (by decide +kernel) (by decide)

end Verif.Png
