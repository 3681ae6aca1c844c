import Verif.Png.BmpAny

/-! # Properties of reading BMP files -/

namespace Verif.Png

/-! ## C158: BMP files -/

/-- a file of a header of 40 bytes and two rows of two pixels, the lower one first -/
private def fourFile : List UInt8 :=
  [66, 77, 70, 0, 0, 0, 0, 0, 0, 0, 54, 0, 0, 0, 40, 0, 0, 0, 2, 0, 0, 0, 2, 0, 0, 0, 1, 0, 24, 0, 0, 0, 0, 0, 0, 0, 0, 0, 0, 0, 0, 0, 0, 0,
    0, 0, 0, 0, 0, 0, 0, 0, 0, 0, 1, 2, 3, 4, 5, 6, 0, 0, 7, 8, 9, 10, 11, 12, 0, 0]

private theorem fourFile_starts : Starts fourFile 40 := ⟨by decide +kernel, by decide +kernel, by decide +kernel, by decide +kernel, by decide +kernel⟩

theorem int32_le32_ne {file : List UInt8} {k v : Nat} (hv : v < 2 ^ 31) : int32 (le32 file k) = v ↔ le32 file k = v := by
  have := le32_lt file k
  rw [int32, Nat.mod_eq_of_lt this]
  split <;> omega

theorem natAbs_of {a : Int} {h : Nat} (hh : a = h ∨ a = -h) : a.natAbs = h := by omega

theorem ne_min {file : List UInt8} {k h : Nat} (hh : int32 (le32 file k) = h ∨ int32 (le32 file k) = -h) (hlt : h < 2 ^ 31) : le32 file k ≠ 2 ^ 31 := by
  intro h'
  rw [h', show int32 (2 ^ 31) = -2 ^ 31 from by decide] at hh
  omega

/-- **C158** (what holds) A BMP file of 24 bits per pixel whose header has 40, 56 or 108 bytes and is followed by the pixels is read, for every width and height:
each sample is the byte of the file for its row, column and colour, with rows that are filled up to a multiple of four bytes and come from the bottom up unless the
height is negative. -/
theorem C158_read (room w h hsz : Nat) (file : List UInt8) (hf : Starts file hsz) (hs : hsz = 40 ∨ hsz = 56 ∨ hsz = 108)
    (hc : le32 file 30 ≠ 1 ∧ le32 file 30 ≠ 2) (hb : le16 file 28 = 24) (ho : le32 file 10 = 14 + hsz)
    (hm : hsz = 108 → le32 file 66 = 0 ∨ le32 file 66 = 0xff000000) (hw : le32 file 18 = w)
    (hh : int32 (le32 file 22) = h ∨ int32 (le32 file 22) = -h) (hlt : h < 2 ^ 31) (hx : 3 * w < 2 ^ 31) (hsize : 3 * w * h < 2 ^ 31)
    (hroom : 3 * w * h ≤ room) :
    ∃ i, loadBmp room file = .ok i ∧ i.x = w ∧ i.y = h ∧ i.n = 3 ∧ i.out.size = w * h * 3 ∧
      ∀ Y < h, ∀ X < w, ∀ c < 3, load i.out ((Y * w + X) * 3 + c) =
        .ok (file.getD (14 + hsz + (24 * w + 31) / 32 * 4 * (if 0 < int32 (le32 file 22) then h - 1 - Y else Y) + 3 * X + (2 - c)) 0) := by
  have hlen := hf.long
  obtain ⟨r, hr, hhd⟩ := header_at hf (by omega) hc
  rw [loadBmp, if_neg (by omega), hhd]
  have key : ∀ (ma mr mg mb : Nat) (r' : Rd), r'.At file (14 + hsz) → (ma = 0 ∨ ma = 0xff000000) →
      ∃ i, bmpLoad room { bpp := le16 file 28, offset := le32 file 10, hsz := hsz, x := le32 file 18, y := le32 file 22, ma := ma, mr := mr, mg := mg, mb := mb } r' =
          .ok i ∧ i.x = w ∧ i.y = h ∧ i.n = 3 ∧ i.out.size = w * h * 3 ∧
      ∀ Y < h, ∀ X < w, ∀ c < 3, load i.out ((Y * w + X) * 3 + c) =
        .ok (file.getD (14 + hsz + (24 * w + 31) / 32 * 4 * (if 0 < int32 (le32 file 22) then h - 1 - Y else Y) + 3 * X + (2 - c)) 0) := by
    intro ma mr mg mb r' hr' hma
    obtain ⟨m, g0, g1, g2⟩ := bmpLoad_easy (n := 3) (room := room) (file := file) (four := false) (r := r')
      (info := { bpp := le16 file 28, offset := le32 file 10, hsz := hsz, x := le32 file 18, y := le32 file 22, ma := ma, mr := mr, mg := mg, mb := mb })
      (by simp only; rw [ho]; exact hr') (by simp only; omega) (by simp only; omega) (by simp only; omega) (by simp only; omega)
      (by simp only; exact ne_min hh hlt) (Or.inl ⟨hb, rfl⟩) (by simp only; rcases hma with e | e <;> simp [e, hb]) (by simp only; omega)
      (by simp only; rw [natAbs_of hh, hw]; exact hsize) (by simp only; rw [natAbs_of hh, hw]; exact hroom)
    simp only [natAbs_of hh, hw, ho, Bool.false_eq_true, if_false] at g0 g1 g2
    simp only [hw, ho]
    refine ⟨_, g0, rfl, rfl, rfl, by simp only; rw [g1]; ring, fun Y hY X hX c hc => ?_⟩
    have g3 := g2 Y hY X hX c hc
    rw [if_neg (by omega), pixelAt, if_neg (by omega), byteAt, show 3 * w + padOf (3 * w) = (24 * w + 31) / 32 * 4 by rw [padOf]; omega] at g3
    refine load_ok ?_ g3
    simp only
    rw [g1]
    have e1 : (Y + 1) * w ≤ h * w := Nat.mul_le_mul_right _ hY
    rw [Nat.add_mul, Nat.one_mul] at e1
    have e2 : 3 * w * h = 3 * (h * w) := by ring
    omega
  rcases (by omega : (hsz = 40 ∨ hsz = 56) ∨ hsz = 108) with h' | h'
  · rw [if_pos h']
    obtain ⟨r', e0, e1⟩ := masks_none (info := { bpp := le16 file 28, offset := le32 file 10, hsz := hsz, x := le32 file 18, y := le32 file 22 })
      (c := le32 file 30) hr hlen h' (by simp only; omega)
    rw [e0, Outcome.bind_ok]
    exact key 0 0 0 0 r' e1 (Or.inl rfl)
  · rw [if_neg (by omega)]
    obtain ⟨r', e0, e1⟩ := long_ok (info := { bpp := le16 file 28, offset := le32 file 10, hsz := hsz, x := le32 file 18, y := le32 file 22 })
      hr hlen (Or.inl h')
    rw [e0, Outcome.bind_ok]
    exact key _ _ _ _ r' e1 (hm h')

example : ∃ i, loadBmp 100 fourFile = .ok i ∧ i.x = 2 ∧ i.y = 2 ∧ i.n = 3 ∧ i.out.size = 2 * 2 * 3 ∧
    ∀ Y < 2, ∀ X < 2, ∀ c < 3, load i.out ((Y * 2 + X) * 3 + c) = .ok (fourFile.getD (14 + 40 + (24 * 2 + 31) / 32 * 4 *
      (if 0 < int32 (le32 fourFile 22) then 2 - 1 - Y else Y) + 3 * X + (2 - c)) 0) :=
  C158_read 100 2 2 40 fourFile fourFile_starts (by decide) (by decide +kernel) (by decide +kernel) (by decide +kernel) (by decide) (by decide +kernel)
    (by decide +kernel) (by decide) (by decide) (by decide) (by decide)

/-- **C158** (what does not hold) A file that has been cut off is not refused: if there is nothing behind the header the picture is black. -/
theorem C158_cut_fails (room w h hsz : Nat) (file : List UInt8) (hf : Starts file hsz) (hs : hsz = 40 ∨ hsz = 56) (hend : file.length = 14 + hsz)
    (hc : le32 file 30 ≠ 1 ∧ le32 file 30 ≠ 2) (hb : le16 file 28 = 24) (ho : le32 file 10 = 14 + hsz) (hw : le32 file 18 = w)
    (hh : int32 (le32 file 22) = h ∨ int32 (le32 file 22) = -h) (hlt : h < 2 ^ 31) (hx : 3 * w < 2 ^ 31) (hsize : 3 * w * h < 2 ^ 31)
    (hroom : 3 * w * h ≤ room) :
    ∃ i, loadBmp room file = .ok i ∧ i.x = w ∧ i.y = h ∧ ∀ Y < h, ∀ X < w, ∀ c < 3, load i.out ((Y * w + X) * 3 + c) = .ok 0 := by
  obtain ⟨i, h1, h2, h3, _, _, h4⟩ := C158_read room w h hsz file hf (by omega) hc hb ho (by omega) hw hh hlt hx hsize hroom
  refine ⟨i, h1, h2, h3, fun Y hY X hX c hc => ?_⟩
  rw [h4 Y hY X hX c hc, List.getD_eq_getElem?_getD, List.getElem?_eq_none (by omega)]
  rfl

example : ∃ i, loadBmp 100 (fourFile.take 54) = .ok i ∧ i.x = 2 ∧ i.y = 2 ∧
    ∀ Y < 2, ∀ X < 2, ∀ c < 3, load i.out ((Y * 2 + X) * 3 + c) = .ok 0 :=
  C158_cut_fails 100 2 2 40 (fourFile.take 54) ⟨by decide +kernel, by decide +kernel, by decide +kernel, by decide +kernel, by decide +kernel⟩ (by decide)
    (by decide +kernel) (by decide +kernel) (by decide +kernel) (by decide +kernel) (by decide +kernel)
    (by decide +kernel) (by decide) (by decide) (by decide) (by decide)

/-- **C158** (what does not hold) A file of 16 bits per pixel or more whose header has 124 bytes, which is what version 5 of the format has, fails an assertion, wherever
its pixels begin: the place is compared with the number of bytes taken from the buffer, and after 138 bytes the buffer of 128 bytes has been filled again. -/
theorem C158_version_fails (room : Nat) (file : List UInt8) (hf : Starts file 124) (hc : le32 file 30 ≠ 1 ∧ le32 file 30 ≠ 2) (hb : 16 ≤ le16 file 28)
    (ho : 138 ≤ le32 file 10) (hy : le32 file 22 ≠ 2 ^ 31) : loadBmp room file = .assertFail := by
  have hlen := hf.long
  obtain ⟨r, hr, hhd⟩ := header_at hf (by omega) hc
  rw [loadBmp, if_neg (by omega), hhd, if_neg (by omega)]
  obtain ⟨r', e0, e1⟩ := long_ok (info := { bpp := le16 file 28, offset := le32 file 10, hsz := 124, x := le32 file 18, y := le32 file 22 })
    hr hlen (Or.inr rfl)
  rw [e0, Outcome.bind_ok, bmpLoad, if_neg hy, paletteSize_none (by simp only; omega) hb]
  simp only [Outcome.bind_ok]
  refine if_pos ⟨trivial, fun h => ?_⟩
  rw [e1.pos (by omega)] at h
  have := (int32_le32_ne (file := file) (k := 10) (v := (14 + 124 - 1) % 128 + 1) (by omega)).1 h
  omega

/-- a file of version 5: one pixel of 24 bits -/
private def fiveFile : List UInt8 :=
  [66, 77, 142, 0, 0, 0, 0, 0, 0, 0, 138, 0, 0, 0, 124, 0, 0, 0, 1, 0, 0, 0, 1, 0, 0, 0, 1, 0, 24, 0] ++ List.replicate 108 0 ++ [1, 2, 3, 0]

example : loadBmp 100 fiveFile = .assertFail :=
  C158_version_fails 100 fiveFile ⟨by decide +kernel, by decide +kernel, by decide +kernel, by decide +kernel, by decide +kernel⟩ (by decide +kernel)
    (by decide +kernel) (by decide +kernel) (by decide +kernel)

/-- **C158** (what does not hold) The place of the pixels that the header gives is of no use for pictures of 24 bits per pixel: any other place than right behind the
header fails an assertion. -/
theorem C158_place_fails (room hsz : Nat) (file : List UInt8) (hf : Starts file hsz) (hs : hsz = 40 ∨ hsz = 56 ∨ hsz = 108)
    (hc : le32 file 30 ≠ 1 ∧ le32 file 30 ≠ 2) (hb : le16 file 28 = 24) (ho : le32 file 10 ≠ 14 + hsz) (hy : le32 file 22 ≠ 2 ^ 31) :
    loadBmp room file = .assertFail := by
  have hlen := hf.long
  obtain ⟨r, hr, hhd⟩ := header_at hf (by omega) hc
  rw [loadBmp, if_neg (by omega), hhd]
  have key : ∀ (ma mr mg mb : Nat) (r' : Rd), r'.At file (14 + hsz) →
      bmpLoad room { bpp := le16 file 28, offset := le32 file 10, hsz := hsz, x := le32 file 18, y := le32 file 22, ma := ma, mr := mr, mg := mg, mb := mb } r' = .assertFail := by
    intro ma mr mg mb r' hr'
    rw [bmpLoad, if_neg hy, paletteSize_none (by simp only; omega) (by simp only; omega)]
    simp only [Outcome.bind_ok]
    refine if_pos ⟨trivial, fun h => ?_⟩
    rw [hr'.pos (by omega)] at h
    have := (int32_le32_ne (file := file) (k := 10) (v := (14 + hsz - 1) % 128 + 1) (by omega)).1 h
    omega
  rcases (by omega : (hsz = 40 ∨ hsz = 56) ∨ hsz = 108) with h' | h'
  · rw [if_pos h']
    obtain ⟨r', e0, e1⟩ := masks_none (info := { bpp := le16 file 28, offset := le32 file 10, hsz := hsz, x := le32 file 18, y := le32 file 22 })
      (c := le32 file 30) hr hlen h' (by simp only; omega)
    rw [e0, Outcome.bind_ok]
    exact key 0 0 0 0 r' e1
  · rw [if_neg (by omega)]
    obtain ⟨r', e0, e1⟩ := long_ok (info := { bpp := le16 file 28, offset := le32 file 10, hsz := hsz, x := le32 file 18, y := le32 file 22 })
      hr hlen (Or.inl h')
    rw [e0, Outcome.bind_ok]
    exact key _ _ _ _ r' e1

example : loadBmp 100 (fourFile.set 10 56) = .assertFail :=
  C158_place_fails 100 40 (fourFile.set 10 56) ⟨by decide +kernel, by decide +kernel, by decide +kernel, by decide +kernel, by decide +kernel⟩
    (by decide) (by decide +kernel) (by decide +kernel) (by decide +kernel) (by decide +kernel)

/-- **C158** (what holds) A file of 32 bits per pixel without compression whose header has 40 or 56 bytes is read with four channels, and the fourth is the fourth byte
of the pixel; if it is 0 for all pixels, it is 255 for all pixels. -/
theorem C158_alpha (room w h hsz : Nat) (file : List UInt8) (hf : Starts file hsz) (hs : hsz = 40 ∨ hsz = 56)
    (hc : le32 file 30 = 0) (hb : le16 file 28 = 32) (ho : le32 file 10 = 14 + hsz) (hw : le32 file 18 = w)
    (hh : int32 (le32 file 22) = h ∨ int32 (le32 file 22) = -h) (hlt : h < 2 ^ 31) (hx : 4 * w < 2 ^ 31) (hsize : 4 * w * h < 2 ^ 31)
    (hroom : 4 * w * h ≤ room) :
    ∃ i, loadBmp room file = .ok i ∧ i.x = w ∧ i.y = h ∧ i.n = 4 ∧ i.out.size = w * h * 4 ∧
      ∀ Y < h, ∀ X < w,
        (∀ c < 3, load i.out ((Y * w + X) * 4 + c) =
          .ok (file.getD (14 + hsz + 4 * ((if 0 < int32 (le32 file 22) then h - 1 - Y else Y) * w + X) + (2 - c)) 0)) ∧
        load i.out ((Y * w + X) * 4 + 3) = .ok (if ∀ j < h, ∀ i < w, file.getD (14 + hsz + 4 * (j * w + i) + 3) 0 = 0 then 255
          else file.getD (14 + hsz + 4 * ((if 0 < int32 (le32 file 22) then h - 1 - Y else Y) * w + X) + 3) 0) := by
  have hlen := hf.long
  obtain ⟨r, hr, hhd⟩ := header_at hf (by omega) (by omega)
  rw [loadBmp, if_neg (by omega), hhd, if_pos hs, hc]
  obtain ⟨r', e0, e1⟩ := masks_32 (info := { bpp := le16 file 28, offset := le32 file 10, hsz := hsz, x := le32 file 18, y := le32 file 22 })
    hr hlen hs hb
  rw [e0, Outcome.bind_ok]
  obtain ⟨m, g0, g1, g2⟩ := bmpLoad_easy (n := 4) (room := room) (file := file) (four := true) (r := r')
    (info := { bpp := le16 file 28, offset := le32 file 10, hsz := hsz, x := le32 file 18, y := le32 file 22,
               mr := 0xff0000, mg := 0xff00, mb := 0xff, ma := 0xff000000, allA := 0 })
    (by simp only; rw [ho]; exact e1) (by simp only; omega) (by simp only; omega) (by simp only; omega) (by simp only; omega)
    (by simp only; exact ne_min hh hlt) (Or.inr ⟨hb, rfl, rfl, rfl, rfl, rfl⟩) (by simp [hb]) (by simp only; omega)
    (by simp only; rw [natAbs_of hh, hw]; exact hsize) (by simp only; rw [natAbs_of hh, hw]; exact hroom)
  simp only [natAbs_of hh, hw, ho, if_true, Nat.add_zero] at g0 g1 g2
  simp only [hw, ho]
  refine ⟨_, g0, rfl, rfl, rfl, by simp only; rw [g1]; ring, fun Y hY X hX => ?_⟩
  have hin : ∀ c < 4, (Y * w + X) * 4 + c < m.size := by
    intro c hc
    rw [g1]
    have e1 : (Y + 1) * w ≤ h * w := Nat.mul_le_mul_right _ hY
    rw [Nat.add_mul, Nat.one_mul] at e1
    have e2 : 4 * w * h = 4 * (h * w) := by ring
    omega
  have hpl : ∀ j i, 14 + hsz + 4 * w * j + 4 * i = 14 + hsz + 4 * (j * w + i) := fun j i => by ring
  refine ⟨fun c hc => ?_, ?_⟩
  · have g3 := g2 Y hY X hX c (by omega)
    rw [if_neg (by omega), pixelAt, if_neg (by omega), byteAt, hpl] at g3
    exact load_ok (hin c (by omega)) g3
  · have g3 := g2 Y hY X hX 3 (by omega)
    simp only [pixelAt, if_true, byteAt, hpl, true_and] at g3
    exact load_ok (hin 3 (by omega)) g3

/-- one row of two pixels of 32 bits; the second is transparent -/
private def alphaFile : List UInt8 :=
  [66, 77, 62, 0, 0, 0, 0, 0, 0, 0, 54, 0, 0, 0, 40, 0, 0, 0, 2, 0, 0, 0, 1, 0, 0, 0, 1, 0, 32, 0, 0, 0, 0, 0, 0, 0, 0, 0, 0, 0, 0, 0, 0, 0,
    0, 0, 0, 0, 0, 0, 0, 0, 0, 0, 1, 2, 3, 4, 5, 6, 7, 0]

example : ∃ i, loadBmp 100 alphaFile = .ok i ∧ load i.out 3 = .ok 4 ∧ load i.out 7 = .ok 0 := by
  obtain ⟨i, h1, _, _, _, _, h2⟩ := C158_alpha 100 2 1 40 alphaFile
    ⟨by decide +kernel, by decide +kernel, by decide +kernel, by decide +kernel, by decide +kernel⟩ (by decide) (by decide +kernel) (by decide +kernel)
    (by decide +kernel) (by decide +kernel) (by decide +kernel) (by decide) (by decide) (by decide) (by decide)
  refine ⟨i, h1, ?_, ?_⟩
  · rw [show (3 : Nat) = (0 * 2 + 0) * 4 + 3 from rfl, (h2 0 (by decide) 0 (by decide)).2]; decide +kernel
  · rw [show (7 : Nat) = (0 * 2 + 1) * 4 + 3 from rfl, (h2 0 (by decide) 1 (by decide)).2]; decide +kernel

/-- the headers of files with a palette -/
theorem indexed_ok (room w h hsz size : Nat) (file : List UInt8) (hf : Starts file hsz) (hs : hsz = 40 ∨ hsz = 56)
    (hc : le32 file 30 ≠ 1 ∧ le32 file 30 ≠ 2) (hb : le16 file 28 = 1 ∨ le16 file 28 = 4 ∨ le16 file 28 = 8) (hp : 0 < size ∧ size ≤ 256)
    (ho : le32 file 10 = 14 + hsz + 4 * size) (hw : le32 file 18 = w) (hw0 : 0 < w)
    (hh : int32 (le32 file 22) = h ∨ int32 (le32 file 22) = -h) (hlt : h < 2 ^ 31) (hx : 3 * w < 2 ^ 31) (hsize : 3 * w * h < 2 ^ 31)
    (hroom : 3 * w * h ≤ room) : ∃ m, loadBmp room file = .ok ⟨w, h, 3, 8, m⟩ ∧ m.size = 3 * w * h ∧
      ∀ Y < h, ∀ X < w, ∀ c < 3, m.at_ ((Y * w + X) * 3 + c) = colourAt file (14 + hsz) size (indexAt (le16 file 28) file
        (14 + hsz + 4 * size + (w * le16 file 28 + 31) / 32 * 4 * (if 0 < int32 (le32 file 22) then h - 1 - Y else Y)) X) c := by
  have hlen := hf.long
  obtain ⟨r, hr, hhd⟩ := header_at hf (by omega) hc
  rw [loadBmp, if_neg (by omega), hhd, if_pos hs]
  obtain ⟨r', e0, e1⟩ := masks_none (info := { bpp := le16 file 28, offset := le32 file 10, hsz := hsz, x := le32 file 18, y := le32 file 22 })
    (c := le32 file 30) hr hlen hs (by simp only; omega)
  rw [e0, Outcome.bind_ok]
  obtain ⟨m, g0, g1, g2⟩ := bmpLoad_indexed (n := 3) (room := room) (file := file) (r := r') (k := 14 + hsz) (size := size)
    (info := { bpp := le16 file 28, offset := le32 file 10, hsz := hsz, x := le32 file 18, y := le32 file 22 }) e1.all rfl (by omega)
    (by simp only; omega) hp ho hb (by simp only; omega) (by simp only; exact ne_min hh hlt) rfl rfl (by simp only; omega)
    (by simp only; rw [natAbs_of hh, hw]; exact hsize) (by simp only; rw [natAbs_of hh, hw]; exact hroom)
  simp only [natAbs_of hh, hw, ho] at g0 g1 g2
  simp only [hw, ho]
  exact ⟨m, g0, g1, g2⟩

/-- a channel of a pixel is in the picture -/
theorem inside {w h X Y c s : Nat} (hs : s = 3 * w * h) (hY : Y < h) (hX : X < w) (hc : c < 3) : (Y * w + X) * 3 + c < s := by
  have e1 : (Y + 1) * w ≤ h * w := Nat.mul_le_mul_right _ hY
  rw [Nat.add_mul, Nat.one_mul] at e1
  have e2 : 3 * w * h = 3 * (h * w) := by ring
  omega

/-- **C158** (what holds) A file of 1, 4 or 8 bits per pixel with a palette of up to 256 colours whose header has 40 or 56 bytes is read, for every width and height: each
pixel has the colour of the palette whose number is in the bits of the file for its row and column. -/
theorem C158_palette (room w h hsz size bpp : Nat) (file : List UInt8) (hf : Starts file hsz) (hs : hsz = 40 ∨ hsz = 56)
    (hc : le32 file 30 ≠ 1 ∧ le32 file 30 ≠ 2) (hbpp : le16 file 28 = bpp) (hb : bpp = 1 ∨ bpp = 4 ∨ bpp = 8) (hp : 0 < size ∧ size ≤ 256)
    (ho : le32 file 10 = 14 + hsz + 4 * size) (hw : le32 file 18 = w) (hw0 : 0 < w)
    (hh : int32 (le32 file 22) = h ∨ int32 (le32 file 22) = -h) (hlt : h < 2 ^ 31) (hx : 3 * w < 2 ^ 31) (hsize : 3 * w * h < 2 ^ 31)
    (hroom : 3 * w * h ≤ room) : ∃ i, loadBmp room file = .ok i ∧ i.x = w ∧ i.y = h ∧ i.n = 3 ∧
      ∀ Y < h, ∀ X < w, ∀ c < 3, ∀ e,
        (file.getD (14 + hsz + 4 * size + (w * bpp + 31) / 32 * 4 * (if 0 < int32 (le32 file 22) then h - 1 - Y else Y) + X * bpp / 8) 0).toNat /
          2 ^ (8 - bpp - X * bpp % 8) % 2 ^ bpp = e →
        (e < size → load i.out ((Y * w + X) * 3 + c) = .ok (file.getD (14 + hsz + 4 * e + (2 - c)) 0)) ∧
        (size ≤ e → load i.out ((Y * w + X) * 3 + c) = .ub) := by
  subst hbpp
  obtain ⟨m, h1, h2, h3⟩ := indexed_ok room w h hsz size file hf hs hc hb hp ho hw hw0 hh hlt hx hsize hroom
  refine ⟨_, h1, rfl, rfl, rfl, fun Y hY X hX c hc e he => ?_⟩
  have h4 := h3 Y hY X hX c hc
  rw [indexAt, byteAt, he, colourAt, if_neg (by omega)] at h4
  refine ⟨fun hlt => ?_, fun hge => ?_⟩
  · rw [if_pos hlt] at h4
    exact load_ok (inside h2 hY hX hc) h4
  · rw [if_neg (by omega)] at h4
    rw [load, if_pos (inside h2 hY hX hc), h4]

/-- two pixels of a palette of two colours, in one bit each -/
private def bitFile : List UInt8 :=
  [66, 77, 66, 0, 0, 0, 0, 0, 0, 0, 62, 0, 0, 0, 40, 0, 0, 0, 2, 0, 0, 0, 1, 0, 0, 0, 1, 0, 1, 0, 0, 0, 0, 0, 0, 0, 0, 0, 0, 0, 0, 0, 0, 0,
    0, 0, 0, 0, 0, 0, 0, 0, 0, 0, 1, 2, 3, 0, 4, 5, 6, 0, 64, 0, 0, 0]

example : ∃ i, loadBmp 100 bitFile = .ok i ∧ load i.out 0 = .ok 3 ∧ load i.out 5 = .ok 4 := by
  obtain ⟨i, h1, _, _, _, h2⟩ := C158_palette 100 2 1 40 2 1 bitFile
    ⟨by decide +kernel, by decide +kernel, by decide +kernel, by decide +kernel, by decide +kernel⟩ (by decide) (by decide +kernel) (by decide +kernel)
    (by decide) (by decide) (by decide +kernel) (by decide +kernel) (by decide) (by decide +kernel) (by decide) (by decide) (by decide) (by decide)
  exact ⟨i, h1, (h2 0 (by decide) 0 (by decide) 0 (by decide) 0 (by decide +kernel)).1 (by decide),
    (h2 0 (by decide) 1 (by decide) 2 (by decide) 1 (by decide +kernel)).1 (by decide)⟩

/-- **C158** (what does not hold) A file may name a colour that its palette does not have, and is read all the same: the samples of the pixel have never been
written, and to compare the picture is undefined. -/
theorem C158_colour_fails : ∃ file i, loadBmp 100 file = .ok i ∧ load i.out 0 = .ub := by
  obtain ⟨i, h1, _, _, _, h2⟩ := C158_palette 100 2 1 40 1 1 ((bitFile.set 10 58).take 58 ++ [192, 0, 0, 0])
    ⟨by decide +kernel, by decide +kernel, by decide +kernel, by decide +kernel, by decide +kernel⟩ (by decide) (by decide +kernel) (by decide +kernel)
    (by decide) (by decide) (by decide +kernel) (by decide +kernel) (by decide) (by decide +kernel) (by decide) (by decide) (by decide) (by decide)
  exact ⟨_, i, h1, (h2 0 (by decide) 0 (by decide) 0 (by decide) 1 (by decide +kernel)).2 (by decide)⟩

/-- **C158** (what holds) Whatever is in a file that is read as a BMP file, a picture, an error or a failed assertion comes out, no byte outside the picture or the palette is
touched, and the picture has the size of its width, height and channels; as long as the height is not -2^31, the place of the pixels is not next to -2^31, and the masks have no
more than eight bits. -/
theorem C158_any (room : Nat) (file : List UInt8) (hy : le32 file 22 ≠ 2 ^ 31) (ho : le32 file 10 < 2 ^ 31 ∨ 2 ^ 31 + 200 ≤ le32 file 10)
    (hm : ∀ k ∈ maskPlaces file, bitCount (le32 file k) ≤ 8) :
    (∃ i, loadBmp room file = .ok i ∧ i.out.size = i.n * i.x * i.y ∧ i.out.size < 2 ^ 31 ∧ i.out.size ≤ room) ∨
      (∃ e, loadBmp room file = .throws e) ∨ loadBmp room file = .assertFail := by
  rw [loadBmp]
  split
  · exact .inr (.inl ⟨_, rfl⟩)
  · rcases header_fits file with ⟨e, h⟩ | ⟨info, r, h, hf⟩
    · rw [h]; exact .inr (.inl ⟨_, rfl⟩)
    · rw [h, Outcome.bind_ok]
      refine bmpLoad_safe (info := info) (r := r) (fun e => ?_) hf.hsz hf.extra ?_ fun _ _ => hf.masks hm
      · rcases hf.y with h' | h'
        · exact hy (h'.symm.trans e)
        · rw [e] at h'; omega
      · rw [hf.offset]; exact int32_far (le32_lt _ _) ho

example : (∃ i, loadBmp 100 fourFile = .ok i ∧ i.out.size = i.n * i.x * i.y ∧ i.out.size < 2 ^ 31 ∧ i.out.size ≤ 100) ∨
    (∃ e, loadBmp 100 fourFile = .throws e) ∨ loadBmp 100 fourFile = .assertFail :=
  C158_any 100 fourFile (by decide +kernel) (by decide +kernel) (by decide +kernel)

/-- **C158** (what does not hold) A file of the first version of the format, with a header of 12 bytes and a palette of two colours: 24 bytes are taken for the header when
the size of the palette is found, no colour is read, and no sample is written. -/
theorem C158_old_fails : (loadBmp 100 ([66, 77, 36, 0, 0, 0, 0, 0, 0, 0, 32, 0, 0, 0, 12, 0, 0, 0, 1, 0, 1, 0, 1, 0, 1, 0, 1, 2, 3, 4, 5, 6, 128, 0, 0, 0]) >>=
    fun i => load i.out 0) = .ub := by decide +kernel

/-- **C158** (what does not hold) A file whose height is -2^31: the absolute value of it is undefined. -/
theorem C158_height_fails : (loadBmp 100 (fourFile.set 22 0 |>.set 25 128) >>= fun i => load i.out 0) = .ub := by decide +kernel

/-- **C158** (what does not hold) A file of 32 bits per pixel with masks of ten bits for each colour: a shift by a negative number. -/
theorem C158_masks_fails : (loadBmp 100 ([66, 77, 70, 0, 0, 0, 0, 0, 0, 0, 66, 0, 0, 0, 40, 0, 0, 0, 1, 0, 0, 0, 1, 0, 0, 0, 1, 0, 32, 0, 3, 0, 0, 0, 0, 0, 0, 0,
    0, 0, 0, 0, 0, 0, 0, 0, 0, 0, 0, 0, 0, 0, 0, 0, 0, 0, 240, 63, 0, 252, 15, 0, 255, 3, 0, 0, 1, 2, 3, 4]) >>= fun i => load i.out 0) = .ub := by
  decide +kernel

end Verif.Png
