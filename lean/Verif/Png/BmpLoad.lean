import Verif.Png.BmpRows

/-! # Pictures of 24 and 32 bits -/

namespace Verif.Png

theorem int32_small {v : Nat} (h : v < 2 ^ 31) : int32 v = v := by
  rw [int32, Nat.mod_eq_of_lt (by omega), if_pos h]

theorem le16_lt (file : List UInt8) (k : Nat) : le16 file k < 65536 := by
  have h1 := (byteAt file k).toNat_lt
  have h2 := (byteAt file (k + 1)).toNat_lt
  rw [le16]; omega

theorem le32_lt (file : List UInt8) (k : Nat) : le32 file k < 2 ^ 32 := by
  have h1 := le16_lt file k
  have h2 := le16_lt file (k + 2)
  rw [le32]; omega

/-- the rows as they were written, then what replaces an alpha channel of zeros, then the order of the rows -/
theorem finish_ok {four wide : Bool} {file : List UInt8} {n b w y k pad allA : Nat} {up : Prop} [Decidable up] (hn : n = if wide then 4 else 3)
    (hb : b = if four then 4 else 3) (hpad : pad < 2 ^ 31) {s : Src} (hs : s.all = file.drop k) :
    ∃ m, (bmpRows (loop w fun _ => easyPixel four wide) pad y ⟨fresh (n * w * y), 0, s, allA⟩ >>= fun p =>
        (if n = 4 ∧ p.allA = 0 then opaqueRows (w * y) p.out else .ok p.out) >>= fun m =>
          (if up then flipRows (w * n) y m else .ok m) >>= fun m => .ok (⟨w, y, n, 8, m⟩ : Image)) = .ok ⟨w, y, n, 8, m⟩ ∧
      m.size = n * w * y ∧ ∀ Y < y, ∀ X < w, ∀ c < n, m.at_ ((Y * w + X) * n + c) =
        some (if c = 3 ∧ allA = 0 ∧ (∀ j < y, ∀ i < w, pixelAt four file (k + (b * w + pad) * j + b * i) 3 = 0) then 255
          else pixelAt four file (k + (b * w + pad) * (if up then y - 1 - Y else Y) + b * X) c) := by
  obtain ⟨p, h0, h1, h2, h3⟩ := easyRows_ok (four := four) (wide := wide) (file := file) (w := w) (y := y) (k := k) hn hb hpad
    (p := ⟨fresh (n * w * y), 0, s, allA⟩) rfl hs rfl
  simp only at h3
  rw [h0, Outcome.bind_ok]
  have hn' : n = 3 ∨ n = 4 := by cases wide <;> simp at hn <;> omega
  have key : ∃ m1, (if n = 4 ∧ p.allA = 0 then opaqueRows (w * y) p.out else .ok p.out) = .ok m1 ∧ m1.size = n * w * y ∧
      ∀ Y < y, ∀ X < w, ∀ c < n, m1.at_ ((Y * w + X) * n + c) =
        some (if c = 3 ∧ allA = 0 ∧ (∀ j < y, ∀ i < w, pixelAt four file (k + (b * w + pad) * j + b * i) 3 = 0) then 255
          else pixelAt four file (k + (b * w + pad) * Y + b * X) c) := by
    split
    · rename_i hc
      obtain ⟨rfl, hz⟩ := hc
      obtain ⟨m', g0, g1, g2, g3⟩ := opaqueRows_ok (n := w * y) (m := p.out) (by rw [h1]; ring)
      refine ⟨m', g0, by omega, fun Y hY X hX c hc => ?_⟩
      by_cases hc3 : c = 3
      · subst hc3
        rw [if_pos ⟨rfl, h3.1 hz⟩, Nat.mul_comm _ 4]
        refine g2 _ ?_
        have : (Y + 1) * w ≤ y * w := Nat.mul_le_mul_right w hY
        rw [Nat.add_mul, Nat.one_mul] at this
        rw [Nat.mul_comm w y]; omega
      · rw [if_neg (fun h => hc3 h.1), Nat.mul_comm _ 4, g3 _ c (by omega), ← h2 Y hY X hX c hc]
        congr 1; ring
    · rename_i hc
      refine ⟨p.out, rfl, h1, fun Y hY X hX c hc' => ?_⟩
      rw [if_neg (fun h => hc ⟨by omega, h3.2 h.2⟩), ← h2 Y hY X hX c hc']
      congr 1; ring
  obtain ⟨m1, e0, e1, e2⟩ := key
  rw [e0, Outcome.bind_ok]
  by_cases hup : up
  · rw [if_pos hup]
    obtain ⟨m2, f0, f1, f2⟩ := flipRows_ok (w := w * n) (y := y) (m := m1) (by rw [e1]; ring)
    rw [f0, Outcome.bind_ok]
    refine ⟨m2, rfl, by omega, fun Y hY X hX c hc => ?_⟩
    rw [if_pos hup]
    have hlt : X * n + c < w * n := by
      have : (X + 1) * n ≤ w * n := Nat.mul_le_mul_right n hX
      rw [Nat.add_mul, Nat.one_mul] at this; omega
    rw [show (Y * w + X) * n + c = Y * (w * n) + (X * n + c) by ring, f2 Y hY _ hlt, ← e2 (y - 1 - Y) (by omega) X hX c hc]
    congr 1; ring
  · rw [if_neg hup, Outcome.bind_ok]
    refine ⟨m1, rfl, e1, fun Y hY X hX c hc => ?_⟩
    rw [if_neg hup]
    exact e2 Y hY X hX c hc

theorem paletteSize_none {info : Bmp} (h : info.hsz ≠ 12) (hb : 16 ≤ info.bpp) : paletteSize info = .ok 0 := by
  rw [paletteSize, if_neg h, if_neg (by omega)]

/-- a picture of 24 or 32 bits whose pixels follow its header -/
theorem bmpLoad_easy {file : List UInt8} {room n : Nat} {info : Bmp} {r : Rd} {four : Bool} (hr : r.At file info.offset) (h128 : info.offset ≤ 128)
    (hh : info.hsz ≠ 12) (ho : info.offset = info.extra + info.hsz) (h0 : 0 < info.hsz) (hy : info.y ≠ 2 ^ 31)
    (hfour : (info.bpp = 24 ∧ four = false) ∨
      (info.bpp = 32 ∧ info.mb = 0xff ∧ info.mg = 0xff00 ∧ info.mr = 0xff0000 ∧ info.ma = 0xff000000 ∧ four = true))
    (hn : n = if info.bpp = 24 ∧ info.ma = 0xff000000 then 3 else if info.ma ≠ 0 then 4 else 3) (hx : n * info.x < 2 ^ 31)
    (hsize : n * info.x * (int32 info.y).natAbs < 2 ^ 31) (hroom : n * info.x * (int32 info.y).natAbs ≤ room) :
    ∃ m, bmpLoad room info r = .ok ⟨info.x, (int32 info.y).natAbs, n, 8, m⟩ ∧ m.size = n * info.x * (int32 info.y).natAbs ∧
      ∀ Y < (int32 info.y).natAbs, ∀ X < info.x, ∀ c < n, m.at_ ((Y * info.x + X) * n + c) =
        some (if c = 3 ∧ info.allA = 0 ∧ (∀ j < (int32 info.y).natAbs, ∀ i < info.x, pixelAt four file (info.offset +
            ((if four then 4 else 3) * info.x + (if four then 0 else padOf (3 * info.x))) * j + (if four then 4 else 3) * i) 3 = 0) then 255
          else pixelAt four file (info.offset + ((if four then 4 else 3) * info.x + (if four then 0 else padOf (3 * info.x))) *
            (if 0 < int32 info.y then (int32 info.y).natAbs - 1 - Y else Y) + (if four then 4 else 3) * X) c) := by
  have hpos : r.pos = info.offset := by rw [hr.pos (by omega)]; omega
  have hoff : int32 info.offset = info.offset := int32_small (by omega)
  have hn34 : n = if (n == 4) = true then 4 else 3 := by
    have : n = 3 ∨ n = 4 := by rw [hn]; split <;> [skip; split] <;> simp
    rcases this with h | h <;> simp [h]
  have hxs : info.x < 2 ^ 31 := by
    have h3 : 3 ≤ n := by rw [hn34]; split <;> omega
    have := Nat.mul_le_mul_right info.x h3
    omega
  have hs : (skipInt r.src 0).all = file.drop info.offset := by
    rw [skipInt, if_neg (by omega), show (0 : Int).toNat = 0 from rfl, skip_drop (by omega), List.drop_zero, hr.all]
  rw [bmpLoad, if_neg hy, paletteSize_none hh (by omega)]
  simp only [Outcome.bind_ok]
  rw [if_neg (by rw [hoff, hpos]; simp)]
  simp only [← hn]
  rw [if_neg (by omega), if_neg (by omega), if_neg (by omega), bmpDirect, i32]
  rw [if_pos (by rw [hoff, ho]; omega)]
  simp only [Outcome.bind_ok]
  rw [show int32 info.offset - (info.extra : Int) - (info.hsz : Int) = 0 by rw [hoff, ho]; omega]
  rcases hfour with ⟨hb, rfl⟩ | ⟨hb, m1, m2, m3, m4, rfl⟩
  · rw [if_pos hb]
    simp only [Bool.false_eq_true, if_false]
    exact finish_ok (four := false) (wide := (n == 4)) hn34 rfl (by rw [padOf]; omega) hs
  · rw [if_neg (by omega), if_pos ⟨hb, m1, m2, m3, m4⟩]
    simp only [if_true]
    exact finish_ok (four := true) (wide := (n == 4)) hn34 rfl (by omega) hs

end Verif.Png
