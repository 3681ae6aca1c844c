import Verif.Png.AnyModel
import Verif.Png.PropsPnm
import Verif.Png.PropsBmp2
import Verif.Png.PropsTga

/-! # Properties of comparing files of different formats -/

namespace Verif.Png

/-! ## C159: comparing pictures of any format -/

/-- the file is a PNG, PGM, PPM, BMP or TGA file of the picture of `w` times `h` pixels of `n` samples, which are `px` by row, column and channel -/
inductive ShowsAs (w h n : Nat) (px : Nat → Nat → Nat → UInt8) (file : List UInt8) : Prop
  | png (p : Picture) (qx : Nat → Nat → Nat → Nat) (shows_ : Shows p qx file) (width : p.W = w) (height : p.H = h) (channels : p.channels = n)
      (samples : ∀ Y < h, ∀ X < w, ∀ c < n, px Y X c = UInt8.ofNat (p.byte (qx Y X) c))
  | pnm (m : Nat) (data : List UInt8) (is : IsPnm n w h m data file) (max : m ≤ 255) (pos : 0 < w ∧ 0 < h) (size : n * w * h < 2 ^ 31)
      (all : n * w * h ≤ data.length) (samples : ∀ Y < h, ∀ X < w, ∀ c < n, px Y X c = data.getD ((Y * w + X) * n + c) 0)
  | bmp (hsz : Nat) (starts : Starts file hsz) (version : hsz = 40 ∨ hsz = 56) (compress : le32 file 30 ≠ 1 ∧ le32 file 30 ≠ 2) (bits : le16 file 28 = 24)
      (place : le32 file 10 = 14 + hsz) (width : le32 file 18 = w) (height : int32 (le32 file 22) = h ∨ int32 (le32 file 22) = -h) (channels : n = 3)
      (pos : 0 < w ∧ 0 < h) (size : 3 * w * h < 2 ^ 31)
      (samples : ∀ Y < h, ∀ X < w, ∀ c < 3, px Y X c =
        file.getD (14 + hsz + (24 * w + 31) / 32 * 4 * (if 0 < int32 (le32 file 22) then h - 1 - Y else Y) + 3 * X + (2 - c)) 0)
  | bmpAlpha (hsz : Nat) (starts : Starts file hsz) (version : hsz = 40 ∨ hsz = 56) (compress : le32 file 30 = 0) (bits : le16 file 28 = 32)
      (place : le32 file 10 = 14 + hsz) (width : le32 file 18 = w) (height : int32 (le32 file 22) = h ∨ int32 (le32 file 22) = -h) (channels : n = 4)
      (pos : 0 < w ∧ 0 < h) (size : 4 * w * h < 2 ^ 31) (some_ : ∃ j < h, ∃ i < w, file.getD (14 + hsz + 4 * (j * w + i) + 3) 0 ≠ 0)
      (samples : ∀ Y < h, ∀ X < w, ∀ c < 4, px Y X c =
        file.getD (14 + hsz + 4 * ((if 0 < int32 (le32 file 22) then h - 1 - Y else Y) * w + X) + (if c = 3 then 3 else 2 - c)) 0)
  | tga (ps : List Nat) (map : byteAt file 1 = 0) (type : byteAt file 2 = 2 ∨ byteAt file 2 = 3 ∨ byteAt file 2 = 10 ∨ byteAt file 2 = 11)
      (depth : (byteAt file 16).toNat ∈ [8, 15, 16, 24, 32]) (width : le16 file 12 = w) (height : le16 file 14 = h) (pos : 0 < w ∧ 0 < h)
      (chans : channels (byteAt file 16).toNat (greyFile file) = n) (size : w * h * n < 2 ^ 31)
      (places : Places file (((byteAt file 16).toNat + 7) / 8) (decide (byteAt file 2 = 10 ∨ byteAt file 2 = 11)) (18 + (byteAt file 0).toNat) ps)
      (enough : w * h ≤ ps.length)
      (all : byteAt file 2 = 2 ∨ byteAt file 2 = 3 → 18 + (byteAt file 0).toNat + w * h * (((byteAt file 16).toNat + 7) / 8) ≤ file.length)
      (samples : ∀ Y < h, ∀ X < w, ∀ c < n, px Y X c = colour (byteAt file 16).toNat (greyFile file) file
        (ps.getD ((if (byteAt file 17).toNat / 32 % 2 = 0 then h - 1 - Y else Y) * w + X) 0) c)
  | tgaPalette (ps : List Nat) (map : byteAt file 1 = 1) (type : byteAt file 2 = 1 ∨ byteAt file 2 = 9) (depth : (byteAt file 7).toNat ∈ [8, 15, 16, 24, 32])
      (bits : byteAt file 16 = 8 ∨ byteAt file 16 = 16) (first : le16 file 3 = 0) (some_ : 0 < le16 file 5) (width : le16 file 12 = w) (height : le16 file 14 = h)
      (pos : 0 < w ∧ 0 < h) (chans : channels (byteAt file 7).toNat false = n) (size : w * h * n < 2 ^ 31)
      (all : 18 + (byteAt file 0).toNat + le16 file 5 * (((byteAt file 7).toNat + 7) / 8) ≤ file.length)
      (places : Places file (if byteAt file 16 = 8 then 1 else 2) (decide (byteAt file 2 = 9))
        (18 + (byteAt file 0).toNat + le16 file 5 * (((byteAt file 7).toNat + 7) / 8)) ps) (enough : w * h ≤ ps.length)
      (samples : ∀ Y < h, ∀ X < w, ∀ c < n, ∀ p v, p = ps.getD ((if (byteAt file 17).toNat / 32 % 2 = 0 then h - 1 - Y else Y) * w + X) 0 →
        v = (if byteAt file 16 = 8 then (byteAt file p).toNat else le16 file p) → px Y X c = colour (byteAt file 7).toNat false file
          (18 + (byteAt file 0).toNat + (if v < le16 file 5 then v else 0) * (((byteAt file 7).toNat + 7) / 8)) c)

theorem loadImage_png {rounds room : Nat} {other : List UInt8 → Outcome Image} {p : Picture} {qx : Nat → Nat → Nat → Nat} {file : List UInt8} (h : Shows p qx file) :
    loadImage rounds room other file = loadPng rounds room file := by
  obtain ⟨z, raw, lax, ⟨ih, ie, a1, pl, a2, tr, a3, ids, a4, tail, rfl, _⟩, _⟩ := h
  simp [loadImage]

theorem loadImage_pnm {rounds room : Nat} {other : List UInt8 → Outcome Image} {n w h m : Nat} {data file : List UInt8} (hf : IsPnm n w h m data file) :
    loadImage rounds room other file = loadPnm rounds room file := by
  obtain ⟨b1, dw, b2, dh, b3, dm, sep, hn, rfl, _⟩ := hf
  rcases hn with rfl | rfl <;> simp [loadImage]

theorem loadImage_bmp {rounds room : Nat} {other : List UInt8 → Outcome Image} {hsz : Nat} {file : List UInt8} (hf : Starts file hsz) :
    loadImage rounds room other file = loadBmp room file := by
  obtain ⟨hb, hm, _, hl, _⟩ := hf
  match file, hl with
  | [], hl => simp at hl
  | [_], hl => simp at hl; omega
  | a :: b :: r, _ =>
    have e1 : a = 66 := hb
    have e2 : b = 77 := hm
    subst e1 e2
    rfl

theorem loadImage_tga {rounds room : Nat} {other : List UInt8 → Outcome Image} {file : List UInt8} (hm : byteAt file 1 = 0 ∨ byteAt file 1 = 1) (hl : 2 ≤ file.length) :
    loadImage rounds room other file = loadTga room file := by
  match file, hl with
  | [], hl => simp at hl
  | [_], hl => simp at hl
  | a :: b :: r, _ =>
    have hm : b = 0 ∨ b = 1 := hm
    rcases hm with rfl | rfl
    · rw [loadImage]
      all_goals simp
    · rw [loadImage]
      all_goals simp

/-- what is shown is what is read -/
theorem reads_shown {w h n : Nat} {px : Nat → Nat → Nat → UInt8} {file : List UInt8} (other : List UInt8 → Outcome Image) (hf : ShowsAs w h n px file) :
    0 < w * h * n ∧ w * h * n < 2 ^ 31 ∧ w * h < 2 ^ 31 ∧ ∃ n₀, ∀ rounds room, n₀ ≤ rounds → 2 ^ 31 ≤ room →
      ∃ i, loadImage rounds room other file = .ok i ∧ i.x = w ∧ i.y = h ∧ i.n = n ∧
        ∀ Y < h, ∀ X < w, ∀ c < n, load i.out ((Y * w + X) * n + c) = .ok (px Y X c) := by
  cases hf with
  | png p qx hs hw hh hn hpx =>
    obtain ⟨z, raw, lax, a1, a2, a3, a4, a5, a6, a7, a8, a9, a10⟩ := id hs
    obtain ⟨n1, h1⟩ := C146_decodes p z raw file qx lax a1 a2 a3 a4 a5 a6 a7 a8 a9 a10
    have hch := channels_pos a2
    have hsz : p.W * p.H * p.channels ≤ 2 ^ 26 * 5 := Nat.mul_le_mul a5 hch.2
    have hpos : 0 < p.W * p.H * p.channels := Nat.mul_pos (Nat.mul_pos a2.size.1 a2.size.2) hch.1
    subst hw hh hn
    refine ⟨hpos, by omega, by omega, n1, fun rounds room hr hroom => ?_⟩
    obtain ⟨m, g1, g2, g3⟩ := h1 rounds room hr hroom
    refine ⟨_, by rw [loadImage_png hs]; exact g1, rfl, rfl, rfl, fun Y hY X hX c hc => ?_⟩
    rw [hpx Y hY X hX c hc]
    refine load_ok ?_ (g3 Y hY X hX c hc).2
    exact insideOf (by simp only; rw [g2]; ring) hY hX hc
  | pnm m data hp hm hpos hsz hall hpx =>
    have hn : 1 ≤ n := by
      obtain ⟨_, _, _, _, _, _, _, hn, _⟩ := id hp
      rcases hn with rfl | rfl <;> omega
    have hcomm : n * w * h = w * h * n := by ring
    have h0 : 0 < w * h * n := Nat.mul_pos (Nat.mul_pos hpos.1 hpos.2) hn
    have hwh : w * h ≤ w * h * n := Nat.le_mul_of_pos_right _ hn
    refine ⟨h0, by omega, by omega, file.length + 1, fun rounds room hr hroom => ?_⟩
    obtain ⟨a, b1, b2, b3, b4, b5, b6⟩ := C157_read rounds room n w h m data file hp hm hpos.1 hpos.2 hsz (by omega) hall (by omega)
    exact ⟨a, by rw [loadImage_pnm hp]; exact b1, b2, b3, b4, fun Y hY X hX c hc => by rw [hpx Y hY X hX c hc]; exact b6 Y hY X hX c hc⟩
  | bmp hsz hs hv hc hb hp hw hh hn hpos hsize hpx =>
    subst hn
    have hcomm : 3 * w * h = w * h * 3 := by ring
    have h0 : 0 < w * h := Nat.mul_pos hpos.1 hpos.2
    have hx : 3 * w ≤ 3 * w * h := Nat.le_mul_of_pos_right _ hpos.2
    have hlt : h < 2 ^ 31 := by
      have : h ≤ w * h := Nat.le_mul_of_pos_left _ hpos.1
      omega
    refine ⟨by omega, by omega, by omega, 0, fun rounds room hr hroom => ?_⟩
    obtain ⟨i, b1, b2, b3, b4, _, b6⟩ := C158_read room w h hsz file hs (by omega) hc hb hp (by omega) hw hh hlt (by omega) hsize (by omega)
    exact ⟨i, by rw [loadImage_bmp hs]; exact b1, b2, b3, b4, fun Y hY X hX c hc => by rw [hpx Y hY X hX c hc]; exact b6 Y hY X hX c hc⟩
  | bmpAlpha hsz hs hv hc hb hp hw hh hn hpos hsize hsome hpx =>
    subst hn
    have hcomm : 4 * w * h = w * h * 4 := by ring
    have h0 : 0 < w * h := Nat.mul_pos hpos.1 hpos.2
    have hx : 4 * w ≤ 4 * w * h := Nat.le_mul_of_pos_right _ hpos.2
    have hlt : h < 2 ^ 31 := by
      have : h ≤ w * h := Nat.le_mul_of_pos_left _ hpos.1
      omega
    refine ⟨by omega, by omega, by omega, 0, fun rounds room hr hroom => ?_⟩
    obtain ⟨i, b1, b2, b3, b4, _, b6⟩ := C158_alpha room w h hsz file hs hv hc hb hp hw hh hlt (by omega) hsize (by omega)
    refine ⟨i, by rw [loadImage_bmp hs]; exact b1, b2, b3, b4, fun Y hY X hX c hc => ?_⟩
    rw [hpx Y hY X hX c hc]
    by_cases h3 : c = 3
    · subst h3
      rw [(b6 Y hY X hX).2, if_neg, if_pos rfl]
      intro hall
      obtain ⟨j, hj, i, hi, hne⟩ := hsome
      exact hne (hall j hj i hi)
    · rw [(b6 Y hY X hX).1 c (by omega), if_neg h3]
  | tga ps hm ht hd hw hh hpos hn hsize hpl hN hall hpx =>
    have hd' : tgaDepth (byteAt file 16).toNat = true := by
      simp only [List.mem_cons, List.not_mem_nil, or_false] at hd
      simp only [tgaDepth, Bool.or_eq_true, beq_iff_eq]
      omega
    obtain ⟨_, kd⟩ := kind_of (grey := greyFile file) hd'
    have hn0 := kd.some
    rw [hn] at hn0
    have h0 : 0 < w * h := Nat.mul_pos hpos.1 hpos.2
    have hwh : w * h ≤ w * h * n := Nat.le_mul_of_pos_right _ hn0
    have hlen : 2 ≤ file.length := by
      by_contra hlen
      have : byteAt file 2 = 0 := by
        rw [byteAt, List.getD_eq_getElem?_getD, List.getElem?_eq_none (by omega)]; rfl
      rw [this] at ht
      exact absurd ht (by decide)
    refine ⟨by omega, by omega, by omega, 0, fun rounds room hr hroom => ?_⟩
    obtain ⟨i, b1, b2, b3, b4, _, b6⟩ := tga_plain (room := room) hm ht hd' hw hh hpos.1 hpos.2 (by rw [hn]; exact hsize) (by rw [hn]; omega) hpl hN hall
    rw [hn] at b4
    rw [b4] at b6
    exact ⟨i, by rw [loadImage_tga (.inl hm) hlen]; exact b1, b2, b3, b4, fun Y hY X hX c hc => by rw [hpx Y hY X hX c hc]; exact b6 Y hY X hX c hc⟩
  | tgaPalette ps hm ht hd hb hs0 hl0 hw hh hpos hn hsize hall hpl hN hpx =>
    have hd' : tgaDepth (byteAt file 7).toNat = true := by
      simp only [List.mem_cons, List.not_mem_nil, or_false] at hd
      simp only [tgaDepth, Bool.or_eq_true, beq_iff_eq]
      omega
    obtain ⟨_, kd⟩ := kind_of (grey := false) hd'
    have hn0 := kd.some
    have hn4 : channels (byteAt file 7).toNat false ≤ 4 := by
      rw [channels]
      split_ifs <;> omega
    rw [hn] at hn0 hn4
    have h0 : 0 < w * h := Nat.mul_pos hpos.1 hpos.2
    have hwh : w * h ≤ w * h * n := Nat.le_mul_of_pos_right _ hn0
    have hpr : le16 file 5 * n ≤ le16 file 5 * 4 := Nat.mul_le_mul_left _ hn4
    have := le16_lt file 5
    refine ⟨by omega, by omega, by omega, 0, fun rounds room hr hroom => ?_⟩
    obtain ⟨i, b1, b2, b3, b4, _, b6⟩ := C160_palette room w h file ps hm ht hd hb hs0 hl0 hw hh hpos.1 hpos.2 (by rw [hn]; exact hsize) (by rw [hn]; omega)
      (by rw [hn]; omega) hall hpl hN
    rw [hn] at b4
    rw [b4] at b6
    exact ⟨i, by rw [loadImage_tga (.inr hm) (by omega)]; exact b1, b2, b3, b4,
      fun Y hY X hX c hc => by rw [hpx Y hY X hX c hc _ _ rfl rfl]; exact b6 Y hY X hX c hc _ _ rfl rfl⟩

/-- the number of rows, columns and channels at which two pictures are different -/
def differing (w h n : Nat) (px qx : Nat → Nat → Nat → UInt8) : Nat :=
  ((Finset.range h ×ˢ Finset.range w ×ˢ Finset.range n).filter fun t => px t.1 t.2.1 t.2.2 ≠ qx t.1 t.2.1 t.2.2).card

/-- a picture by the places of its samples -/
def flatOf (w n : Nat) (F : Nat → Nat → Nat → UInt8) (q : Nat) : UInt8 := F (q / n / w) (q / n % w) (q % n)

theorem flatOf_at {w n : Nat} (F : Nat → Nat → Nat → UInt8) {Y X c : Nat} (hX : X < w) (hc : c < n) : flatOf w n F ((Y * w + X) * n + c) = F Y X c := by
  have f1 := flat_at (W := w) (outN := n) (fun Y _ _ => Y) (Y := Y) hX hc
  have f2 := flat_at (W := w) (outN := n) (fun _ X _ => X) (Y := Y) hX hc
  have f3 := flat_at (W := w) (outN := n) (fun _ _ c => c) (Y := Y) hX hc
  simp only [flat] at f1 f2 f3
  rw [flatOf, f1, f2, f3]

theorem differing_flat (w h n : Nat) (px qx : Nat → Nat → Nat → UInt8) :
    ((Finset.range (w * h * n)).filter fun i => flatOf w n px i ≠ flatOf w n qx i).card = differing w h n px qx := by
  rw [differing]
  refine (Finset.card_bij (fun t _ => (t.1 * w + t.2.1) * n + t.2.2) ?_ ?_ ?_).symm
  · rintro ⟨Y, X, c⟩ ht
    simp only [Finset.mem_filter, Finset.mem_product, Finset.mem_range] at ht ⊢
    obtain ⟨⟨hY, hX, hc⟩, hne⟩ := ht
    refine ⟨insideOf (by ring) hY hX hc, ?_⟩
    rw [flatOf_at _ hX hc, flatOf_at _ hX hc]
    exact hne
  · rintro ⟨Y, X, c⟩ ht ⟨Y', X', c'⟩ ht' h
    simp only [Finset.mem_filter, Finset.mem_product, Finset.mem_range] at ht ht' h
    have f1 := flat_at (W := w) (outN := n) (fun Y _ _ => Y) (Y := Y) ht.1.2.1 ht.1.2.2
    have f2 := flat_at (W := w) (outN := n) (fun _ X _ => X) (Y := Y) ht.1.2.1 ht.1.2.2
    have f3 := flat_at (W := w) (outN := n) (fun _ _ c => c) (Y := Y) ht.1.2.1 ht.1.2.2
    rw [h, flat_at _ ht'.1.2.1 ht'.1.2.2] at f1 f2 f3
    rw [f1, f2, f3]
  · intro i hi
    simp only [Finset.mem_filter, Finset.mem_range] at hi
    obtain ⟨hi, hne⟩ := hi
    obtain ⟨Y, hY, X, hX, c, hc, rfl⟩ := decomp hi
    refine ⟨(Y, X, c), ?_, rfl⟩
    simp only [Finset.mem_filter, Finset.mem_product, Finset.mem_range]
    refine ⟨⟨hY, hX, hc⟩, fun h => hne ?_⟩
    rw [flatOf_at _ hX hc, flatOf_at _ hX hc, h]

/-- **C159** (what holds) Two files, each of which may be a PNG, PGM, PPM, BMP or TGA file, compare as similar exactly if the pictures have the same size and number of channels and the
part of the samples that are different, rounded, is not more than 2 percent.  The format of the files does not matter. -/
theorem C159_formats_iff (fl : ℚ → ℚ) (other : List UInt8 → Outcome Image) (w h n w' h' n' : Nat) (px qx : Nat → Nat → Nat → UInt8) (A B : List UInt8)
    (hA : ShowsAs w h n px A) (hB : ShowsAs w' h' n' qx B) :
    ∃ n₀, ∀ rounds room, n₀ ≤ rounds → 2 ^ 31 ≤ room → ∃ r, compareFiles fl rounds room other A B = .ok r ∧
      (r = true ↔ w = w' ∧ h = h' ∧ n = n' ∧ fl (fl (differing w h n px qx) / fl (w * h * n : Nat)) ≤ 2 / 100) := by
  obtain ⟨p1, p2, p3, n1, h1⟩ := reads_shown other hA
  obtain ⟨_, _, _, n2, h2⟩ := reads_shown other hB
  refine ⟨n1 + n2, fun rounds room hr hroom => ?_⟩
  obtain ⟨a, a1, a2, a3, a4, a5⟩ := h1 rounds room (by omega) hroom
  obtain ⟨b, b1, b2, b3, b4, b5⟩ := h2 rounds room (by omega) hroom
  rw [compareFiles, a1, b1]
  simp only [tried, Outcome.bind_ok, a2, a3, a4, b2, b3, b4]
  by_cases e1 : w = w'
  swap
  · exact ⟨false, by rw [if_pos e1], by simp [e1]⟩
  rw [if_neg (by simpa using e1)]
  by_cases e2 : h = h'
  swap
  · exact ⟨false, by rw [if_pos e2], by simp [e2]⟩
  rw [if_neg (by simpa using e2)]
  by_cases e3 : n = n'
  swap
  · exact ⟨false, by rw [if_pos e3], by simp [e3]⟩
  rw [if_neg (by simpa using e3)]
  subst e1 e2 e3
  rw [if_neg (by omega)]
  have la : ∀ i < w * h * n, load a.out i = .ok (flatOf w n px i) := by
    intro i hi
    obtain ⟨Y, hY, X, hX, c, hc, rfl⟩ := decomp hi
    rw [a5 Y hY X hX c hc, flatOf_at _ hX hc]
  have lb : ∀ i < w * h * n, load b.out i = .ok (flatOf w n qx i) := by
    intro i hi
    obtain ⟨Y, hY, X, hX, c, hc, rfl⟩ := decomp hi
    rw [b5 Y hY X hX c hc, flatOf_at _ hX hc]
  rw [countLoop_ok la lb, Outcome.bind_ok, differing_flat, if_neg (by omega)]
  refine ⟨_, rfl, ?_⟩
  simp only [true_and]
  split
  · rename_i h
    simp only [Bool.false_eq_true, false_iff, not_le]
    exact h
  · rename_i h
    simp only [true_iff]
    exact not_lt.mp h

/-- two pixels as PPM -/
private def ppmFile : List UInt8 := [80, 54, 10, 50, 32, 49, 10, 50, 53, 53, 10, 1, 2, 3, 4, 5, 6]

/-- the same as BMP -/
private def bmpFile : List UInt8 :=
  [66, 77, 62, 0, 0, 0, 0, 0, 0, 0, 54, 0, 0, 0, 40, 0, 0, 0, 2, 0, 0, 0, 1, 0, 0, 0, 1, 0, 24, 0, 0, 0, 0, 0, 0, 0, 0, 0, 0, 0, 0, 0, 0, 0,
    0, 0, 0, 0, 0, 0, 0, 0, 0, 0, 3, 2, 1, 6, 5, 4, 0, 0]

/-- the same as BMP of 32 bits, all of it opaque -/
private def bmpAlphaFile : List UInt8 :=
  [66, 77, 62, 0, 0, 0, 0, 0, 0, 0, 54, 0, 0, 0, 40, 0, 0, 0, 2, 0, 0, 0, 1, 0, 0, 0, 1, 0, 32, 0, 0, 0, 0, 0, 0, 0, 0, 0, 0, 0, 0, 0, 0, 0,
    0, 0, 0, 0, 0, 0, 0, 0, 0, 0, 3, 2, 1, 255, 6, 5, 4, 255]

/-- the picture -/
private def samplesOf (_ X c : Nat) : UInt8 := UInt8.ofNat (3 * X + c + 1)

private def samplesAlpha (Y X c : Nat) : UInt8 := if c = 3 then 255 else samplesOf Y X c

private theorem ppm_shows : ShowsAs 2 1 3 samplesOf ppmFile :=
  .pnm 255 [1, 2, 3, 4, 5, 6] ⟨[10], [50], [32], [49], [10], [50, 53, 53], 10, .inr rfl, rfl, .spaces _ (by simp [White]), by decide,
    ⟨by decide, by simp [Figure], rfl⟩, .spaces _ (by simp [White]), by decide, ⟨by decide, by simp [Figure], rfl⟩,
    .spaces _ (by simp [White]), by decide, ⟨by decide, by simp [Figure], rfl⟩, by simp [White]⟩ (by decide) (by decide) (by decide) (by decide) (by decide +kernel)

private theorem bmp_shows : ShowsAs 2 1 3 samplesOf bmpFile :=
  .bmp 40 ⟨by decide +kernel, by decide +kernel, by decide +kernel, by decide +kernel, by decide +kernel⟩ (by decide) (by decide +kernel) (by decide +kernel)
    (by decide +kernel) (by decide +kernel) (by decide +kernel) rfl (by decide) (by decide) (by decide +kernel)

private theorem bmpAlpha_shows : ShowsAs 2 1 4 samplesAlpha bmpAlphaFile :=
  .bmpAlpha 40 ⟨by decide +kernel, by decide +kernel, by decide +kernel, by decide +kernel, by decide +kernel⟩ (by decide) (by decide +kernel) (by decide +kernel)
    (by decide +kernel) (by decide +kernel) (by decide +kernel) rfl (by decide) (by decide) (by decide +kernel) (by decide +kernel)

example : ∃ n₀, ∀ rounds room, n₀ ≤ rounds → 2 ^ 31 ≤ room → ∃ r, compareFiles id rounds room (fun _ => .throws "") ppmFile bmpFile = .ok r ∧
    (r = true ↔ 2 = 2 ∧ 1 = 1 ∧ 3 = 3 ∧ id (id (differing 2 1 3 samplesOf samplesOf : ℚ) / id ((2 * 1 * 3 : Nat) : ℚ)) ≤ 2 / 100) :=
  C159_formats_iff id _ 2 1 3 2 1 3 _ _ _ _ ppm_shows bmp_shows

/-- the same as TGA -/
private def tgaFile : List UInt8 := [0, 0, 2, 0, 0, 0, 0, 0, 0, 0, 0, 0, 2, 0, 1, 0, 24, 0, 3, 2, 1, 6, 5, 4]

private theorem tga_shows : ShowsAs 2 1 3 samplesOf tgaFile :=
  .tga [18, 21] (by decide) (by decide) (by decide) (by decide) (by decide) (by decide) (by decide) (by decide)
    (by rw [Places, if_neg (by decide)]; exact ⟨2, rfl⟩) (by decide) (by decide) (by decide +kernel)

/-- the same as TGA with a palette, in a packet -/
private def tgaPalFile : List UInt8 := [0, 1, 9, 0, 0, 2, 0, 24, 0, 0, 0, 0, 2, 0, 1, 0, 8, 0, 6, 5, 4, 3, 2, 1, 1, 1, 0]

private theorem tgaPal_shows : ShowsAs 2 1 3 samplesOf tgaPalFile :=
  .tgaPalette [25, 26] (by decide) (by decide) (by decide) (by decide) (by decide) (by decide) (by decide) (by decide) (by decide) (by decide) (by decide)
    (by decide) (by rw [decide_eq_true (by decide), Places, if_pos rfl]; exact .raw 24 1 [] (by decide) (by decide) (.nil _)) (by decide)
    (by
      rintro Y hY X hX c hc p v rfl rfl
      revert Y X c
      decide +kernel)

theorem float_zero {fl : ℚ → ℚ} (hf : Catalyst.IsFloat fl) : fl 0 = 0 := by
  have := hf.err 0
  simpa using this

/-- **C159** (what holds) A picture that is written in two of the formats compares as similar. -/
theorem C159_same (fl : ℚ → ℚ) (hf : Catalyst.IsFloat fl) (other : List UInt8 → Outcome Image) (w h n : Nat) (px : Nat → Nat → Nat → UInt8) (A B : List UInt8)
    (hA : ShowsAs w h n px A) (hB : ShowsAs w h n px B) :
    ∃ n₀, ∀ rounds room, n₀ ≤ rounds → 2 ^ 31 ≤ room → compareFiles fl rounds room other A B = .ok true := by
  obtain ⟨n₀, h₀⟩ := C159_formats_iff fl other w h n w h n px px A B hA hB
  refine ⟨n₀, fun rounds room h1 h2 => ?_⟩
  obtain ⟨r, h3, h4⟩ := h₀ rounds room h1 h2
  rw [h3, h4.2 ⟨rfl, rfl, rfl, ?_⟩]
  have : differing w h n px px = 0 := by simp [differing]
  rw [this, Nat.cast_zero, float_zero hf, zero_div, float_zero hf]
  norm_num

example : ∃ n₀, ∀ rounds room, n₀ ≤ rounds → 2 ^ 31 ≤ room → compareFiles id rounds room (fun _ => .throws "") ppmFile bmpFile = .ok true :=
  C159_same id ⟨fun x => by simp; positivity⟩ _ 2 1 3 _ _ _ ppm_shows bmp_shows

example : ∃ n₀, ∀ rounds room, n₀ ≤ rounds → 2 ^ 31 ≤ room → compareFiles id rounds room (fun _ => .throws "") tgaFile tgaPalFile = .ok true :=
  C159_same id ⟨fun x => by simp; positivity⟩ _ 2 1 3 _ _ _ tga_shows tgaPal_shows

/-- **C159** (what does not hold) Two files of one picture may compare as different, though not one colour is different: if one of them has an alpha channel and the other has
none, they do, even if all of it is opaque. -/
theorem C159_alpha_fails (fl : ℚ → ℚ) (other : List UInt8 → Outcome Image) (w h : Nat) (px qx : Nat → Nat → Nat → UInt8) (A B : List UInt8)
    (hA : ShowsAs w h 3 px A) (hB : ShowsAs w h 4 qx B) :
    ∃ n₀, ∀ rounds room, n₀ ≤ rounds → 2 ^ 31 ≤ room → compareFiles fl rounds room other A B = .ok false := by
  obtain ⟨n₀, h₀⟩ := C159_formats_iff fl other w h 3 w h 4 px qx A B hA hB
  refine ⟨n₀, fun rounds room h1 h2 => ?_⟩
  obtain ⟨r, h3, h4⟩ := h₀ rounds room h1 h2
  rw [h3]
  cases r with
  | false => rfl
  | true => exact absurd (h4.1 rfl).2.2.1 (by decide)

/-- opaque, with the same colours -/
example : (∀ Y < 1, ∀ X < 2, (∀ c < 3, samplesAlpha Y X c = samplesOf Y X c) ∧ samplesAlpha Y X 3 = 255) ∧
    ∃ n₀, ∀ rounds room, n₀ ≤ rounds → 2 ^ 31 ≤ room → compareFiles id rounds room (fun _ => .throws "") bmpFile bmpAlphaFile = .ok false :=
  ⟨by decide +kernel, C159_alpha_fails id _ 2 1 _ _ _ _ bmp_shows bmpAlpha_shows⟩

theorem load_cases (m : Buf) (i : Nat) : (∃ v, load m i = .ok v) ∨ load m i = .ub := by
  rw [load]
  split
  · split
    · exact .inl ⟨_, rfl⟩
    · exact .inr rfl
  · exact .inr rfl

theorem countLoop_comm (a b : Buf) (n : Nat) : countLoop a b n = countLoop b a n := by
  rw [countLoop, countLoop]
  congr 1
  funext i k
  rcases load_cases a i with ⟨x, hx⟩ | hx <;> rcases load_cases b i with ⟨y, hy⟩ | hy <;> rw [hx, hy] <;> try rfl
  simp only [Outcome.bind_ok]
  by_cases h : x = y
  · subst h; rfl
  · rw [if_pos h, if_pos (Ne.symm h)]

/-- **C159** (what holds) The order of the two files does not matter, whatever is in them and whatever their format, as long as each of them by itself is read or refused. -/
theorem C159_order (fl : ℚ → ℚ) (rounds room : Nat) (other : List UInt8 → Outcome Image) (A B : List UInt8)
    (hA : (∃ i, loadImage rounds room other A = .ok i) ∨ ∃ e, loadImage rounds room other A = .throws e)
    (hB : (∃ i, loadImage rounds room other B = .ok i) ∨ ∃ e, loadImage rounds room other B = .throws e) :
    compareFiles fl rounds room other A B = compareFiles fl rounds room other B A := by
  rw [compareFiles, compareFiles]
  rcases hA with ⟨a, ha⟩ | ⟨e, ha⟩ <;> rcases hB with ⟨b, hb⟩ | ⟨e', hb⟩ <;> rw [ha, hb] <;> try rfl
  simp only [tried, Outcome.bind_ok]
  by_cases e1 : a.x = b.x
  swap
  · rw [if_pos e1, if_pos (Ne.symm e1)]
  by_cases e2 : a.y = b.y
  swap
  · rw [if_neg (by simpa using e1), if_pos e2, if_neg (by simpa using e1.symm), if_pos (Ne.symm e2)]
  by_cases e3 : a.n = b.n
  swap
  · rw [if_neg (by simpa using e1), if_neg (by simpa using e2), if_pos e3, if_neg (by simpa using e1.symm), if_neg (by simpa using e2.symm), if_pos (Ne.symm e3)]
  simp only [e1, e2, e3, countLoop_comm a.out b.out]

example : compareFiles id 30 (2 ^ 31) (fun _ => .throws "") bmpFile [80, 53] = compareFiles id 30 (2 ^ 31) (fun _ => .throws "") [80, 53] bmpFile :=
  C159_order id 30 _ _ _ _ (.inl (by
    obtain ⟨i, h, _⟩ := C158_read (2 ^ 31) 2 1 40 bmpFile ⟨by decide +kernel, by decide +kernel, by decide +kernel, by decide +kernel, by decide +kernel⟩ (by decide)
      (by decide +kernel) (by decide +kernel) (by decide +kernel) (by decide) (by decide +kernel) (by decide +kernel) (by decide) (by decide) (by decide) (by decide)
    exact ⟨i, h⟩)) (.inr ⟨_, rfl⟩)

/-- **C159** (what does not hold) If one of the files is not read or refused but undefined, the order matters: behind a first file that is refused the second one is not read. -/
theorem C159_order_fails : ∃ A B : List UInt8, compareFiles id 20 100 (fun _ => .throws "") A B = .ok false ∧ compareFiles id 20 100 (fun _ => .throws "") B A = .ub :=
  ⟨[80, 53], [80, 53, 32, 50, 49, 52, 55, 52, 56, 51, 54, 52, 56, 32, 49, 32, 49, 32], by
    refine ⟨rfl, ?_⟩
    have := C157_number_fails 100
    rw [compareFiles, loadImage, this]; rfl⟩

/-- **C159** (what holds) A file compares as similar with itself if it is read and all its samples have been written, whatever its format; if it is refused it does not. -/
theorem C159_self (fl : ℚ → ℚ) (hf : Catalyst.IsFloat fl) (rounds room : Nat) (other : List UInt8 → Outcome Image) (A : List UInt8) :
    (∀ i, loadImage rounds room other A = .ok i → i.x * i.y < 2 ^ 31 → i.x * i.y * i.n < 2 ^ 31 → (∀ q < i.x * i.y * i.n, ∃ v, load i.out q = .ok v) →
      compareFiles fl rounds room other A A = .ok true) ∧
    (∀ e, loadImage rounds room other A = .throws e → compareFiles fl rounds room other A A = .ok false) := by
  refine ⟨fun i hi h1 h2 h3 => ?_, fun e he => ?_⟩
  · rw [compareFiles, hi]
    simp only [tried, Outcome.bind_ok, ne_eq, not_true_eq_false, if_false]
    rw [if_neg (by omega)]
    have hl : ∀ q < i.x * i.y * i.n, load i.out q = .ok ((i.out.at_ q).getD 0) := by
      intro q hq
      obtain ⟨v, hv⟩ := h3 q hq
      rw [hv]
      rw [load] at hv
      split at hv
      · split at hv
        · rename_i h; rw [h, ← hv]; rfl
        · cases hv
      · cases hv
    rw [countLoop_ok hl hl, Outcome.bind_ok]
    split
    · rfl
    · have : ((Finset.range (i.x * i.y * i.n)).filter fun q => (i.out.at_ q).getD 0 ≠ (i.out.at_ q).getD 0).card = 0 := by simp
      rw [this, Nat.cast_zero, float_zero hf, zero_div, float_zero hf, if_neg (by norm_num)]
  · rw [compareFiles, he]; rfl

example : compareFiles id 30 100 (fun _ => .throws "") [66, 77, 1] [66, 77, 1] = .ok false :=
  (C159_self id ⟨fun x => by simp; positivity⟩ 30 100 (fun _ => .throws "") [66, 77, 1]).2 _ rfl

end Verif.Png
